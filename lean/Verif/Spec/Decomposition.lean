import Verif.Spec.WellFormed

/-!
Task decomposition, in terms of the methods of a domain.  Nothing here mentions the decomposition graph.
-/

namespace Verif.Spec

open Verif

/-- Some method for `t` has a subtask `s`. -/
def HasSub (d : DomainAST) (t s : Name) : Prop :=
  ∃ m ∈ d.methods, m.task.name = t ∧ ∃ x ∈ m.tn.subtasks, x.task.name = s

/-- An action can be reached by decomposing `t`. -/
def ReachesAction (d : DomainAST) (t : Name) : Prop := ∃ a ∈ d.actions, Relation.ReflTransGen (HasSub d) t a.name

/-- `t` can be refined into the empty task network. -/
inductive Nullable (d : DomainAST) : Name → Prop
  | mk {m} : m ∈ d.methods → (∀ s ∈ m.tn.subtasks, Nullable d s.task.name) → Nullable d m.task.name

/-- `t` can be refined into a (possibly empty) sequence of actions. -/
inductive Refinable (d : DomainAST) : Name → Prop
  | action {a} : a ∈ d.actions → Refinable d a.name
  | method {m} : m ∈ d.methods → (∀ s ∈ m.tn.subtasks, Refinable d s.task.name) → Refinable d m.task.name

/-- No compound task has the name of an action. -/
def NoClash (d : DomainAST) : Prop := ∀ t ∈ d.tasks, ∀ a ∈ d.actions, t.name ≠ a.name

/-- A task with a method that has a nullable subtask is nullable. -/
def Unmixed (d : DomainAST) : Prop :=
  ∀ m ∈ d.methods, (∃ s ∈ m.tn.subtasks, Nullable d s.task.name) → Nullable d m.task.name

end Verif.Spec
