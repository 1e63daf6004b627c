import Verif.Spec.Decomposition

/-!
Decomposition in domains where a compound task may have the name of an action.  Such a name stands for the action in the
subtasks of methods.
-/

namespace Verif.Spec

open Verif

/-- `x` is the name of an action. -/
def ActionName (d : DomainAST) (x : Name) : Prop := ∃ a ∈ d.actions, a.name = x

/-- `t` has a method without subtasks, or one all subtasks of which are no actions and again such. -/
inductive Erasable (d : DomainAST) : Name → Prop
  | mk {m} : m ∈ d.methods → (∀ s ∈ m.tn.subtasks, ¬ ActionName d s.task.name) →
      (∀ s ∈ m.tn.subtasks, Erasable d s.task.name) → Erasable d m.task.name

/-- A task with a method that has an erasable subtask is erasable. -/
def Uniform (d : DomainAST) : Prop :=
  ∀ m ∈ d.methods, (∃ s ∈ m.tn.subtasks, Erasable d s.task.name) → Erasable d m.task.name

/-- The task `x`, which is not an action, has a method with the subtask `y`, which is the only one or has no method
without subtasks. -/
def Leads (d : DomainAST) (x y : Name) : Prop :=
  ¬ ActionName d x ∧ ∃ m ∈ d.methods, m.task.name = x ∧ (∃ s ∈ m.tn.subtasks, s.task.name = y) ∧
    ((∀ s ∈ m.tn.subtasks, s.task.name = y) ∨ ∀ m' ∈ d.methods, m'.task.name = y → m'.tn.subtasks ≠ [])

/-- What may at most be taken for nullable: `t` has a method all subtasks of which are no actions and lead in some steps,
where other subtasks are ignored, to tasks that may be taken for nullable (`f` gives one for each subtask). -/
inductive Suspected (d : DomainAST) : Name → Prop
  | mk {m} (f : Name → Name) : m ∈ d.methods → (∀ s ∈ m.tn.subtasks, ¬ ActionName d s.task.name ∧
      Relation.ReflTransGen (Leads d) s.task.name (f s.task.name)) →
      (∀ s ∈ m.tn.subtasks, Suspected d (f s.task.name)) → Suspected d m.task.name

end Verif.Spec
