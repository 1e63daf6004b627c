import Verif.Spec.WellFormed

/-! When the subtasks of a network can be executed.  Independent of the analyser. -/

namespace Verif.Spec

open Verif

/-- The label of a subtask. -/
def label (s : Subtask) : Option Name := s.id.map (·.name)

/-- The subtask with number `i` has to come before the one with number `j`: by the order in the text if the network is
totally ordered, and otherwise by a constraint between their labels. -/
def Precedes (tn : HTN) (i j : Fin tn.subtasks.length) : Prop :=
  (tn.orderings = .total ∧ i < j) ∨
    ∃ a b, Before tn a b ∧ label tn.subtasks[i] = some a ∧ label tn.subtasks[j] = some b

/-- The subtasks can be executed one after the other: each gets its own position, and all constraints are met. -/
def Executable (tn : HTN) : Prop :=
  ∃ pos : Fin tn.subtasks.length → Nat, Function.Injective pos ∧ ∀ i j, Precedes tn i j → pos i < pos j

/-- Every label in an ordering constraint is the label of a subtask. -/
def LabelsDeclared (tn : HTN) : Prop :=
  ∀ a b, Before tn a b → (∃ s ∈ tn.subtasks, label s = some a) ∧ ∃ s ∈ tn.subtasks, label s = some b

/-- One decomposition, up to arguments and orderings: some task of a network is replaced by the subtasks of a method
for it. -/
inductive Rewrites (d : DomainAST) : List Name → List Name → Prop
  | mk {before after m} : m ∈ d.methods →
      Rewrites d (before ++ m.task.name :: after) (before ++ m.tn.subtasks.map (·.task.name) ++ after)

/-- Some network can be decomposed forever. -/
def Endless (d : DomainAST) : Prop := ∃ n : Nat → List Name, ∀ i, Rewrites d (n i) (n (i + 1))

/-- Some task can be decomposed into a network that contains the task again. -/
def Recursive (d : DomainAST) : Prop := ∃ t n, Relation.TransGen (Rewrites d) [t] n ∧ t ∈ n

/-- Some task can be decomposed into a network that starts with the task again. -/
def LeftRecursive (d : DomainAST) : Prop := ∃ t rest, Relation.TransGen (Rewrites d) [t] (t :: rest)

/-- Some task can be decomposed into itself and nothing else. -/
def SelfRecursive (d : DomainAST) : Prop := ∃ t, Relation.TransGen (Rewrites d) [t] [t]

/-- No two subtasks have the same label. -/
def LabelsDistinct (tn : HTN) : Prop := (tn.subtasks.filterMap label).Nodup

end Verif.Spec
