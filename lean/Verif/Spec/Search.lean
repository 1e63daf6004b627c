import Verif.Spec.Recursion

/-! Task networks in which the context of a subtask cannot be computed. -/

namespace Verif.Spec

open Verif

/-- `s` is a subtask of the method `m` of the domain that leads back to the task of `m`. -/
structure Returning (d : DomainAST) (m : Method) (s : Subtask) : Prop where
  method : m ∈ d.methods
  subtask : s ∈ m.tn.subtasks
  back : Relation.ReflTransGen (HasSub d) s.task.name m.task.name

/-- There is one constraint less than subtasks, and a label of `x` occurs inside a label that directly follows a label of `x`, or
something on a cycle of the ordering follows a label of `x`. -/
def Looping (h : HTN) (x : Name) : Prop := ∃ os, h.orderings = .partial_ os ∧ os.length = h.subtasks.length - 1 ∧
  ((∃ i j k, Labels h x i ∧ Before h i j ∧ Labels h x k ∧ k <:+: j) ∨
    ∃ i j, Labels h x i ∧ Relation.TransGen (Before h) i j ∧ Relation.TransGen (Before h) j j)

/-- The number of constraints is not one less than the number of subtasks. -/
def Miscounted (h : HTN) : Prop := ∃ os, h.orderings = .partial_ os ∧ os.length ≠ h.subtasks.length - 1

/-- There is one constraint less than subtasks, the subtask is not `Looping`, and something that follows a label of `x` is not a label. -/
def Unlabelled (h : HTN) (x : Name) : Prop := ∃ os, h.orderings = .partial_ os ∧ os.length = h.subtasks.length - 1 ∧
  ¬ Looping h x ∧ ∃ i j, Labels h x i ∧ Relation.TransGen (Before h) i j ∧ ∀ y, ¬ Labels h y j

end Verif.Spec
