import Verif.Spec.Decomposition

/-! Sizes and numbers that the effort of the analysis is measured by. -/

namespace Verif.Spec

open Verif

/-- `m'` is a method for a subtask of `m`. -/
def LeadsTo (m m' : Method) : Prop := ∃ s ∈ m.tn.subtasks, s.task.name = m'.task.name

/-- A way down the hierarchy: methods, given by their positions in the domain, each of them for a subtask of the one
before, no two for the same task. -/
def Descent (d : DomainAST) (c : List Nat) : Prop :=
  ∃ ms : List Method, c.map (fun i => d.methods[i]?) = ms.map some ∧ ms ≠ [] ∧ ms.IsChain LeadsTo ∧
    (ms.map (·.task.name)).Nodup

/-- The number of tasks, actions, methods and subtasks of a domain. -/
def hierarchySize (d : DomainAST) : Nat :=
  d.tasks.length + d.actions.length + (d.methods.map fun m => 1 + m.tn.subtasks.length).sum

end Verif.Spec
