import Verif.Spec.WellFormed

/-! Domains and problems that only differ in labels, orderings and constraints of task networks, and perhaps in the order in which
subtasks are listed. -/

namespace Verif.Spec

open Verif

/-- Task and arguments of each subtask. -/
def calls (h : HTN) : List (Name × List Name) := h.subtasks.map fun s => (s.task.name, s.terms.map (·.name))

/-- The task networks of the methods are changed, their calls are related by `r`. -/
structure Resequenced (r : List (Name × List Name) → List (Name × List Name) → Prop) (d e : DomainAST) : Prop where
  same : e = { d with methods := e.methods }
  methods : List.Forall₂ (fun m k : Method => k = { m with tn := k.tn } ∧ r (calls m.tn) (calls k.tn)) d.methods e.methods

/-- The initial task network is changed, its calls are related by `r`. -/
structure ResequencedProblem (r : List (Name × List Name) → List (Name × List Name) → Prop) (p q : ProblemAST) : Prop where
  same : q = { p with initTn := q.initTn }
  params : q.initTn.map (·.params) = p.initTn.map (·.params)
  calls : ∀ h k, p.initTn = some h → q.initTn = some k → r (calls h.tn) (calls k.tn)

end Verif.Spec
