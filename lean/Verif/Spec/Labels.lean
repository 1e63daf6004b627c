import Verif.Spec.LocalNames
import Verif.Spec.Recursion
import Verif.Spec.RenamedMeta

/-! Other labels of subtasks and other orderings. -/

namespace Verif.Spec

open Verif

variable (ρ : Name → Name)

/-- Another label. -/
def rlSubtask (s : Subtask) : Subtask := { s with id := s.id.map (rvSymbol ρ) }

/-- Other labels in ordering constraints. -/
def rlOrdering : Ordering → Ordering
  | .total => .total
  | .partial_ os => .partial_ (os.map (Prod.map ρ ρ))

/-- Other labels in a task network. -/
def rlHtn (h : HTN) : HTN := { h with subtasks := h.subtasks.map (rlSubtask ρ), orderings := rlOrdering ρ h.orderings }

/-- Task and arguments of the subtasks, with lines. -/
def callsOf (h : HTN) : List (Symbol × List Symbol) := h.subtasks.map fun s => (s.task, s.terms)

/-- The task networks have the same subtasks, except for labels, and both or none of the orderings has a cycle; if they have one,
they are on the same line. -/
structure CyclesKept (h k : HTN) : Prop where
  calls : callsOf k = callsOf h
  cyclic : Acyclic (Before k) ↔ Acyclic (Before h)
  line : ¬ Acyclic (Before h) → k.orderingPos = h.orderingPos

/-- A subtask `y` comes after a subtask `x`, by its label and the ordering constraints. -/
def OrderedAfter (h : HTN) (x y : Name) : Prop :=
  ∃ i j, Labels h x i ∧ Relation.TransGen (Before h) i j ∧ LastLabelled h j y

/-- The task networks have the same subtasks, except for labels, both or none of them is totally ordered, and the constraints
order the same subtasks. -/
structure ContextKept (h k : HTN) : Prop where
  calls : callsOf k = callsOf h
  total : k.orderings = .total ↔ h.orderings = .total
  after : ∀ x y, OrderedAfter k x y ↔ OrderedAfter h x y

/-- The domains differ in the task networks of methods only, and these are related by `r`. -/
structure NetworksBy (r : HTN → HTN → Prop) (d d' : DomainAST) : Prop where
  same : d' = { d with methods := d'.methods }
  methods : List.Forall₂ (fun m k : Method => k = { m with tn := k.tn } ∧ r m.tn k.tn) d.methods d'.methods

/-- The problems differ in the initial task network only, and these are related by `r`. -/
structure NetworksByP (r : HTN → HTN → Prop) (p p' : ProblemAST) : Prop where
  same : p' = { p with initTn := p'.initTn }
  params : p'.initTn.map (·.params) = p.initTn.map (·.params)
  related : ∀ i j, p.initTn = some i → p'.initTn = some j → r i.tn j.tn

/-- The labels of the subtasks are renamed, one name for one name. -/
def LabelsRenamed (h k : HTN) : Prop := ∃ ρ, Function.Injective ρ ∧ k = rlHtn ρ h

/-- Labels are renamed, and it is kept whether the label of a subtask occurs in a label that follows one. -/
def LabelsKept (h k : HTN) : Prop := ∃ ρ, Function.Injective ρ ∧ KeepsLabels ρ h ∧ k = rlHtn ρ h

/-- The ordering constraints are replaced by others that order the same labels; a total order is left alone. -/
structure SameClosure (h k : HTN) : Prop where
  same : k = { h with orderings := k.orderings }
  total : k.orderings = .total ↔ h.orderings = .total
  closure : ∀ a b, Relation.TransGen (Before k) a b ↔ Relation.TransGen (Before h) a b

end Verif.Spec
