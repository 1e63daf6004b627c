import Verif.Spec.WellFormed

/-!
Changing types along the type hierarchy.
-/

namespace Verif.Spec

open Verif

/-- The same names with the same or more special types. -/
def Narrowed (types : List Symbol) (l l' : List Symbol) : Prop :=
  List.Forall₂ (fun s s' => s'.name = s.name ∧ Fits types s'.ty s.ty) l l'

/-- Formal parameters with the same or more general types (and any names). -/
def Widened (types : List Symbol) (l l' : List Symbol) : Prop := List.Forall₂ (fun s s' => Fits types s.ty s'.ty) l l'

/-- `d'` is `d` with more special types of constants and of parameters of methods and more general types of the parameters
of predicates and compound tasks. -/
structure Retyped (d d' : DomainAST) : Prop where
  types : typesOf d' = typesOf d
  requirements : d'.requirements = d.requirements
  constants : Narrowed (typesOf d) (constantsOf d) (constantsOf d')
  predicates : List.Forall₂ (fun p p' => p'.name = p.name ∧ Widened (typesOf d) p.vars p'.vars) d.predicates d'.predicates
  tasks : List.Forall₂ (fun t t' => t'.name = t.name ∧ Widened (typesOf d) t.params t'.params) d.tasks d'.tasks
  actions : d'.actions = d.actions
  methods : List.Forall₂ (fun m m' => ∃ ps, Narrowed (typesOf d) m.params ps ∧ m' = { m with params := ps }) d.methods d'.methods

/-- `p'` is `p` with more special types of objects and of the parameters of the initial task network. -/
structure RetypedP (d : DomainAST) (p p' : ProblemAST) : Prop where
  objects : Narrowed (typesOf d) p.objects p'.objects
  init : p'.initState = p.initState
  goal : p'.goal = p.goal
  htn : Option.Rel (fun h h' => Narrowed (typesOf d) (h.params.getD []) (h'.params.getD []) ∧ h'.tn = h.tn) p.initTn p'.initTn

end Verif.Spec
