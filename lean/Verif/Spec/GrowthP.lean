import Verif.Spec.WellFormed

/-! Problems with additional objects and facts. -/

namespace Verif.Spec

open Verif

/-- `p'` has all objects of `p`, the same initial task network, and the same goal or none; no additional object has the name of
a constant of the domain or of a parameter of the initial task network. -/
structure ExtendsP (d : DomainAST) (p p' : ProblemAST) : Prop where
  objects : ∀ o ∈ p.objects, o ∈ p'.objects
  htn : p'.initTn = p.initTn
  goal : p'.goal = none ∨ p'.goal = p.goal
  constants : ∀ o ∈ p'.objects, o ∉ p.objects → ∀ c ∈ constantsOf d, c.name ≠ o.name
  params : ∀ o ∈ p'.objects, o ∉ p.objects → ∀ h, p.initTn = some h → ∀ v ∈ h.params.getD [], v.name ≠ o.name

/-- What has to be checked about a problem that extends a well-formed one. -/
structure AdditionsP (d : DomainAST) (p p' : ProblemAST) : Prop where
  objects : (p'.objects.map (·.name)).Nodup
  objectTypes : ∀ o ∈ p'.objects, o ∉ p.objects → ∀ t, o.ty = some t → TypeKnown (typesOf d) t
  init : ∀ a ∈ p'.initState, a ∉ p.initState → FactOk d p' a

end Verif.Spec
