import Verif.Spec.LocalNames

/-!
Instances of methods and of initial task networks: parameters are replaced by constants, objects or other parameters.
-/

namespace Verif.Spec

open Verif

/-- `σ` replaces the parameters `params` of a method by names that are bound by the parameters `ps` or the constants, with types
that fit; it leaves constants alone, and `ps` does not hide them. -/
structure Replaces (types constants : List Symbol) (σ : Name → Name) (params ps : List Symbol) : Prop where
  fits : ∀ s ∈ params, ∃ ty, TypeIn [ps, constants] (σ s.name) ty ∧ Fits types ty s.ty
  kept : ∀ c ∈ constants, (∀ s ∈ params, s.name ≠ c.name) → σ c.name = c.name ∧ ∀ s ∈ ps, s.name ≠ c.name

/-- `m'` is an instance of the method `m`, possibly with another name. -/
def InstanceOf (d : DomainAST) (m m' : Method) : Prop :=
  ∃ σ ps x, Replaces (typesOf d) (constantsOf d) σ m.params ps ∧ (ps.map (·.name)).Nodup ∧ TypesKnown (typesOf d) ps ∧
    m' = { rvMethod σ m with params := ps, name := x }

/-- The methods of `d'` are instances of methods of `d`, any number of each, with different names. -/
structure Instantiated (d d' : DomainAST) : Prop where
  rest : d' = { d with methods := d'.methods }
  names : (d'.methods.map (·.name.name)).Nodup
  instances : ∀ m' ∈ d'.methods, ∃ m ∈ d.methods, InstanceOf d m m'

/-- `i'` is an instance of the initial task network `i`. Objects hide parameters. -/
def InstanceTn (d : DomainAST) (objects : List Symbol) (i i' : InitTN) : Prop :=
  ∃ σ, i'.tn = rvHtn σ i.tn ∧ (∀ o ∈ objects, σ o.name = o.name) ∧
    (∀ s ∈ i.params.getD [], (∀ o ∈ objects, o.name ≠ s.name) →
      ∃ ty, TypeIn [objects, i'.params.getD [], constantsOf d] (σ s.name) ty ∧ Fits (typesOf d) ty s.ty) ∧
    ∀ c ∈ constantsOf d, (∀ s ∈ i.params.getD [], s.name ≠ c.name) → σ c.name = c.name ∧ ∀ s ∈ i'.params.getD [], s.name ≠ c.name

/-- The problems differ in that the initial task network is replaced by an instance. -/
structure InstantiatedP (d : DomainAST) (p p' : ProblemAST) : Prop where
  objects : p'.objects = p.objects
  init : p'.initState = p.initState
  goal : p'.goal = p.goal
  htn : Option.Rel (InstanceTn d p.objects) p.initTn p'.initTn

end Verif.Spec
