import Verif.Spec.Renaming
import Verif.Spec.WellFormed

/-! Repairing actions and methods one by one. -/

namespace Verif.Spec

open Verif

/-- Everything about a domain but the insides of actions and methods. -/
structure HeaderOk (d : DomainAST) : Prop where
  requirements : d.requirements.Nodup
  types : Acyclic (DirectSub (typesOf d))
  predicates : (d.predicates.map (·.name)).Nodup
  predicateTypes : ∀ p ∈ d.predicates, TypesKnown (typesOf d) p.vars
  tasks : (d.tasks.map (·.name)).Nodup
  taskTypes : ∀ t ∈ d.tasks, TypesKnown (typesOf d) t.params
  actionNames : (d.actions.map (·.name)).Nodup
  methodNames : (d.methods.map (·.name.name)).Nodup

open Classical in
/-- The number of actions and methods with faults. -/
noncomputable def faults (d : DomainAST) : Nat :=
  d.actions.countP (fun a => ¬ ActionOk d a) + d.methods.countP (fun m => ¬ MethodOk d m)

/-- One faulty action or method is replaced by a correct one with the same name; for actions, also the types of the parameters
are the same. -/
inductive Repair (d : DomainAST) : DomainAST → Prop
  | action {as a a' bs} : d.actions = as ++ a :: bs → a'.name = a.name → a'.params.map (·.ty) = a.params.map (·.ty) →
      ¬ ActionOk d a → ActionOk d a' → Repair d { d with actions := as ++ a' :: bs }
  | method {as m m' bs} : d.methods = as ++ m :: bs → m'.name.name = m.name.name →
      ¬ MethodOk d m → MethodOk d m' → Repair d { d with methods := as ++ m' :: bs }

/-- `n` repairs.  Lines may change meanwhile. -/
inductive Repairs (d : DomainAST) : Nat → DomainAST → Prop
  | none {d'} : rnDomain id d' = rnDomain id d → Repairs d 0 d'
  | more {n d₁ d₂ d'} : Repairs d n d₁ → Repair d₁ d₂ → rnDomain id d' = rnDomain id d₂ → Repairs d (n + 1) d'

/-- The same declarations before those of actions and methods. -/
structure SameHeader (d d' : DomainAST) : Prop where
  types : d'.types = d.types
  constants : d'.constants = d.constants
  requirements : d'.requirements = d.requirements
  predicates : d'.predicates = d.predicates
  tasks : d'.tasks = d.tasks

end Verif.Spec
