import Verif.Spec.WellFormed

/-!
What a problem can see of a domain: its types, the types of its constants, and the types of the parameters of its
predicates, tasks and actions.  Nothing here mentions the analyser.
-/

namespace Verif.Spec

open Verif

/-- Types `ts` for the parameters of a predicate named `x`. -/
def PredicateTypes (d : DomainAST) (x : Name) (ts : List (Option Name)) : Prop :=
  ∃ q ∈ d.predicates, q.name = x ∧ q.vars.map (·.ty) = ts

/-- Types `ts` for the parameters of what `x` means as the task of a subtask: the action of that name, or else the task. -/
def CalleeTypes (d : DomainAST) (x : Name) (ts : List (Option Name)) : Prop :=
  ∃ ps, Callee d x ps ∧ ps.map (·.ty) = ts

/-- Two domains with the same interface.  The name, the requirements and the methods of the domains, the preconditions and
effects of their actions, the names of parameters, whether something is a task or an action, and the order and the lines
of the declarations may differ. -/
structure SameInterface (d d' : DomainAST) : Prop where
  /-- the same types with the same parents -/
  types : ∀ t ty, (∃ s ∈ typesOf d, s.name = t ∧ s.ty = ty) ↔ ∃ s ∈ typesOf d', s.name = t ∧ s.ty = ty
  /-- the same constants, of the same types (those of the first declaration, if a name is declared again) -/
  constants : ∀ x ty, TypeIn [constantsOf d] x ty ↔ TypeIn [constantsOf d'] x ty
  predicates : ∀ x ts, PredicateTypes d x ts ↔ PredicateTypes d' x ts
  callees : ∀ x ts, CalleeTypes d x ts ↔ CalleeTypes d' x ts

/-- The type of a parameter that a problem supplies an argument for: a parameter of a predicate, or of a task or action. -/
def Slot (d : DomainAST) (ty : Option Name) : Prop :=
  ∃ x ts, (PredicateTypes d x ts ∨ CalleeTypes d x ts) ∧ ty ∈ ts

/-- Two domains that look the same to problems.  In contrast to `SameInterface`, only those parts of the type hierarchy matter
that say what fits some parameter, and only those properties of constants that say what they fit, and what is reported
otherwise. -/
structure SameView (d d' : DomainAST) : Prop where
  types : ∀ t, TypeKnown (typesOf d) t ↔ TypeKnown (typesOf d') t
  predicates : ∀ x ts, PredicateTypes d x ts ↔ PredicateTypes d' x ts
  callees : ∀ x ts, CalleeTypes d x ts ↔ CalleeTypes d' x ts
  /-- the same types fit the parameters -/
  fits : ∀ ft, Slot d ft → ∀ ty, Fits (typesOf d) ty ft ↔ Fits (typesOf d') ty ft
  /-- if there are parameters at all, there are the same constants -/
  bound : ∀ ft, Slot d ft → ∀ x, Unbound [constantsOf d] x ↔ Unbound [constantsOf d'] x
  /-- the same constants fit the parameters, and those that do not fit some parameter have the same type -/
  constants : ∀ ft, Slot d ft → ∀ x ty ty', TypeIn [constantsOf d] x ty → TypeIn [constantsOf d'] x ty' →
    (Fits (typesOf d) ty ft ↔ Fits (typesOf d') ty' ft) ∧ (¬ Fits (typesOf d) ty ft → ty = ty')

end Verif.Spec
