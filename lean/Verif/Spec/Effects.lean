import Verif.Spec.Planning
import Verif.Spec.Scoping

/-! States that are reached by actions whose effects have quantifiers. -/

namespace Verif.Spec

open Verif

/-- The values of the variables of some scopes have the types that are declared in the innermost scope. -/
def BoundIn (d : DomainAST) (p : ProblemAST) (scopes : List (List Symbol)) (σ : Name → Name) : Prop :=
  ∀ x ty, TypeIn scopes x ty → HasType d p (σ x) ty

/-- The value of a term: variables are replaced by their values, other names stand for themselves. -/
noncomputable def valueIn (scopes : List (List Symbol)) (σ : Name → Name) (v : Symbol) : Name :=
  open Classical in if Unbound scopes v.name then v.name else σ v.name

/-- The states that can be reached from the initial state by actions.  Whatever is true after an action was true before or is an
instance of an atom of the effect: the parameters of the action and the variables of the quantifiers around the atom have values of
the declared types. -/
inductive ReachedBy (d : DomainAST) (p : ProblemAST) : (Ground → Prop) → Prop
  | init : ReachedBy d p fun x => ∃ q ∈ p.initState, x = (q.name, q.vars.map (·.name))
  | act {a : Action} {S S' : Ground → Prop} : ReachedBy d p S → a ∈ d.actions →
      (∀ x, S' x → S x ∨ ∃ fm q s σ, a.eff = some fm ∧ AtomAt q [a.params] s fm ∧ BoundIn d p s σ ∧
        x = (q.name, q.vars.map (valueIn s σ))) → ReachedBy d p S'

end Verif.Spec
