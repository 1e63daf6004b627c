import Verif.Spec.WellFormed

/-!
Scoping of formulas with quantifiers, and the types used in a domain.  Independent of the analyser.
-/

namespace Verif.Spec

open Verif

/-- The atom occurs in the formula.  The first list of scopes is the one outside the formula, the second one the one at
the atom, with one more entry for each quantifier around it. -/
inductive AtomAt (p : Predicate) : List (List Symbol) → List (List Symbol) → Formula → Prop
  | atom {s} : AtomAt p s s (.atom p)
  | not {s s' f} : AtomAt p s s' f → AtomAt p s s' (.not f)
  | and {s s' f fs} : f ∈ fs → AtomAt p s s' f → AtomAt p s s' (.and fs)
  | or {s s' f fs} : f ∈ fs → AtomAt p s s' f → AtomAt p s s' (.or fs)
  | xor {s s' f fs} : f ∈ fs → AtomAt p s s' f → AtomAt p s s' (.xor fs)
  | left {s s' f ps qs} : f ∈ ps → AtomAt p s s' f → AtomAt p s s' (.imply ps qs)
  | right {s s' f ps qs} : f ∈ qs → AtomAt p s s' f → AtomAt p s s' (.imply ps qs)
  | weighted {s s' w f} : AtomAt p s s' f → AtomAt p s s' (.weighted w f)
  | forall_ {s s' vs f} : AtomAt p (vs :: s) s' f → AtomAt p s s' (.forall_ vs f)
  | exists_ {s s' vs f} : AtomAt p (vs :: s) s' f → AtomAt p s s' (.exists_ vs f)

/-- Every atom uses a declared predicate on bound arguments of fitting types. -/
def Scoped (d : DomainAST) (s : List (List Symbol)) (f : Formula) : Prop :=
  ∀ p s', AtomAt p s s' f → ∃ q ∈ d.predicates, q.name = p.name ∧ ArgsFit (typesOf d) s' p.vars q.vars

/-- The formula has a quantifier. -/
inductive Quantified : Formula → Prop
  | exists_ {vs f} : Quantified (.exists_ vs f)
  | forall_ {vs f} : Quantified (.forall_ vs f)
  | not {f} : Quantified f → Quantified (.not f)
  | and {f fs} : f ∈ fs → Quantified f → Quantified (.and fs)
  | or {f fs} : f ∈ fs → Quantified f → Quantified (.or fs)
  | xor {f fs} : f ∈ fs → Quantified f → Quantified (.xor fs)
  | left {f ps qs} : f ∈ ps → Quantified f → Quantified (.imply ps qs)
  | right {f ps qs} : f ∈ qs → Quantified f → Quantified (.imply ps qs)
  | weighted {w f} : Quantified f → Quantified (.weighted w f)

/-- The declarations of a domain that have a type annotation. -/
inductive Declares (d : DomainAST) (s : Symbol) : Prop
  | predicate {p} : p ∈ d.predicates → s ∈ p.vars → Declares d s
  | task {t} : t ∈ d.tasks → s ∈ t.params → Declares d s
  | action {a} : a ∈ d.actions → s ∈ a.params → Declares d s
  | method {m} : m ∈ d.methods → s ∈ m.params → Declares d s
  | constant : s ∈ constantsOf d → Declares d s

end Verif.Spec
