import Verif.Spec.WellFormed

/-! When the checks of a domain come across an existential quantifier. -/

namespace Verif.Spec

/-- From left to right, the formula has an existential quantifier (or an implication, which the parser never produces)
before the first atom that is not declared with its number of arguments. -/
inductive UpToExists (ps : List Predicate) : Formula → Prop
  | exists_ {vs f} : UpToExists ps (.exists_ vs f)
  | imply {as bs} : UpToExists ps (.imply as bs)
  | not {f} : UpToExists ps f → UpToExists ps (.not f)
  | weighted {w f} : UpToExists ps f → UpToExists ps (.weighted w f)
  | forall_ {vs f} : UpToExists ps f → UpToExists ps (.forall_ vs f)
  | and {fs f gs} : (∀ g ∈ fs, ¬ HasExists g ∧ ∀ p, Occurs p g → ∃ q ∈ ps, q.name = p.name ∧
      p.vars.length = q.vars.length) → UpToExists ps f → UpToExists ps (.and (fs ++ f :: gs))
  | or {fs f gs} : (∀ g ∈ fs, ¬ HasExists g ∧ ∀ p, Occurs p g → ∃ q ∈ ps, q.name = p.name ∧
      p.vars.length = q.vars.length) → UpToExists ps f → UpToExists ps (.or (fs ++ f :: gs))
  | xor {fs f gs} : (∀ g ∈ fs, ¬ HasExists g ∧ ∀ p, Occurs p g → ∃ q ∈ ps, q.name = p.name ∧
      p.vars.length = q.vars.length) → UpToExists ps f → UpToExists ps (.xor (fs ++ f :: gs))

/-- The first action that fails has different parameters and an existential quantifier before anything wrong. -/
def ExistsAction (d : DomainAST) : Prop :=
  ∃ a x c, d.actions = a ++ x :: c ∧ ((a ++ [x]).map (·.name)).Nodup ∧ (∀ y ∈ a, ActionOk d y) ∧
    (x.params.map (·.name)).Nodup ∧
    ((∃ f, x.pre = some f ∧ UpToExists d.predicates f) ∨
      ((∀ f, x.pre = some f → FormulaOk d x.params f) ∧ ∃ f, x.eff = some f ∧ UpToExists d.predicates f))

/-- The same for methods. -/
def ExistsMethod (d : DomainAST) : Prop :=
  ∃ a x c, d.methods = a ++ x :: c ∧ ((a ++ [x]).map (·.name.name)).Nodup ∧ (∀ y ∈ a, MethodOk d y) ∧
    (x.params.map (·.name)).Nodup ∧ ∃ f, x.pre = some f ∧ UpToExists d.predicates f

/-- Everything before the first existential quantifier is right. -/
def ReachesExists (d : DomainAST) : Prop :=
  HeadOk d ∧ PredicatesOk d ∧ TasksOk d ∧ (ExistsAction d ∨ (ActionsOk d ∧ ExistsMethod d))

end Verif.Spec
