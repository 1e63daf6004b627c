import Verif.Spec.WellFormed

/-!
Laws of logic: rewriting the formulas of a domain or problem, and the meaning of formulas.
-/

namespace Verif.Spec

open Verif

/-! ### Meaning -/

/-- Values, facts, and the values of each type. -/
structure Interp where
  Value : Type
  fact : Name → List Value → Prop
  ofType : Option Name → Value → Prop

/-- The values of the variables `vs` are replaced by others of the right types. -/
def Interp.Replaces (I : Interp) (vs : List Symbol) (σ τ : Name → I.Value) : Prop :=
  (∀ x, x ∉ vs.map (·.name) → τ x = σ x) ∧ ∀ s ∈ vs, I.ofType s.ty (τ s.name)

mutual

/-- The formula is true for the given values of names. -/
def Interp.True (I : Interp) : Formula → (Name → I.Value) → Prop
  | .empty, _ => _root_.True
  | .atom p, σ => I.fact p.name (p.vars.map fun v => σ v.name)
  | .not f, σ => ¬ I.True f σ
  | .and fs, σ => I.All fs σ
  | .or fs, σ => I.Some fs σ
  | .xor fs, σ => I.Odd fs σ
  | .imply ps qs, σ => I.All ps σ → I.All qs σ
  | .exists_ vs f, σ => ∃ τ, I.Replaces vs σ τ ∧ I.True f τ
  | .forall_ vs f, σ => ∀ τ, I.Replaces vs σ τ → I.True f τ
  | .weighted _ f, σ => I.True f σ
  | .equals a b, σ => σ a = σ b

/-- All are true. -/
def Interp.All (I : Interp) : List Formula → (Name → I.Value) → Prop
  | [], _ => _root_.True
  | f :: fs, σ => I.True f σ ∧ I.All fs σ

/-- Some formula is true. -/
def Interp.Some (I : Interp) : List Formula → (Name → I.Value) → Prop
  | [], _ => False
  | f :: fs, σ => I.True f σ ∨ I.Some fs σ

/-- An odd number of them is true. -/
def Interp.Odd (I : Interp) : List Formula → (Name → I.Value) → Prop
  | [], _ => False
  | f :: fs, σ => ¬ (I.True f σ ↔ I.Odd fs σ)

end

/-- The formulas mean the same. -/
def SameMeaning (f g : Formula) : Prop := ∀ (I : Interp) (σ : Name → I.Value), I.True f σ ↔ I.True g σ

/-! ### Laws -/

/-- One formula can be rewritten to the other by laws of logic.  The laws that exchange quantifiers are included if `dual`. -/
inductive Laws (dual : Bool) : Formula → Formula → Prop
  | refl {f} : Laws dual f f
  | symm {f g} : Laws dual f g → Laws dual g f
  | trans {f g h} : Laws dual f g → Laws dual g h → Laws dual f h
  /- rewriting inside of formulas -/
  | not {f g} : Laws dual f g → Laws dual (.not f) (.not g)
  | and {fs f g gs} : Laws dual f g → Laws dual (.and (fs ++ f :: gs)) (.and (fs ++ g :: gs))
  | or {fs f g gs} : Laws dual f g → Laws dual (.or (fs ++ f :: gs)) (.or (fs ++ g :: gs))
  | xor {fs f g gs} : Laws dual f g → Laws dual (.xor (fs ++ f :: gs)) (.xor (fs ++ g :: gs))
  | forall_ {vs f g} : Laws dual f g → Laws dual (.forall_ vs f) (.forall_ vs g)
  | exists_ {vs f g} : Laws dual f g → Laws dual (.exists_ vs f) (.exists_ vs g)
  | weighted {w f g} : Laws dual f g → Laws dual (.weighted w f) (.weighted w g)
  /- commutativity -/
  | andPerm {fs gs} : fs.Perm gs → Laws dual (.and fs) (.and gs)
  | orPerm {fs gs} : fs.Perm gs → Laws dual (.or fs) (.or gs)
  | xorPerm {fs gs} : fs.Perm gs → Laws dual (.xor fs) (.xor gs)
  /- associativity -/
  | andFlat {fs gs hs} : Laws dual (.and (fs ++ .and gs :: hs)) (.and (fs ++ gs ++ hs))
  | orFlat {fs gs hs} : Laws dual (.or (fs ++ .or gs :: hs)) (.or (fs ++ gs ++ hs))
  /- idempotence -/
  | andTwice {f fs} : Laws dual (.and (f :: f :: fs)) (.and (f :: fs))
  | orTwice {f fs} : Laws dual (.or (f :: f :: fs)) (.or (f :: fs))
  /- single operands, and no operands -/
  | andOne {f} : Laws dual (.and [f]) f
  | orOne {f} : Laws dual (.or [f]) f
  | xorOne {f} : Laws dual (.xor [f]) f
  | andNone : Laws dual (.and []) .empty
  /- negation -/
  | notNot {f} : Laws dual (.not (.not f)) f
  | notAnd {fs} : Laws dual (.not (.and fs)) (.or (fs.map .not))
  | notOr {fs} : Laws dual (.not (.or fs)) (.and (fs.map .not))
  /- distributivity -/
  | andOr {f gs} : gs ≠ [] → Laws dual (.and [f, .or gs]) (.or (gs.map fun g => .and [f, g]))
  | orAnd {f gs} : gs ≠ [] → Laws dual (.or [f, .and gs]) (.and (gs.map fun g => .or [f, g]))
  /- quantifiers -/
  | forallForall {vs us f} : (∀ v ∈ vs, ∀ u ∈ us, v.name ≠ u.name) → Laws dual (.forall_ vs (.forall_ us f)) (.forall_ (vs ++ us) f)
  | existsExists {vs us f} : (∀ v ∈ vs, ∀ u ∈ us, v.name ≠ u.name) → Laws dual (.exists_ vs (.exists_ us f)) (.exists_ (vs ++ us) f)
  | forallPerm {vs us f} : vs.Perm us → Laws dual (.forall_ vs f) (.forall_ us f)
  | existsPerm {vs us f} : vs.Perm us → Laws dual (.exists_ vs f) (.exists_ us f)
  | forallAnd {vs fs} : Laws dual (.forall_ vs (.and fs)) (.and (fs.map (.forall_ vs)))
  | existsOr {vs fs} : fs ≠ [] → Laws dual (.exists_ vs (.or fs)) (.or (fs.map (.exists_ vs)))
  | notExists {vs f} : dual = true → Laws dual (.not (.exists_ vs f)) (.forall_ vs (.not f))
  | notForall {vs f} : dual = true → Laws dual (.not (.forall_ vs f)) (.exists_ vs (.not f))

/-- Both are absent, or both are present and related. -/
inductive Both {α : Type} (r : α → α → Prop) : Option α → Option α → Prop
  | none : Both r none none
  | some {a b} : r a b → Both r (some a) (some b)

/-- Precondition and effect are rewritten. -/
structure RewrittenAction (a b : Action) : Prop where
  same : b = { a with pre := b.pre, eff := b.eff }
  pre : Both (Laws false) a.pre b.pre
  eff : Both (Laws false) a.eff b.eff

/-- The precondition is rewritten. -/
structure RewrittenMethod (m k : Method) : Prop where
  same : k = { m with pre := k.pre }
  pre : Both (Laws false) m.pre k.pre

/-- The formulas of a domain are rewritten. -/
structure Rewritten (d e : DomainAST) : Prop where
  same : e = { d with actions := e.actions, methods := e.methods }
  actions : List.Forall₂ RewrittenAction d.actions e.actions
  methods : List.Forall₂ RewrittenMethod d.methods e.methods

/-- The goal of a problem is rewritten; no goal is the same as the empty conjunction. -/
structure RewrittenProblem (p q : ProblemAST) : Prop where
  same : q = { p with goal := q.goal }
  goal : Laws true (p.goal.getD (.and [])) (q.goal.getD (.and []))

end Verif.Spec
