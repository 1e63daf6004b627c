import Verif.Spec.Effects
import Verif.Props.Planning

/-! C51 for actions whose effects have quantifiers. -/

namespace Verif

open Spec

variable [Env] {ord : HashOrd} {f g : Bytes} {d : DomainAST} {p : ProblemAST}

omit [Env] in
theorem Spec.AtomAt.more {q : Predicate} {s s' : List (List Symbol)} {fm : Formula} (h : AtomAt q s s' fm) (t : List (List Symbol)) :
    AtomAt q (s ++ t) (s' ++ t) fm := by
  induction h with
  | atom => exact .atom
  | not _ ih => exact .not ih
  | and h _ ih => exact .and h ih
  | or h _ ih => exact .or h ih
  | xor h _ ih => exact .xor h ih
  | left h _ ih => exact .left h ih
  | right h _ ih => exact .right h ih
  | weighted _ ih => exact .weighted ih
  | forall_ _ ih => exact .forall_ ih
  | exists_ _ ih => exact .exists_ ih

omit [Env] in
theorem typeIn_append {s t : List (List Symbol)} {x : Name} {ty : Option Name} (h : TypeIn (s ++ t) x ty) :
    TypeIn s x ty ∨ Unbound s x ∧ TypeIn t x ty := by
  induction s with
  | nil => exact .inr ⟨fun _ h => (nomatch h), h⟩
  | cons l s ih =>
    cases h with
    | here h => exact .inl (.here h)
    | outer h1 h2 =>
      rcases ih h2 with h3 | ⟨h3, h4⟩
      · exact .inl (.outer h1 h3)
      · refine .inr ⟨fun l' hl => ?_, h4⟩
        rcases List.mem_cons.mp hl with rfl | hl
        · exact h1
        · exact h3 l' hl

omit [Env] in
theorem typeIn_bound {s : List (List Symbol)} {x : Name} {ty : Option Name} (h : TypeIn s x ty) : ¬ Unbound s x := by
  induction h with
  | here h => exact fun hu => hu _ (by simp) _ (firstNamed_mem h).1 (firstNamed_mem h).2
  | outer _ _ ih => exact fun hu => ih fun l hl => hu l (List.mem_cons_of_mem _ hl)

omit [Env] in
theorem valueIn_hasType (ha : ∀ o ∈ p.objects, ∀ c ∈ constantsOf d, c.name ≠ o.name) {s : List (List Symbol)} {σ : Name → Name}
    (hσ : BoundIn d p s σ) {v w : Symbol} (h : ArgFits (typesOf d) (s ++ [constantsOf d]) v w) :
    HasType d p (valueIn s σ v) w.ty := by
  obtain ⟨ty, h1, h2⟩ := h
  unfold valueIn
  rcases typeIn_append h1 with h3 | ⟨h3, h4⟩
  · rw [if_neg (typeIn_bound h3)]
    exact (hσ _ _ h3).fits h2
  · rw [if_pos h3]
    refine ⟨ty, .outer (fun o ho he => ?_) h4, h2⟩
    cases h4 with
    | here h5 => exact ha o ho _ (firstNamed_mem h5).1 ((firstNamed_mem h5).2.trans he.symm)
    | outer _ h5 => cases h5

/-- C51 with quantifiers in effects, the part that holds: in every state that can be reached, every fact has a declared predicate with
the declared number of arguments; the arguments have the declared types if the atoms below quantifiers are as they should be, and no
object has the name of a constant.  Missing: `verify` does not check the arguments of atoms below quantifiers, see
`C51_quantifier_refuted`. -/
theorem C51_effects_partial (hf : Parses f (.domain d)) (hg : Parses g (.problem p)) (h : ∃ ws, Returns ord f (some g) (.ok ws))
    (S : Ground → Prop) (hS : ReachedBy d p S) :
    (∀ x, S x → ∃ r ∈ d.predicates, r.name = x.1 ∧ x.2.length = r.vars.length) ∧
    ((∀ o ∈ p.objects, ∀ c ∈ constantsOf d, c.name ≠ o.name) →
      (∀ a ∈ d.actions, ∀ fm, a.eff = some fm → Scoped d [a.params, constantsOf d] fm) →
      ∀ x, S x → ∃ r ∈ d.predicates, r.name = x.1 ∧ WellTyped d p x.2 r.vars) := by
  obtain ⟨ws, h⟩ := h
  obtain ⟨h1, h2⟩ := (returns_ok_some hf hg).mp h
  have hd := accepts_iff.mp ⟨_, h1⟩
  have hi : ∀ q ∈ p.initState, ∃ r ∈ d.predicates, r.name = q.name ∧ WellTyped d p (q.vars.map (·.name)) r.vars := by
    intro q hq
    obtain ⟨r, h3, h4, h5⟩ := h2.init q hq
    refine ⟨r, h3, h4, ?_⟩
    unfold WellTyped
    rw [List.forall₂_map_left_iff]
    exact h5
  induction hS with
  | init =>
    constructor
    · rintro x ⟨q, hq, rfl⟩
      obtain ⟨r, h3, h4, h5⟩ := hi q hq
      exact ⟨r, h3, h4, List.Forall₂.length_eq h5⟩
    · rintro _ _ x ⟨q, hq, rfl⟩
      exact hi q hq
  | @act a S S' _ haa hx ih =>
    constructor
    · intro x hx'
      rcases hx x hx' with h3 | ⟨fm, q, s, σ, h3, h4, _, rfl⟩
      · exact ih.1 x h3
      · obtain ⟨r, hr1, hr2, hr3⟩ := ((hd.actions a haa).eff fm h3).declared q h4.occurs
        exact ⟨r, hr1, hr2, by simpa using hr3⟩
    · intro ho hs x hx'
      rcases hx x hx' with h3 | ⟨fm, q, s, σ, h3, h4, h5, rfl⟩
      · exact ih.2 ho hs x h3
      · obtain ⟨r, hr1, hr2, hr3⟩ := hs a haa fm h3 q _ (h4.more [constantsOf d])
        refine ⟨r, hr1, hr2, ?_⟩
        unfold WellTyped
        rw [List.forall₂_map_left_iff]
        exact List.Forall₂.imp (fun v w hv => valueIn_hasType ho h5 hv) hr3

/-! ### Concrete domains -/

/-- `act` makes all things of type `a` satisfy `q`. -/
def allDomain : Bytes := b!"(define (domain d)\n(:types a b) (:predicates (q ?x - a))
(:action act :parameters (?x - b) :effect (forall (?x - a) (q ?x))))\n"

def allDomainAST : DomainAST where
  name := b!"d"
  types := some [⟨b!"a", 2, none, none⟩, ⟨b!"b", 2, none, none⟩]
  constants := none
  requirements := []
  predicates := [⟨b!"q", 2, [⟨b!"x", 2, some b!"a", some 2⟩]⟩]
  tasks := []
  methods := []
  actions := [⟨b!"act", 3, [⟨b!"x", 3, some b!"b", some 3⟩], none,
    some (.forall_ [⟨b!"x", 3, some b!"a", some 3⟩] (.atom ⟨b!"q", 3, [⟨b!"x", 3, none, none⟩]⟩))⟩]
  functions := []

/-- `act` makes all things of type `b` satisfy `q`, which is about things of type `a`. -/
def wrongDomain : Bytes := b!"(define (domain d)\n(:types a b) (:predicates (q ?x - a))
(:action act :parameters (?x - a) :effect (forall (?x - b) (q ?x))))\n"

def wrongDomainAST : DomainAST where
  name := b!"d"
  types := some [⟨b!"a", 2, none, none⟩, ⟨b!"b", 2, none, none⟩]
  constants := none
  requirements := []
  predicates := [⟨b!"q", 2, [⟨b!"x", 2, some b!"a", some 2⟩]⟩]
  tasks := []
  methods := []
  actions := [⟨b!"act", 3, [⟨b!"x", 3, some b!"a", some 3⟩], none,
    some (.forall_ [⟨b!"x", 3, some b!"b", some 3⟩] (.atom ⟨b!"q", 3, [⟨b!"x", 3, none, none⟩]⟩))⟩]
  functions := []

/-- An object of each type. -/
def bothProblem : Bytes := b!"(define (problem p) (domain d) (:objects o - a u - b))\n"

def bothProblemAST : ProblemAST where
  requirements := []
  initTn := none
  initState := []
  goal := none
  objects := [⟨b!"o", 1, some b!"a", some 1⟩, ⟨b!"u", 1, some b!"b", some 1⟩]

omit [Env] in
theorem valueIn_bound {s : List (List Symbol)} {σ : Name → Name} {v : Symbol} {ty : Option Name} (h : TypeIn s v.name ty) :
    valueIn s σ v = σ v.name := by
  unfold valueIn
  rw [if_neg (typeIn_bound h)]

omit [Env] in
/-- Instance: the conditions of `C51_effects_partial` are met, and `(q o)` is reached. -/
theorem effects_instance : @Parses Env.plain allDomain (.domain allDomainAST) ∧
    @Parses Env.plain bothProblem (.problem bothProblemAST) ∧
    @Returns Env.plain HashOrd.id allDomain (some bothProblem) (.ok []) ∧
    (∀ o ∈ bothProblemAST.objects, ∀ c ∈ constantsOf allDomainAST, c.name ≠ o.name) ∧
    (∀ a ∈ allDomainAST.actions, ∀ fm, a.eff = some fm → Scoped allDomainAST [a.params, constantsOf allDomainAST] fm) ∧
    ReachedBy allDomainAST bothProblemAST fun x => x = (b!"q", [b!"o"]) := by
  refine ⟨@Parses.of_ok Env.plain 60 _ _ (by decide +kernel), @Parses.of_ok Env.plain 60 _ _ (by decide +kernel),
    @returns_run Env.plain _ _ _ 60 _ (by decide +kernel) (by simp), by decide, ?_, ?_⟩
  · simp only [allDomainAST, List.mem_singleton, forall_eq, Option.some.injEq, forall_eq']
    intro q s h
    cases h with
    | forall_ h =>
      cases h with
      | atom => exact ⟨_, List.mem_singleton_self _, rfl, .cons ⟨some b!"a",
          .here (s := ⟨b!"x", 3, some b!"a", some 3⟩) ⟨[], [], rfl, rfl, by simp⟩, .sub .refl⟩ .nil⟩
  · refine .act .init (a := allDomainAST.actions.head (by decide)) (by simp) ?_
    rintro x rfl
    have ht : TypeIn [[⟨b!"x", 3, some b!"a", some 3⟩], [⟨b!"x", 3, some b!"b", some 3⟩]] b!"x" (some b!"a") :=
      .here (s := ⟨b!"x", 3, some b!"a", some 3⟩) ⟨[], [], rfl, rfl, by simp⟩
    refine .inr ⟨_, ⟨b!"q", 3, [⟨b!"x", 3, none, none⟩]⟩, _, fun _ => b!"o", rfl, .forall_ .atom, ?_, ?_⟩
    · intro x ty hx
      have hty : ty = some b!"a" := by
        cases hx with
        | here h => have := (firstNamed_mem h).1; simp only [List.mem_singleton] at this; rw [this]
        | outer h1 h2 =>
          cases h2 with
          | here h =>
            have h3 := firstNamed_mem h
            have h4 : _ = _ := List.mem_singleton.mp h3.1
            rw [h4] at h3
            exact (h1 _ (List.mem_singleton_self _) h3.2).elim
          | outer _ h => cases h
      subst hty
      exact ⟨some b!"a", .here (s := ⟨b!"o", 1, some b!"a", some 1⟩) ⟨[], _, rfl, rfl, by simp⟩, .sub .refl⟩
    · have := valueIn_bound (σ := fun _ => b!"o") (v := ⟨b!"x", 3, none, none⟩) ht
      simp only [List.map_cons, List.map_nil]
      exact congrArg (fun y => (b!"q", [y])) this.symm

omit [Env] in
/-- C51 does not hold with quantifiers in effects: `wrongDomain` is accepted, no object has the name of a constant, and `(q u)` is reached
although `u` is not of the type that `q` is about. -/
theorem C51_quantifier_refuted : ∃ d p, @Parses Env.plain wrongDomain (.domain d) ∧ @Parses Env.plain bothProblem (.problem p) ∧
    @Returns Env.plain HashOrd.id wrongDomain (some bothProblem) (.ok []) ∧ ObjectsApart d p ∧
    ∃ S, ReachedBy d p S ∧ S (b!"q", [b!"u"]) ∧ ∀ r ∈ d.predicates, r.name = b!"q" → ¬ WellTyped d p [b!"u"] r.vars := by
  refine ⟨wrongDomainAST, bothProblemAST, @Parses.of_ok Env.plain 60 _ _ (by decide +kernel),
    @Parses.of_ok Env.plain 60 _ _ (by decide +kernel), @returns_run Env.plain _ _ _ 60 _ (by decide +kernel) (by simp), ?_,
    fun x => x = (b!"q", [b!"u"]), ?_, rfl, ?_⟩
  · unfold ObjectsApart
    simp [wrongDomainAST, bothProblemAST, constantsOf]
  · refine .act .init (a := wrongDomainAST.actions.head (by decide)) (by simp) ?_
    rintro x rfl
    have ht : TypeIn [[⟨b!"x", 3, some b!"b", some 3⟩], [⟨b!"x", 3, some b!"a", some 3⟩]] b!"x" (some b!"b") :=
      .here (s := ⟨b!"x", 3, some b!"b", some 3⟩) ⟨[], [], rfl, rfl, by simp⟩
    refine .inr ⟨_, ⟨b!"q", 3, [⟨b!"x", 3, none, none⟩]⟩, _, fun _ => b!"u", rfl, .forall_ .atom, ?_, ?_⟩
    · intro x ty hx
      have hty : ty = some b!"b" := by
        cases hx with
        | here h => have := (firstNamed_mem h).1; simp only [List.mem_singleton] at this; rw [this]
        | outer h1 h2 =>
          cases h2 with
          | here h =>
            have h3 := firstNamed_mem h
            have h4 : _ = _ := List.mem_singleton.mp h3.1
            rw [h4] at h3
            exact (h1 _ (List.mem_singleton_self _) h3.2).elim
          | outer _ h => cases h
      subst hty
      exact ⟨some b!"b", (findScope_type _ _ _).mpr ⟨_, rfl, rfl⟩, .sub .refl⟩
    · have := valueIn_bound (σ := fun _ => b!"u") (v := ⟨b!"x", 3, none, none⟩) ht
      simp only [List.map_cons, List.map_nil]
      exact congrArg (fun y => (b!"q", [y])) this.symm
  · intro r hr _ hw
    simp only [wrongDomainAST, List.mem_singleton] at hr
    subst hr
    cases hw with
    | cons h _ =>
      obtain ⟨t, h1, h2⟩ := h
      cases h1.det ((findScope_type _ _ _).mpr ⟨⟨b!"u", 1, some b!"b", some 1⟩, rfl, rfl⟩)
      cases h2 with
      | sub h2 =>
        rcases Relation.ReflTransGen.cases_head h2 with h3 | ⟨y, ⟨s, h3, h4, h5⟩, _⟩
        · exact absurd h3 (by decide)
        · have : ∀ s ∈ typesOf wrongDomainAST, s.ty = none := by decide
          rw [this s h3] at h5; cases h5

end Verif
