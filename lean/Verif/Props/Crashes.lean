import Verif.Props.Outcomes
import Verif.Props.Semantic
import Verif.Proofs.Reached

/-! C07, C28, C68: when exactly `verify` panics or does not end. -/

namespace Verif

open Spec

variable [Env] {ord : HashOrd} {f g : Bytes} {prob : Option Bytes} {d : DomainAST}

/-- The parser panics on the file: a panic of the tokenizer after tokens that are right, or a wrong token after a text that
could be a whole problem file (C65). -/
def ParserCrash (f : Bytes) (x : Panic) : Prop :=
  Unreadable f (.panic x) ∨ (x = .problemToken ∧ ∃ c t l, FirstWrong f c t l ∧ CanEnd c)

/-- C28, exactly: the analysis of a parsed domain panics if and only if it has an existential quantifier in a formula of an
action or method and everything that is checked before it is right. -/
theorem C28_exact (hf : Parses f (.domain d)) (x : Panic) :
    Returns ord f none (.panic x) ↔ x = .existsFormula ∧ ReachesExists d := by
  obtain ⟨ts, h1, _⟩ := (C45_grammar f _).1 hf
  rw [returns_panic_none hf, checkDomain_panic_iff (FileText.positioned h1)]

/-- C28: in a domain that is right if `()` is written for every existential quantifier, any existential quantifier makes
the analysis panic, and nothing else does. -/
theorem C28_otherwise_right (hf : Parses f (.domain d)) (hd : DomainOk d.strike) :
    (∃ x, Returns ord f none (.panic x)) ↔ ∃ l fm, FormulaOf d l fm ∧ ExistsIn fm := by
  obtain ⟨ts, h1, _⟩ := (C45_grammar f _).1 hf
  constructor
  · rintro ⟨x, h⟩
    rw [returns_panic_none hf] at h
    obtain ⟨_, l, fm, h2, h3⟩ := checkDomain_panic (FileText.positioned h1) h
    exact ⟨l, fm, h2, FileText.exists h1 h2 h3⟩
  · rintro ⟨l, fm, h2, h3⟩
    have h3 : HasExists fm := by
      clear h2
      induction h3 with
      | exists_ => exact .exists_
      | not _ ih => exact .not ih
      | and hm _ ih => exact .and hm ih
      | or hm _ ih => exact .or hm ih
      | xor hm _ ih => exact .xor hm ih
      | weighted _ ih => exact .weighted ih
      | forall_ _ ih => exact .forall_ ih
    refine ⟨.existsFormula, (returns_panic_none hf).2 ?_⟩
    rcases checkDomain_strike ord d with h | h
    · exact h
    · rw [(checkDomain_ok ord _).2 hd, checkDomain_ok] at h
      exact absurd h3 (domainOk_noExists h h2)

theorem parse_at_least {n m : Nat} {r : R AST} (h : parse n f = r) (hr : r ≠ .timeout) (hm : n ≤ m) :
    parse m f = r := by
  rw [parse_fuel hm (by rw [h]; exact hr), h]

/-- C68.  `verify` panics in exactly these situations: the parser panics on the domain file; the domain file is a problem;
the analysis of the domain comes across an existential quantifier; or the domain is right and the parser panics on the
problem file or the problem file is a domain. -/
theorem C68_crash (x : Panic) : Returns ord f prob (.panic x) ↔
    ParserCrash f x ∨ (x = .expectedDomain ∧ ∃ p, Parses f (.problem p)) ∨
    ∃ d, Parses f (.domain d) ∧ ((x = .existsFormula ∧ ReachesExists d) ∨
      (DomainOk d ∧ ∃ g, prob = some g ∧
        (ParserCrash g x ∨ (x = .expectedProblem ∧ ∃ d', Parses g (.domain d'))))) := by
  constructor
  · intro h
    obtain ⟨_, N, hN⟩ := h
    cases hp : parse N f with
    | timeout => have := hN N (Nat.le_refl _); unfold verify at this; rw [hp] at this; cases this
    | err e => have := hN N (Nat.le_refl _); unfold verify at this; rw [hp] at this; cases this
    | panic y =>
      have := hN N (Nat.le_refl _)
      unfold verify at this
      rw [hp] at this
      cases this
      exact .inl ((C65_panic f x).1 ⟨N, hp⟩)
    | ok a =>
      have ha := Parses.of_ok hp
      cases a with
      | problem p =>
        have := hN N (Nat.le_refl _)
        unfold verify at this
        rw [hp] at this
        cases this
        exact .inr (.inl ⟨rfl, p, ha⟩)
      | domain d =>
        refine .inr (.inr ⟨d, ha, ?_⟩)
        have hret : Returns ord f prob (.panic x) := ⟨by simp, N, hN⟩
        rcases returns_none (ord := ord) ha with ⟨ws, hac, h'⟩ | ⟨e, _, h'⟩ | ⟨y, hy, h'⟩
        · refine .inr ⟨accepts_iff.1 ⟨ws, hac⟩, ?_⟩
          cases prob with
          | none => cases hret.det h'
          | some g =>
            refine ⟨g, rfl, ?_⟩
            obtain ⟨M, hM⟩ := hac
            have h2 := hN (max N M) (by omega)
            unfold verify at h2
            rw [parse_at_least hp (by simp) (by omega : N ≤ max N M)] at h2
            simp only [R.bind_ok, hM _ (by omega : M ≤ max N M)] at h2
            cases hq : parse (max N M) g with
            | timeout => rw [hq] at h2; cases h2
            | err e => rw [hq] at h2; cases h2
            | panic y => rw [hq] at h2; cases h2; exact .inl ((C65_panic g x).1 ⟨_, hq⟩)
            | ok b =>
              have hb := Parses.of_ok hq
              rw [hq] at h2
              cases b with
              | domain d' => cases h2; exact .inr ⟨rfl, d', hb⟩
              | problem p =>
                obtain ⟨ts, k1, _⟩ := (C45_grammar g _).1 hb
                exact absurd h2 (verifyProblem_nopanic _ (FileText.positionedP k1) x)
        · cases hret.det (h' prob)
        · cases hret.det (h' prob)
          exact .inl ((C28_exact ha x).1 ((returns_panic_none ha).2 hy))
  · rintro (h | ⟨rfl, p, h⟩ | ⟨d, hd, ⟨rfl, h⟩ | ⟨hok, g, rfl, h⟩⟩)
    · obtain ⟨n, hn⟩ := (C65_panic f x).2 h
      refine ⟨by simp, n, fun m hm => ?_⟩
      unfold verify
      rw [parse_at_least hn (by simp) hm]
      rfl
    · obtain ⟨N, hN⟩ := h
      refine ⟨by simp, N, fun m hm => ?_⟩
      unfold verify
      rw [hN m hm]
      rfl
    · exact returns_of_panic hd ((returns_panic_none (ord := ord) hd).1 ((C28_exact hd _).2 ⟨rfl, h⟩))
    · obtain ⟨ws, hac⟩ := (accepts_iff (ord := ord)).2 hok
      obtain ⟨N, hN⟩ := hd
      obtain ⟨M, hM⟩ := hac
      rcases h with h | ⟨rfl, d', K, hK⟩
      · obtain ⟨n, hn⟩ := (C65_panic g x).2 h
        refine ⟨by simp, max n (max N M), fun m hm => ?_⟩
        unfold verify
        simp only [hN m (by omega), R.bind_ok, hM m (by omega), parse_at_least hn (by simp) (by omega : n ≤ m)]
        rfl
      · refine ⟨by simp, max K (max N M), fun m hm => ?_⟩
        unfold verify
        simp only [hN m (by omega), R.bind_ok, hM m (by omega), hK m (by omega)]

/-- C68.  `verify` does not end if and only if the parser is stuck on the domain file, or the domain is right and the
parser is stuck on the problem file. -/
theorem C68_hangs : (∀ n, verify ord n f prob = .timeout) ↔
    Stuck f ∨ ∃ d, Parses f (.domain d) ∧ DomainOk d ∧ ∃ g, prob = some g ∧ Stuck g := by
  constructor
  · intro h
    by_cases hs : Stuck f
    · exact .inl hs
    right
    have hs' : ∃ n, parse n f ≠ .timeout := by
      by_contra hc
      push Not at hc
      exact hs ((C66_hangs f).1 hc)
    obtain ⟨n, hn⟩ := hs'
    have h1 := h n
    unfold verify at h1
    cases hp : parse n f with
    | timeout => exact absurd hp hn
    | err e => rw [hp] at h1; cases h1
    | panic y => rw [hp] at h1; cases h1
    | ok a =>
      have ha := Parses.of_ok hp
      cases a with
      | problem p => rw [hp] at h1; cases h1
      | domain d =>
        have hno : ∀ {r}, ¬ Returns ord f prob r := by
          intro r hr
          obtain ⟨hr, N, hN⟩ := hr
          exact hr ((hN N (Nat.le_refl _)).symm.trans (h N))
        rcases returns_none (ord := ord) ha with ⟨ws, hac, h'⟩ | ⟨e, _, h'⟩ | ⟨y, hy, h'⟩
        · refine ⟨d, ha, accepts_iff.1 ⟨ws, hac⟩, ?_⟩
          cases prob with
          | none => exact absurd h' hno
          | some g =>
            refine ⟨g, rfl, (C66_hangs g).1 fun k => ?_⟩
            obtain ⟨M, hM⟩ := hac
            have h2 := h (max k (max n M))
            unfold verify at h2
            rw [parse_at_least hp (by simp) (by omega : n ≤ max k (max n M))] at h2
            simp only [R.bind_ok, hM _ (by omega : M ≤ max k (max n M))] at h2
            by_contra hk
            rw [parse_fuel (by omega : k ≤ max k (max n M)) hk] at h2
            cases hq : parse k g with
            | timeout => exact hk hq
            | err e => rw [hq] at h2; cases h2
            | panic y => rw [hq] at h2; cases h2
            | ok b =>
              rw [hq] at h2
              cases b with
              | domain d' => cases h2
              | problem p =>
                exact hno (by
                  have := returns_of_accepts (ord := ord) ha (Parses.of_ok hq) ⟨M, hM⟩
                  exact this)
        · exact absurd (h' prob) hno
        · exact absurd (h' prob) hno
  · rintro (h | ⟨d, hd, hok, g, rfl, h⟩) n
    · unfold verify
      rw [(C66_hangs f).2 h n]
      rfl
    · by_contra hne
      obtain ⟨ws, M, hM⟩ := (accepts_iff (ord := ord)).2 hok
      obtain ⟨N, hN⟩ := hd
      obtain ⟨_, K, hK⟩ := returns_iff.2 ⟨hne, n, rfl⟩
      have h2 := hK (max K (max N M)) (by omega)
      generalize verify ord n f (some g) = r at hne h2
      unfold verify at h2
      simp only [hN _ (by omega : N ≤ max K (max N M)), R.bind_ok, hM _ (by omega : M ≤ max K (max N M)),
        (C66_hangs g).2 h] at h2
      exact hne h2.symm

/-- C07, exactly: `verify` of a file given as a domain alone panics if and only if the parser panics on it, it is a problem,
or its analysis comes across an existential quantifier. -/
theorem C07_exact (x : Panic) : Returns ord f none (.panic x) ↔
    ParserCrash f x ∨ (x = .expectedDomain ∧ ∃ p, Parses f (.problem p)) ∨
    (x = .existsFormula ∧ ∃ d, Parses f (.domain d) ∧ ReachesExists d) := by
  rw [C68_crash]
  constructor
  · rintro (h | h | ⟨d, hd, ⟨hx, h⟩ | ⟨_, g, hg, _⟩⟩)
    · exact .inl h
    · exact .inr (.inl h)
    · exact .inr (.inr ⟨hx, d, hd, h⟩)
    · cases hg
  · rintro (h | h | ⟨hx, d, hd, h⟩)
    · exact .inl h
    · exact .inr (.inl h)
    · exact .inr (.inr ⟨d, hd, .inl ⟨hx, h⟩⟩)

/-- C68: every other run ends with warnings or with a reported error. -/
theorem C68_otherwise (hc : ∀ x, ¬ Returns ord f prob (.panic x)) (hh : ¬ ∀ n, verify ord n f prob = .timeout) :
    (∃ ws, Returns ord f prob (.ok ws)) ∨ ∃ e, Returns ord f prob (.err e) := by
  push Not at hh
  obtain ⟨n, hn⟩ := hh
  have h : Returns ord f prob (verify ord n f prob) := returns_iff.2 ⟨hn, n, rfl⟩
  cases hv : verify ord n f prob with
  | timeout => exact absurd hv hn
  | ok ws => exact .inl ⟨ws, hv ▸ h⟩
  | err e => exact .inr ⟨e, hv ▸ h⟩
  | panic x => exact absurd (hv ▸ h) (hc x)


/-! ### Instances -/

omit [Env] in
/-- Instance for `C28_otherwise_right`: the domain is right with `()` for the quantifier, and it crashes. -/
example : @Returns Env.plain HashOrd.id
    b!"(define (domain d) (:predicates (p)) (:action a :parameters () :precondition (and (p) (exists (?x) (p)))))\n" none
    (.panic .existsFormula) :=
  @returns_run Env.plain _ _ _ 40 _ (by decide +kernel) (by simp)

omit [Env] in
/-- Instance for `C28_exact`: an undeclared atom before the quantifier is reported, so there is no crash. -/
example : @Returns Env.plain HashOrd.id
    b!"(define (domain d) (:predicates (p)) (:action a :parameters () :precondition (and (q) (exists (?x) (p)))))\n" none
    (.err (.semantic (.undefPredicate ⟨b!"q", 1⟩))) :=
  @returns_run Env.plain _ _ _ 40 _ (by decide +kernel) (by simp)

omit [Env] in
/-- Instance for `C68_crash`: a domain given as the problem crashes only if the domain is right. -/
example : @Returns Env.plain HashOrd.id b!"(define (domain d))\n" (some b!"(define (domain d))\n")
    (.panic .expectedProblem) :=
  @returns_run Env.plain _ _ _ 40 _ (by decide +kernel) (by simp)

/-- Instance for `C68_hangs`: a file that ends within its list of types. -/
example : ∀ n, verify HashOrd.id n b!"(define (domain d) (:types a" none = .timeout :=
  C68_hangs.2 (.inl ((C66_hangs _).1 C06_refuted))

end Verif
