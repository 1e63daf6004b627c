import Verif.Proofs.Accept
import Verif.Props.Syntax

/-! From syntax trees to files: what `verify` returns in terms of the outcome of the parser and of the analyser. -/

namespace Verif

open Spec

variable [Env] {ord : HashOrd} {f g : Bytes} {prob : Option Bytes} {d : DomainAST} {p : ProblemAST}

/-- `verify` on these files returns `r`, with every sufficiently large step budget. -/
def Returns (ord : HashOrd) (f : Bytes) (prob : Option Bytes) (r : R (List Warning)) : Prop :=
  r ≠ .timeout ∧ ∃ N, ∀ n, N ≤ n → verify ord n f prob = r

theorem returns_iff {r : R (List Warning)} : Returns ord f prob r ↔ r ≠ .timeout ∧ ∃ n, verify ord n f prob = r := by
  constructor
  · rintro ⟨h, N, hN⟩; exact ⟨h, N, hN N (Nat.le_refl _)⟩
  · rintro ⟨h, n, hn⟩
    exact ⟨h, n, fun m hm => by rw [(verify_le ord hm f prob).eq (by rw [hn]; exact h), hn]⟩

theorem Returns.det {r r' : R (List Warning)} (h : Returns ord f prob r) (h' : Returns ord f prob r') : r = r' := by
  obtain ⟨_, N, h⟩ := h
  obtain ⟨_, M, h'⟩ := h'
  exact (h (max N M) (by omega)).symm.trans (h' (max N M) (by omega))

/-- With the parser's result known. -/
theorem returns_parsed {a : AST} (hf : Parses f a) {r : R (List Warning)} : Returns ord f prob r ↔
    r ≠ .timeout ∧ ∃ N, ∀ n, N ≤ n → (match a with
      | .problem _ => .panic .expectedDomain
      | .domain d => (verifyDomain ord n d).bind fun st =>
        match prob with
        | none => .ok st.warnings
        | some p =>
          (parse n p).bind fun
            | .domain _ => .panic .expectedProblem
            | .problem p => verifyProblem st p) = r := by
  obtain ⟨N, hN⟩ := hf
  constructor
  · rintro ⟨h, M, hM⟩
    refine ⟨h, max N M, fun n hn => ?_⟩
    have := hM n (by omega)
    unfold verify at this
    rw [hN n (by omega)] at this
    exact this
  · rintro ⟨h, M, hM⟩
    refine ⟨h, max N M, fun n hn => ?_⟩
    have := hM n (by omega)
    unfold verify
    rw [hN n (by omega)]
    exact this

theorem returns_ok_none (hf : Parses f (.domain d)) {ws : List Warning} :
    Returns ord f none (.ok ws) ↔ Accepts ord d ws := by
  rw [returns_parsed hf]
  simp only [ne_eq, reduceCtorEq, not_false_eq_true, true_and]
  rcases verifyDomain_eventually ord d with ⟨ws', hd, hac⟩ | ⟨e, hc, he⟩ | ⟨x, hc, hx⟩
  · constructor
    · rintro ⟨N, hN⟩
      obtain ⟨M, hM⟩ := hac
      have h1 := hN (max N M) (by omega)
      rw [hM (max N M) (by omega)] at h1
      simp only [R.bind, R.ok.injEq] at h1
      rw [← h1]
      exact ⟨M, hM⟩
    · intro h
      obtain ⟨N, hN⟩ := h
      exact ⟨N, fun n hn => by rw [hN n hn]; rfl⟩
  · constructor
    · rintro ⟨N, hN⟩
      have h1 := hN N (Nat.le_refl _)
      rw [he] at h1; cases h1
    · rintro ⟨N, hN⟩
      have h1 := hN N (Nat.le_refl _)
      rw [he] at h1; cases h1
  · constructor
    · rintro ⟨N, hN⟩
      have h1 := hN N (Nat.le_refl _)
      rw [hx] at h1; cases h1
    · rintro ⟨N, hN⟩
      have h1 := hN N (Nat.le_refl _)
      rw [hx] at h1; cases h1

omit [Env] in
theorem checked_of_accepts {ws : List Warning} (h : Accepts ord d ws) : checkDomain ord d = .ok () :=
  (checkDomain_ok ord d).mpr (accepts_iff.mp ⟨ws, h⟩)

/-- Failures of the analysis of the domain are returned, whatever the problem file is. -/
theorem returns_of_err (hf : Parses f (.domain d)) {e : PErr} (h : checkDomain ord d = .err e) :
    Returns ord f prob (.err e) := by
  rw [returns_parsed hf]
  refine ⟨by simp, 0, fun n _ => ?_⟩
  simp [verifyDomain_err.mpr h]

theorem returns_of_panic (hf : Parses f (.domain d)) {x : Panic} (h : checkDomain ord d = .panic x) :
    Returns ord f prob (.panic x) := by
  rw [returns_parsed hf]
  refine ⟨by simp, 0, fun n _ => ?_⟩
  rcases verifyDomain_eventually ord d with ⟨ws', _, hac⟩ | ⟨e, hc, he⟩ | ⟨y, hc, hx⟩
  · rw [checked_of_accepts hac] at h; cases h
  · rw [hc] at h; cases h
  · rw [hc] at h; cases h; simp [hx n]

theorem returns_of_accepts (hf : Parses f (.domain d)) (hg : Parses g (.problem p)) {ws : List Warning}
    (h : Accepts ord d ws) : Returns ord f (some g) (verifyProblem (tableOf ws d) p) := by
  rw [returns_parsed hf]
  obtain ⟨N, hN⟩ := h
  obtain ⟨M, hM⟩ := hg
  refine ⟨verifyProblem_timeout _, max N M, fun n hn => ?_⟩
  simp [hN n (by omega), hM n (by omega)]

/-- The three outcomes on a domain file. -/
theorem returns_none (hf : Parses f (.domain d)) :
    (∃ ws, Accepts ord d ws ∧ Returns ord f none (.ok ws)) ∨
    (∃ e, checkDomain ord d = .err e ∧ ∀ prob, Returns ord f prob (.err e)) ∨
    (∃ x, checkDomain ord d = .panic x ∧ ∀ prob, Returns ord f prob (.panic x)) := by
  rcases verifyDomain_eventually ord d with ⟨ws', _, hac⟩ | ⟨e, hc, _⟩ | ⟨y, hc, _⟩
  · exact .inl ⟨ws', hac, (returns_ok_none hf).mpr hac⟩
  · exact .inr (.inl ⟨e, hc, fun _ => returns_of_err hf hc⟩)
  · exact .inr (.inr ⟨y, hc, fun _ => returns_of_panic hf hc⟩)

theorem returns_err_none (hf : Parses f (.domain d)) {e : PErr} :
    Returns ord f none (.err e) ↔ checkDomain ord d = .err e := by
  refine ⟨fun h => ?_, returns_of_err hf⟩
  rcases returns_none (ord := ord) hf with ⟨ws, _, h'⟩ | ⟨e', hc, h'⟩ | ⟨x, _, h'⟩
  · cases h.det h'
  · cases h.det (h' _); exact hc
  · cases h.det (h' _)

theorem returns_panic_none (hf : Parses f (.domain d)) {x : Panic} :
    Returns ord f none (.panic x) ↔ checkDomain ord d = .panic x := by
  refine ⟨fun h => ?_, returns_of_panic hf⟩
  rcases returns_none (ord := ord) hf with ⟨ws, _, h'⟩ | ⟨e', hc, h'⟩ | ⟨y, hc, h'⟩
  · cases h.det h'
  · cases h.det (h' _)
  · cases h.det (h' _); exact hc

theorem returns_ok_some (hf : Parses f (.domain d)) (hg : Parses g (.problem p)) {ws : List Warning} :
    Returns ord f (some g) (.ok ws) ↔ Accepts ord d ws ∧ ProblemOk d p := by
  rcases returns_none (ord := ord) hf with ⟨ws', hac, _⟩ | ⟨e', hc, h'⟩ | ⟨y, hc, h'⟩
  · have hd := accepts_iff.mp ⟨_, hac⟩
    have h1 := returns_of_accepts hf hg hac
    constructor
    · intro h
      have h2 := h1.det h
      rw [verifyProblem_ok hd] at h2
      exact ⟨by rw [h2.2]; exact hac, h2.1⟩
    · rintro ⟨h2, h3⟩
      rw [Accepts.det hac h2] at h1
      rwa [(verifyProblem_ok hd ws).mpr ⟨h3, rfl⟩] at h1
  · constructor
    · intro h; cases h.det (h' _)
    · intro h; rw [checked_of_accepts h.1] at hc; cases hc
  · constructor
    · intro h; cases h.det (h' _)
    · intro h; rw [checked_of_accepts h.1] at hc; cases hc

theorem returns_err_some (hf : Parses f (.domain d)) (hg : Parses g (.problem p)) {e : PErr} :
    Returns ord f (some g) (.err e) ↔ checkDomain ord d = .err e ∨
      ∃ ws, Accepts ord d ws ∧ verifyProblem (tableOf ws d) p = .err e := by
  rcases returns_none (ord := ord) hf with ⟨ws', hac, _⟩ | ⟨e', hc, h'⟩ | ⟨y, hc, h'⟩
  · have h1 := returns_of_accepts hf hg hac
    rw [checked_of_accepts hac]
    constructor
    · intro h; exact .inr ⟨ws', hac, h1.det h⟩
    · rintro (h | ⟨ws, h2, h3⟩)
      · cases h
      · rw [Accepts.det hac h2, h3] at h1; exact h1
  · rw [hc]
    constructor
    · intro h; exact .inl (by cases h.det (h' _); rfl)
    · rintro (h | ⟨ws, h2, _⟩)
      · cases h; exact h' _
      · rw [checked_of_accepts h2] at hc; cases hc
  · rw [hc]
    constructor
    · intro h; cases h.det (h' _)
    · rintro (h | ⟨ws, h2, _⟩)
      · cases h
      · rw [checked_of_accepts h2] at hc; cases hc

theorem returns_panic_some (hf : Parses f (.domain d)) (hg : Parses g (.problem p)) {x : Panic} :
    Returns ord f (some g) (.panic x) ↔ checkDomain ord d = .panic x ∨
      ∃ ws, Accepts ord d ws ∧ verifyProblem (tableOf ws d) p = .panic x := by
  rcases returns_none (ord := ord) hf with ⟨ws', hac, _⟩ | ⟨e', hc, h'⟩ | ⟨y, hc, h'⟩
  · have h1 := returns_of_accepts hf hg hac
    rw [checked_of_accepts hac]
    constructor
    · intro h; exact .inr ⟨ws', hac, h1.det h⟩
    · rintro (h | ⟨ws, h2, h3⟩)
      · cases h
      · rw [Accepts.det hac h2, h3] at h1; exact h1
  · rw [hc]
    constructor
    · intro h; cases h.det (h' _)
    · rintro (h | ⟨ws, h2, _⟩)
      · cases h
      · rw [checked_of_accepts h2] at hc; cases hc
  · rw [hc]
    constructor
    · intro h; exact .inl (by cases h.det (h' _); rfl)
    · rintro (h | ⟨ws, h2, _⟩)
      · cases h; exact h' _
      · rw [checked_of_accepts h2] at hc; cases hc

/-- The outcome of the parser is final. -/
theorem parse_cases {n : Nat} (hn : parse n f ≠ .timeout) :
    (∃ a, Parses f a) ∨ (∃ e, ParserErr f e ∧ ∀ m, n ≤ m → parse m f = .err e) ∨
      ∃ x, ParserPanic x ∧ ∀ m, n ≤ m → parse m f = .panic x := by
  cases h : parse n f with
  | ok a => exact .inl ⟨a, .of_ok h⟩
  | err e => exact .inr (.inl ⟨e, parse_err h, fun m hm => by rw [parse_fuel hm hn, h]⟩)
  | panic x => exact .inr (.inr ⟨x, parse_panic h, fun m hm => by rw [parse_fuel hm hn, h]⟩)
  | timeout => exact absurd h hn

/-- How `verify` can end. -/
theorem returns_inv {r : R (List Warning)} (h : Returns ord f prob r) :
    (∃ e, ParserErr f e ∧ r = .err e) ∨ (∃ x, ParserPanic x ∧ r = .panic x) ∨
    (∃ p, Parses f (.problem p) ∧ r = .panic .expectedDomain) ∨
    ∃ d, Parses f (.domain d) ∧
      ((∃ e, checkDomain ord d = .err e ∧ r = .err e) ∨ (∃ x, checkDomain ord d = .panic x ∧ r = .panic x) ∨
        ∃ ws, Accepts ord d ws ∧
          ((prob = none ∧ r = .ok ws) ∨ ∃ g, prob = some g ∧
            ((∃ e, ParserErr g e ∧ r = .err e) ∨ (∃ x, ParserPanic x ∧ r = .panic x) ∨
            (∃ d', Parses g (.domain d') ∧ r = .panic .expectedProblem) ∨
            ∃ p, Parses g (.problem p) ∧ r = verifyProblem (tableOf ws d) p))) := by
  obtain ⟨hr, N, hN⟩ := h
  have hv := hN N (Nat.le_refl _)
  have hp : parse N f ≠ .timeout := by
    intro hp; unfold verify at hv; rw [hp] at hv; exact hr hv.symm
  rcases parse_cases hp with ⟨a, ha⟩ | ⟨e, he, h⟩ | ⟨x, hx, h⟩
  · cases a with
    | problem p =>
      refine .inr (.inr (.inl ⟨p, ha, ?_⟩))
      obtain ⟨_, M, hM⟩ := (returns_parsed ha).mp ⟨hr, N, hN⟩
      exact (hM M (Nat.le_refl _)).symm
    | domain d =>
      refine .inr (.inr (.inr ⟨d, ha, ?_⟩))
      rcases returns_none (ord := ord) ha with ⟨ws, hac, h'⟩ | ⟨e, hc, h'⟩ | ⟨y, hc, h'⟩
      · refine .inr (.inr ⟨ws, hac, ?_⟩)
        cases prob with
        | none => exact .inl ⟨rfl, (Returns.det ⟨hr, N, hN⟩ h')⟩
        | some g =>
          refine .inr ⟨g, rfl, ?_⟩
          obtain ⟨_, M, hM⟩ := (returns_parsed ha).mp ⟨hr, N, hN⟩
          obtain ⟨K, hK⟩ := hac
          have hg : parse (max M K) g ≠ .timeout := by
            intro hp
            have := hM (max M K) (by omega)
            simp only [hK (max M K) (by omega), hp, R.bind] at this
            exact hr this.symm
          have hM := hM (max M K) (by omega)
          rcases parse_cases hg with ⟨a, ha'⟩ | ⟨e, he, h⟩ | ⟨x, hx, h⟩
          · cases a with
            | domain d' =>
              refine .inr (.inr (.inl ⟨d', ha', ?_⟩))
              obtain ⟨_, M, hM⟩ := (returns_parsed ha).mp ⟨hr, N, hN⟩
              obtain ⟨L, hL⟩ := ha'
              have := hM (max M (max K L)) (by omega)
              simp only [hK _ (by omega : K ≤ max M (max K L)), hL _ (by omega : L ≤ max M (max K L)), R.bind] at this
              exact this.symm
            | problem p =>
              exact .inr (.inr (.inr ⟨p, ha', Returns.det ⟨hr, N, hN⟩ (returns_of_accepts ha ha' ⟨K, hK⟩)⟩))
          · refine .inl ⟨e, he, ?_⟩
            simp only [hK _ (by omega : K ≤ max M K), h _ (Nat.le_refl _), R.bind] at hM
            exact hM.symm
          · refine .inr (.inl ⟨x, hx, ?_⟩)
            simp only [hK _ (by omega : K ≤ max M K), h _ (Nat.le_refl _), R.bind] at hM
            exact hM.symm
      · exact .inl ⟨e, hc, Returns.det ⟨hr, N, hN⟩ (h' _)⟩
      · exact .inr (.inl ⟨y, hc, Returns.det ⟨hr, N, hN⟩ (h' _)⟩)
  · refine .inl ⟨e, he, ?_⟩
    unfold verify at hv; rw [h N (Nat.le_refl _)] at hv; exact hv.symm
  · refine .inr (.inl ⟨x, hx, ?_⟩)
    unfold verify at hv; rw [h N (Nat.le_refl _)] at hv; exact hv.symm

/-- A semantic error comes from the analyser, and is true of the domain or of the problem. -/
theorem returns_semantic {se : SemErr} (h : Returns ord f prob (.err (.semantic se))) :
    ∃ d, Parses f (.domain d) ∧ ((checkDomain ord d = .err (.semantic se) ∧ DomainReport d se) ∨
      ∃ g p ws, prob = some g ∧ Parses g (.problem p) ∧ DomainOk d ∧ Accepts ord d ws ∧
        verifyProblem (tableOf ws d) p = .err (.semantic se) ∧ ProblemReport d p se) := by
  rcases returns_inv h with ⟨e, he, h1⟩ | ⟨x, _, h1⟩ | ⟨_, _, h1⟩ | ⟨d, hd, h2⟩
  · cases h1; exact he.elim
  · cases h1
  · cases h1
  refine ⟨d, hd, ?_⟩
  rcases h2 with ⟨e, hc, h1⟩ | ⟨x, _, h1⟩ | ⟨ws, hac, h2⟩
  · cases h1
    obtain ⟨se', h3, h4⟩ := checkDomain_report hc
    cases h3
    exact .inl ⟨hc, h4⟩
  · cases h1
  rcases h2 with ⟨_, h1⟩ | ⟨g, hg, h2⟩
  · cases h1
  rcases h2 with ⟨e, he, h1⟩ | ⟨x, _, h1⟩ | ⟨_, _, h1⟩ | ⟨p, hp, h1⟩
  · cases h1; exact he.elim
  · cases h1
  · cases h1
  have hok := accepts_iff.mp ⟨_, hac⟩
  obtain ⟨se', h3, h4⟩ := verifyProblem_report hok h1.symm
  cases h3
  exact .inr ⟨g, p, ws, hg, hp, hok, hac, h1.symm, h4⟩

/-- Kinds of error that only domains have. -/
def domainOnly : SemErr → Bool
  | .dupRequirement _ | .dupPredicate _ | .dupAction _ | .dupTask _ | .dupMethod _ | .dupParameter _ | .cyclicType |
    .undefTask _ | .undefParameter _ => true
  | _ => false

theorem returns_domainOnly (hf : Parses f (.domain d)) {se : SemErr} (hs : domainOnly se = true) :
    Returns ord f prob (.err (.semantic se)) ↔ checkDomain ord d = .err (.semantic se) := by
  refine ⟨fun h => ?_, returns_of_err hf⟩
  obtain ⟨d', hd', h1⟩ := returns_semantic h
  cases hf.det hd'
  rcases h1 with ⟨h1, _⟩ | ⟨_, _, _, _, _, _, _, _, h1⟩
  · exact h1
  · cases h1 <;> simp [domainOnly] at hs

end Verif
