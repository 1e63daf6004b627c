import Verif.Props.Outcomes
import Verif.Proofs.Unsupported
import Verif.Props.Semantic

/-! C93: what is not supported is rejected where it is used. -/

namespace Verif

open Spec

variable [Env]

/-- `Whole c`: the text `c` contains a complete definition of a domain or problem, from the start; the parser does not read
on behind it. -/
def Whole (c : List Tk) : Prop := ∃ a b r, FileText true a b ∧ c = b ++ r

omit [Env] in
theorem Whole.same {c c' : List Tk} (h : Whole c) (hs : SameTokens c c') : Whole c' := by
  obtain ⟨a, b, r, h1, rfl⟩ := h
  obtain ⟨b', r', rfl, h2, _⟩ := (renamed_iff_same.2 hs).unappend
  obtain ⟨a', h3, _⟩ := fileText_rn h1 h2
  exact ⟨a', b', r', h3, rfl⟩

omit [Env] in
theorem keyword_same {c c' : List Tk} (h : SameTokens c c') : lastKeyword c' = lastKeyword c := by
  have : ∀ c : List Tk, lastKeyword c = ((c.map Prod.fst).filterMap keyword?).getLast? := by
    intro c
    unfold lastKeyword
    rw [List.filterMap_map]
    rfl
  rw [this, this, h]

omit [Env] in
theorem items_same {m m' : List Tk} (h : Items m) (hs : Renamed id m m') : Items m' := by
  induction h generalizing m' with
  | nil => cases hs.unnil; exact .nil
  | name _ ih => obtain ⟨l, us, rfl, h1⟩ := hs.uncons; exact .name (ih h1)
  | type _ ih =>
    obtain ⟨l, us, rfl, h1⟩ := hs.uncons
    obtain ⟨l, us, rfl, h2⟩ := h1.uncons
    exact .type (ih h2)

omit [Env] in
theorem opened_same {c c' m : List Tk} (h : Opened c m) (hs : SameTokens c c') : ∃ m', Opened c' m' ∧ (m ≠ [] → m' ≠ []) := by
  obtain ⟨d, l1, x, l2, rfl, hm⟩ := h
  obtain ⟨d', r', rfl, _, h2⟩ := (renamed_iff_same.2 hs).unappend
  obtain ⟨l1', us, rfl, h3⟩ := h2.uncons
  obtain ⟨l2', us, rfl, h4⟩ := h3.uncons
  refine ⟨us, ⟨d', l1', x, l2', rfl, items_same hm h4⟩, ?_⟩
  rintro hne rfl
  have := congrArg List.length (renamed_iff_same.1 h4)
  simp at this
  exact hne (List.length_eq_zero_iff.1 this.symm)

omit [Env] in
/-- The lines do not matter. -/
theorem Unsupported.same {c c' : List Tk} {t : Token} (h : Unsupported c t) (hs : SameTokens c c') : Unsupported c' t := by
  cases h with
  | operator h => exact .operator (by rwa [keyword_same hs])
  | type h ht =>
    subst h
    obtain ⟨d', r', rfl, _, h2⟩ := (renamed_iff_same.2 hs).unappend
    obtain ⟨l, us, rfl, h3⟩ := h2.uncons
    cases h3.unnil
    exact .type rfl ht
  | nested h hm =>
    obtain ⟨m', h1, h2⟩ := opened_same h hs
    exact .nested h1 (hm.imp h2 (by rw [keyword_same hs]; exact id))
  | argument h hi hp =>
    obtain ⟨m', h1, _⟩ := opened_same h hs
    exact .argument h1 hi hp
  | number h => exact .number (by rwa [keyword_same hs])

/-- C93: in the part of a file that is parsed, nothing unsupported is used: whatever was parsed was understood as the
supported language. -/
theorem C93_parsed {file : Bytes} {a : AST} (h : Parses file a) :
    ∃ ts, FileText true a ts ∧ Feeds (LexState.init file) ts ∧
      ∀ c t l r, ts = c ++ (t, l) :: r → ¬ Unsupported c t := by
  obtain ⟨ts, h1, h2⟩ := (C45_grammar file a).1 h
  exact ⟨ts, h1, h2, fun c t l r hts => FileText.supported (hts ▸ h1)⟩

/-- C93: no file is parsed whose tokens start with a text that uses something unsupported before the definition is
complete. -/
theorem C93_never {c : List Tk} {t : Token} {l : Nat} (hu : Unsupported c t) (hw : ¬ Whole c) : ¬ Startable (c ++ [(t, l)]) := by
  rintro ⟨f, a, d, r, h1, h2, h3⟩
  obtain ⟨c', d', rfl, h4, h5⟩ := (renamed_iff_same.2 h2).unappend
  obtain ⟨l', us, rfl, h6⟩ := h5.uncons
  cases h6.unnil
  rw [rnToken_id] at h3
  have hs := renamed_iff_same.1 h4
  obtain ⟨ts, h7, h8⟩ := (C45_grammar f a).1 h1
  rcases Nat.le_total ts.length c'.length with hl | hl
  · obtain ⟨r', hr'⟩ := feeds_prefix h8 h3.append.append hl
    exact hw (Whole.same ⟨a, ts, r', h7, hr'⟩ hs.symm)
  · rcases Nat.lt_or_ge c'.length ts.length with hl' | hl'
    · obtain ⟨r', hr'⟩ := feeds_prefix h3.append h8 (by simp; omega)
      rw [hr', List.append_assoc] at h7
      exact FileText.supported h7 (Unsupported.same hu hs)
    · obtain ⟨r', hr'⟩ := feeds_prefix h8 h3.append.append hl'
      exact hw (Whole.same ⟨a, ts, r', h7, hr'⟩ hs.symm)

theorem Startable.nil {c : List Tk} (h : Startable c) : Startable [] := Startable.start (a := []) h

/-- The first place at which a text stops to be the start of a file. -/
theorem first_wrong {file : Bytes} {ts : List Tk} (hf : Feeds (LexState.init file) ts) (h0 : Startable []) (hs : ¬ Startable ts) :
    ∃ c t l r, ts = c ++ (t, l) :: r ∧ FirstWrong file c t l := by
  induction ts using List.reverseRecOn with
  | nil => exact absurd h0 hs
  | append_singleton ts x ih =>
    by_cases h : Startable ts
    · exact ⟨ts, x.1, x.2, [], rfl, hf, h, hs⟩
    · obtain ⟨c, t, l, r, rfl, h1⟩ := ih hf.append h
      exact ⟨c, t, l, r ++ [x], by simp, h1⟩

theorem feeds_lines {ts : List Tk} {s : LexState} (h : Feeds s ts) : (∀ x ∈ ts, s.line ≤ x.2) ∧ ts.Pairwise fun x y => x.2 ≤ y.2 := by
  induction ts generalizing s with
  | nil => simp
  | cons x ts ih =>
    obtain ⟨t, l⟩ := x
    obtain ⟨s1, h1, rfl, h2⟩ := h
    obtain ⟨_, _, _, _, _, _, _, hl, _⟩ := lex_tok_spec h1
    obtain ⟨h3, h4⟩ := ih h2
    have : s.line ≤ s1.line := by omega
    refine ⟨?_, List.pairwise_cons.2 ⟨h3, h4⟩⟩
    intro x hx
    rcases List.mem_cons.1 hx with rfl | hx
    · exact this
    · exact Nat.le_trans this (h3 x hx)

theorem startable_nil : Startable [] := by
  rcases (C66_four_cases []).1 with ⟨a, h⟩ | ⟨c, t, l, h⟩ | ⟨r, _, c, s, _, h, _⟩ | ⟨_, c, l, h⟩
  · exact h.startable trivial
  · exact h.2.1.nil
  · exact h.nil
  · exact (h 0).2.nil

/-- C93: if a file uses something unsupported before its definition is complete, then it is not parsed, and the parser stops
there or earlier. -/
theorem C93_rejected {file : Bytes} {c : List Tk} {t : Token} {l : Nat} (hf : Feeds (LexState.init file) (c ++ [(t, l)]))
    (hu : Unsupported c t) (hw : ¬ Whole c) :
    (∀ a, ¬ Parses file a) ∧ ∃ c' t' l', FirstWrong file c' t' l' ∧ c' ++ [(t', l')] <+: c ++ [(t, l)] ∧ l' ≤ l := by
  obtain ⟨c', t', l', r, h1, h2⟩ := first_wrong hf startable_nil (C93_never hu hw)
  refine ⟨h2.not_parses, c', t', l', h2, ⟨r, by simp [h1]⟩, ?_⟩
  have h3 := (feeds_lines hf).2
  rw [h1] at h3
  have h4 := (List.pairwise_append.1 h3).2.1
  cases hr : r.getLast? with
  | none =>
    rw [List.getLast?_eq_none_iff] at hr
    subst hr
    have := (List.append_inj' h1 rfl).2
    cases this
    exact Nat.le_refl _
  | some y =>
    obtain ⟨r', rfl⟩ := List.getLast?_eq_some_iff.1 hr
    have : c ++ [(t, l)] = (c' ++ (t', l') :: r') ++ [y] := by rw [h1]; simp
    have := (List.append_inj' this rfl).2
    cases this
    exact (List.pairwise_cons.1 h4).1 (t, l) (by simp)

/-- C93: such a file is answered with a syntax error on the line of the unsupported part or before, unless it is a problem
file that could have ended before that; then the parser panics. -/
theorem C93_reported {file : Bytes} {c : List Tk} {t : Token} {l : Nat} (hf : Feeds (LexState.init file) (c ++ [(t, l)]))
    (hu : Unsupported c t) (hw : ¬ Whole c) (ord : HashOrd) (prob : Option Bytes) :
    (∃ e, Returns ord file prob (.err (.syntactic e)) ∧ e.pos ≤ l) ∨ Returns ord file prob (.panic .problemToken) := by
  obtain ⟨_, c', t', l', h1, _, h3⟩ := C93_rejected hf hu hw
  obtain ⟨h4, h5⟩ := C65_wrong_token file c' t' l' h1
  by_cases hc : CanEnd c'
  · obtain ⟨N, h6⟩ := h5 hc
    exact .inr ⟨by simp, N, fun n hn => by unfold verify; rw [h6 n hn]; rfl⟩
  · obtain ⟨N, e, h6, h7, _⟩ := h4 hc
    exact .inl ⟨e, ⟨by simp, N, fun n hn => by unfold verify; rw [h6 n hn]; rfl⟩, h7 ▸ h3⟩

theorem second_file {dom prob : Bytes} {ord : HashOrd} {ws : List Warning} (hd : Returns ord dom none (.ok ws)) {N : Nat} {r : R AST}
    {r' : R (List Warning)} (h : ∀ n, N ≤ n → parse n prob = r) (hb : ∀ k : AST → R (List Warning), r.bind k = r') (hr : r' ≠ .timeout) :
    Returns ord dom (some prob) r' := by
  obtain ⟨_, M, hM⟩ := hd
  refine ⟨hr, max N M, fun n hn => ?_⟩
  have h1 := hM n (by omega)
  unfold verify at h1 ⊢
  cases hp : parse n dom with
  | ok a =>
    rw [hp] at h1
    cases a with
    | problem => cases h1
    | domain d =>
      simp only [R.bind] at h1 ⊢
      cases hv : verifyDomain ord n d with
      | ok st =>
        simp only
        rw [h n (by omega)]
        exact hb _
      | err => rw [hv] at h1; cases h1
      | panic => rw [hv] at h1; cases h1
      | timeout => rw [hv] at h1; cases h1
  | err => rw [hp] at h1; cases h1
  | panic => rw [hp] at h1; cases h1
  | timeout => rw [hp] at h1; cases h1

/-- C93 for the problem file, with a domain file that is accepted. -/
theorem C93_problem {dom prob : Bytes} {c : List Tk} {t : Token} {l : Nat} (hf : Feeds (LexState.init prob) (c ++ [(t, l)]))
    (hu : Unsupported c t) (hw : ¬ Whole c) (ord : HashOrd) {ws : List Warning} (hd : Returns ord dom none (.ok ws)) :
    (∃ e, Returns ord dom (some prob) (.err (.syntactic e)) ∧ e.pos ≤ l) ∨ Returns ord dom (some prob) (.panic .problemToken) := by
  obtain ⟨_, c', t', l', h1, _, h3⟩ := C93_rejected hf hu hw
  obtain ⟨h4, h5⟩ := C65_wrong_token prob c' t' l' h1
  by_cases hc : CanEnd c'
  · obtain ⟨N, h6⟩ := h5 hc
    exact .inr (second_file hd h6 (fun _ => rfl) (by simp))
  · obtain ⟨N, e, h6, h7, _⟩ := h4 hc
    exact .inl ⟨e, second_file hd h6 (fun _ => rfl) (by simp), h7 ▸ h3⟩

/-- C93: if the text before it is right, the error names the token at which the unsupported part shows, and its line. -/
theorem C93_named {file : Bytes} {c : List Tk} {t : Token} {l : Nat} (hf : Feeds (LexState.init file) (c ++ [(t, l)]))
    (hu : Unsupported c t) (hw : ¬ Whole c) (hs : Startable c) (hc : ¬ CanEnd c) (ord : HashOrd) (prob : Option Bytes) :
    ∃ e, Returns ord file prob (.err (.syntactic e)) ∧ e.pos = l ∧ (e.found = t ∨ e.found = shown t) := by
  obtain ⟨N, e, h6, h7, h8⟩ := (C65_wrong_token file c t l ⟨hf, hs, C93_never hu hw⟩).1 hc
  exact ⟨e, ⟨by simp, N, fun n hn => by unfold verify; rw [h6 n hn]; rfl⟩, h7, h8⟩

/-- C93: if the definition is complete before, the file is parsed, whatever follows. -/
theorem C93_complete {file : Bytes} {c : List Tk} (hf : Feeds (LexState.init file) c) (hw : Whole c) : ∃ a, Parses file a := by
  obtain ⟨a, b, r, h1, rfl⟩ := hw
  exact ⟨a, (C45_grammar file a).2 ⟨b, h1, hf.append⟩⟩

/-- C93: so there are three possibilities for a file that uses something unsupported. -/
theorem C93_cases {file : Bytes} {c : List Tk} {t : Token} {l : Nat} (hf : Feeds (LexState.init file) (c ++ [(t, l)]))
    (hu : Unsupported c t) (ord : HashOrd) (prob : Option Bytes) :
    (Whole c ∧ ∃ a, Parses file a) ∨ (∃ e, Returns ord file prob (.err (.syntactic e)) ∧ e.pos ≤ l) ∨
      Returns ord file prob (.panic .problemToken) := by
  by_cases hw : Whole c
  · exact .inl ⟨hw, C93_complete hf.append hw⟩
  · exact .inr (C93_reported hf hu hw ord prob)

/-! ### Instances -/

/-- The tokens of a file, computed. -/
def feedsRun (s : LexState) : List Tk → Bool
  | [] => true
  | (t, l) :: ts => match getToken s with
    | .tok t' s1 => t' == t && s1.line == l && feedsRun s1 ts
    | _ => false

theorem feeds_run {ts : List Tk} {s : LexState} (h : feedsRun s ts = true) : Feeds s ts := by
  induction ts generalizing s with
  | nil => trivial
  | cons x ts ih =>
    obtain ⟨t, l⟩ := x
    unfold feedsRun at h
    split at h
    · rename_i t' s1 h1
      simp only [Bool.and_eq_true, beq_iff_eq] at h
      exact ⟨s1, by rw [h1, h.1.1], h.1.2, ih h.2⟩
    · cases h

theorem not_whole {file : Bytes} {c : List Tk} {n : Nat} {e : PErr} (hf : Feeds (LexState.init file) c) (h : parse n file = .err e) :
    ¬ Whole c := by
  intro hw
  obtain ⟨a, N, ha⟩ := C93_complete hf hw
  have := ha (max n N) (by omega)
  rw [parse_fuel (by omega : n ≤ max n N) (by simp [h]), h] at this
  cases this

/-- A conditional effect. -/
def whenDomain : Bytes := b!"(define (domain d)\n(:action m :parameters ()\n:effect (and (p) (when (p) (q)))))\n"

/-- Its text up to the parenthesis after `when`. -/
def whenToks : List Tk :=
  [(lpar, 1), (.kw .define, 1), (lpar, 1), (.kw .domain, 1), (.ident b!"d", 1), (rpar, 1),
    (lpar, 2), (.kw .action, 2), (.ident b!"m", 2), (.kw .parameters, 2), (lpar, 2), (rpar, 2),
    (.kw .effect, 3), (lpar, 3), (.op .and, 3), (lpar, 3), (.ident b!"p", 3), (rpar, 3), (lpar, 3), (.ident b!"when", 3)]

omit [Env] in
/-- The conditional effect is reported, with the parenthesis after `when` and its line. -/
example : @Feeds Env.plain (LexState.init whenDomain) (whenToks ++ [(lpar, 3)]) ∧ Unsupported whenToks lpar ∧ ¬ Whole whenToks ∧
    @Returns Env.plain HashOrd.id whenDomain none (.err (.syntactic ⟨[.s "an identifier"], lpar, 3⟩)) := by
  have hf : @Feeds Env.plain (LexState.init whenDomain) (whenToks ++ [(lpar, 3)]) := @feeds_run Env.plain _ _ (by decide +kernel)
  exact ⟨hf, .nested (m := []) ⟨whenToks.dropLast.dropLast, 3, b!"when", 3, rfl, .nil⟩ (.inr rfl),
    @not_whole Env.plain whenDomain _ 200 (.syntactic ⟨[.s "an identifier"], lpar, 3⟩) (@Feeds.append Env.plain _ _ _ hf) (by decide +kernel),
    @returns_run Env.plain _ _ _ 200 _ (by decide +kernel) (by simp)⟩

/-- A choice of types. -/
def eitherDomain : Bytes := b!"(define (domain d)\n(:action m :parameters (?x - (either a b))\n:precondition (p)))\n"

def eitherToks : List Tk :=
  [(lpar, 1), (.kw .define, 1), (lpar, 1), (.kw .domain, 1), (.ident b!"d", 1), (rpar, 1),
    (lpar, 2), (.kw .action, 2), (.ident b!"m", 2), (.kw .parameters, 2), (lpar, 2), (.ident b!"x", 2), (.punct .dash, 2)]

omit [Env] in
example : @Feeds Env.plain (LexState.init eitherDomain) (eitherToks ++ [(lpar, 2)]) ∧ Unsupported eitherToks lpar ∧ ¬ Whole eitherToks ∧
    @Returns Env.plain HashOrd.id eitherDomain none (.err (.syntactic ⟨[.s "The type of objects"], lpar, 2⟩)) := by
  have hf : @Feeds Env.plain (LexState.init eitherDomain) (eitherToks ++ [(lpar, 2)]) := @feeds_run Env.plain _ _ (by decide +kernel)
  exact ⟨hf, .type (c' := eitherToks.dropLast) (l := 2) rfl (by simp),
    @not_whole Env.plain eitherDomain _ 200 (.syntactic ⟨[.s "The type of objects"], lpar, 2⟩) (@Feeds.append Env.plain _ _ _ hf) (by decide +kernel),
    @returns_run Env.plain _ _ _ 200 _ (by decide +kernel) (by simp)⟩

/-- A negated fact in the initial state. -/
def negatedFact : Bytes := b!"(define (problem x) (:domain d)\n(:init (p)\n(not (q))))\n"

def negatedToks : List Tk :=
  [(lpar, 1), (.kw .define, 1), (lpar, 1), (.kw .problem, 1), (.ident b!"x", 1), (rpar, 1), (lpar, 1), (.kw .domain, 1),
    (.ident b!"d", 1), (rpar, 1), (lpar, 2), (.kw .init, 2), (lpar, 2), (.ident b!"p", 2), (rpar, 2), (lpar, 3)]

omit [Env] in
example : @Feeds Env.plain (LexState.init negatedFact) (negatedToks ++ [(.op .not, 3)]) ∧ Unsupported negatedToks (.op .not) ∧
    ¬ Whole negatedToks ∧ @parse Env.plain 200 negatedFact = .err (.syntactic ⟨[.s "a predicate name"], .op .not, 3⟩) := by
  have hf : @Feeds Env.plain (LexState.init negatedFact) (negatedToks ++ [(.op .not, 3)]) := @feeds_run Env.plain _ _ (by decide +kernel)
  have hp : @parse Env.plain 200 negatedFact = .err (.syntactic ⟨[.s "a predicate name"], .op .not, 3⟩) := by decide +kernel
  exact ⟨hf, .operator (by decide), @not_whole Env.plain negatedFact _ 200 _ (@Feeds.append Env.plain _ _ _ hf) hp, hp⟩

omit [Env] in
/-- Implications and comparisons are never supported. -/
example (c : List Tk) : Unsupported c (.op .implication) ∧ Unsupported c (.op .gt) := by
  constructor <;> refine .operator ?_ <;> unfold operatorsAfter <;> split <;> simp

/-- The same condition without the inner parentheses. -/
def flatDomain : Bytes := b!"(define (domain d) (:predicates (p))\n(:action m :parameters (?x)\n:effect (when ?x ?x)))\n"

omit [Env] in
/-- Only the shape counts: without inner parentheses, `when` is an undeclared predicate. -/
theorem C93_flat : @Returns Env.plain HashOrd.id flatDomain none (.err (.semantic (.undefPredicate ⟨b!"when", 3⟩))) :=
  @returns_run Env.plain _ _ _ 200 _ (by decide +kernel) (by simp)

end Verif
