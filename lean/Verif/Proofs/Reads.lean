import Verif.Proofs.LexerSpec

/-! Histories of tokenizer calls and sequences of tokens read. -/

namespace Verif

open Spec

variable [Env]

/-- `Reads s ts s'`: successive `get_token` calls from `s` return the tokens `ts`, each with the line reported after
the call, and leave the tokenizer in `s'`. -/
inductive Reads : LexState → List (Token × Nat) → LexState → Prop
  | nil {s} : Reads s [] s
  | cons {s s1 s2 t ts} : getToken s = .tok t s1 → Reads s1 ts s2 → Reads s ((t, s1.line) :: ts) s2

/-- States of the tokenizer after any mixture of `get_token` and `lookahead` calls (successful or not) on a file. -/
inductive Reachable (file : Bytes) : LexState → Prop
  | init : Reachable file (LexState.init file)
  | tok {s s' t} (peek : Bool) : Reachable file s → lex peek s = .tok t s' → Reachable file s'
  | err {s s' e} (peek : Bool) : Reachable file s → lex peek s = .err e s' → Reachable file s'

/-- Any number of `lookahead` calls. -/
inductive Peeks : LexState → LexState → Prop
  | refl {s} : Peeks s s
  | tok {s s1 s2 t} : lookahead s = .tok t s1 → Peeks s1 s2 → Peeks s s2
  | err {s s1 s2 e} : lookahead s = .err e s1 → Peeks s1 s2 → Peeks s s2

theorem Reads.append {s s1 s2 : LexState} {a b : List (Token × Nat)} (h : Reads s a s1) (h' : Reads s1 b s2) :
    Reads s (a ++ b) s2 := by
  induction h with
  | nil => exact h'
  | cons h _ ih => exact .cons h (ih h')

theorem Reads.split {s s2 : LexState} {a b : List (Token × Nat)} (h : Reads s (a ++ b) s2) :
    ∃ s1, Reads s a s1 ∧ Reads s1 b s2 := by
  induction a generalizing s with
  | nil => exact ⟨s, .nil, h⟩
  | cons x a ih =>
    cases h with
    | cons h1 h2 =>
      obtain ⟨s1, h3, h4⟩ := ih h2
      exact ⟨s1, .cons h1 h3, h4⟩

theorem Reads.det {s s1 s2 : LexState} {a : List (Token × Nat)} (h : Reads s a s1) (h' : Reads s a s2) : s1 = s2 := by
  induction a generalizing s with
  | nil => cases h; cases h'; rfl
  | cons x a ih =>
    cases h with
    | cons h1 h2 =>
      generalize hx : (_, _) :: a = b at h'
      cases h' with
      | nil => cases hx
      | cons h3 h4 =>
        rw [h1] at h3
        cases h3
        cases hx
        exact ih h2 h4

/-- The part of the file before the cursor accounts for the line counter. -/
def At (file : Bytes) (s : LexState) : Prop := ∃ pre, file = pre ++ s.rest ∧ s.line = 1 + newlines pre

theorem At.tok {file : Bytes} {s s' : LexState} {t : Token} {peek : Bool} (h : At file s)
    (hl : lex peek s = .tok t s') : At file s' := by
  obtain ⟨pre, hf, hn⟩ := h
  obtain ⟨lay, w, r, _, hr, ht, hs, hl', _⟩ := lex_tok_spec hl
  cases peek with
  | true =>
    refine ⟨pre ++ lay, by rw [hf, hr, hs]; simp, ?_⟩
    rw [hl', hn, newlines_append, Nat.add_assoc]
  | false =>
    refine ⟨pre ++ lay ++ w, by rw [hf, hr, hs]; simp, ?_⟩
    rw [hl', hn, newlines_append, newlines_append, (newlines_eq_zero w).2 (textOf_not_newline ht)]
    omega

theorem At.err {file : Bytes} {s s' : LexState} {e : LexError} {peek : Bool} (h : At file s)
    (hl : lex peek s = .err e s') : At file s' := by
  obtain ⟨pre, hf, hn⟩ := h
  obtain ⟨lay, w, _, hr, hw, hp, hl', _⟩ := lex_err_spec hl
  refine ⟨pre ++ lay ++ w, by rw [hf, hr]; simp, ?_⟩
  rw [hl', hp, hn, newlines_append, newlines_append, (newlines_eq_zero w).2 hw]
  omega

theorem Reachable.at {file : Bytes} {s : LexState} (h : Reachable file s) : At file s := by
  induction h with
  | init => exact ⟨[], rfl, rfl⟩
  | tok peek _ hl ih => exact ih.tok hl
  | err peek _ hl ih => exact ih.err hl

theorem Reads.reachable {file : Bytes} {s s' : LexState} {ts : List (Token × Nat)} (h : Reachable file s)
    (hr : Reads s ts s') : Reachable file s' := by
  induction hr with
  | nil => exact h
  | cons h1 _ ih => exact ih (.tok false h h1)

theorem Spec.Written.reads {ts : List (Token × Nat)} {n : Nat} {file : Bytes} (h : Written ts n file) :
    ∃ s', Reads ⟨file, n⟩ ts s' ∧ getToken s' = .tok .eof ⟨[], n + newlines file⟩ := by
  induction h with
  | done h => exact ⟨_, .nil, getToken_layout h _⟩
  | token hl hs hf _ ih =>
    obtain ⟨s', h1, h2⟩ := ih
    refine ⟨s', .cons (getToken_written hl hs hf _) h1, ?_⟩
    rw [h2, newlines_append, newlines_append, (newlines_eq_zero _).2 (spells_not_newline hs)]
    congr 2; omega

theorem getToken_eof (n : Nat) : getToken ⟨[], n⟩ = .tok .eof ⟨[], n⟩ := rfl

/-- Two calls on the same state, one reading and one peeking: same token, except that `<=` and `>=` are peeked as `<`
and `>`. -/
theorem lex_peek_get (s : LexState) :
    (∀ t s1, lex true s = .tok t s1 → (∃ s2, lex false s = .tok t s2) ∨
      ∃ lay r s2, Layout lay ∧ ((s.rest = lay ++ 60 :: 61 :: r ∧ t = .op .lt ∧ lex false s = .tok (.op .le) s2) ∨
        (s.rest = lay ++ 62 :: 61 :: r ∧ t = .op .gt ∧ lex false s = .tok (.op .ge) s2))) ∧
    (∀ e s1, lex true s = .err e s1 → ∃ s2, lex false s = .err e s2) ∧
    (∀ p, lex true s = .panic p → lex false s = .panic p) := by
  unfold lex
  cases hsk : skipLayout s.rest s.line false with
  | none => simp
  | some st =>
    obtain ⟨lay, hlay, hrest, hline, hstart⟩ := (skipLayout_spec s.rest s.line).1 st hsk
    obtain ⟨rst, n⟩ := st
    simp only at hrest hline
    cases rst with
    | nil => simp
    | cons c cs =>
      simp only [if_true]
      by_cases h1 : c = 45
      · simp [h1]
      by_cases h2 : c = 40
      · simp [h2]
      by_cases h3 : c = 41
      · simp [h3]
      by_cases h4 : c = 60
      · subst h4
        simp only [h1, h2, h3, if_true, if_false, orderingType]
        refine ⟨fun t s1 h => ?_, fun e s1 h => (by cases h), fun p h => (by cases h)⟩
        cases h
        cases cs with
        | nil => exact .inl ⟨_, rfl⟩
        | cons d ds =>
          by_cases hd : d = 61
          · subst hd
            exact .inr ⟨lay, ds, _, hlay, .inl ⟨hrest, rfl, rfl⟩⟩
          · simp [hd]
      by_cases h5 : c = 62
      · subst h5
        simp only [h1, h2, h3, h4, if_true, if_false, orderingType]
        refine ⟨fun t s1 h => ?_, fun e s1 h => (by cases h), fun p h => (by cases h)⟩
        cases h
        cases cs with
        | nil => exact .inl ⟨_, rfl⟩
        | cons d ds =>
          by_cases hd : d = 61
          · subst hd
            exact .inr ⟨lay, ds, _, hlay, .inr ⟨hrest, rfl, rfl⟩⟩
          · simp [hd]
      by_cases h6 : c = 61
      · simp [h6]
      by_cases h7 : c = 63
      · simp only [h1, h2, h3, h4, h5, h6, if_false, if_pos h7]
        cases peekLexeme cs <;> simp
      by_cases h8 : c = 58
      · simp only [h1, h2, h3, h4, h5, h6, h7, if_false, if_pos h8]
        rcases peekLexeme cs with ⟨l, r⟩ | l | p
        · cases hcw : colonWord l <;> simp [hcw]
        · simp
        · simp
      by_cases h9 : isDigit c = true
      · simp only [h1, h2, h3, h4, h5, h6, h7, h8, if_false, if_pos h9]
        rcases peekNumber (c :: cs) with l | ⟨v, r⟩ <;> simp
      · simp only [h1, h2, h3, h4, h5, h6, h7, h8, if_false, if_neg h9]
        rcases peekLexeme (c :: cs) with ⟨l, r⟩ | l | p
        · cases hcw : plainWord l
          · by_cases hi : identCharsOk l = true <;> simp [hcw, hi]
          · simp [hcw]
        · simp
        · simp

/-! ### Progress -/

/-- The rest of the file is empty or ends with a blank or a parenthesis. -/
def Good (s : LexState) : Prop := s.rest = [] ∨ ∃ i c, s.rest = i ++ [c] ∧ Delim c

omit [Env] in
theorem Good.suffix {s : LexState} {a b : Bytes} {n : Nat} (h : Good s) (he : s.rest = a ++ b) : Good ⟨b, n⟩ := by
  rcases h with h | ⟨i, c, h, hc⟩
  · rw [h] at he
    exact .inl (List.append_eq_nil_iff.1 he.symm).2
  · by_cases hb : b = []
    · exact .inl hb
    · obtain ⟨j, d, rfl⟩ := List.eq_nil_or_concat b |>.resolve_left hb
      right
      refine ⟨j, d, by simp, ?_⟩
      have : i ++ [c] = (a ++ j) ++ [d] := by rw [← h, he]; simp
      have := (List.append_inj' this rfl).2
      cases this
      exact hc

omit [Env] in
theorem Good.init {file : Bytes} (h : file = [] ∨ ∃ c, file.getLast? = some c ∧ Delim c) : Good (LexState.init file) := by
  rcases h with rfl | ⟨c, h, hc⟩
  · exact .inl rfl
  · rw [List.getLast?_eq_some_iff] at h
    obtain ⟨i, rfl⟩ := h
    exact .inr ⟨i, c, rfl, hc⟩

/-- From a good state every token except end of file consumes something, and the state stays good. -/
theorem Good.getToken {s s' : LexState} {t : Token} (hg : Good s) (h : getToken s = .tok t s') :
    Good s' ∧ (t = .eof ∨ s'.rest.length < s.rest.length) := by
  obtain ⟨lay, w, r, hlay, hr, ht, hs, hl, he, hw⟩ := lex_tok_spec h
  simp only [Bool.false_eq_true, if_false] at hs
  have hg' : Good s' := by
    obtain ⟨r', n'⟩ := s'
    simp only at hs
    subst hs
    exact hg.suffix (a := lay ++ w) (by rw [hr]; simp)
  refine ⟨hg', ?_⟩
  by_cases hte : t = .eof
  · exact .inl hte
  · right
    by_cases hw0 : w = []
    · exfalso
      obtain ⟨_, c, hc, hnd, _⟩ := hw hw0 hte
      rcases hg' with h0 | ⟨i, d, h0, hd⟩
      · rw [hs, hc] at h0; cases h0
      · rw [hs, hc] at h0
        have : [] ++ [c] = i ++ [d] := h0
        have := (List.append_inj' this rfl).2
        cases this
        exact hnd hd
    · rw [hr, hs]
      have := List.length_pos_iff.2 hw0
      simp only [List.length_append]
      omega

theorem Good.lookahead {s s' : LexState} {t : Token} (hg : Good s) (h : lookahead s = .tok t s') :
    Good s' ∧ s'.rest.length ≤ s.rest.length := by
  obtain ⟨lay, w, r, hlay, hr, ht, hs, hl, he, hw⟩ := lex_tok_spec h
  simp only [if_true] at hs
  obtain ⟨r', n'⟩ := s'
  simp only at hs
  subst hs
  exact ⟨hg.suffix hr, by rw [hr]; simp⟩

end Verif
