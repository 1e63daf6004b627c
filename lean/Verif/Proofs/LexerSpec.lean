import Verif.Proofs.Lexer

/-! What one call of the tokenizer does: soundness (`lex_tok_spec`, `lex_err_spec`) and completeness
(`getToken_written`). -/

namespace Verif

open Spec

theorem wordByte_not_newline {c : UInt8} (h : WordByte c) : c ≠ 10 := by
  rintro rfl; revert h; decide

theorem word_not_newline {w : Bytes} (h : Word w) : 10 ∉ w := fun hm => wordByte_not_newline (h 10 hm) rfl

theorem digit_word {c : UInt8} (h : Digit c) : WordByte c := .inr (.inr (.inl h))

theorem spells_not_newline {t : Token} {w : Bytes} (h : Spells t w) : 10 ∉ w := by
  cases h with
  | colon h => simpa using word_not_newline (colonTable_word _ h)
  | plain h => exact word_not_newline (plainTable_word _ h).1
  | variable_ h => simpa using word_not_newline h
  | name h => exact word_not_newline h.1
  | int _ h _ => exact word_not_newline fun c hc => digit_word (h c hc)
  | real _ h h' =>
    have h1 := word_not_newline fun c hc => digit_word (h c hc)
    have h2 := word_not_newline fun c hc => digit_word (h' c hc)
    simp only [List.mem_append, List.mem_cons]
    rintro (h | h | h)
    · exact h1 h
    · revert h; decide
    · exact h2 h
  | _ => decide

theorem spells_ne_nil {t : Token} {w : Bytes} (h : Spells t w) : w ≠ [] := by
  cases h with
  | plain h =>
    obtain ⟨_, c, r, hc, _⟩ := plainTable_word _ h
    simp only at hc
    simp [hc]
  | name h =>
    obtain ⟨c, r, hc, _⟩ := h.2.1
    simp [hc]
  | int h _ _ => exact h
  | real => simp
  | _ => simp

theorem textOf_not_newline {t : Token} {w : Bytes} (h : TextOf t w) : 10 ∉ w := by
  have h10 : Delim 10 := by decide
  cases h with
  | spells h => exact spells_not_newline h
  | variable_ h =>
    simp only [List.mem_cons, not_or]
    exact ⟨by decide, fun hm => h 10 hm h10⟩
  | name h _ => exact fun hm => h 10 hm h10
  | eof => simp

theorem ite_elim {α} {c : Prop} [Decidable c] {a b x : α} (h : (if c then a else b) = x) :
    (c ∧ a = x) ∨ (¬ c ∧ b = x) := by
  by_cases hc : c
  · rw [if_pos hc] at h; exact .inl ⟨hc, h⟩
  · rw [if_neg hc] at h; exact .inr ⟨hc, h⟩

/-! ### Soundness -/

theorem peekLexeme_ok {s l r : Bytes} (h : peekLexeme s = .ok l r) :
    s = l ++ r ∧ (∀ c ∈ l, ¬ Delim c) ∧ s ≠ [] := by
  cases s with
  | nil => simp [peekLexeme] at h
  | cons c cs =>
    simp only [peekLexeme] at h
    generalize hs : scanLexeme (c :: cs) = x at h
    obtain ⟨l', r', bad⟩ := x
    simp only at h
    split at h
    · split at h
      · cases h
      · cases h
        have h1 := scanLexeme_append (c :: cs)
        have h2 := scanLexeme_bytes (c :: cs)
        rw [hs] at h1 h2
        refine ⟨h1.symm, fun x hx hd => ?_, by simp⟩
        have := h2 x hx
        rw [(isLexemeByte_false_iff x).2 hd] at this
        cases this
    · cases h

theorem peekLexeme_eq {s l r : Bytes} (h : peekLexeme s = .ok l r) : (scanLexeme s).1 = l := by
  cases s with
  | nil => simp [peekLexeme] at h
  | cons c cs =>
    simp only [peekLexeme] at h
    generalize scanLexeme (c :: cs) = x at h
    obtain ⟨l', r', bad⟩ := x
    simp only at h
    split at h
    · split at h <;> cases h
      rfl
    · cases h

theorem peekLexeme_err {s l : Bytes} (h : peekLexeme s = .err l) : l <+: s ∧ 10 ∉ l := by
  cases s with
  | nil => simp [peekLexeme] at h
  | cons c cs =>
    simp only [peekLexeme] at h
    generalize hs : scanLexeme (c :: cs) = x at h
    obtain ⟨l', r', bad⟩ := x
    simp only at h
    split at h
    · split at h
      · cases h
        have h1 := scanLexeme_append (c :: cs)
        have h2 := scanLexeme_bytes (c :: cs)
        rw [hs] at h1 h2
        exact ⟨⟨r', h1⟩, newline_not_lexeme h2⟩
      · cases h
    · cases h

theorem scanNumber_true_shape (s : Bytes) :
    (scanNumber s true).2.2 = true ∧ ∀ c ∈ (scanNumber s true).1, Digit c := by
  induction s with
  | nil => simp [scanNumber]
  | cons c cs ih =>
    simp only [scanNumber]
    split
    · rename_i h
      refine ⟨ih.1, fun x hx => ?_⟩
      rcases List.mem_cons.1 hx with rfl | hx
      · exact (isDigit_iff _).1 h
      · exact ih.2 x hx
    · simp

theorem scanNumber_false_shape (s : Bytes) :
    ((scanNumber s false).2.2 = false ∧ ∀ c ∈ (scanNumber s false).1, Digit c) ∨
    ((scanNumber s false).2.2 = true ∧ ∃ w u, (scanNumber s false).1 = w ++ 46 :: u ∧ (∀ c ∈ w, Digit c) ∧
      ∀ c ∈ u, Digit c) := by
  induction s with
  | nil => simp [scanNumber]
  | cons c cs ih =>
    simp only [scanNumber]
    split
    · rename_i h
      rcases ih with ⟨h1, h2⟩ | ⟨h1, w, u, h2, h3, h4⟩
      · refine .inl ⟨h1, fun x hx => ?_⟩
        rcases List.mem_cons.1 hx with rfl | hx
        · exact (isDigit_iff _).1 h
        · exact h2 x hx
      · refine .inr ⟨h1, c :: w, u, by simp [h2], fun x hx => ?_, h4⟩
        rcases List.mem_cons.1 hx with rfl | hx
        · exact (isDigit_iff _).1 h
        · exact h3 x hx
    · split
      · rename_i h
        have hc : c = 46 := by simpa using h
        have := scanNumber_true_shape cs
        exact .inr ⟨this.1, [], _, by simp [hc], by simp, this.2⟩
      · simp

theorem peekNumber_ok {c : UInt8} {cs r : Bytes} {v : Num} (hc : isDigit c = true)
    (h : peekNumber (c :: cs) = .ok (v, r)) : ∃ w, c :: cs = w ++ r ∧ TextOf (.num v) w := by
  have ha := scanNumber_append (c :: cs) false
  have hne : ∃ l', (scanNumber (c :: cs) false).1 = c :: l' := by
    simp only [scanNumber, hc, if_true]; exact ⟨_, rfl⟩
  have hs := scanNumber_false_shape (c :: cs)
  unfold peekNumber at h
  generalize scanNumber (c :: cs) false = x at *
  obtain ⟨l, r', d⟩ := x
  obtain ⟨l', hne⟩ := hne
  simp only at ha hne hs
  rcases hs with ⟨rfl, hd⟩ | ⟨rfl, w, u, hl, hw, hu⟩
  · simp only at h
    split at h
    · rename_i hv
      rw [digitsVal_eq] at h hv
      cases h
      exact ⟨l, ha.symm, .spells (.int (by simp [hne]) hd hv)⟩
    · cases h
  · simp only at h
    cases h
    refine ⟨l, ha.symm, .spells ?_⟩
    have hw0 : w ≠ [] := by
      rintro rfl
      rw [hne] at hl
      have := (List.cons.inj hl).1
      subst this
      revert hc; decide
    rw [hl]
    exact .real hw0 hw hu

theorem peekNumber_err {s l : Bytes} (h : peekNumber s = .error l) : l <+: s := by
  have ha := scanNumber_append s false
  unfold peekNumber at h
  generalize scanNumber s false = x at *
  obtain ⟨l', r', d⟩ := x
  cases d
  · simp only at h
    split at h
    · cases h
    · cases h; exact ⟨r', ha⟩
  · cases h

/-- What a successful call does: all layout is skipped, then the text `w` of the token follows, then `r`. -/
theorem lex_tok_at [Env] {peek : Bool} {s s' : LexState} {t : Token} (h : lex peek s = .tok t s') :
    ∃ lay w r, Layout lay ∧ s.rest = lay ++ (w ++ r) ∧ TextOf t w ∧ s'.rest = (if peek then w ++ r else r) ∧
      s'.line = s.line + newlines lay ∧ (t = .eof ↔ w ++ r = []) ∧
      (w = [] → t ≠ .eof → t = .ident [] ∧ ∃ c, r = [c] ∧ ¬ Delim c ∧ c ≠ 59) ∧
      ∀ c cs, w ++ r = c :: cs → StartByte c := by
  unfold lex at h
  cases hsk : skipLayout s.rest s.line false with
  | none => rw [hsk] at h; cases h
  | some st =>
    obtain ⟨lay, hlay, hrest, hline, hstart⟩ := (skipLayout_spec s.rest s.line).1 st hsk
    obtain ⟨rst, n⟩ := st
    simp only at hrest hline
    rw [hsk] at h
    cases rst with
    | nil =>
      cases h
      exact ⟨lay, [], [], hlay, by simpa using hrest, .eof, by simp, hline, by simp, by simp, by simp⟩
    | cons c cs =>
      simp only at h
      -- the part of the goal that depends on the token only
      suffices hh : ∃ w r, c :: cs = w ++ r ∧ TextOf t w ∧ s'.rest = (if peek then c :: cs else r) ∧
          s'.line = n ∧ t ≠ .eof ∧ (w = [] → t = .ident [] ∧ ∃ c', c :: cs = [c'] ∧ ¬ Delim c' ∧ c' ≠ 59) by
        obtain ⟨w, r, h1, h2, h3, h4, h5, h6⟩ := hh
        refine ⟨lay, w, r, hlay, by rw [hrest, h1], h2, by rw [h3, h1], by rw [h4, hline],
          by rw [← h1]; simp [h5], fun hw _ => ?_, fun c' cs' he => ?_⟩
        · have := h6 hw
          rw [h1, hw, List.nil_append] at this
          exact this
        · rw [← h1] at he
          cases he
          rcases hstart with h | ⟨_, _, h, hs⟩
          · cases h
          · cases h; exact hs
      have ret : ∀ (t' : Token) (w : Bytes) (r : Bytes), c :: cs = w ++ r → TextOf t' w → t' ≠ .eof →
          (w = [] → t' = .ident [] ∧ ∃ c', c :: cs = [c'] ∧ ¬ Delim c' ∧ c' ≠ 59) →
          LexOut.tok t' (if peek then ⟨c :: cs, n⟩ else ⟨r, n⟩) = .tok t s' →
          ∃ w r, c :: cs = w ++ r ∧ TextOf t w ∧ s'.rest = (if peek then c :: cs else r) ∧
            s'.line = n ∧ t ≠ .eof ∧ (w = [] → t = .ident [] ∧ ∃ c', c :: cs = [c'] ∧ ¬ Delim c' ∧ c' ≠ 59) := by
        intro t' w r h1 h2 h3 h5 h4
        cases h4
        exact ⟨w, r, h1, h2, by cases peek <;> rfl, by cases peek <;> rfl, h3, h5⟩
      have pk : ∀ (r : Bytes), (if peek then (if peek then (⟨c :: cs, n⟩ : LexState) else ⟨cs, n⟩) else ⟨r, n⟩)
          = (if peek then ⟨c :: cs, n⟩ else ⟨r, n⟩) := by intro r; cases peek <;> rfl
      rcases ite_elim h with ⟨hc, h⟩ | ⟨hc0, h⟩
      · subst hc
        exact ret _ [45] cs rfl (.spells .dash) (by simp) (by simp) h
      rcases ite_elim h with ⟨hc, h⟩ | ⟨h40, h⟩
      · subst hc
        exact ret _ [40] cs rfl (.spells .lparen) (by simp) (by simp) h
      rcases ite_elim h with ⟨hc, h⟩ | ⟨h41, h⟩
      · subst hc
        exact ret _ [41] cs rfl (.spells .rparen) (by simp) (by simp) h
      rcases ite_elim h with ⟨hc, h⟩ | ⟨hc0, h⟩
      · subst hc
        cases peek with
        | true =>
          simp only [orderingType, if_true] at h
          split at h
          · rename_i heq; cases heq
          · cases h; exact ⟨[60], cs, rfl, .spells .lt, rfl, rfl, by simp, by simp⟩
        | false =>
          simp only [orderingType, Bool.false_eq_true, if_false] at h
          split at h
          · cases h
            exact ⟨[60, 61], _, rfl, .spells .le, rfl, rfl, by simp, by simp⟩
          · cases h; exact ⟨[60], cs, rfl, .spells .lt, rfl, rfl, by simp, by simp⟩
      rcases ite_elim h with ⟨hc, h⟩ | ⟨hc0, h⟩
      · subst hc
        cases peek with
        | true =>
          simp only [orderingType, if_true] at h
          split at h
          · rename_i heq; cases heq
          · cases h; exact ⟨[62], cs, rfl, .spells .gt, rfl, rfl, by simp, by simp⟩
        | false =>
          simp only [orderingType, Bool.false_eq_true, if_false] at h
          split at h
          · cases h
            exact ⟨[62, 61], _, rfl, .spells .ge, rfl, rfl, by simp, by simp⟩
          · cases h; exact ⟨[62], cs, rfl, .spells .gt, rfl, rfl, by simp, by simp⟩
      rcases ite_elim h with ⟨hc, h⟩ | ⟨hc0, h⟩
      · subst hc
        exact ret _ [61] cs rfl (.spells .equal) (by simp) (by simp) h
      rcases ite_elim h with ⟨hc, h⟩ | ⟨hc0, h⟩
      · subst hc
        split at h
        · cases h
        · cases h
        · rename_i l r hp
          obtain ⟨hl, hd, _⟩ := peekLexeme_ok hp
          rw [pk] at h
          exact ret _ (63 :: l) r (by rw [hl]; rfl) (.variable_ hd) (by simp) (by simp) h
      rcases ite_elim h with ⟨hc, h⟩ | ⟨hc0, h⟩
      · subst hc
        split at h
        · cases h
        · cases h
        · rename_i l r hp
          obtain ⟨hl, hd, _⟩ := peekLexeme_ok hp
          split at h
          · rename_i t' ht
            rw [pk] at h
            have hmem := (colonWord_iff _ _).1 ht
            refine ret _ (58 :: l) r (by rw [hl]; rfl) (.spells (.colon hmem)) ?_ (by simp) h
            have : ∀ p ∈ colonTable, p.2 ≠ .eof := by decide
            exact this _ hmem
          · cases h
      rcases ite_elim h with ⟨hc, h⟩ | ⟨hc0, h⟩
      · split at h
        · cases h
        · rename_i v r hp
          obtain ⟨w, hw, ht⟩ := peekNumber_ok hc hp
          rw [pk] at h
          refine ret _ w r hw ht (by simp) ?_ h
          rintro rfl
          cases ht with
          | spells ht => exact absurd rfl (spells_ne_nil ht)
      · split at h
        · cases h
        · cases h
        · rename_i l r hp
          obtain ⟨hl, hd, _⟩ := peekLexeme_ok hp
          split at h
          · rename_i t' ht
            rw [pk] at h
            have hmem := (plainWord_iff _ _).1 ht
            refine ret _ l r hl (.spells (.plain hmem)) ?_ ?_ h
            rotate_left
            · rintro rfl; simp [plainTable] at hmem
            have : ∀ p ∈ plainTable, p.2 ≠ .eof := by decide
            exact this _ hmem
          · rename_i ht
            split at h
            · rw [pk] at h
              refine ret _ l r hl (.name hd ((plainWord_none l).1 ht)) (by simp) ?_ h
              rintro rfl
              refine ⟨rfl, ?_⟩
              have hsb : StartByte c := by
                rcases hstart with h | ⟨c', cs', h, hs⟩
                · cases h
                · cases h; exact hs
              have hnd : ¬ Delim c := by
                rintro (h | h | h)
                · exact hsb.1 h
                · exact h40 h
                · exact h41 h
              cases cs with
              | nil => exact ⟨c, rfl, hnd, hsb.2⟩
              | cons d ds =>
                exfalso
                have hlb : isLexemeByte c = true := by
                  by_contra hh; exact hnd ((isLexemeByte_false_iff c).1 (by simpa using hh))
                have := peekLexeme_eq hp
                rw [scanLexeme, if_pos hlb] at this
                cases this
            · cases h

/-- `lex_tok_at` without the first byte behind the layout. -/
theorem lex_tok_spec [Env] {peek : Bool} {s s' : LexState} {t : Token} (h : lex peek s = .tok t s') :
    ∃ lay w r, Layout lay ∧ s.rest = lay ++ (w ++ r) ∧ TextOf t w ∧ s'.rest = (if peek then w ++ r else r) ∧
      s'.line = s.line + newlines lay ∧ (t = .eof ↔ w ++ r = []) ∧
      (w = [] → t ≠ .eof → t = .ident [] ∧ ∃ c, r = [c] ∧ ¬ Delim c ∧ c ≠ 59) := by
  obtain ⟨lay, w, r, h1, h2, h3, h4, h5, h6, h7, _⟩ := lex_tok_at h
  exact ⟨lay, w, r, h1, h2, h3, h4, h5, h6, h7⟩

/-- What a failing call does. -/
theorem lex_err_at [Env] {peek : Bool} {s s' : LexState} {e : LexError} (h : lex peek s = .err e s') :
    ∃ lay w, Layout lay ∧ s.rest = lay ++ (w ++ s'.rest) ∧ 10 ∉ w ∧ e.pos = s.line + newlines lay ∧
      s'.line = e.pos ∧ (e.lexeme <+: w ++ s'.rest ∨ (58 :: e.lexeme) <+: w ++ s'.rest ∨
        (63 :: e.lexeme) <+: w ++ s'.rest) ∧ (peek = false → w ≠ []) ∧
      ∃ c cs, w ++ s'.rest = c :: cs ∧ StartByte c := by
  unfold lex at h
  cases hsk : skipLayout s.rest s.line false with
  | none => rw [hsk] at h; cases h
  | some st =>
    obtain ⟨lay, hlay, hrest, hline, hst⟩ := (skipLayout_spec s.rest s.line).1 st hsk
    obtain ⟨rst, n⟩ := st
    simp only at hrest hline
    rw [hsk] at h
    cases rst with
    | nil => cases h
    | cons c cs =>
      simp only at h
      have hsb : StartByte c := by
        rcases hst with h | ⟨c', cs', h, hs⟩
        · cases h
        · cases h; exact hs
      have h10 : c ≠ 10 := by
        rcases hst with h | ⟨c', cs', h, hs⟩
        · cases h
        · cases h
          rintro rfl
          exact hs.1 (by decide)
      suffices hh : ∃ w, c :: cs = w ++ s'.rest ∧ 10 ∉ w ∧ e.pos = n ∧ s'.line = n ∧
          (e.lexeme <+: c :: cs ∨ (58 :: e.lexeme) <+: c :: cs ∨ (63 :: e.lexeme) <+: c :: cs) ∧
          (peek = false → w ≠ []) by
        obtain ⟨w, h1, h2, h3, h4, h5, h6⟩ := hh
        exact ⟨lay, w, hlay, by rw [hrest, h1], h2, by rw [h3, hline], by rw [h4, h3], by rw [← h1]; exact h5, h6, c, cs, h1.symm, hsb⟩
      have ret : ∀ (k : LexErrKind) (l w r : Bytes), c :: cs = w ++ r → 10 ∉ w → w ≠ [] →
          (l <+: c :: cs ∨ (58 :: l) <+: c :: cs ∨ (63 :: l) <+: c :: cs) →
          LexOut.err ⟨k, l, n⟩ (if peek then ⟨c :: cs, n⟩ else ⟨r, n⟩) = .err e s' →
          ∃ w, c :: cs = w ++ s'.rest ∧ 10 ∉ w ∧ e.pos = n ∧ s'.line = n ∧
          (e.lexeme <+: c :: cs ∨ (58 :: e.lexeme) <+: c :: cs ∨ (63 :: e.lexeme) <+: c :: cs) ∧
          (peek = false → w ≠ []) := by
        intro k l w r h1 h2 hw h3 h4
        cases h4
        cases peek with
        | true => exact ⟨[], rfl, by simp, rfl, rfl, h3, by simp⟩
        | false => exact ⟨w, h1, h2, rfl, rfl, h3, fun _ => hw⟩
      have pk : ∀ (r : Bytes), (if peek then (if peek then (⟨c :: cs, n⟩ : LexState) else ⟨cs, n⟩) else ⟨r, n⟩)
          = (if peek then ⟨c :: cs, n⟩ else ⟨r, n⟩) := by intro r; cases peek <;> rfl
      have nd : ∀ l : Bytes, (∀ c ∈ l, ¬ Delim c) → 10 ∉ l := fun l hl hm => hl 10 hm (by decide)
      iterate 3 (rcases ite_elim h with ⟨hc, h⟩ | ⟨hc0, h⟩; · cases h)
      iterate 2
        rcases ite_elim h with ⟨hc, h⟩ | ⟨hc0, h⟩
        · simp only [orderingType] at h
          split at h <;> cases h
      rcases ite_elim h with ⟨hc, h⟩ | ⟨hc0, h⟩
      · cases h
      rcases ite_elim h with ⟨hc, h⟩ | ⟨hc0, h⟩
      · subst hc
        split at h
        · cases h
        · rename_i l hp
          obtain ⟨hl, _⟩ := peekLexeme_err hp
          exact ret _ _ [63] cs rfl (by decide) (by simp) (.inr (.inr (List.prefix_cons_inj 63 |>.2 hl))) h
        · cases h
      rcases ite_elim h with ⟨hc, h⟩ | ⟨hc0, h⟩
      · subst hc
        split at h
        · cases h
        · rename_i l hp
          obtain ⟨hl, _⟩ := peekLexeme_err hp
          exact ret _ _ [58] cs rfl (by decide) (by simp) (.inr (.inl (List.prefix_cons_inj 58 |>.2 hl))) h
        · rename_i l r hp
          obtain ⟨hl, hd, _⟩ := peekLexeme_ok hp
          split at h
          · cases h
          · rw [pk] at h
            refine ret _ _ (58 :: l) r (by rw [hl]; rfl) ?_ (by simp) (.inr (.inl (List.prefix_cons_inj 58 |>.2 ⟨r, hl.symm⟩))) h
            simpa using nd l hd
      rcases ite_elim h with ⟨hc, h⟩ | ⟨hc0, h⟩
      · split at h
        · rename_i l hp
          exact ret _ _ [c] cs rfl (by simpa using h10.symm) (by simp) (.inl (peekNumber_err hp)) h
        · cases h
      · split at h
        · cases h
        · rename_i l hp
          exact ret _ _ [c] cs rfl (by simpa using h10.symm) (by simp) (.inl (peekLexeme_err hp).1) h
        · rename_i l r hp
          obtain ⟨hl, hd, _⟩ := peekLexeme_ok hp
          split at h
          · cases h
          · split at h
            · cases h
            · rename_i hi
              rw [pk] at h
              refine ret _ _ l r hl (nd l hd) ?_ (.inl ⟨r, hl.symm⟩) h
              rintro rfl
              exact hi rfl

/-- `lex_err_at` without the first byte behind the layout. -/
theorem lex_err_spec [Env] {peek : Bool} {s s' : LexState} {e : LexError} (h : lex peek s = .err e s') :
    ∃ lay w, Layout lay ∧ s.rest = lay ++ (w ++ s'.rest) ∧ 10 ∉ w ∧ e.pos = s.line + newlines lay ∧
      s'.line = e.pos ∧ (e.lexeme <+: w ++ s'.rest ∨ (58 :: e.lexeme) <+: w ++ s'.rest ∨
        (63 :: e.lexeme) <+: w ++ s'.rest) ∧ (peek = false → w ≠ []) := by
  obtain ⟨lay, w, h1, h2, h3, h4, h5, h6, h7, _⟩ := lex_err_at h
  exact ⟨lay, w, h1, h2, h3, h4, h5, h6, h7⟩

/-! ### Completeness -/

instance (c : UInt8) : Decidable (StartByte c) := by unfold StartByte; infer_instance

theorem lex_skip [Env] {lay : Bytes} (h : Layout lay) (peek : Bool) (r : Bytes) (n : Nat) :
    lex peek ⟨lay ++ r, n⟩ = lex peek ⟨r, n + newlines lay⟩ := by
  unfold lex
  simp only [skipLayout_layout h]

theorem nameStart {c : UInt8} (h : WordByte c) (hd : ¬ Digit c) (h45 : c ≠ 45) :
    StartByte c ∧ c ≠ 40 ∧ c ≠ 41 ∧ c ≠ 60 ∧ c ≠ 62 ∧ c ≠ 61 ∧ c ≠ 63 ∧ c ≠ 58 ∧ isDigit c = false := by
  have key : ∀ d : UInt8, ¬ WordByte d → c ≠ d := fun d hh e => hh (e ▸ h)
  refine ⟨⟨?_, key 59 (by decide)⟩, key _ (by decide), key _ (by decide), key _ (by decide), key _ (by decide),
    key _ (by decide), key _ (by decide), key _ (by decide), ?_⟩
  · intro hb
    simp only [Blank, List.mem_cons, List.not_mem_nil, or_false] at hb
    rcases hb with rfl | rfl | rfl | rfl <;> exact absurd h (by decide)
  · by_contra hh; exact hd ((isDigit_iff c).1 (by simpa using hh))

theorem digitStart {c : UInt8} (h : Digit c) :
    StartByte c ∧ c ≠ 45 ∧ c ≠ 40 ∧ c ≠ 41 ∧ c ≠ 60 ∧ c ≠ 62 ∧ c ≠ 61 ∧ c ≠ 63 ∧ c ≠ 58 := by
  have key : ∀ d : UInt8, ¬ Digit d → c ≠ d := fun d hh e => hh (e ▸ h)
  refine ⟨⟨?_, key 59 (by decide)⟩, key _ (by decide), key _ (by decide), key _ (by decide), key _ (by decide),
    key _ (by decide), key _ (by decide), key _ (by decide), key _ (by decide)⟩
  intro hb
  simp only [Blank, List.mem_cons, List.not_mem_nil, or_false] at hb
  rcases hb with rfl | rfl | rfl | rfl <;> exact absurd h (by decide)

/-- The branch of plain words. -/
theorem getToken_plain [Env] {w : Bytes} (hw : Word w) (hc : ∃ c r, w = c :: r ∧ ¬ Digit c ∧ c ≠ 45)
    {d : UInt8} (hd : Delim d) (r : Bytes) (n : Nat) :
    getToken ⟨w ++ d :: r, n⟩ = match plainWord w with
      | some t => .tok t ⟨d :: r, n⟩
      | none => .tok (.ident w) ⟨d :: r, n⟩ := by
  obtain ⟨c, u, rfl, hdg, h45⟩ := hc
  obtain ⟨hs, h1, h2, h3, h4, h5, h6, h7, h8⟩ := nameStart (hw c List.mem_cons_self) hdg h45
  have hp := peekLexeme_word hw hd r
  unfold getToken lex
  simp only [List.cons_append] at hp ⊢
  simp only [skipLayout_start hs, h45, h1, h2, h3, h4, h5, h6, h7, h8, if_false, hp, word_identCharsOk hw,
    if_true, Bool.false_eq_true]
  cases plainWord (c :: u) <;> rfl

theorem getToken_colon [Env] {w : Bytes} (hw : Word w) {d : UInt8} (hd : Delim d) (r : Bytes) (n : Nat) :
    getToken ⟨58 :: (w ++ d :: r), n⟩ = match colonWord w with
      | some t => .tok t ⟨d :: r, n⟩
      | none => .err ⟨.invalidKeyword, w, n⟩ ⟨d :: r, n⟩ := by
  have hs : StartByte 58 := ⟨by decide, by decide⟩
  have hp := peekLexeme_word hw hd r
  unfold getToken lex
  simp [skipLayout_start hs, hp]
  cases colonWord w <;> rfl

theorem getToken_var [Env] {w : Bytes} (hw : Word w) {d : UInt8} (hd : Delim d) (r : Bytes) (n : Nat) :
    getToken ⟨63 :: (w ++ d :: r), n⟩ = .tok (.ident w) ⟨d :: r, n⟩ := by
  have hs : StartByte 63 := ⟨by decide, by decide⟩
  have hp := peekLexeme_word hw hd r
  unfold getToken lex
  simp [skipLayout_start hs, hp]

theorem getToken_num [Env] {c : UInt8} {cs : Bytes} (hc : Digit c) (n : Nat) :
    getToken ⟨c :: cs, n⟩ = match peekNumber (c :: cs) with
      | .error l => .err ⟨.invalidIdentifier, l, n⟩ ⟨cs, n⟩
      | .ok (v, r) => .tok (.num v) ⟨r, n⟩ := by
  obtain ⟨hs, h0, h1, h2, h3, h4, h5, h6, h7⟩ := digitStart hc
  unfold getToken lex
  simp [skipLayout_start hs, h0, h1, h2, h3, h4, h5, h6, h7, (isDigit_iff c).2 hc]
  rcases peekNumber (c :: cs) with l | ⟨v, r⟩ <;> rfl

theorem follows_word {t : Token} {r : Bytes} (h : Follows t r) {w : Bytes}
    (ht : (w, t) ∈ colonTable ∨ (w, t) ∈ plainTable) : ∃ d r', r = d :: r' ∧ Delim d := by
  have key : ∀ x : Option UInt8, (∃ c, x = some c ∧ Delim c) → x = r.head? → ∃ d r', r = d :: r' ∧ Delim d := by
    rintro _ ⟨c, rfl, hc⟩ hx
    cases r with
    | nil => cases hx
    | cons a r => cases hx; exact ⟨c, r, rfl, hc⟩
  have hk : ∀ p ∈ colonTable ++ plainTable, (∃ k, p.2 = .kw k) ∨ (∃ k, p.2 = .req k) ∨
      p.2 ∈ [Token.op .and, .op .or, .op .xor, .op .not, .op .forall_, .op .exists_, .op .implication,
        .op .probabilistic] := by
    simp only [colonTable, plainTable, List.cons_append, List.nil_append, List.forall_mem_cons]
    simp
  have := hk (w, t) (by simpa using ht)
  rcases this with ⟨k, hk⟩ | ⟨k, hk⟩ | hk
  · simp only at hk; subst hk; exact key _ h rfl
  · simp only at hk; subst hk; exact key _ h rfl
  · simp only [List.mem_cons, List.not_mem_nil, or_false] at hk
    rcases hk with rfl | rfl | rfl | rfl | rfl | rfl | rfl | rfl <;> exact key _ h rfl

theorem follows_ident {x : Name} {r : Bytes} (h : Follows (.ident x) r) : ∃ d r', r = d :: r' ∧ Delim d := by
  obtain ⟨c, hc, hd⟩ := h
  cases r with
  | nil => cases hc
  | cons a r => cases hc; exact ⟨c, r, rfl, hd⟩

theorem getToken_spells [Env] {t : Token} {w rest : Bytes} (h : Spells t w) (hf : Follows t rest) (n : Nat) :
    getToken ⟨w ++ rest, n⟩ = .tok t ⟨rest, n⟩ := by
  have sb : ∀ c : UInt8, c ∈ [45, 40, 41, 60, 62, 61] → StartByte c := by decide
  cases h with
  | dash => simp [getToken, lex, skipLayout_start (sb 45 (by decide))]
  | lparen => simp [getToken, lex, skipLayout_start (sb 40 (by decide))]
  | rparen => simp [getToken, lex, skipLayout_start (sb 41 (by decide))]
  | equal => simp [getToken, lex, skipLayout_start (sb 61 (by decide))]
  | lt =>
    simp only [getToken, lex, List.cons_append, List.nil_append, skipLayout_start (sb 60 (by decide))]
    simp only [orderingType, Bool.false_eq_true, if_false]
    cases rest with
    | nil => rfl
    | cons d r =>
      have : d ≠ 61 := by simpa [Follows] using hf
      simp [this]
  | gt =>
    simp only [getToken, lex, List.cons_append, List.nil_append, skipLayout_start (sb 62 (by decide))]
    simp only [orderingType, Bool.false_eq_true, if_false]
    cases rest with
    | nil => rfl
    | cons d r =>
      have : d ≠ 61 := by simpa [Follows] using hf
      simp [this]
  | le => simp [getToken, lex, skipLayout_start (sb 60 (by decide)), orderingType, LexState.advance]
  | ge => simp [getToken, lex, skipLayout_start (sb 62 (by decide)), orderingType, LexState.advance]
  | colon ht =>
    obtain ⟨d, r, rfl, hd⟩ := follows_word hf (.inl ht)
    rw [List.cons_append, getToken_colon (colonTable_word _ ht) hd, (colonWord_iff _ _).2 ht]
  | plain ht =>
    obtain ⟨d, r, rfl, hd⟩ := follows_word hf (.inr ht)
    obtain ⟨h1, h2⟩ := plainTable_word _ ht
    rw [getToken_plain h1 h2 hd, (plainWord_iff _ _).2 ht]
  | variable_ hw =>
    obtain ⟨d, r, rfl, hd⟩ := follows_ident hf
    rw [List.cons_append, getToken_var hw hd]
  | name hw =>
    obtain ⟨d, r, rfl, hd⟩ := follows_ident hf
    rw [getToken_plain hw.1 hw.2.1 hd, (plainWord_none _).2 hw.2.2]
  | int hne hd hv =>
    obtain ⟨c, u, rfl⟩ := List.exists_cons_of_ne_nil hne
    rw [List.cons_append, getToken_num (hd c List.mem_cons_self), ← List.cons_append,
      peekNumber_int hd hf, if_pos hv]
  | @real w u hne hw hu =>
    obtain ⟨c, w', rfl⟩ := List.exists_cons_of_ne_nil hne
    have := peekNumber_real hw hu hf
    simp only [List.cons_append] at this ⊢
    rw [getToken_num (hw c List.mem_cons_self), this]

/-- A token written after layout is read. -/
theorem getToken_written [Env] {lay w rest : Bytes} {t : Token} (hl : Layout lay) (h : Spells t w)
    (hf : Follows t rest) (n : Nat) :
    getToken ⟨lay ++ (w ++ rest), n⟩ = .tok t ⟨rest, n + newlines lay⟩ := by
  have := lex_skip hl false (w ++ rest) n
  unfold getToken at *
  rw [this]
  exact getToken_spells h hf _

/-- At the end of the file. -/
theorem getToken_layout [Env] {lay : Bytes} (hl : Layout lay) (n : Nat) :
    getToken ⟨lay, n⟩ = .tok .eof ⟨[], n + newlines lay⟩ := by
  have := lex_skip hl false [] n
  simp only [List.append_nil] at this
  unfold getToken
  rw [this]
  rfl

/-! ### Peeking -/

/-- Where a peek leaves the tokenizer: at the start of the next token, from which everything reads as before. -/
theorem lex_peek_state [Env] {s s' : LexState} (h : (∃ t, lex true s = .tok t s') ∨ ∃ e, lex true s = .err e s')
    (peek : Bool) : lex peek s' = lex peek s := by
  have key : skipLayout s.rest s.line false = some s' := by
    rcases h with ⟨t, h⟩ | ⟨e, h⟩
    · unfold lex at h
      cases hsk : skipLayout s.rest s.line false with
      | none => rw [hsk] at h; cases h
      | some st =>
        obtain ⟨rst, n⟩ := st
        rw [hsk] at h
        cases rst with
        | nil => cases h; rfl
        | cons c cs =>
          simp only [if_true, orderingType] at h
          repeat' split at h
          all_goals first | (cases h; rfl) | cases h
    · unfold lex at h
      cases hsk : skipLayout s.rest s.line false with
      | none => rw [hsk] at h; cases h
      | some st =>
        obtain ⟨rst, n⟩ := st
        rw [hsk] at h
        cases rst with
        | nil => cases h
        | cons c cs =>
          simp only [if_true, orderingType] at h
          repeat' split at h
          all_goals first | (cases h; rfl) | cases h
  unfold lex
  rw [skipLayout_idem key, key]

end Verif
