import Mathlib.Data.List.Basic
import Mathlib.Tactic.Tauto
import Verif.Model.Lexer
import Verif.Spec.Lexical

/-! Lemmas about the tokenizer. -/

namespace Verif

open Spec

theorem isWs_iff (c : UInt8) : isWs c = true ↔ Blank c := by
  simp [isWs, Blank, or_assoc]

theorem isDigit_iff (c : UInt8) : isDigit c = true ↔ Digit c := by
  simp [isDigit, Digit]

theorem not_blank_59 : ¬ Blank 59 := by decide

theorem isLexemeByte_false_iff (c : UInt8) : isLexemeByte c = false ↔ Delim c := by
  simp [isLexemeByte, Delim, isWs_iff]; tauto

theorem newlines_nil : newlines [] = 0 := rfl

theorem newlines_append (a b : Bytes) : newlines (a ++ b) = newlines a + newlines b := by
  simp [newlines]

theorem newlines_cons (c : UInt8) (l : Bytes) : newlines (c :: l) = (if c = 10 then 1 else 0) + newlines l := by
  simp only [newlines, List.count_cons, beq_iff_eq]
  split <;> omega

theorem newlines_eq_zero (l : Bytes) : newlines l = 0 ↔ 10 ∉ l := by
  simp [newlines, List.count_eq_zero]

/-! ### Layout -/

/-- Skipping inside a comment. -/
theorem skipLayout_comment (body l : Bytes) (n : Nat) (h : 10 ∉ body) :
    skipLayout (body ++ 10 :: l) n true = skipLayout l (n + 1) false := by
  induction body with
  | nil => simp [skipLayout]
  | cons c body ih =>
    simp only [List.mem_cons, not_or] at h
    simp only [List.cons_append, skipLayout, if_neg (Ne.symm h.1)]
    exact ih h.2

theorem skipLayout_layout {lay : Bytes} (h : Layout lay) (rest : Bytes) (n : Nat) :
    skipLayout (lay ++ rest) n false = skipLayout rest (n + newlines lay) false := by
  induction h generalizing n with
  | nil => simp [newlines]
  | blank c l hc _ ih =>
    have h59 : c ≠ 59 := by rintro rfl; exact not_blank_59 hc
    simp only [List.cons_append, skipLayout, if_neg h59, (isWs_iff c).2 hc, if_true, ih, newlines_cons]
    split <;> simp [Nat.add_assoc]
  | comment body l hb _ ih =>
    have : (59 :: (body ++ 10 :: l)) ++ rest = 59 :: (body ++ 10 :: (l ++ rest)) := by simp
    rw [this]
    simp only [skipLayout, if_true, skipLayout_comment body _ n hb, ih, newlines_cons, newlines_append,
      (newlines_eq_zero body).2 hb]
    congr 1
    simp; omega

/-- A byte at which a token starts. -/
def StartByte (c : UInt8) : Prop := ¬ Blank c ∧ c ≠ 59

theorem skipLayout_start {c : UInt8} (h : StartByte c) (cs : Bytes) (n : Nat) :
    skipLayout (c :: cs) n false = some ⟨c :: cs, n⟩ := by
  have hw : isWs c = false := by
    by_contra hh; exact h.1 ((isWs_iff c).1 (by simpa using hh))
  simp [skipLayout, h.2, hw]

theorem skipLayout_nil (n : Nat) : skipLayout [] n false = some ⟨[], n⟩ := rfl

/-- What skipping does: it drops a layout, counts its newlines, and stops at the end or at a token. -/
theorem skipLayout_spec (l : Bytes) (n : Nat) :
    (∀ st, skipLayout l n false = some st → ∃ lay, Layout lay ∧ l = lay ++ st.rest ∧ st.line = n + newlines lay ∧
      (st.rest = [] ∨ ∃ c cs, st.rest = c :: cs ∧ StartByte c)) ∧
    (∀ st, skipLayout l n true = some st → ∃ body lay, 10 ∉ body ∧ Layout lay ∧ l = body ++ 10 :: (lay ++ st.rest) ∧
      st.line = n + 1 + newlines lay ∧ (st.rest = [] ∨ ∃ c cs, st.rest = c :: cs ∧ StartByte c)) := by
  induction l generalizing n with
  | nil =>
    constructor
    · intro st h
      simp only [skipLayout, Option.some.injEq] at h
      subst h
      exact ⟨[], .nil, by simp, by simp [newlines], .inl rfl⟩
    · intro st h; simp [skipLayout] at h
  | cons c cs ih =>
    constructor
    · intro st h
      simp only [skipLayout] at h
      split at h
      · rename_i h59
        obtain ⟨body, lay, hb, hl, he, hn, hs⟩ := (ih n).2 st h
        refine ⟨59 :: (body ++ 10 :: lay), .comment _ _ hb hl, ?_, ?_, hs⟩
        · simp [h59, he]
        · simp [newlines_cons, newlines_append, (newlines_eq_zero body).2 hb, hn, Nat.add_assoc]
      · split at h
        · rename_i h59 hw
          obtain ⟨lay, hl, he, hn, hs⟩ := (ih _).1 st h
          refine ⟨c :: lay, .blank _ _ ((isWs_iff c).1 hw) hl, by simp [he], ?_, hs⟩
          rw [hn, newlines_cons]; split <;> omega
        · rename_i h59 hw
          simp only [Option.some.injEq] at h
          subst h
          refine ⟨[], .nil, by simp, by simp [newlines], .inr ⟨c, cs, rfl, ?_, h59⟩⟩
          intro hb; exact hw ((isWs_iff c).2 hb)
    · intro st h
      simp only [skipLayout] at h
      split at h
      · rename_i h10
        obtain ⟨lay, hl, he, hn, hs⟩ := (ih _).1 st h
        exact ⟨[], lay, by simp, hl, by simp [he, h10], hn, hs⟩
      · rename_i h10
        obtain ⟨body, lay, hb, hl, he, hn, hs⟩ := (ih n).2 st h
        exact ⟨c :: body, lay, by simp [hb, Ne.symm h10], hl, by simp [he], hn, hs⟩

/-- Skipping a second time does nothing. -/
theorem skipLayout_idem {l : Bytes} {n : Nat} {st : LexState} (h : skipLayout l n false = some st) :
    skipLayout st.rest st.line false = some st := by
  obtain ⟨_, _, _, _, hs⟩ := (skipLayout_spec l n).1 st h
  cases st with
  | mk r m =>
    rcases hs with rfl | ⟨c, cs, rfl, hc⟩
    · rfl
    · exact skipLayout_start hc cs m

/-! ### Lexemes and numbers -/

theorem scanLexeme_append (s : Bytes) : (scanLexeme s).1 ++ (scanLexeme s).2.1 = s := by
  induction s using scanLexeme.induct with
  | case1 => simp [scanLexeme]
  | case2 c => simp [scanLexeme]
  | case3 c d cs h l r bad hs ih => 
    simp only [scanLexeme, h, if_true, hs] at ih ⊢
    simp only [List.cons_append, ih]
  | case4 c d cs h => simp [scanLexeme, h]

theorem scanLexeme_bytes (s : Bytes) : ∀ c ∈ (scanLexeme s).1, isLexemeByte c = true := by
  induction s using scanLexeme.induct with
  | case1 => simp [scanLexeme]
  | case2 c => simp [scanLexeme]
  | case3 c d cs h l r bad hs ih => 
    simp only [scanLexeme, h, if_true, hs] at ih ⊢
    intro x hx
    rcases List.mem_cons.1 hx with rfl | hx
    · exact h
    · exact ih x hx
  | case4 c d cs h => simp [scanLexeme, h]

theorem newline_not_lexeme {l : Bytes} (h : ∀ c ∈ l, isLexemeByte c = true) : 10 ∉ l := by
  intro hm; have := h 10 hm; revert this; decide

/-- The lexeme of a word followed by a delimiter. -/
theorem scanLexeme_word (w : Bytes) (c : UInt8) (r : Bytes) (hw : ∀ x ∈ w, isLexemeByte x = true)
    (hb : ∀ x ∈ w, isBadByte x = false) (hc : Delim c) : scanLexeme (w ++ c :: r) = (w, c :: r, false) := by
  have hc' : isLexemeByte c = false := (isLexemeByte_false_iff c).2 hc
  induction w with
  | nil =>
    cases r with
    | nil => simp [scanLexeme, isBadByte, hc']
    | cons d r => simp [scanLexeme, hc']
  | cons x w ih =>
    have ih := ih (fun y hy => hw y (List.mem_cons_of_mem _ hy)) (fun y hy => hb y (List.mem_cons_of_mem _ hy))
    have hx := hw x List.mem_cons_self
    have hbx := hb x List.mem_cons_self
    obtain ⟨d, ds, hd⟩ : ∃ d ds, w ++ c :: r = d :: ds := by
      cases w with
      | nil => exact ⟨c, r, rfl⟩
      | cons y w => exact ⟨y, w ++ c :: r, rfl⟩
    rw [List.cons_append, hd, scanLexeme, if_pos hx, ← hd, ih]
    simp [hbx]

theorem wordByte_lt {c : UInt8} (h : WordByte c) : c < 128 := by
  rcases h with h | h | h | h | h
  · exact UInt8.lt_of_le_of_lt h.2 (by decide)
  · exact UInt8.lt_of_le_of_lt h.2 (by decide)
  · exact UInt8.lt_of_le_of_lt h.2 (by decide)
  · rw [h]; decide
  · rw [h]; decide

theorem decode_ascii (w : Bytes) (h : ∀ c ∈ w, c < 128) : decodeUtf8 w = some (w.map (·.toNat)) := by
  induction w with
  | nil => rfl
  | cons c w ih =>
    have hc := h c List.mem_cons_self
    rw [decodeUtf8.eq_def]
    simp only [if_pos hc]
    rw [ih fun x hx => h x (List.mem_cons_of_mem _ hx)]
    simp

theorem word_decode {w : Bytes} (h : Word w) : decodeUtf8 w = some (w.map (·.toNat)) :=
  decode_ascii w fun c hc => wordByte_lt (h c hc)

theorem word_valid {w : Bytes} (h : Word w) : validUtf8 w = true := by
  simp [validUtf8, word_decode h]

theorem wordByte_alnum {c : UInt8} (h : WordByte c) : latin1Alnum c = true ∨ c = 95 ∨ c = 45 := by
  rcases h with h | h | h | h | h
  · left; simp [latin1Alnum, isLetter, h.1, h.2]
  · left; simp [latin1Alnum, isLetter, h.1, h.2]
  · left; simp [latin1Alnum, (isDigit_iff c).2 h]
  · tauto
  · tauto

theorem word_identCharsOk [Env] {w : Bytes} (h : Word w) : identCharsOk w = true := by
  simp only [identCharsOk, word_decode h, List.all_map, List.all_eq_true]
  intro c hc
  have hb := h c hc
  have hlt := wordByte_lt hb
  have : c.toNat < 256 := c.toNat_lt
  simp only [Function.comp, cpAlnum, if_pos this, UInt8.ofNat_toNat]
  rcases wordByte_alnum hb with h | h | h
  · simp [h]
  · subst h; rfl
  · subst h; rfl

theorem not_alnum_40 : latin1Alnum 40 = false := by decide

theorem alnum_lexeme {c : UInt8} (h : latin1Alnum c = true) : isLexemeByte c = true := by
  by_contra hh
  have hd := (isLexemeByte_false_iff c).1 (by simpa using hh)
  simp only [Delim, Blank, List.mem_cons, List.not_mem_nil, or_false] at hd
  rcases hd with (rfl | rfl | rfl | rfl) | rfl | rfl <;> revert h <;> decide

theorem word_lexeme {w : Bytes} (h : Word w) : ∀ x ∈ w, isLexemeByte x = true := by
  intro x hx
  rcases wordByte_alnum (h x hx) with h | rfl | rfl
  · exact alnum_lexeme h
  · decide
  · decide

theorem word_good {w : Bytes} (h : Word w) : ∀ x ∈ w, isBadByte x = false := by
  intro x hx
  rcases wordByte_alnum (h x hx) with h | rfl | rfl
  · simp [isBadByte, h]
  · decide
  · decide

theorem peekLexeme_word {w : Bytes} (h : Word w) {c : UInt8} (hc : Delim c) (r : Bytes) :
    peekLexeme (w ++ c :: r) = .ok w (c :: r) := by
  obtain ⟨d, ds, hd⟩ : ∃ d ds, w ++ c :: r = d :: ds := by
    cases w with
    | nil => exact ⟨c, r, rfl⟩
    | cons y w => exact ⟨y, w ++ c :: r, rfl⟩
  have := scanLexeme_word w c r (word_lexeme h) (word_good h) hc
  rw [hd] at this ⊢
  simp [peekLexeme, this, word_valid h]

theorem scanNumber_append (s : Bytes) (dot : Bool) : (scanNumber s dot).1 ++ (scanNumber s dot).2.1 = s := by
  induction s generalizing dot with
  | nil => simp [scanNumber]
  | cons c cs ih =>
    simp only [scanNumber]
    split
    · simpa using ih dot
    · split
      · simpa using ih true
      · simp

theorem scanNumber_bytes (s : Bytes) (dot : Bool) : ∀ c ∈ (scanNumber s dot).1, Digit c ∨ c = 46 := by
  induction s generalizing dot with
  | nil => simp [scanNumber]
  | cons c cs ih =>
    simp only [scanNumber]
    split
    · rename_i h
      intro x hx
      rcases List.mem_cons.1 hx with rfl | hx
      · exact .inl ((isDigit_iff _).1 h)
      · exact ih dot x hx
    · split
      · rename_i h
        intro x hx
        rcases List.mem_cons.1 hx with rfl | hx
        · right; simpa using (by simpa using h : x = 46 ∧ _).1
        · exact ih true x hx
      · simp

/-- Scanning digits. -/
theorem scanNumber_digits (w r : Bytes) (dot : Bool) (hw : ∀ c ∈ w, Digit c) :
    scanNumber (w ++ r) dot = ((w ++ (scanNumber r dot).1), (scanNumber r dot).2) := by
  induction w with
  | nil => simp
  | cons c w ih =>
    have hc := (isDigit_iff c).2 (hw c List.mem_cons_self)
    simp only [List.cons_append, scanNumber, if_pos hc, ih fun x hx => hw x (List.mem_cons_of_mem _ hx)]

theorem digit_not_dot {c : UInt8} (h : Digit c) : c ≠ 46 := by
  rintro rfl; revert h; decide

theorem scanNumber_stop (r : Bytes) (dot : Bool) (h : ∀ c, r.head? = some c → ¬ Digit c ∧ (dot = false → c ≠ 46)) :
    scanNumber r dot = ([], r, dot) := by
  cases r with
  | nil => rfl
  | cons c r =>
    have := h c rfl
    have hd : isDigit c = false := by
      by_contra hh; exact this.1 ((isDigit_iff c).1 (by simpa using hh))
    simp only [scanNumber, hd]
    cases dot
    · have := this.2 rfl
      simp [this]
    · simp

theorem digitsVal_foldl (w : Bytes) (a : Nat) :
    w.foldl (fun a c => a * 10 + (c.toNat - 48)) a = a * 10 ^ w.length + decimal w := by
  induction w generalizing a with
  | nil => simp [decimal]
  | cons c w ih =>
    simp only [List.foldl_cons, ih, decimal, List.length_cons, Nat.pow_succ]
    rw [Nat.add_mul, Nat.mul_assoc, Nat.mul_comm 10, Nat.add_assoc]

theorem digitsVal_eq (w : Bytes) : digitsVal w = decimal w := by
  simp [digitsVal, digitsVal_foldl]

theorem peekNumber_int {w r : Bytes} (hw : ∀ c ∈ w, Digit c)
    (hr : ∀ c, r.head? = some c → ¬ Digit c ∧ c ≠ 46) :
    peekNumber (w ++ r) = if decimal w < 2 ^ 63 then .ok (.int (decimal w), r) else .error w := by
  have := scanNumber_stop r false fun c h => ⟨(hr c h).1, fun _ => (hr c h).2⟩
  simp [peekNumber, scanNumber_digits w r false hw, this, digitsVal_eq]

theorem peekNumber_real {w u r : Bytes} (hw : ∀ c ∈ w, Digit c) (hu : ∀ c ∈ u, Digit c)
    (hr : ∀ c, r.head? = some c → ¬ Digit c) :
    peekNumber (w ++ 46 :: u ++ r) = .ok (.real (w ++ 46 :: u), r) := by
  have h1 := scanNumber_stop r true fun c h => ⟨hr c h, by simp⟩
  have h2 := scanNumber_digits u r true hu
  have h46 : isDigit 46 = false := by decide
  simp [peekNumber, scanNumber_digits w _ false hw, scanNumber, h46, h2, h1]

/-! ### Reserved words -/

private theorem ite_some {α} {c : Prop} [Decidable c] {a t : α} {b : Option α}
    (h : (if c then some a else b) = some t) : (c ∧ a = t) ∨ b = some t := by
  by_cases hc : c
  · rw [if_pos hc] at h; exact .inl ⟨hc, Option.some.inj h⟩
  · rw [if_neg hc] at h; exact .inr h

theorem colonWord_iff (l : Bytes) (t : Token) : colonWord l = some t ↔ (l, t) ∈ colonTable := by
  constructor
  · intro h
    unfold colonWord at h
    repeat (rcases ite_some h with ⟨hc, ht⟩ | h; · subst ht; first | (subst hc; simp [colonTable]) | (rcases hc with rfl | rfl <;> simp [colonTable]))
    cases h
  · intro h
    have : ∀ p ∈ colonTable, colonWord p.1 = some p.2 := by decide
    exact this _ h

theorem plainWord_iff (l : Bytes) (t : Token) : plainWord l = some t ↔ (l, t) ∈ plainTable := by
  constructor
  · intro h
    unfold plainWord at h
    repeat (rcases ite_some h with ⟨hc, ht⟩ | h; · subst ht; (subst hc; simp [plainTable]))
    cases h
  · intro h
    have : ∀ p ∈ plainTable, plainWord p.1 = some p.2 := by decide
    exact this _ h

theorem plainWord_none (l : Bytes) : plainWord l = none ↔ ∀ t, (l, t) ∉ plainTable := by
  constructor
  · intro h t ht; rw [← plainWord_iff, h] at ht; simp at ht
  · intro h
    cases hp : plainWord l with
    | none => rfl
    | some t => exact absurd ((plainWord_iff l t).1 hp) (h t)

theorem colonWord_none (l : Bytes) : colonWord l = none ↔ ∀ t, (l, t) ∉ colonTable := by
  constructor
  · intro h t ht; rw [← colonWord_iff, h] at ht; simp at ht
  · intro h
    cases hp : colonWord l with
    | none => rfl
    | some t => exact absurd ((colonWord_iff l t).1 hp) (h t)

theorem colonTable_word : ∀ p ∈ colonTable, Word p.1 := by decide
theorem plainTable_word : ∀ p ∈ plainTable, Word p.1 ∧ ∃ c r, p.1 = c :: r ∧ ¬ Digit c ∧ c ≠ 45 := by
  intro p hp
  have h1 : ∀ p ∈ plainTable, Word p.1 := by decide
  have h2 : ∀ p ∈ plainTable, p.1 ≠ [] ∧ ∀ c, p.1.head? = some c → ¬ Digit c ∧ c ≠ 45 := by
    simp only [plainTable, List.forall_mem_cons, List.head?_cons, Option.some.injEq, forall_eq', ne_eq]
    decide
  refine ⟨h1 p hp, ?_⟩
  obtain ⟨hne, hc⟩ := h2 p hp
  obtain ⟨c, r, he⟩ := List.exists_cons_of_ne_nil hne
  exact ⟨c, r, he, hc c (by simp [he])⟩

end Verif
