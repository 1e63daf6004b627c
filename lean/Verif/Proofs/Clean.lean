import Verif.Proofs.Reads

/-! The tokenizer does not panic on valid UTF-8 that ends with a newline. -/

namespace Verif

open Spec

/-! ### UTF-8 -/

theorem isCont_ascii {c : UInt8} (h : c < 128) : isCont c = false := by
  unfold isCont
  have : ¬ (0x80 ≤ c) := by
    rw [UInt8.le_iff_toNat_le]
    rw [UInt8.lt_iff_toNat_lt] at h
    simp at h ⊢
    omega
  simp [this]

theorem decode_cons {c : UInt8} {r : Bytes} (h : c < 128) : (decodeUtf8 (c :: r)).isSome = (decodeUtf8 r).isSome := by
  rw [decodeUtf8.eq_def]
  simp [h]

theorem not_ge_ascii {c : UInt8} (h : c < 128) {k : UInt8} (hk : 128 ≤ k) : ¬ k ≤ c := by
  rw [UInt8.le_iff_toNat_le]
  rw [UInt8.lt_iff_toNat_lt] at h
  rw [UInt8.le_iff_toNat_le] at hk
  simp at h hk
  omega

/-- Valid UTF-8 can be cut at an ASCII byte. -/
theorem decode_split {c : UInt8} (hc : c < 128) (r : Bytes) : ∀ (n : Nat) (a : Bytes), a.length ≤ n →
    (decodeUtf8 (a ++ c :: r)).isSome → (decodeUtf8 a).isSome ∧ (decodeUtf8 (c :: r)).isSome := by
  have h1 := isCont_ascii hc
  have h2 : ¬ (0xA0 ≤ c) := not_ge_ascii hc (by decide)
  have h3 : ¬ (0x80 ≤ c) := not_ge_ascii hc (by decide)
  have h4 : ¬ (0x90 ≤ c) := not_ge_ascii hc (by decide)
  intro n
  induction n with
  | zero =>
    intro a ha h
    have : a = [] := List.length_eq_zero_iff.1 (Nat.le_zero.1 ha)
    subst this
    exact ⟨rfl, h⟩
  | succ n ih =>
    intro a ha h
    match a with
    | [] => exact ⟨rfl, h⟩
    | x :: a =>
      rw [List.cons_append, decodeUtf8.eq_def] at h
      rw [decodeUtf8.eq_def]
      simp only at h ⊢
      split at h
      · rename_i hx
        rw [if_pos hx]
        simp only [Option.isSome_map] at h ⊢
        exact ih a (by simp at ha; omega) h
      · rename_i hx
        rw [if_neg hx]
        match a with
        | [] =>
          exfalso
          simp only [List.nil_append, h1, Bool.and_false, Bool.false_eq_true, if_false] at h
          match r with
          | [] => simp at h
          | d :: r =>
            simp only [h2, h3, decide_false, Bool.and_false, Bool.false_and, Bool.or_false, Bool.false_eq_true,
              if_false] at h
            match r with
            | [] => simp at h
            | e :: r =>
              simp [h4] at h
        | b :: a =>
          simp only [List.cons_append] at h ⊢
          split at h
          · rename_i hb
            rw [if_pos hb]
            simp only [Option.isSome_map] at h ⊢
            exact ih a (by simp at ha; omega) h
          · rename_i hb
            rw [if_neg hb]
            match a with
            | [] =>
              exfalso
              simp only [List.nil_append, h1, Bool.and_false, Bool.false_eq_true, if_false] at h
              match r with
              | [] => simp at h
              | e :: r =>
                simp at h
            | d :: a =>
              simp only [List.cons_append] at h ⊢
              split at h
              · rename_i hd
                rw [if_pos hd]
                simp only [Option.isSome_map] at h ⊢
                exact ih a (by simp at ha; omega) h
              · rename_i hd
                rw [if_neg hd]
                match a with
                | [] =>
                  exfalso
                  simp [h1] at h
                | e :: a =>
                  simp only [List.cons_append] at h ⊢
                  split at h
                  · rename_i he
                    rw [if_pos he]
                    simp only [Option.isSome_map] at h ⊢
                    exact ih a (by simp at ha; omega) h
                  · simp at h

theorem decode_after {c : UInt8} (hc : c < 128) {a r : Bytes} (h : (decodeUtf8 (a ++ c :: r)).isSome) :
    (decodeUtf8 r).isSome := by
  have := (decode_split hc r _ a (Nat.le_refl _) h).2
  rwa [decode_cons hc] at this

theorem decode_drop {a r : Bytes} (ha : ∀ c ∈ a, c < 128) (h : (decodeUtf8 (a ++ r)).isSome) :
    (decodeUtf8 r).isSome := by
  induction a with
  | nil => exact h
  | cons c a ih =>
    rw [List.cons_append, decode_cons (ha c (by simp))] at h
    exact ih (fun x hx => ha x (by simp [hx])) h

theorem blank_ascii {c : UInt8} (h : Blank c) : c < 128 := by
  simp only [Blank, List.mem_cons, List.not_mem_nil, or_false] at h
  rcases h with rfl | rfl | rfl | rfl <;> decide

theorem delim_ascii {c : UInt8} (h : Delim c) : c < 128 := by
  rcases h with h | rfl | rfl
  · exact blank_ascii h
  · decide
  · decide

theorem digit_ascii {c : UInt8} (h : Digit c) : c < 128 := wordByte_lt (digit_word h)

theorem decode_layout {lay r : Bytes} (hl : Layout lay) (h : (decodeUtf8 (lay ++ r)).isSome) : (decodeUtf8 r).isSome := by
  induction hl with
  | nil => exact h
  | blank c l hc _ ih =>
    rw [List.cons_append, decode_cons (blank_ascii hc)] at h
    exact ih h
  | comment body l _ _ ih =>
    rw [List.cons_append, decode_cons (by decide), List.append_assoc, List.cons_append] at h
    exact ih (decode_after (by decide) h)

/-! ### Clean states -/

/-- Nothing remains, or the last byte is a newline. -/
def NlEnd (l : Bytes) : Prop := l = [] ∨ ∃ i, l = i ++ [10]

theorem NlEnd.suffix {a b : Bytes} (h : NlEnd (a ++ b)) : NlEnd b := by
  rcases h with h | ⟨i, h⟩
  · exact .inl (List.append_eq_nil_iff.1 h).2
  · by_cases hb : b = []
    · exact .inl hb
    · obtain ⟨j, d, rfl⟩ := List.eq_nil_or_concat b |>.resolve_left hb
      right
      have : i ++ [10] = (a ++ j) ++ [d] := by rw [← h]; simp
      have := (List.append_inj' this rfl).2
      cases this
      exact ⟨j, by simp⟩

/-- The rest of the file is valid UTF-8 and ends with a newline (or is empty). -/
def Clean (s : LexState) : Prop := (decodeUtf8 s.rest).isSome ∧ NlEnd s.rest

theorem skipLayout_none {l : Bytes} {n : Nat} {b : Bool} (h : skipLayout l n b = none) :
    (∀ i, l ≠ i ++ [10]) ∧ (l = [] → b = true) := by
  induction l generalizing n b with
  | nil => cases b <;> simp [skipLayout] at h ⊢
  | cons c cs ih =>
    have key : ∀ m b', skipLayout cs m b' = none → (c = 10 → b' = false) → ∀ i, c :: cs ≠ i ++ [10] := by
      intro m b' hm hb i he
      cases i with
      | nil =>
        simp only [List.nil_append, List.cons.injEq] at he
        have := (ih hm).2 he.2
        rw [hb he.1] at this
        cases this
      | cons x i =>
        simp only [List.cons_append, List.cons.injEq] at he
        exact (ih hm).1 i he.2
    refine ⟨?_, by simp⟩
    cases b with
    | true =>
      simp only [skipLayout] at h
      split at h
      · exact key _ _ h (fun _ => rfl)
      · rename_i hc
        exact key _ _ h (fun h => absurd h hc)
    | false =>
      simp only [skipLayout] at h
      split at h
      · rename_i hc
        exact key _ _ h (fun h => absurd (h.symm.trans hc) (by decide))
      · split at h
        · exact key _ _ h (fun _ => rfl)
        · cases h

theorem scanLexeme_stop {s : Bytes} (hne : s ≠ []) (he : NlEnd s) :
    ∃ d r, (scanLexeme s).2.1 = d :: r ∧ Delim d := by
  induction s with
  | nil => exact absurd rfl hne
  | cons c cs ih =>
    cases cs with
    | nil =>
      refine ⟨c, [], rfl, ?_⟩
      rcases he with he | ⟨i, he⟩
      · cases he
      · cases i with
        | nil => cases he; decide
        | cons x i => simp at he
    | cons d cs =>
      simp only [scanLexeme]
      split
      · obtain ⟨d', r', h, hd⟩ := ih (by simp) (NlEnd.suffix (a := [c]) he)
        exact ⟨d', r', h, hd⟩
      · rename_i hc
        exact ⟨c, d :: cs, rfl, (isLexemeByte_false_iff c).1 (by simpa using hc)⟩

/-- In a clean rest a lexeme can be scanned, and what follows is clean. -/
theorem peekLexeme_clean {s : Bytes} (hne : s ≠ []) (hv : (decodeUtf8 s).isSome) (he : NlEnd s) :
    (∃ l, peekLexeme s = .err l) ∨ ∃ l r, peekLexeme s = .ok l r ∧ (decodeUtf8 r).isSome ∧ NlEnd r := by
  cases s with
  | nil => exact absurd rfl hne
  | cons c cs =>
    obtain ⟨d, r, hs, hd⟩ := scanLexeme_stop hne he
    have ha := scanLexeme_append (c :: cs)
    rw [hs] at ha
    rw [← ha] at hv he
    obtain ⟨h1, h2⟩ := decode_split (delim_ascii hd) r _ _ (Nat.le_refl _) hv
    simp only [peekLexeme]
    generalize scanLexeme (c :: cs) = x at *
    obtain ⟨l', r', bad⟩ := x
    simp only at hs h1 he ⊢
    subst hs
    have hvu : validUtf8 l' = true := h1
    rw [hvu]
    cases bad with
    | true => exact .inl ⟨l', rfl⟩
    | false => exact .inr ⟨l', d :: r, rfl, h2, he.suffix⟩

theorem peekNumber_clean {s r : Bytes} {v : Num} (h : peekNumber s = .ok (v, r)) (hv : (decodeUtf8 s).isSome)
    (he : NlEnd s) : (decodeUtf8 r).isSome ∧ NlEnd r := by
  have h1 := scanNumber_append s false
  have h2 := scanNumber_bytes s false
  unfold peekNumber at h
  generalize scanNumber s false = x at *
  obtain ⟨l, r', d⟩ := x
  have hr : r' = r := by
    cases d with
    | true => simp only at h; cases h; rfl
    | false =>
      simp only at h
      split at h
      · cases h; rfl
      · cases h
  subst hr
  simp only at h1 h2
  rw [← h1] at hv he
  refine ⟨decode_drop (fun c hc => ?_) hv, he.suffix⟩
  rcases h2 c hc with h | rfl
  · exact digit_ascii h
  · decide

theorem cleanOut {x : LexOut} (h : (∃ t s', x = .tok t s' ∧ Clean s') ∨ ∃ e s', x = .err e s') :
    (∀ p, x ≠ .panic p) ∧ ∀ t s', x = .tok t s' → Clean s' := by
  rcases h with ⟨t, s', rfl, h2⟩ | ⟨e, s', rfl⟩
  · exact ⟨fun p hp => (by cases hp), fun t' s'' hx => (by cases hx; exact h2)⟩
  · exact ⟨fun p hp => (by cases hp), fun t' s'' hx => (by cases hx)⟩

/-- From a clean state the tokenizer does not panic, and after a token the state is clean. -/
theorem lex_clean [Env] (peek : Bool) {s : LexState} (h : Clean s) :
    (∀ p, lex peek s ≠ .panic p) ∧ ∀ t s', lex peek s = .tok t s' → Clean s' := by
  obtain ⟨hv, he⟩ := h
  cases hsk : skipLayout s.rest s.line false with
  | none =>
    exfalso
    obtain ⟨h1, h2⟩ := skipLayout_none hsk
    rcases he with he | ⟨i, he⟩
    · cases h2 he
    · exact h1 i he
  | some st =>
    obtain ⟨lay, hlay, hrest, _, _⟩ := (skipLayout_spec s.rest s.line).1 st hsk
    obtain ⟨rst, n⟩ := st
    simp only at hrest
    rw [hrest] at hv he
    replace hv := decode_layout hlay hv
    replace he := he.suffix
    unfold lex
    rw [hsk]
    cases rst with
    | nil => exact ⟨fun p => by simp, fun t s' h => by cases h; exact ⟨hv, he⟩⟩
    | cons c cs =>
      simp only
      -- every branch is a token with a clean state, or an error
      apply cleanOut
      have hcs : c < 128 → Clean ⟨cs, n⟩ := fun hc =>
        ⟨by rw [decode_cons hc] at hv; exact hv, NlEnd.suffix (a := [c]) he⟩
      have hst : c < 128 → Clean (if peek then ⟨c :: cs, n⟩ else ⟨cs, n⟩) := by
        intro hc
        cases peek with
        | true => exact ⟨hv, he⟩
        | false => exact hcs hc
      have hr : ∀ r, (decodeUtf8 r).isSome → NlEnd r → Clean
          (if peek then (if peek then ⟨c :: cs, n⟩ else ⟨cs, n⟩) else ⟨r, n⟩) := by
        intro r h1 h2
        cases peek with
        | true => exact ⟨hv, he⟩
        | false => exact ⟨h1, h2⟩
      have hne : c < 128 → c ≠ 10 → cs ≠ [] := by
        rintro _ hc rfl
        rcases he with he | ⟨i, he⟩
        · cases he
        · cases i with
          | nil => cases he; exact hc rfl
          | cons x i => simp at he
      have hord : c < 128 → ∀ one two, ∃ t s', orderingType one two peek
          (if peek then ⟨c :: cs, n⟩ else ⟨cs, n⟩) = LexOut.tok t s' ∧ Clean s' := by
        intro hc one two
        have h1 := hst hc
        unfold orderingType
        split
        · rename_i r heq
          refine ⟨_, _, rfl, ?_⟩
          cases peek with
          | true => exact h1
          | false =>
            simp only [Bool.false_eq_true, if_false] at heq h1 ⊢
            subst heq
            exact ⟨by have := h1.1; rw [decode_cons (by decide)] at this; exact this,
              NlEnd.suffix (a := [61]) h1.2⟩
        · exact ⟨_, _, rfl, h1⟩
      by_cases e1 : c = 45
      · subst e1; left; exact ⟨_, _, rfl, hst (by decide)⟩
      rw [if_neg e1]
      by_cases e2 : c = 40
      · subst e2; left; exact ⟨_, _, rfl, hst (by decide)⟩
      rw [if_neg e2]
      by_cases e3 : c = 41
      · subst e3; left; exact ⟨_, _, rfl, hst (by decide)⟩
      rw [if_neg e3]
      by_cases e4 : c = 60
      · subst e4; left; exact hord (by decide) _ _
      rw [if_neg e4]
      by_cases e5 : c = 62
      · subst e5; left; exact hord (by decide) _ _
      rw [if_neg e5]
      by_cases e6 : c = 61
      · subst e6; left; exact ⟨_, _, rfl, hst (by decide)⟩
      rw [if_neg e6]
      by_cases e7 : c = 63
      · subst e7
        rw [if_pos rfl]
        have h1 := hcs (by decide)
        rcases peekLexeme_clean (hne (by decide) (by decide)) h1.1 h1.2 with ⟨l, h⟩ | ⟨l, r, h, h2, h3⟩
        · right; rw [h]; exact ⟨_, _, rfl⟩
        · left; rw [h]; exact ⟨_, _, rfl, hr r h2 h3⟩
      rw [if_neg e7]
      by_cases e8 : c = 58
      · subst e8
        rw [if_pos rfl]
        have h1 := hcs (by decide)
        rcases peekLexeme_clean (hne (by decide) (by decide)) h1.1 h1.2 with ⟨l, h⟩ | ⟨l, r, h, h2, h3⟩
        · right; rw [h]; exact ⟨_, _, rfl⟩
        · rw [h]
          cases hw : colonWord l with
          | some t => left; simp only [hw]; exact ⟨_, _, rfl, hr r h2 h3⟩
          | none => right; simp only [hw]; exact ⟨_, _, rfl⟩
      rw [if_neg e8]
      by_cases e9 : isDigit c = true
      · rw [if_pos e9]
        cases hp : peekNumber (c :: cs) with
        | error l => right; exact ⟨_, _, rfl⟩
        | ok x =>
          obtain ⟨v, r⟩ := x
          left
          obtain ⟨h2, h3⟩ := peekNumber_clean hp hv he
          exact ⟨_, _, rfl, hr r h2 h3⟩
      rw [if_neg e9]
      rcases peekLexeme_clean (s := c :: cs) (by simp) hv he with ⟨l, h⟩ | ⟨l, r, h, h2, h3⟩
      · right; rw [h]; exact ⟨_, _, rfl⟩
      · rw [h]
        cases hw : plainWord l with
        | some t => left; simp only [hw]; exact ⟨_, _, rfl, hr r h2 h3⟩
        | none =>
          simp only [hw]
          cases identCharsOk l with
          | true => left; exact ⟨_, _, rfl, hr r h2 h3⟩
          | false => right; exact ⟨_, _, rfl⟩

end Verif
