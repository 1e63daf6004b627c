import Verif.Model.Cursor
import Verif.Proofs.LexerSpec
import Mathlib.Tactic.Set

/-! The tokenizer with an absolute cursor behaves like the one that holds the unread rest of the file. -/

namespace Verif

open Spec

theorem at_append (pre : Bytes) (b : UInt8) (l : Bytes) : (pre ++ b :: l)[pre.length]? = some b := by simp

theorem at_end (pre : Bytes) : (pre ++ ([] : Bytes))[pre.length]? = none := by simp

theorem snoc_eq (pre : Bytes) (b : UInt8) (l : Bytes) : pre ++ b :: l = (pre ++ [b]) ++ l := by simp

theorem skip_nil (chk : Bool) (pre : Bytes) (n : UInt32) :
    Cursor.skip chk (pre ++ []) ⟨pre.length, n⟩ = .ok ⟨pre.length, n⟩ := by
  rw [Cursor.skip]
  simp

theorem skip_cons (chk : Bool) (pre : Bytes) (b : UInt8) (l : Bytes) (n : UInt32) :
    Cursor.skip chk (pre ++ b :: l) ⟨pre.length, n⟩ =
      if !isWs b then .ok ⟨pre.length, n⟩
      else if b = 10 then
        if chk && n == 0xFFFFFFFF then .error .overflow
        else Cursor.skip chk ((pre ++ [b]) ++ l) ⟨(pre ++ [b]).length, n + 1⟩
      else Cursor.skip chk ((pre ++ [b]) ++ l) ⟨(pre ++ [b]).length, n⟩ := by
  rw [Cursor.skip]
  rw [if_neg (by simp)]
  split
  · rename_i h; simp at h
  · rename_i b' h
    rw [at_append] at h
    cases h
    simp

theorem line_succ (N : Nat) : UInt32.ofNat N + 1 = UInt32.ofNat (N + 1) := by
  rw [UInt32.ofNat_add]
  rfl

theorem line_max {N : Nat} (h : N + 1 < 2 ^ 32) : UInt32.ofNat N ≠ 0xFFFFFFFF := by
  intro he
  have := congrArg UInt32.toNat he
  simp at this
  omega

/-- Skipping blanks. -/
theorem skip_blanks (chk : Bool) (l : Bytes) : ∀ (pre : Bytes) (N : Nat), (chk = true → N + newlines l < 2 ^ 32) →
    ∃ w r, l = w ++ r ∧
      Cursor.skip chk (pre ++ l) ⟨pre.length, UInt32.ofNat N⟩ =
        .ok ⟨(pre ++ w).length, UInt32.ofNat (N + newlines w)⟩ ∧
      skipLayout l N false = skipLayout r (N + newlines w) false ∧
      ∀ b r', r = b :: r' → isWs b = false := by
  induction l with
  | nil =>
    intro pre N _
    exact ⟨[], [], rfl, by rw [skip_nil]; simp [newlines], by simp [newlines], by simp⟩
  | cons b l ih =>
    intro pre N hn
    rw [newlines_cons] at hn
    rw [skip_cons]
    cases hw : isWs b with
    | false =>
      refine ⟨[], b :: l, rfl, by simp [newlines], by simp [newlines], ?_⟩
      rintro _ _ ⟨⟩
      exact hw
    | true =>
      have h59 : b ≠ 59 := by rintro rfl; revert hw; decide
      rw [if_neg (by simp)]
      by_cases hb : b = 10
      · subst hb
        rw [if_pos rfl] at hn
        obtain ⟨w, r, h1, h2, h3, h4⟩ := ih (pre ++ [10]) (N + 1) (fun h => by have := hn h; omega)
        have e : N + newlines (10 :: w) = N + 1 + newlines w := by rw [newlines_cons, if_pos rfl]; omega
        refine ⟨10 :: w, r, by rw [h1]; rfl, ?_, ?_, h4⟩
        · rw [if_pos rfl, if_neg, line_succ, h2, e]
          · simp
          · simp only [Bool.and_eq_true, beq_iff_eq, not_and]
            intro h
            exact line_max (by have := hn h; omega)
        · rw [e, ← h3]
          simp [skipLayout, isWs]
      · rw [if_neg hb] at hn
        obtain ⟨w, r, h1, h2, h3, h4⟩ := ih (pre ++ [b]) N (fun h => by have := hn h; omega)
        have e : newlines (b :: w) = newlines w := by rw [newlines_cons, if_neg hb]; omega
        refine ⟨b :: w, r, by rw [h1]; rfl, ?_, ?_, h4⟩
        · rw [if_neg hb, h2, e]
          simp
        · rw [e, ← h3]
          simp [skipLayout, hw, hb, h59]

theorem comment_nil (pre : Bytes) : commentEnd (pre ++ []) pre.length = none := by
  rw [commentEnd]
  split
  · rfl
  · rename_i h; simp at h

theorem comment_cons (pre : Bytes) (b : UInt8) (l : Bytes) : commentEnd (pre ++ b :: l) pre.length =
    if b = 10 then some pre.length else commentEnd ((pre ++ [b]) ++ l) (pre ++ [b]).length := by
  rw [commentEnd]
  split
  · rename_i h; simp at h
  · rename_i b' h
    rw [at_append] at h
    cases h
    simp

/-- Skipping a comment. -/
theorem comment_spec (l : Bytes) : ∀ (pre : Bytes) (n : Nat),
    (commentEnd (pre ++ l) pre.length = none ∧ skipLayout l n true = none) ∨
    ∃ w r, l = w ++ 10 :: r ∧ newlines w = 0 ∧ commentEnd (pre ++ l) pre.length = some (pre ++ w).length ∧
      skipLayout l n true = skipLayout (10 :: r) n false := by
  induction l with
  | nil => intro pre n; exact .inl ⟨comment_nil pre, rfl⟩
  | cons b l ih =>
    intro pre n
    rw [comment_cons]
    by_cases hb : b = 10
    · subst hb
      exact .inr ⟨[], l, rfl, by simp [newlines], by simp, by simp [skipLayout, isWs]⟩
    · rw [if_neg hb]
      rcases ih (pre ++ [b]) n with ⟨h1, h2⟩ | ⟨w, r, h1, h2, h3, h4⟩
      · exact .inl ⟨h1, by simpa [skipLayout, hb] using h2⟩
      · refine .inr ⟨b :: w, r, by rw [h1]; rfl, by rw [newlines_cons, if_neg hb, h2], ?_, ?_⟩
        · rw [h3]; simp
        · rw [← h4]; simp [skipLayout, hb]

theorem lexeme_nil (pre : Bytes) (v : Bool) : lexemeEnd (pre ++ []) pre.length v = none := by
  rw [lexemeEnd]
  split
  · rfl
  · rename_i h; simp at h

theorem lexeme_cons (pre : Bytes) (b : UInt8) (l : Bytes) (v : Bool) : lexemeEnd (pre ++ b :: l) pre.length v =
    if isLexemeByte b then
      if l = [] then some (pre.length, v || isBadByte b)
      else lexemeEnd ((pre ++ [b]) ++ l) (pre ++ [b]).length (v || isBadByte b)
    else some (pre.length, v) := by
  rw [lexemeEnd]
  split
  · rename_i h; simp at h
  · rename_i b' h
    rw [at_append] at h
    cases h
    cases l with
    | nil => simp
    | cons c l =>
      simp

theorem lexeme_spec (l : Bytes) : ∀ (pre : Bytes) (v : Bool), l ≠ [] →
    lexemeEnd (pre ++ l) pre.length v = some (pre.length + (scanLexeme l).1.length, v || (scanLexeme l).2.2) := by
  induction l with
  | nil => intro _ _ h; exact absurd rfl h
  | cons b l ih =>
    intro pre v _
    rw [lexeme_cons]
    cases l with
    | nil =>
      by_cases hb : isLexemeByte b = true
      · simp [hb, scanLexeme]
      · simp [hb, scanLexeme, isBadByte]
    | cons c l =>
      have ih := ih (pre ++ [b]) (v || isBadByte b) (by simp)
      by_cases hb : isLexemeByte b = true
      · rw [if_pos hb, if_neg (by simp), ih]
        simp [scanLexeme, hb, Bool.or_assoc]
        omega
      · simp [hb, scanLexeme]

theorem number_nil (pre : Bytes) (v : Bool) : numberEnd (pre ++ []) pre.length v = (pre.length, v) := by
  rw [numberEnd]
  split
  · rfl
  · rename_i h; simp at h

theorem number_cons (pre : Bytes) (b : UInt8) (l : Bytes) (v : Bool) : numberEnd (pre ++ b :: l) pre.length v =
    if isDigit b then numberEnd ((pre ++ [b]) ++ l) (pre ++ [b]).length v
    else if b = 46 && !v then numberEnd ((pre ++ [b]) ++ l) (pre ++ [b]).length true
    else (pre.length, v) := by
  rw [numberEnd]
  split
  · rename_i h; simp at h
  · rename_i b' h
    rw [at_append] at h
    cases h
    simp

theorem number_spec (l : Bytes) : ∀ (pre : Bytes) (v : Bool),
    numberEnd (pre ++ l) pre.length v = (pre.length + (scanNumber l v).1.length, (scanNumber l v).2.2) := by
  induction l with
  | nil => intro pre v; rw [number_nil]; simp [scanNumber]
  | cons b l ih =>
    intro pre v
    rw [number_cons, ih, ih]
    simp only [scanNumber]
    split
    · simp; omega
    · split
      · simp; omega
      · simp

theorem slice_spec (pre w r : Bytes) : slice (pre ++ (w ++ r)) pre.length (pre.length + w.length) = w := by
  simp [slice]

/-- A lexeme at the absolute position. -/
theorem lexemeAt_spec (pre l : Bytes) : lexemeAt (pre ++ l) pre.length =
    match peekLexeme l with
    | .panic p => .panic p
    | .err x => .err x
    | .ok x _ => .ok x (pre.length + x.length) := by
  unfold lexemeAt peekLexeme
  cases l with
  | nil => rw [lexeme_nil]
  | cons b l =>
    rw [lexeme_spec _ _ _ (by simp)]
    have hs := scanLexeme_append (b :: l)
    generalize hx : scanLexeme (b :: l) = x at hs
    obtain ⟨w, r, v⟩ := x
    simp only at hs ⊢
    rw [← hs, slice_spec]
    cases hv : validUtf8 w <;> cases v <;> simp

theorem peekLexeme_append {l x r : Bytes} (h : peekLexeme l = .ok x r) : x ++ r = l ∧ newlines x = 0 := by
  unfold peekLexeme at h
  cases l with
  | nil => cases h
  | cons b l =>
    have hs := scanLexeme_append (b :: l)
    have hb := scanLexeme_bytes (b :: l)
    generalize hx : scanLexeme (b :: l) = y at hs h hb
    obtain ⟨w, r', v⟩ := y
    simp only at hs h hb
    split at h
    · split at h
      · cases h
      · cases h
        exact ⟨hs, (newlines_eq_zero _).2 (newline_not_lexeme hb)⟩
    · cases h

/-- A number at the absolute position. -/
theorem numberAt_spec (pre l : Bytes) : numberAt (pre ++ l) pre.length =
    match peekNumber l with
    | .error x => .error x
    | .ok (v, _) => .ok (v, pre.length + (scanNumber l false).1.length) := by
  unfold numberAt peekNumber
  rw [number_spec]
  have hs := scanNumber_append l false
  generalize hx : scanNumber l false = x at hs
  obtain ⟨w, r, v⟩ := x
  simp only at hs ⊢
  rw [← hs]
  cases v with
  | true => simp only [slice_spec]
  | false =>
    simp only [slice_spec]
    by_cases h : digitsVal w < 2 ^ 63 <;> simp [h]

theorem peekNumber_append {l : Bytes} {v r} (h : peekNumber l = .ok (v, r)) :
    (scanNumber l false).1 ++ r = l ∧ newlines (scanNumber l false).1 = 0 := by
  unfold peekNumber at h
  have hs := scanNumber_append l false
  have hb := scanNumber_bytes l false
  generalize hx : scanNumber l false = x at hs h hb
  obtain ⟨w, r', d⟩ := x
  have h0 : newlines w = 0 := by
    rw [newlines_eq_zero]
    intro hm
    rcases hb 10 hm with h1 | h1
    · exact absurd h1 (by decide)
    · cases h1
  cases d with
  | true => simp only at h; cases h; exact ⟨hs, h0⟩
  | false =>
    simp only at h
    split at h
    · cases h; exact ⟨hs, h0⟩
    · cases h

/-- The cursor `c` and the state `s`, reached from the position after `pre` and the line `N`, with `l` ahead. -/
def CursorAt (pre l : Bytes) (N : Nat) (c : Cursor) (s : LexState) : Prop :=
  ∃ w, l = w ++ s.rest ∧ c.pos = (pre ++ w).length ∧ c.line = UInt32.ofNat s.line ∧ s.line = N + newlines w

/-- The error as it appears when lines are counted modulo 2³². -/
def wrapLine (e : LexError) : LexError := { e with pos := e.pos % 2 ^ 32 }

/-- The two tokenizers answer alike. -/
inductive Agree (pre l : Bytes) (N : Nat) : CursorOut → LexOut → Prop where
  | tok {t c s} : CursorAt pre l N c s → Agree pre l N (.tok t c) (.tok t s)
  | err {e c s} : CursorAt pre l N c s → Agree pre l N (.err (wrapLine e) c) (.err e s)
  | panic {p} : Agree pre l N (.panic (.known p)) (.panic p)

theorem CursorAt.mono {pre w r : Bytes} {N : Nat} {c : Cursor} {s : LexState}
    (h : CursorAt (pre ++ w) r (N + newlines w) c s) : CursorAt pre (w ++ r) N c s := by
  obtain ⟨v, h1, h2, h3, h4⟩ := h
  exact ⟨w ++ v, by rw [h1]; simp, by rw [h2]; simp, h3, by rw [h4, newlines_append]; omega⟩

theorem Agree.mono {pre w r : Bytes} {N : Nat} {o : CursorOut} {o' : LexOut}
    (h : Agree (pre ++ w) r (N + newlines w) o o') : Agree pre (w ++ r) N o o' := by
  cases h with
  | tok h => exact .tok h.mono
  | err h => exact .err h.mono
  | panic => exact .panic

theorem CursorAt.of {pre w r : Bytes} {N : Nat} (h : newlines w = 0) :
    CursorAt pre (w ++ r) N ⟨pre.length + w.length, UInt32.ofNat N⟩ ⟨r, N⟩ :=
  ⟨w, rfl, by simp, rfl, by simp [h]⟩

theorem CursorAt.here {pre l : Bytes} {N : Nat} : CursorAt pre l N ⟨pre.length, UInt32.ofNat N⟩ ⟨l, N⟩ :=
  CursorAt.of (w := []) (by simp [newlines])

theorem CursorAt.next {pre l : Bytes} {b : UInt8} {N : Nat} (h : b ≠ 10) :
    CursorAt pre (b :: l) N ⟨pre.length + 1, UInt32.ofNat N⟩ ⟨l, N⟩ :=
  CursorAt.of (w := [b]) (by rw [newlines_cons, if_neg h]; simp [newlines])

theorem CursorAt.word {pre w r l : Bytes} {b : UInt8} {N : Nat} (hb : b ≠ 10) (h : newlines w = 0) (e : w ++ r = l) :
    CursorAt pre (b :: l) N ⟨pre.length + 1 + w.length, UInt32.ofNat N⟩ ⟨r, N⟩ := by
  subst e
  have := CursorAt.of (pre := pre) (w := b :: w) (r := r) (N := N) (by rw [newlines_cons, if_neg hb, h])
  simpa [Nat.add_assoc, Nat.add_comm 1] using this

theorem wrapLine_mk (k : LexErrKind) (l : Bytes) (N : Nat) :
    (⟨k, l, (UInt32.ofNat N).toNat⟩ : LexError) = wrapLine ⟨k, l, N⟩ := by
  simp [wrapLine]

theorem ordering_agree {pre l : Bytes} {b : UInt8} {N : Nat} (hb : b ≠ 10) (h61 : b ≠ 61) (one two : Op) (peek : Bool) :
    Agree pre (b :: l) N
      (orderingAt (pre ++ b :: l) one two peek
        (if peek then ⟨pre.length, UInt32.ofNat N⟩ else ⟨pre.length + 1, UInt32.ofNat N⟩))
      (orderingType one two peek (if peek then ⟨b :: l, N⟩ else ⟨l, N⟩)) := by
  cases peek with
  | true =>
    simp only [if_true, orderingAt, orderingType, at_append]
    split
    · rename_i h; cases h; exact absurd rfl h61
    · split
      · rename_i h; cases h; exact absurd rfl h61
      · exact .tok .here
  | false =>
    simp only [Bool.false_eq_true, if_false, orderingAt, orderingType]
    have e : (pre ++ b :: l)[pre.length + 1]? = l.head? := by
      rw [snoc_eq]
      cases l <;> simp
    rw [e]
    cases l with
    | nil => exact .tok (.next hb)
    | cons c l =>
      by_cases hc : c = 61
      · subst hc
        simp only [List.head?_cons]
        exact .tok (.word (w := [61]) hb (by decide) rfl)
      · simp only [List.head?_cons]
        split
        · rename_i h; cases h; exact absurd rfl hc
        · split
          · rename_i h; cases h; exact absurd rfl hc
          · exact .tok (.next hb)

theorem ite_agree {pre l : Bytes} {N : Nat} {p : Prop} [Decidable p] {a b : CursorOut} {a' b' : LexOut}
    (h1 : p → Agree pre l N a a') (h2 : ¬ p → Agree pre l N b b') :
    Agree pre l N (if p then a else b) (if p then a' else b') := by
  by_cases h : p
  · rw [if_pos h, if_pos h]; exact h1 h
  · rw [if_neg h, if_neg h]; exact h2 h

theorem comment_cons_ne (pre : Bytes) (b : UInt8) {l : Bytes} (h : b ≠ 10) : commentEnd (pre ++ b :: l) pre.length =
    commentEnd ((pre ++ [b]) ++ l) (pre ++ [b]).length := by
  rw [comment_cons, if_neg h]

/-- One call of `parse` on the absolute cursor. -/
theorem parse_agree [Env] (chk peek : Bool) : ∀ (n : Nat) (l pre : Bytes) (N : Nat), l.length < n →
    (chk = true → N + newlines l < 2 ^ 32) → (chk = true → peek = true → pre ≠ []) →
    Agree pre l N (Cursor.parse chk (pre ++ l) peek n ⟨pre.length, UInt32.ofNat N⟩) (lex peek ⟨l, N⟩)
  | 0, _, _, _, h, _, _ => by omega
  | n + 1, l, pre, N, hn, hc, hp => by
    obtain ⟨w, r, h1, h2, h3, h4⟩ := skip_blanks chk l pre N hc
    rw [Cursor.parse, h2, lex, h3]
    subst h1
    apply Agree.mono
    rw [← List.append_assoc]
    rw [newlines_append, ← Nat.add_assoc] at hc
    replace hp : chk = true → peek = true → pre ++ w ≠ [] := fun a b h => hp a b (List.append_eq_nil_iff.1 h).1
    replace hn : r.length ≤ n := by simp at hn; omega
    generalize pre ++ w = pre at *
    generalize N + newlines w = N at *
    clear h2 h3
    cases r with
    | nil => simp [skipLayout]; exact .tok .here
    | cons b r =>
      have hw := h4 b r rfl
      have hb : b ≠ 10 := by rintro rfl; revert hw; decide
      have hcur : (if peek = true then (⟨pre.length, UInt32.ofNat N⟩ : Cursor)
          else { pos := pre.length + 1, line := UInt32.ofNat N }).line = UInt32.ofNat N := by split <;> rfl
      have hat : CursorAt pre (b :: r) N (if peek = true then (⟨pre.length, UInt32.ofNat N⟩ : Cursor)
          else { pos := pre.length + 1, line := UInt32.ofNat N }) (if peek then ⟨b :: r, N⟩ else ⟨r, N⟩) := by
        cases peek
        · exact .next hb
        · exact .here
      have hst : (if peek = true then (if peek = true then (⟨pre.length, UInt32.ofNat N⟩ : Cursor)
          else { pos := pre.length + 1, line := UInt32.ofNat N }).pos + 1 else (if peek = true then
          (⟨pre.length, UInt32.ofNat N⟩ : Cursor)
          else { pos := pre.length + 1, line := UInt32.ofNat N }).pos) = (pre ++ [b]).length := by
        cases peek <;> simp
      have hst' : (if peek = true then (if peek = true then (⟨pre.length, UInt32.ofNat N⟩ : Cursor)
          else { pos := pre.length + 1, line := UInt32.ofNat N }).pos else (if peek = true then
          (⟨pre.length, UInt32.ofNat N⟩ : Cursor)
          else { pos := pre.length + 1, line := UInt32.ofNat N }).pos - 1) = pre.length := by
        cases peek <;> simp
      dsimp only
      rw [if_neg (by simp), at_append]
      dsimp only
      by_cases h59 : b = 59
      · subst h59
        have e : commentEnd (pre ++ 59 :: r) (if peek = true then (⟨pre.length, UInt32.ofNat N⟩ : Cursor)
            else { pos := pre.length + 1, line := UInt32.ofNat N }).pos =
            commentEnd ((pre ++ [59]) ++ r) (pre ++ [59]).length := by
          cases peek with
          | false => simp
          | true => rw [← comment_cons_ne _ _ (by decide)]; simp
        rw [e]
        simp only [skipLayout, if_true, hcur]
        rcases comment_spec r (pre ++ [59]) N with ⟨k1, k2⟩ | ⟨w', r', k1, k2, k3, k4⟩
        · rw [k1, k2]
          exact .panic
        · rw [k3, k4]
          subst k1
          have e0 : newlines (59 :: w') = 0 := by rw [newlines_cons, if_neg (by decide), k2]
          have ih := parse_agree chk peek n (10 :: r') (pre ++ 59 :: w') N (by simp at hn ⊢; omega)
            (fun h => by
              have := hc h
              have e1 : (59 :: (w' ++ 10 :: r') : Bytes) = (59 :: w') ++ 10 :: r' := rfl
              rw [e1, newlines_append, e0] at this
              omega) (by simp)
          rw [lex] at ih
          have ih' := Agree.mono (pre := pre) (w := 59 :: w') (r := 10 :: r') (N := N) (by rw [e0]; exact ih)
          simpa using ih'
      · have es : skipLayout (b :: r) N false = some ⟨b :: r, N⟩ := by simp [skipLayout, h59, hw]
        rw [es]
        dsimp only
        refine ite_agree (fun _ => .tok hat) fun h45 => ?_
        refine ite_agree (fun _ => .tok hat) fun h40 => ?_
        refine ite_agree (fun _ => .tok hat) fun h41 => ?_
        refine ite_agree (fun h => ordering_agree hb (by rw [h]; decide) _ _ _) fun h60 => ?_
        refine ite_agree (fun h => ordering_agree hb (by rw [h]; decide) _ _ _) fun h62 => ?_
        refine ite_agree (fun _ => .tok hat) fun h61 => ?_
        rw [hst, hst', hcur]
        have el := lexemeAt_spec (pre ++ [b]) r
        rw [← snoc_eq] at el
        refine ite_agree (fun _ => ?_) fun h63 => ?_
        · rw [el]
          generalize hx : peekLexeme r = x
          cases x with
          | panic p => exact .panic
          | err x => dsimp only; rw [wrapLine_mk]; exact .err hat
          | ok x t =>
            obtain ⟨k1, k2⟩ := peekLexeme_append hx
            dsimp only
            refine .tok ?_
            cases peek
            · simpa using CursorAt.word hb k2 k1
            · exact hat
        refine ite_agree (fun _ => ?_) fun h58 => ?_
        · rw [el]
          generalize hx : peekLexeme r = x
          cases x with
          | panic p => exact .panic
          | err x => dsimp only; rw [wrapLine_mk]; exact .err hat
          | ok x t =>
            obtain ⟨k1, k2⟩ := peekLexeme_append hx
            have hf : CursorAt pre (b :: r) N (if peek = true then (if peek = true then (⟨pre.length, UInt32.ofNat N⟩ : Cursor)
                else { pos := pre.length + 1, line := UInt32.ofNat N }) else
                ⟨(pre ++ [b]).length + x.length, UInt32.ofNat N⟩) (if peek then (if peek then ⟨b :: r, N⟩ else ⟨r, N⟩)
                else ⟨t, N⟩) := by
              cases peek
              · simpa using CursorAt.word hb k2 k1
              · exact hat
            dsimp only
            cases colonWord x with
            | none =>
              have e2 : (if peek = true then (if peek = true then (⟨pre.length, UInt32.ofNat N⟩ : Cursor)
                else { pos := pre.length + 1, line := UInt32.ofNat N }) else
                ⟨(pre ++ [b]).length + x.length, UInt32.ofNat N⟩).line = UInt32.ofNat N := by cases peek <;> rfl
              dsimp only
              rw [e2, wrapLine_mk]
              exact .err hf
            | some t => exact .tok hf
        rw [if_neg h59]
        rw [if_neg (by
          simp only [Bool.and_eq_true, beq_iff_eq, not_and]
          intro hk
          cases peek
          · simp
          · simpa using hp hk rfl)]
        refine ite_agree (fun _ => ?_) fun _ => ?_
        · rw [numberAt_spec]
          generalize hx : peekNumber (b :: r) = x
          cases x with
          | error x => dsimp only; rw [wrapLine_mk]; exact .err hat
          | ok x =>
            obtain ⟨v, t⟩ := x
            obtain ⟨k1, k2⟩ := peekNumber_append hx
            have hf : CursorAt pre (b :: r) N (if peek = true then (if peek = true then (⟨pre.length, UInt32.ofNat N⟩ : Cursor)
                else { pos := pre.length + 1, line := UInt32.ofNat N }) else
                ⟨pre.length + (scanNumber (b :: r) false).1.length, UInt32.ofNat N⟩) (if peek then (if peek then ⟨b :: r, N⟩ else ⟨r, N⟩)
                else ⟨t, N⟩) := by
              cases peek
              · have := CursorAt.of (pre := pre) (w := (scanNumber (b :: r) false).1) (r := t) (N := N) k2
                rw [k1] at this
                simpa using this
              · exact hat
            exact .tok hf
        · rw [lexemeAt_spec]
          generalize hx : peekLexeme (b :: r) = x
          cases x with
          | panic p => exact .panic
          | err x => dsimp only; rw [wrapLine_mk]; exact .err hat
          | ok x t =>
            obtain ⟨k1, k2⟩ := peekLexeme_append hx
            have hf : CursorAt pre (b :: r) N (if peek = true then (if peek = true then (⟨pre.length, UInt32.ofNat N⟩ : Cursor)
                else { pos := pre.length + 1, line := UInt32.ofNat N }) else
                ⟨pre.length + x.length, UInt32.ofNat N⟩) (if peek then (if peek then ⟨b :: r, N⟩ else ⟨r, N⟩)
                else ⟨t, N⟩) := by
              cases peek
              · have := CursorAt.of (pre := pre) (w := x) (r := t) (N := N) k2
                rw [k1] at this
                simpa using this
              · exact hat
            have e2 : (if peek = true then (if peek = true then (⟨pre.length, UInt32.ofNat N⟩ : Cursor)
                else { pos := pre.length + 1, line := UInt32.ofNat N }) else
                ⟨pre.length + x.length, UInt32.ofNat N⟩).line = UInt32.ofNat N := by cases peek <;> rfl
            dsimp only
            cases plainWord x with
            | some t => exact .tok hf
            | none =>
              dsimp only
              refine ite_agree (fun _ => .tok hf) fun _ => ?_
              rw [e2, wrapLine_mk]
              exact .err hf

theorem skip_checked (prog : Bytes) (c : Cursor) :
    Cursor.skip true prog c = .error .overflow ∨ Cursor.skip true prog c = Cursor.skip false prog c := by
  fun_induction Cursor.skip true prog c with
  | case1 c h => rw [Cursor.skip, if_pos h]; exact .inr rfl
  | case2 c h e =>
    right
    rw [Cursor.skip, if_neg h]
    split
    · rfl
    · rename_i h'; rw [e] at h'; cases h'
  | case3 c h b e hb =>
    right
    rw [Cursor.skip, if_neg h]
    split
    · rename_i h'; rw [e] at h'; cases h'
    · rename_i h'; rw [e] at h'; cases h'; rw [if_pos hb]
  | case4 => exact .inl rfl
  | case5 c h hb e hl ih =>
    have : Cursor.skip false prog c = Cursor.skip false prog ⟨c.pos + 1, c.line + 1⟩ := by
      conv_lhs => rw [Cursor.skip, if_neg h]
      split
      · rename_i h'; rw [e] at h'; cases h'
      · rename_i h'; rw [e] at h'; cases h'; rw [if_neg hl, if_pos rfl, if_neg (by simp)]
    rw [this]
    exact ih
  | case6 c h b e hb hl ih =>
    have : Cursor.skip false prog c = Cursor.skip false prog ⟨c.pos + 1, c.line⟩ := by
      conv_lhs => rw [Cursor.skip, if_neg h]
      split
      · rename_i h'; rw [e] at h'; cases h'
      · rename_i h'; rw [e] at h'; cases h'; rw [if_neg hb, if_neg hl]
    rw [this]
    exact ih

/-- A debug build panics with an overflow, or does what a release build does. -/
theorem parse_checked [Env] (prog : Bytes) (peek : Bool) : ∀ (n : Nat) (c : Cursor),
    Cursor.parse true prog peek n c = .panic .overflow ∨
      Cursor.parse true prog peek n c = Cursor.parse false prog peek n c
  | 0, _ => .inr rfl
  | n + 1, c => by
    rcases skip_checked prog c with h | h
    · left
      rw [Cursor.parse, h]
    · rw [Cursor.parse, Cursor.parse, h]
      cases Cursor.skip false prog c with
      | error p => exact .inr rfl
      | ok c =>
        dsimp only
        have ite_or : ∀ {p : Prop} [Decidable p] {a b a' b' : CursorOut}, (a = .panic .overflow ∨ a = a') →
            (b = .panic .overflow ∨ b = b') → ((if p then a else b) = .panic .overflow ∨
              (if p then a else b) = if p then a' else b') := by
          intro p _ a b a' b' h1 h2
          by_cases h : p
          · simpa [h] using h1
          · simpa [h] using h2
        refine ite_or (.inr rfl) ?_
        cases prog[c.pos]? with
        | none => exact .inr rfl
        | some b =>
          dsimp only
          refine ite_or (.inr rfl) (ite_or (.inr rfl) (ite_or (.inr rfl) (ite_or (.inr rfl) (ite_or (.inr rfl)
            (ite_or (.inr rfl) (ite_or (.inr rfl) (ite_or (.inr rfl) (ite_or ?_ ?_))))))))
          · split
            · exact .inr rfl
            · exact parse_checked prog peek n _
          · by_cases h0 : (if peek = true then c else { pos := c.pos + 1, line := c.line }).pos = 0
            · left; simp [h0]
            · right; simp [h0]

end Verif
