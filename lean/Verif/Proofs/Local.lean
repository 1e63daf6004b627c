import Verif.Proofs.Stream

/-! Reading up to a closing parenthesis does not depend on what follows that parenthesis. -/

namespace Verif

open Spec

theorem scanLexeme_local (s : Bytes) : ∀ {l v b : Bytes} {bad : Bool}, scanLexeme s = (l, v ++ 41 :: b, bad) →
    ∀ b', scanLexeme (l ++ (v ++ 41 :: b')) = (l, v ++ 41 :: b', bad) := by
  fun_induction scanLexeme s with
  | case1 => intro l v b bad h; simp at h
  | case2 c =>
    intro l v b bad h b'
    simp only [Prod.mk.injEq] at h
    obtain ⟨rfl, h2, rfl⟩ := h
    have hv : v = [] ∧ c = 41 := by
      cases v with
      | nil => simp at h2; exact ⟨rfl, h2.1⟩
      | cons d v => simp at h2
    obtain ⟨rfl, rfl⟩ := hv
    cases b' with
    | nil => rfl
    | cons d b' => rfl
  | case3 c d cs hc l r bad hs ih =>
    intro l' v b bad' h b'
    simp only [Prod.mk.injEq] at h
    obtain ⟨rfl, rfl, rfl⟩ := h
    have := ih hs b'
    cases hx : l ++ (v ++ 41 :: b') with
    | nil => simp at hx
    | cons e es =>
      rw [hx] at this
      simp only [List.cons_append, hx, scanLexeme, hc, if_true, this]
  | case4 c d cs hc =>
    intro l v b bad h b'
    simp only [Prod.mk.injEq] at h
    obtain ⟨rfl, h2, rfl⟩ := h
    cases v with
    | nil =>
      simp only [List.nil_append, List.cons.injEq] at h2
      obtain ⟨rfl, _⟩ := h2
      cases b' with
      | nil => rfl
      | cons e b' => rfl
    | cons e v =>
      simp only [List.cons_append, List.cons.injEq] at h2
      obtain ⟨rfl, _⟩ := h2
      simp only [List.nil_append, List.cons_append]
      cases hx : v ++ 41 :: b' with
      | nil => simp at hx
      | cons f fs => simp only [scanLexeme, hc, if_false, Bool.false_eq_true]

theorem peekLexeme_local {s l v b : Bytes} (h : peekLexeme s = .ok l (v ++ 41 :: b)) :
    s = l ++ (v ++ 41 :: b) ∧ ∀ b', peekLexeme (l ++ (v ++ 41 :: b')) = .ok l (v ++ 41 :: b') := by
  unfold peekLexeme at h
  cases s with
  | nil => cases h
  | cons c cs =>
    simp only at h
    cases hs : scanLexeme (c :: cs) with
    | mk l' p =>
      obtain ⟨r', bad⟩ := p
      rw [hs] at h
      simp only at h
      by_cases hu : validUtf8 l' = true
      · rw [if_pos hu] at h
        cases bad with
        | true => simp at h
        | false =>
          simp only [Bool.false_eq_true, if_false, LexemeOut.ok.injEq] at h
          obtain ⟨rfl, rfl⟩ := h
          have ha := scanLexeme_append (c :: cs)
          rw [hs] at ha
          refine ⟨ha.symm, fun b' => ?_⟩
          have := scanLexeme_local _ hs b'
          unfold peekLexeme
          cases hx : l' ++ (v ++ 41 :: b') with
          | nil => simp at hx
          | cons e es =>
            rw [hx] at this
            simp only [this, hu, if_true, Bool.false_eq_true, if_false]
      · rw [if_neg hu] at h; cases h

theorem scanNumber_local (s : Bytes) (dot : Bool) : ∀ {l v b : Bytes} {d : Bool}, scanNumber s dot = (l, v ++ 41 :: b, d) →
    ∀ b', scanNumber (l ++ (v ++ 41 :: b')) dot = (l, v ++ 41 :: b', d) := by
  fun_induction scanNumber s dot with
  | case1 => intro l v b d h; simp at h
  | case2 c cs dot hc l r d hs ih =>
    intro l' v b d' h b'
    simp only [Prod.mk.injEq] at h
    obtain ⟨rfl, rfl, rfl⟩ := h
    simp only [List.cons_append, scanNumber, hc, if_true, ih hs b']
  | case3 c cs dot hc hd l r d hs ih =>
    intro l' v b d' h b'
    simp only [Prod.mk.injEq] at h
    obtain ⟨rfl, rfl, rfl⟩ := h
    simp only [List.cons_append, scanNumber, hc, hd, if_true, ih hs b', Bool.false_eq_true, if_false]
  | case4 c cs dot hc hd =>
    intro l v b d h b'
    simp only [Prod.mk.injEq] at h
    obtain ⟨rfl, h2, rfl⟩ := h
    have : ∃ r, v ++ 41 :: b' = c :: r := by
      cases v with
      | nil => simp at h2; exact ⟨b', by simp [h2.1]⟩
      | cons e v => simp at h2; exact ⟨v ++ 41 :: b', by simp [h2.1]⟩
    obtain ⟨r, hr⟩ := this
    rw [List.nil_append, hr]
    simp only [scanNumber, hc, hd, if_false, Bool.false_eq_true]

theorem peekNumber_local {s v b : Bytes} {x : Num} (h : peekNumber s = .ok (x, v ++ 41 :: b)) :
    ∃ l, s = l ++ (v ++ 41 :: b) ∧ ∀ b', peekNumber (l ++ (v ++ 41 :: b')) = .ok (x, v ++ 41 :: b') := by
  unfold peekNumber at h
  cases hs : scanNumber s false with
  | mk l p =>
    obtain ⟨r, d⟩ := p
    have ha := scanNumber_append s false
    rw [hs] at h ha
    cases d with
    | true =>
      simp only [Except.ok.injEq, Prod.mk.injEq] at h
      obtain ⟨rfl, rfl⟩ := h
      refine ⟨l, ha.symm, fun b' => ?_⟩
      unfold peekNumber
      rw [scanNumber_local _ _ hs b']
    | false =>
      simp only at h
      by_cases hl : digitsVal l < 2 ^ 63
      · rw [if_pos hl] at h
        simp only [Except.ok.injEq, Prod.mk.injEq] at h
        obtain ⟨rfl, rfl⟩ := h
        refine ⟨l, ha.symm, fun b' => ?_⟩
        unfold peekNumber
        rw [scanNumber_local _ _ hs b']
        simp only [if_pos hl]
      · rw [if_neg hl] at h; cases h

variable [Env]

/-- A token that ends before a closing parenthesis does not depend on what follows the parenthesis. -/
theorem getToken_local {r v b : Bytes} {n m : Nat} {t : Token} (h : getToken ⟨r, n⟩ = .tok t ⟨v ++ 41 :: b, m⟩) :
    ∃ u, r = u ++ 41 :: b ∧ ∀ b', getToken ⟨u ++ 41 :: b', n⟩ = .tok t ⟨v ++ 41 :: b', m⟩ := by
  cases hsk : skipLayout r n false with
  | none => simp [getToken, lex, hsk] at h
  | some st =>
    obtain ⟨lay, hlay, hrest, hline, hstart⟩ := (skipLayout_spec r n).1 st hsk
    obtain ⟨rst, k⟩ := st
    simp only at hrest hline hstart
    subst hrest
    suffices hk : ∃ u, rst = u ++ 41 :: b ∧ ∀ b', getToken ⟨u ++ 41 :: b', k⟩ = .tok t ⟨v ++ 41 :: b', m⟩ by
      obtain ⟨u, rfl, hu⟩ := hk
      refine ⟨lay ++ u, by simp, fun b' => ?_⟩
      have := lex_skip hlay false (u ++ 41 :: b') n
      unfold getToken at hu ⊢
      rw [List.append_assoc, this, ← hline]
      exact hu b'
    have h' : getToken ⟨rst, k⟩ = .tok t ⟨v ++ 41 :: b, m⟩ := by
      unfold getToken at h ⊢
      rw [lex_skip hlay, ← hline] at h
      exact h
    clear h hsk
    cases rst with
    | nil => simp [getToken, lex, skipLayout] at h'
    | cons c cs =>
      have hsc : StartByte c := by
        first
          | exact hstart c cs rfl
          | exact hstart
          | (simp at hstart; exact hstart)
      have hsk' : ∀ x, skipLayout (c :: x) k false = some ⟨c :: x, k⟩ := fun x => skipLayout_start hsc x k
      unfold getToken lex at h'
      simp only [hsk', Bool.false_eq_true, if_false] at h'
      by_cases h1 : c = 45
      · rw [if_pos h1] at h'
        cases h'
        refine ⟨c :: v, rfl, fun b' => ?_⟩
        simp only [getToken, lex, List.cons_append, hsk', if_pos h1, Bool.false_eq_true, if_false]
      by_cases h2 : c = 40
      · rw [if_neg h1, if_pos h2] at h'
        cases h'
        refine ⟨c :: v, rfl, fun b' => ?_⟩
        simp only [getToken, lex, List.cons_append, hsk', h1, if_pos h2, Bool.false_eq_true, if_false]
      by_cases h3 : c = 41
      · rw [if_neg h1, if_neg h2, if_pos h3] at h'
        cases h'
        refine ⟨c :: v, rfl, fun b' => ?_⟩
        simp only [getToken, lex, List.cons_append, hsk', h1, h2, if_pos h3, Bool.false_eq_true, if_false]
      by_cases h4 : c = 60
      · rw [if_neg h1, if_neg h2, if_neg h3, if_pos h4] at h'
        unfold orderingType at h'
        split at h'
        · rename_i x hx
          simp only [LexState.advance, Bool.false_eq_true, if_false] at h' hx
          subst hx
          cases h'
          refine ⟨c :: 61 :: v, rfl, fun b' => ?_⟩
          simp only [getToken, lex, List.cons_append, hsk', h1, h2, h3, if_pos h4, Bool.false_eq_true, if_false,
            orderingType, LexState.advance, List.tail_cons]
        · rename_i hx
          cases h'
          refine ⟨c :: v, rfl, fun b' => ?_⟩
          simp only [getToken, lex, List.cons_append, hsk', h1, h2, h3, if_pos h4, Bool.false_eq_true, if_false,
            orderingType]
          cases v with
          | nil => rfl
          | cons e v =>
            have : e ≠ 61 := by rintro rfl; exact hx _ rfl
            simp [this]
      by_cases h5 : c = 62
      · rw [if_neg h1, if_neg h2, if_neg h3, if_neg h4, if_pos h5] at h'
        unfold orderingType at h'
        split at h'
        · rename_i x hx
          simp only [LexState.advance, Bool.false_eq_true, if_false] at h' hx
          subst hx
          cases h'
          refine ⟨c :: 61 :: v, rfl, fun b' => ?_⟩
          simp only [getToken, lex, List.cons_append, hsk', h1, h2, h3, h4, if_pos h5, Bool.false_eq_true, if_false,
            orderingType, LexState.advance, List.tail_cons]
        · rename_i hx
          cases h'
          refine ⟨c :: v, rfl, fun b' => ?_⟩
          simp only [getToken, lex, List.cons_append, hsk', h1, h2, h3, h4, if_pos h5, Bool.false_eq_true, if_false,
            orderingType]
          cases v with
          | nil => rfl
          | cons e v =>
            have : e ≠ 61 := by rintro rfl; exact hx _ rfl
            simp [this]
      by_cases h6 : c = 61
      · rw [if_neg h1, if_neg h2, if_neg h3, if_neg h4, if_neg h5, if_pos h6] at h'
        cases h'
        refine ⟨c :: v, rfl, fun b' => ?_⟩
        simp only [getToken, lex, List.cons_append, hsk', h1, h2, h3, h4, h5, if_pos h6, Bool.false_eq_true, if_false]
      by_cases h7 : c = 63
      · rw [if_neg h1, if_neg h2, if_neg h3, if_neg h4, if_neg h5, if_neg h6, if_pos h7] at h'
        cases hp : peekLexeme cs with
        | panic p => rw [hp] at h'; cases h'
        | err l => rw [hp] at h'; cases h'
        | ok l r =>
          rw [hp] at h'
          cases h'
          obtain ⟨hcs, hloc⟩ := peekLexeme_local hp
          refine ⟨c :: (l ++ v), by rw [hcs]; simp, fun b' => ?_⟩
          simp only [getToken, lex, List.cons_append, hsk', h1, h2, h3, h4, h5, h6, if_pos h7, Bool.false_eq_true,
            if_false, List.append_assoc, hloc b']
      by_cases h8 : c = 58
      · rw [if_neg h1, if_neg h2, if_neg h3, if_neg h4, if_neg h5, if_neg h6, if_neg h7, if_pos h8] at h'
        cases hp : peekLexeme cs with
        | panic p => rw [hp] at h'; cases h'
        | err l => rw [hp] at h'; cases h'
        | ok l r =>
          rw [hp] at h'
          simp only at h'
          cases hw : colonWord l with
          | none => rw [hw] at h'; cases h'
          | some t' =>
            rw [hw] at h'
            cases h'
            obtain ⟨hcs, hloc⟩ := peekLexeme_local hp
            refine ⟨c :: (l ++ v), by rw [hcs]; simp, fun b' => ?_⟩
            simp only [getToken, lex, List.cons_append, hsk', h1, h2, h3, h4, h5, h6, h7, if_pos h8,
              Bool.false_eq_true, if_false, List.append_assoc, hloc b', hw]
      by_cases h9 : isDigit c = true
      · rw [if_neg h1, if_neg h2, if_neg h3, if_neg h4, if_neg h5, if_neg h6, if_neg h7, if_neg h8, if_pos h9] at h'
        cases hp : peekNumber (c :: cs) with
        | error l => rw [hp] at h'; cases h'
        | ok p =>
          obtain ⟨x, r⟩ := p
          rw [hp] at h'
          cases h'
          obtain ⟨l, hcs, hloc⟩ := peekNumber_local hp
          have hl : ∃ l', l = c :: l' := by
            cases l with
            | nil =>
              exfalso
              have := hloc b
              rw [← hcs] at this
              have hd : Digit c := (isDigit_iff c).1 h9
              unfold peekNumber scanNumber at hp
              rw [if_pos h9] at hp
              have h0 := scanNumber_append cs false
              rw [List.nil_append] at hcs
              cases hsn : scanNumber cs false with
              | mk a q =>
                obtain ⟨a', d⟩ := q
                rw [hsn] at hp h0
                simp only at hp h0
                have hlen : a'.length ≤ cs.length := by rw [← h0]; simp
                have hlen2 : (v ++ 41 :: b).length = cs.length + 1 := by rw [← hcs]; simp
                cases d with
                | true => simp only [Except.ok.injEq, Prod.mk.injEq] at hp; rw [← hp.2] at hlen2; omega
                | false =>
                  simp only at hp
                  split at hp
                  · simp only [Except.ok.injEq, Prod.mk.injEq] at hp; rw [← hp.2] at hlen2; omega
                  · cases hp
            | cons e l =>
              simp only [List.cons_append, List.cons.injEq] at hcs
              exact ⟨l, by rw [hcs.1]⟩
          obtain ⟨l', rfl⟩ := hl
          refine ⟨c :: l' ++ v, by rw [hcs]; simp, fun b' => ?_⟩
          have := hloc b'
          rw [List.cons_append] at this
          simp only [getToken, lex, List.cons_append, hsk', h1, h2, h3, h4, h5, h6, h7, h8, if_pos h9,
            Bool.false_eq_true, if_false, List.append_assoc, this]
      · rw [if_neg h1, if_neg h2, if_neg h3, if_neg h4, if_neg h5, if_neg h6, if_neg h7, if_neg h8, if_neg h9] at h'
        cases hp : peekLexeme (c :: cs) with
        | panic p => rw [hp] at h'; cases h'
        | err l => rw [hp] at h'; cases h'
        | ok l r =>
          rw [hp] at h'
          simp only at h'
          have key : r = v ++ 41 :: b ∧ k = m ∧ (plainWord l = some t ∨
              plainWord l = none ∧ identCharsOk l = true ∧ t = .ident l) := by
            cases hw : plainWord l with
            | some t' => rw [hw] at h'; cases h'; exact ⟨rfl, rfl, .inl rfl⟩
            | none =>
              rw [hw] at h'
              simp only at h'
              split at h'
              · cases h'; exact ⟨rfl, rfl, .inr ⟨rfl, ‹_›, rfl⟩⟩
              · cases h'
          obtain ⟨rfl, rfl, hw⟩ := key
          obtain ⟨hcs, hloc⟩ := peekLexeme_local hp
          have hx : ∀ b', ∃ y, l ++ (v ++ 41 :: b') = c :: y := by
            intro b'
            cases l with
            | nil =>
              cases v with
              | nil => simp at hcs; exact absurd hcs.1 h3
              | cons e v => simp at hcs; exact ⟨v ++ 41 :: b', by simp [hcs.1]⟩
            | cons e l => simp at hcs; exact ⟨l ++ (v ++ 41 :: b'), by simp [hcs.1]⟩
          refine ⟨l ++ v, by rw [hcs]; simp, fun b' => ?_⟩
          obtain ⟨y, hy⟩ := hx b'
          have hl := hloc b'
          rw [List.append_assoc, hy]
          rw [hy] at hl
          rcases hw with hw | ⟨hw, hi, rfl⟩
          · simp only [getToken, lex, hsk', h1, h2, h3, h4, h5, h6, h7, h8, h9, hl, hw, Bool.false_eq_true, if_false]
          · simp only [getToken, lex, hsk', h1, h2, h3, h4, h5, h6, h7, h8, h9, hl, hw, hi, Bool.false_eq_true,
              if_false, if_true]

/-- A closing parenthesis is read independently of what follows. -/
theorem getToken_rparen {r b : Bytes} {n m : Nat} (h : getToken ⟨r, n⟩ = .tok rpar ⟨b, m⟩) :
    ∃ lay, r = lay ++ 41 :: b ∧ ∀ b', getToken ⟨lay ++ 41 :: b', n⟩ = .tok rpar ⟨b', m⟩ := by
  obtain ⟨lay, w, r', hlay, hrest, ht, hs, hl, _⟩ := lex_tok_spec h
  simp only [Bool.false_eq_true, if_false] at hs hl hrest
  subst hs
  have hw : w = [41] := by
    cases ht with
    | spells h =>
      cases h with
      | rparen => rfl
      | colon h => exact absurd h (by simp [colonTable])
      | plain h => exact absurd h (by simp [plainTable])
  subst hw
  refine ⟨lay, hrest, fun b' => ?_⟩
  have := lex_skip hlay false (41 :: b') n
  unfold getToken
  rw [this, hl]
  rfl

theorem Reads.local {s s' : LexState} {ts : List Tk} {v b : Bytes} (h : Reads s ts s') (hs : s'.rest = v ++ 41 :: b) :
    ∃ u, s.rest = u ++ 41 :: b ∧ ∀ b', Reads ⟨u ++ 41 :: b', s.line⟩ ts ⟨v ++ 41 :: b', s'.line⟩ := by
  induction h with
  | nil => exact ⟨v, hs, fun _ => .nil⟩
  | @cons s s1 s2 t ts h1 _ ih =>
    obtain ⟨u1, hu1, hr1⟩ := ih hs
    have h1' : getToken ⟨s.rest, s.line⟩ = .tok t ⟨u1 ++ 41 :: b, s1.line⟩ := by rw [← hu1]; exact h1
    obtain ⟨u, hu, hr⟩ := getToken_local h1'
    exact ⟨u, hu, fun b' => .cons (s1 := ⟨u1 ++ 41 :: b', s1.line⟩) (hr b') (hr1 b')⟩

omit [Env] in
theorem Feeds.reads [Env] {s : LexState} {ts : List Tk} (h : Feeds s ts) : ∃ s', Reads s ts s' := by
  induction ts generalizing s with
  | nil => exact ⟨s, .nil⟩
  | cons x ts ih =>
    obtain ⟨t, l⟩ := x
    obtain ⟨s1, h1, rfl, h3⟩ := h
    obtain ⟨s', h'⟩ := ih h3
    exact ⟨s', .cons h1 h'⟩

/-- Tokens up to and including a closing parenthesis are read independently of what follows it. -/
theorem Feeds.local {s : LexState} {ts : List Tk} {l : Nat} (h : Feeds s (ts ++ [(rpar, l)])) :
    ∃ u b, s.rest = u ++ 41 :: b ∧ ∀ b', Feeds ⟨u ++ 41 :: b', s.line⟩ (ts ++ [(rpar, l)]) := by
  obtain ⟨s', h'⟩ := h.reads
  obtain ⟨s1, h1, h2⟩ := h'.split
  generalize hx : [(rpar, l)] = xs at h2
  cases h2 with
  | nil => cases hx
  | @cons _ s2 _ t ts' h3 h4 =>
    cases hx
    cases h4
    obtain ⟨lay, hlay, hr⟩ := getToken_rparen (r := s1.rest) (n := s1.line) (b := s'.rest) (m := s'.line) h3
    obtain ⟨u, hu, hr'⟩ := h1.local hlay
    refine ⟨u, s'.rest, hu, fun b' => ?_⟩
    exact ((hr' b').append (.cons (hr b') .nil)).feeds

end Verif
