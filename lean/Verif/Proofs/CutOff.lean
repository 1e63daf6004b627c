import Verif.Props.Outcomes

/-! Reading a file that is cut off: what is read before the last newline does not depend on what follows it. -/

namespace Verif

open Spec

/-! ### Lines -/

theorem scanLexeme_nl : ∀ u : Bytes, ∃ l v bad, ∀ b, scanLexeme (u ++ 10 :: b) = (l, v ++ 10 :: b, bad)
  | [] => ⟨[], [], false, fun b => by cases b <;> rfl⟩
  | [c] => by
    obtain ⟨l, v, bad, h⟩ := scanLexeme_nl []
    by_cases hc : isLexemeByte c = true
    · exact ⟨c :: l, v, isBadByte c || bad, fun b => by
        have := h b
        simp only [List.nil_append] at this
        simp [scanLexeme, hc, this]⟩
    · exact ⟨[], [c], false, fun b => by simp [scanLexeme, hc]⟩
  | c :: d :: u => by
    obtain ⟨l, v, bad, h⟩ := scanLexeme_nl (d :: u)
    by_cases hc : isLexemeByte c = true
    · exact ⟨c :: l, v, isBadByte c || bad, fun b => by
        have := h b
        simp only [List.cons_append] at this
        simp [scanLexeme, hc, this]⟩
    · exact ⟨[], c :: d :: u, false, fun b => by simp [scanLexeme, hc]⟩

theorem peekLexeme_nl (u : Bytes) : (∃ p, ∀ b, peekLexeme (u ++ 10 :: b) = .panic p) ∨
    (∃ l, ∀ b, peekLexeme (u ++ 10 :: b) = .err l) ∨ ∃ l v, ∀ b, peekLexeme (u ++ 10 :: b) = .ok l (v ++ 10 :: b) := by
  obtain ⟨l, v, bad, h⟩ := scanLexeme_nl u
  have hp : ∀ b, peekLexeme (u ++ 10 :: b) = if validUtf8 l then (if bad then .err l else .ok l (v ++ 10 :: b)) else .panic .utf8 := by
    intro b
    have := h b
    cases hu : u ++ 10 :: b with
    | nil => simp at hu
    | cons x y => rw [hu] at this; simp only [peekLexeme, this]
  by_cases h1 : validUtf8 l = true
  · cases bad with
    | true => exact .inr (.inl ⟨l, fun b => by rw [hp, if_pos h1]; rfl⟩)
    | false => exact .inr (.inr ⟨l, v, fun b => by rw [hp, if_pos h1]; rfl⟩)
  · exact .inl ⟨.utf8, fun b => by rw [hp, if_neg h1]⟩

theorem scanNumber_nl : ∀ (u : Bytes) (dot : Bool), ∃ l v d, ∀ b, scanNumber (u ++ 10 :: b) dot = (l, v ++ 10 :: b, d)
  | [], dot => ⟨[], [], dot, fun b => by simp [scanNumber, isDigit]⟩
  | c :: u, dot => by
    by_cases h1 : isDigit c = true
    · obtain ⟨l, v, d, h⟩ := scanNumber_nl u dot
      exact ⟨c :: l, v, d, fun b => by simp [scanNumber, h1, h b]⟩
    by_cases h2 : (c = 46 && !dot) = true
    · obtain ⟨l, v, d, h⟩ := scanNumber_nl u true
      exact ⟨c :: l, v, d, fun b => by rw [List.cons_append, scanNumber, if_neg h1, if_pos h2, h b]⟩
    · exact ⟨[], c :: u, dot, fun b => by rw [List.cons_append, scanNumber, if_neg h1, if_neg h2]⟩

theorem peekNumber_nl (u : Bytes) : (∃ l, ∀ b, peekNumber (u ++ 10 :: b) = .error l) ∨
    ∃ x v, ∀ b, peekNumber (u ++ 10 :: b) = .ok (x, v ++ 10 :: b) := by
  obtain ⟨l, v, d, h⟩ := scanNumber_nl u false
  cases d with
  | true => exact .inr ⟨.real l, v, fun b => by simp only [peekNumber, h b]⟩
  | false =>
    by_cases hl : digitsVal l < 2 ^ 63
    · exact .inr ⟨.int (digitsVal l), v, fun b => by simp only [peekNumber, h b, if_pos hl]⟩
    · exact .inl ⟨l, fun b => by simp only [peekNumber, h b, if_neg hl]⟩

/-- Skipping the layout of a line: a byte of the line is reached, or the next line. -/
theorem skipLayout_nl : ∀ (u : Bytes) (n : Nat) (cm : Bool),
    (∃ e v m, StartByte e ∧ ∀ b, skipLayout (u ++ 10 :: b) n cm = some ⟨e :: (v ++ 10 :: b), m⟩) ∨
    ∀ b, skipLayout (u ++ 10 :: b) n cm = skipLayout b (n + newlines u + 1) false
  | [], n, true => .inr fun b => by simp [skipLayout, newlines]
  | [], n, false => .inr fun b => by simp [skipLayout, isWs, newlines]
  | c :: u, n, true => by
    by_cases hc : c = 10
    · rcases skipLayout_nl u (n + 1) false with ⟨e, v, m, h1, h2⟩ | h
      · exact .inl ⟨e, v, m, h1, fun b => by rw [List.cons_append, skipLayout, if_pos hc, h2 b]⟩
      · refine .inr fun b => ?_
        rw [List.cons_append, skipLayout, if_pos hc, h b, newlines_cons, if_pos hc]
        congr 1
        omega
    · rcases skipLayout_nl u n true with ⟨e, v, m, h1, h2⟩ | h
      · exact .inl ⟨e, v, m, h1, fun b => by rw [List.cons_append, skipLayout, if_neg hc, h2 b]⟩
      · refine .inr fun b => ?_
        rw [List.cons_append, skipLayout, if_neg hc, h b, newlines_cons, if_neg hc, Nat.zero_add]
  | c :: u, n, false => by
    by_cases h59 : c = 59
    · rcases skipLayout_nl u n true with ⟨e, v, m, h1, h2⟩ | h
      · exact .inl ⟨e, v, m, h1, fun b => by rw [List.cons_append, skipLayout, if_pos h59, h2 b]⟩
      · refine .inr fun b => ?_
        rw [List.cons_append, skipLayout, if_pos h59, h b, newlines_cons, if_neg (by rw [h59]; decide), Nat.zero_add]
    by_cases hw : isWs c = true
    · rcases skipLayout_nl u (if c = 10 then n + 1 else n) false with ⟨e, v, m, h1, h2⟩ | h
      · exact .inl ⟨e, v, m, h1, fun b => by rw [List.cons_append, skipLayout, if_neg h59, if_pos hw, h2 b]⟩
      · refine .inr fun b => ?_
        rw [List.cons_append, skipLayout, if_neg h59, if_pos hw, h b, newlines_cons]
        congr 1
        split <;> omega
    · refine .inl ⟨c, u, n, ⟨fun hb => hw ?_, h59⟩, fun b => by
        rw [List.cons_append, skipLayout, if_neg h59, if_neg hw]⟩
      simpa [isWs, Blank, or_assoc] using hb

variable [Env]

/-- One call of the tokenizer: its outcome is determined by the bytes up to some newline, or it skips them. -/
theorem getToken_nl (u : Bytes) (n : Nat) :
    (∃ t v m, ∀ b, getToken ⟨u ++ 10 :: b, n⟩ = .tok t ⟨v ++ 10 :: b, m⟩) ∨
    (∃ e v m, ∀ b, getToken ⟨u ++ 10 :: b, n⟩ = .err e ⟨v ++ 10 :: b, m⟩) ∨
    (∃ p, ∀ b, getToken ⟨u ++ 10 :: b, n⟩ = .panic p) ∨
    ∀ b, getToken ⟨u ++ 10 :: b, n⟩ = getToken ⟨b, n + newlines u + 1⟩ := by
  rcases skipLayout_nl u n false with ⟨c, v, m, hc, h⟩ | h
  swap
  · exact .inr (.inr (.inr fun b => by simp only [getToken, lex, h b]))
  have run : ∀ b, getToken ⟨u ++ 10 :: b, n⟩ = getToken ⟨c :: (v ++ 10 :: b), m⟩ := by
    intro b
    simp only [getToken, lex, h b, skipLayout_start hc]
  simp only [run]
  have hsk : ∀ x, skipLayout (c :: x) m false = some ⟨c :: x, m⟩ := fun x => skipLayout_start hc x m
  by_cases h1 : c = 45
  · exact .inl ⟨_, v, m, fun b => by simp only [getToken, lex, hsk, if_pos h1, Bool.false_eq_true, if_false]; rfl⟩
  by_cases h2 : c = 40
  · exact .inl ⟨_, v, m, fun b => by simp only [getToken, lex, hsk, h1, if_pos h2, Bool.false_eq_true, if_false]; rfl⟩
  by_cases h3 : c = 41
  · exact .inl ⟨_, v, m, fun b => by simp only [getToken, lex, hsk, h1, h2, if_pos h3, Bool.false_eq_true, if_false]; rfl⟩
  have ord : ∀ one two, (∃ t w k, ∀ b, orderingType one two false ⟨v ++ 10 :: b, m⟩ = .tok t ⟨w ++ 10 :: b, k⟩) := by
    intro one two
    cases v with
    | nil => exact ⟨_, [], m, fun b => by simp only [orderingType, List.nil_append]; rfl⟩
    | cons e v =>
      by_cases he : e = 61
      · subst he
        exact ⟨_, v, m, fun b => by
          simp only [orderingType, List.cons_append, LexState.advance, Bool.false_eq_true, if_false, List.tail_cons]; rfl⟩
      · refine ⟨.op one, e :: v, m, fun b => ?_⟩
        unfold orderingType
        simp only [List.cons_append]
        split
        · rename_i heq
          simp only [List.cons.injEq] at heq
          exact absurd heq.1 he
        · rfl
  by_cases h4 : c = 60
  · obtain ⟨t, w, k, ho⟩ := ord .lt .le
    exact .inl ⟨t, w, k, fun b => by
      simp only [getToken, lex, hsk, h1, h2, h3, if_pos h4, Bool.false_eq_true, if_false]; exact ho b⟩
  by_cases h5 : c = 62
  · obtain ⟨t, w, k, ho⟩ := ord .gt .ge
    exact .inl ⟨t, w, k, fun b => by
      simp only [getToken, lex, hsk, h1, h2, h3, h4, if_pos h5, Bool.false_eq_true, if_false]; exact ho b⟩
  by_cases h6 : c = 61
  · exact .inl ⟨_, v, m, fun b => by
      simp only [getToken, lex, hsk, h1, h2, h3, h4, h5, if_pos h6, Bool.false_eq_true, if_false]; rfl⟩
  by_cases h7 : c = 63
  · rcases peekLexeme_nl v with ⟨p, hp⟩ | ⟨l, hp⟩ | ⟨l, w, hp⟩
    · exact .inr (.inr (.inl ⟨p, fun b => by
        simp only [getToken, lex, hsk, h1, h2, h3, h4, h5, h6, if_pos h7, Bool.false_eq_true, if_false, hp b]⟩))
    · exact .inr (.inl ⟨_, v, m, fun b => by
        simp only [getToken, lex, hsk, h1, h2, h3, h4, h5, h6, if_pos h7, Bool.false_eq_true, if_false, hp b]; rfl⟩)
    · exact .inl ⟨_, w, m, fun b => by
        simp only [getToken, lex, hsk, h1, h2, h3, h4, h5, h6, if_pos h7, Bool.false_eq_true, if_false, hp b]; rfl⟩
  by_cases h8 : c = 58
  · rcases peekLexeme_nl v with ⟨p, hp⟩ | ⟨l, hp⟩ | ⟨l, w, hp⟩
    · exact .inr (.inr (.inl ⟨p, fun b => by
        simp only [getToken, lex, hsk, h1, h2, h3, h4, h5, h6, h7, if_pos h8, Bool.false_eq_true, if_false, hp b]⟩))
    · exact .inr (.inl ⟨_, v, m, fun b => by
        simp only [getToken, lex, hsk, h1, h2, h3, h4, h5, h6, h7, if_pos h8, Bool.false_eq_true, if_false, hp b]; rfl⟩)
    · cases hw : colonWord l with
      | some t => exact .inl ⟨t, w, m, fun b => by
          simp only [getToken, lex, hsk, h1, h2, h3, h4, h5, h6, h7, if_pos h8, Bool.false_eq_true, if_false, hp b, hw]⟩
      | none => exact .inr (.inl ⟨_, w, m, fun b => by
          simp only [getToken, lex, hsk, h1, h2, h3, h4, h5, h6, h7, if_pos h8, Bool.false_eq_true, if_false, hp b, hw]; rfl⟩)
  by_cases h9 : isDigit c = true
  · rcases peekNumber_nl (c :: v) with ⟨l, hp⟩ | ⟨x, w, hp⟩
    · exact .inr (.inl ⟨_, v, m, fun b => by
        have := hp b
        rw [List.cons_append] at this
        simp only [getToken, lex, hsk, h1, h2, h3, h4, h5, h6, h7, h8, if_pos h9, Bool.false_eq_true, if_false, this]; rfl⟩)
    · exact .inl ⟨_, w, m, fun b => by
        have := hp b
        rw [List.cons_append] at this
        simp only [getToken, lex, hsk, h1, h2, h3, h4, h5, h6, h7, h8, if_pos h9, Bool.false_eq_true, if_false, this]; rfl⟩
  rcases peekLexeme_nl (c :: v) with ⟨p, hp⟩ | ⟨l, hp⟩ | ⟨l, w, hp⟩ <;> simp only [List.cons_append] at hp
  · exact .inr (.inr (.inl ⟨p, fun b => by
      simp only [getToken, lex, hsk, h1, h2, h3, h4, h5, h6, h7, h8, h9, Bool.false_eq_true, if_false, hp b]⟩))
  · exact .inr (.inl ⟨_, v, m, fun b => by
      simp only [getToken, lex, hsk, h1, h2, h3, h4, h5, h6, h7, h8, h9, Bool.false_eq_true, if_false, hp b]; rfl⟩)
  · cases hw : plainWord l with
    | some t => exact .inl ⟨t, w, m, fun b => by
        simp only [getToken, lex, hsk, h1, h2, h3, h4, h5, h6, h7, h8, h9, Bool.false_eq_true, if_false, hp b, hw]⟩
    | none =>
      by_cases hi : identCharsOk l = true
      · exact .inl ⟨_, w, m, fun b => by
          simp only [getToken, lex, hsk, h1, h2, h3, h4, h5, h6, h7, h8, h9, Bool.false_eq_true, if_false, hp b, hw, hi,
            if_true]; rfl⟩
      · exact .inr (.inl ⟨_, w, m, fun b => by
          simp only [getToken, lex, hsk, h1, h2, h3, h4, h5, h6, h7, h8, h9, Bool.false_eq_true, if_false, hp b, hw, hi]
          rfl⟩)

/-- On one line, all tokens are on that line. -/
theorem reads_flat {s s' : LexState} {ts : List Tk} (h : Reads s ts s') (hs : 10 ∉ s.rest) :
    s'.line = s.line ∧ 10 ∉ s'.rest := by
  induction h with
  | nil => exact ⟨rfl, hs⟩
  | @cons s s1 s2 t ts h1 _ ih =>
    obtain ⟨lay, w, r, _, hr, _, hs1, hl, _⟩ := lex_tok_spec h1
    simp only [Bool.false_eq_true, if_false] at hs1
    rw [hr] at hs
    simp only [List.mem_append, not_or] at hs
    obtain ⟨h3, h4⟩ := ih (by rw [hs1]; exact hs.2.2)
    exact ⟨by rw [h3, hl, (newlines_eq_zero lay).2 hs.1, Nat.add_zero], h4⟩

theorem tok_flat {s s' : LexState} {t : Token} (h : getToken s = .tok t s') (hs : 10 ∉ s.rest) :
    s'.line = s.line ∧ 10 ∉ s'.rest := reads_flat (.cons h .nil) hs

theorem err_flat {s s' : LexState} {e : LexError} (h : getToken s = .err e s') (hs : 10 ∉ s.rest) : e.pos = s.line := by
  obtain ⟨lay, w, _, hr, _, hp, _⟩ := lex_err_at h
  rw [hr] at hs
  simp only [List.mem_append, not_or] at hs
  rw [hp, (newlines_eq_zero lay).2 hs.1, Nat.add_zero]

/-- Reading a text whose last line is `b`: either the last line is not reached and does not matter, or it is reached. -/
theorem reads_nl {ts : List Tk} : ∀ {u b : Bytes} {n : Nat} {s : LexState}, 10 ∉ b → Reads ⟨u ++ 10 :: b, n⟩ ts s →
    (∃ v, s.rest = v ++ 10 :: b ∧ s.line + newlines v = n + newlines u ∧
      ∀ b', Reads ⟨u ++ 10 :: b', n⟩ ts ⟨v ++ 10 :: b', s.line⟩) ∨
    (s.line = n + newlines u + 1 ∧ 10 ∉ s.rest) := by
  induction ts with
  | nil => intro u b n s _ h; cases h; exact .inl ⟨u, rfl, rfl, fun _ => .nil⟩
  | cons x ts ih =>
    intro u b n s hb h
    cases h with
    | @cons _ s1 _ t _ h1 h2 =>
      rcases getToken_nl u n with ⟨t', v, m, h3⟩ | ⟨e, v, m, h3⟩ | ⟨p, h3⟩ | h3
      · have h4 := h3 b
        rw [h1] at h4
        cases h4
        have hm : m + newlines v = n + newlines u := by
          obtain ⟨lay, w, r, _, hr, ht, hs1, hl, _⟩ := lex_tok_spec h1
          simp only [Bool.false_eq_true, if_false] at hs1 hr hl
          have hc := congrArg newlines hr
          rw [← hs1] at hc
          have hw : newlines w = 0 := (newlines_eq_zero w).2 (textOf_not_newline ht)
          simp only [newlines_append, hw] at hc
          omega
        rcases ih hb h2 with ⟨v', h5, h7, h6⟩ | ⟨h5, h6⟩
        · exact .inl ⟨v', h5, by omega, fun b' => (Reads.cons (h3 b') (h6 b') :)⟩
        · exact .inr ⟨by omega, h6⟩
      · rw [h3 b] at h1; cases h1
      · rw [h3 b] at h1; cases h1
      · rw [h3 b] at h1
        obtain ⟨h4, h5⟩ := tok_flat h1 hb
        obtain ⟨h6, h7⟩ := reads_flat h2 h5
        exact .inr ⟨by rw [h6, h4], h7⟩

omit [Env] in
theorem last_newline : ∀ {q : Bytes}, 10 ∈ q → ∃ u b, q = u ++ 10 :: b ∧ 10 ∉ b
  | c :: q, h => by
    by_cases hq : 10 ∈ q
    · obtain ⟨u, b, rfl, h1⟩ := last_newline hq
      exact ⟨c :: u, b, rfl, h1⟩
    · rcases List.mem_cons.1 h with rfl | h
      · exact ⟨[], q, rfl, hq⟩
      · exact absurd h hq

/-- What is read before the last line of a file is read also when the file goes on. -/
theorem cut_reads {q : Bytes} {c : List Tk} {s : LexState} (x : Bytes) (h : Reads (LexState.init q) c s) :
    (∀ t s', getToken s = .tok t s' → s'.line = 1 + newlines q ∨
      ∃ s1 s2, Reads (LexState.init (q ++ x)) c s1 ∧ getToken s1 = .tok t s2 ∧ s2.line = s'.line) ∧
    ∀ e s', getToken s = .err e s' → e.pos = 1 + newlines q ∨
      ∃ s1 s2, Reads (LexState.init (q ++ x)) c s1 ∧ getToken s1 = .err e s2 := by
  by_cases hq : 10 ∈ q
  swap
  · obtain ⟨h1, h2⟩ := reads_flat h hq
    have h0 : newlines q = 0 := (newlines_eq_zero q).2 hq
    refine ⟨fun t s' ht => .inl ?_, fun e s' he => .inl ?_⟩
    · rw [(tok_flat ht h2).1, h1, h0]; rfl
    · rw [err_flat he h2, h1, h0]; rfl
  obtain ⟨u, b, rfl, hb⟩ := last_newline hq
  have hn : newlines (u ++ 10 :: b) = newlines u + 1 := by
    rw [newlines_append, newlines_cons, if_pos rfl, (newlines_eq_zero b).2 hb]
  rw [hn]
  rcases reads_nl hb h with ⟨v, h1, h2, h3⟩ | ⟨h1, h2⟩
  swap
  · refine ⟨fun t s' ht => .inl ?_, fun e s' he => .inl ?_⟩
    · rw [(tok_flat ht h2).1, h1]; omega
    · rw [err_flat he h2, h1]; omega
  obtain ⟨r, k⟩ := s
  simp only at h1 h2 h3
  subst h1
  have h4 := h3 (b ++ x)
  have hx : LexState.init (u ++ 10 :: b ++ x) = ⟨u ++ 10 :: (b ++ x), 1⟩ := by simp [LexState.init]
  rw [hx]
  rcases getToken_nl v k with ⟨t', w, m, h5⟩ | ⟨e', w, m, h5⟩ | ⟨p, h5⟩ | h5
  · refine ⟨fun t s' ht => .inr ?_, fun e s' he => ?_⟩
    · rw [h5 b] at ht
      cases ht
      exact ⟨_, _, h4, h5 _, rfl⟩
    · rw [h5 b] at he; cases he
  · refine ⟨fun t s' ht => ?_, fun e s' he => .inr ?_⟩
    · rw [h5 b] at ht; cases ht
    · rw [h5 b] at he
      cases he
      exact ⟨_, _, h4, h5 _⟩
  · refine ⟨fun t s' ht => ?_, fun e s' he => ?_⟩
    · rw [h5 b] at ht; cases ht
    · rw [h5 b] at he; cases he
  · refine ⟨fun t s' ht => .inl ?_, fun e s' he => .inl ?_⟩
    · rw [h5 b] at ht
      rw [(tok_flat ht hb).1]
      simp only
      omega
    · rw [h5 b] at he
      rw [err_flat he hb]
      simp only
      omega

/-- The first wrong token of a file that is cut off is on its last line. -/
theorem cut_wrong {q x : Bytes} {a : AST} (ha : Parses (q ++ x) a) {c : List Tk} {t : Token} {l : Nat}
    (h : FirstWrong q c t l) : l = 1 + newlines q := by
  obtain ⟨h1, _, h3⟩ := h
  obtain ⟨s', h4⟩ := h1.reads
  obtain ⟨s, h5, h6⟩ := h4.split
  generalize hx : [(t, l)] = xs at h6
  cases h6 with
  | nil => cases hx
  | @cons _ s2 _ t ts' h7 h8 =>
    cases hx
    cases h8
    rcases (cut_reads x h5).1 _ _ h7 with h9 | ⟨s1, s2, i1, i2, i3⟩
    · exact h9
    · exfalso
      refine h3 (ha.startable ?_)
      have := (i1.append (.cons i2 .nil)).feeds
      rwa [i3] at this

/-- A text that cannot be read in a file that is cut off is on its last line. -/
theorem cut_unreadable {q x : Bytes} {a : AST} (ha : Parses (q ++ x) a) {e : LexError} {s : LexState}
    (h : Unreadable q (.err e s)) : e.pos = 1 + newlines q := by
  obtain ⟨hn, c, s0, h1, h2, h3, _⟩ := h
  rcases (cut_reads x h1).2 _ _ h3 with h4 | ⟨s1, s2, i1, i2⟩
  · exact h4
  · exfalso
    obtain ⟨ts, j1, j2⟩ := (C45_grammar _ _).1 ha
    obtain ⟨r, rfl⟩ := feeds_end i1 j2 (by simp [i2])
    exact hn a ((C45_grammar _ _).2 ⟨ts, j1, h1.feeds.append⟩)

/-! ### Problems -/

variable {α β : Type}

/-- After the tokens `c`, `p` goes on as the parser of problems with what was read before. -/
def Goes (p : Nat → P ProblemAST) (c : List Tk) (x : ProblemAST) : Prop :=
  ∃ N, ∀ n, N ≤ n → ∀ s rest, Feeds s (c ++ rest) → ∃ m s1, Feeds s1 rest ∧ p n s = parseProblem m x s1

theorem Goes.succ {p : Nat → P ProblemAST} {c x} (h : Goes (fun n => p (n + 1)) c x) : Goes p c x := by
  obtain ⟨N, h⟩ := h
  refine ⟨N + 1, fun n hn => ?_⟩
  obtain ⟨k, rfl⟩ : ∃ k, n = k + 1 := ⟨n - 1, by omega⟩
  exact h k (by omega)

theorem Goes.tok {f : Nat → Token → P ProblemAST} {t l c x} (h : Goes (fun n => f n t) c x) :
    Goes (fun n => getTok >>= f n) ((t, l) :: c) x := by
  obtain ⟨N, h⟩ := h
  refine ⟨N, fun n hn s rest ⟨s1, h1, h2, h3⟩ => ?_⟩
  beta_reduce
  rw [P.bind_run (getTok_ok.2 h1)]
  exact h n hn s1 rest h3

theorem Goes.bind {Q : List Tk → Prop} {p : Nat → P α} {f : Nat → α → P ProblemAST} {ts c c0 : List Tk} {a : α} {x}
    (h : Acc Q p ts a) (h' : Goes (fun n => f n a) c x) (hq : ∀ rest, Q (c ++ rest)) (he : c0 = ts ++ c) :
    Goes (fun n => p n >>= f n) c0 x := by
  obtain ⟨N, h⟩ := h
  obtain ⟨N', h'⟩ := h'
  subst he
  refine ⟨max N N', fun n hn s rest hf => ?_⟩
  obtain ⟨s1, h1, h2⟩ := h n (by omega) s (c ++ rest) (by simpa using hf) (hq rest)
  beta_reduce
  rw [P.bind_run h1]
  exact h' n (by omega) s1 rest h2

/-- Reading the blocks of a problem, up to a place where it could end: the parser goes on with what follows. -/
theorem parseProblem_goes {bs : List PBlock} {ts} (h : Body true (PBlockText true) (closeProblem true) bs ts) :
    ∀ c l, ts = c ++ [(.eof, l)] → ∀ bs0, Goes (fun n => parseProblem n (problemOf bs0)) c (problemOf (bs0 ++ bs)) := by
  induction h with
  | done h =>
    intro c l he bs0
    have : c = [] := by
      rcases h with ⟨l2, rfl⟩ | ⟨_, l2, rfl⟩ <;> cases c with
      | nil => rfl
      | cons x c => simp at he
    subst this
    exact ⟨0, fun n _ s rest hf => ⟨n, s, hf, by rw [List.append_nil]⟩⟩
  | @block b bs ts ts' e hb hj hbody ih =>
    intro c l he bs0
    obtain ⟨d, rfl, rfl⟩ : ∃ d, c = ts ++ d ∧ ts' = d ++ [(.eof, l)] := by
      obtain ⟨d, x, rfl⟩ := List.eq_nil_or_concat ts' |>.resolve_left (body_ne hbody)
      rw [List.concat_eq_append, ← List.append_assoc] at he
      obtain ⟨h1, h2⟩ := List.append_inj' he rfl
      cases h2
      exact ⟨d, h1.symm, by simp⟩
    have ih : ∀ y, y = problemOf (bs0 ++ [b]) → Goes (fun n => parseProblem n y) d (problemOf (bs0 ++ b :: bs)) := by
      rintro y rfl
      simpa using ih d l rfl (bs0 ++ [b])
    have hj : ∀ rest, After e (d ++ rest) := by
      intro rest
      cases e with
      | closed => trivial
      | open_ => trivial
      | atParen =>
        obtain ⟨l2, r, h⟩ := hj
        cases d with
        | nil => cases h
        | cons x d =>
          simp only [List.cons_append, List.cons.injEq] at h
          exact ⟨l2, d ++ rest, by rw [h.1]; rfl⟩
    apply Goes.succ
    simp only [parseProblem]
    cases hb with
    | @requirements l1 l2 l3 rs =>
      refine Goes.tok (Goes.tok (Goes.bind (parseRequirements_complete (lr := l3) rs []) (ih _ ?_) (fun _ => trivial) (by simp)))
      simp [problemOf, PBlock.reqs, PBlock.objs, PBlock.htn?, PBlock.goal?, PBlock.init?]
    | @objects l1 l2 l3 ss items hp =>
      refine Goes.tok (Goes.tok (Goes.bind (parseArgs_complete l3 hp) (c := d) ?_ (fun _ => trivial) (by simp)))
      rw [addObjects_ok (by rw [hp.2]; exact symbolsOf_tyPos _)]
      refine Goes.bind lift_complete (ih _ ?_) (fun _ => trivial) rfl
      simp [problemOf, PBlock.reqs, PBlock.objs, PBlock.htn?, PBlock.goal?, PBlock.init?]
    | htn hp =>
      refine Goes.tok (Goes.tok (Goes.bind (parseInitialTn_complete hp) (ih _ ?_) hj (by simp)))
      simp [problemOf, PBlock.reqs, PBlock.objs, PBlock.htn?, PBlock.goal?, PBlock.init?]
    | goal hp =>
      refine Goes.tok (Goes.tok (Goes.bind (parseFormula_complete hp) (ih _ ?_) (fun _ => trivial) (by simp)))
      simp [problemOf, PBlock.reqs, PBlock.objs, PBlock.htn?, PBlock.goal?, PBlock.init?]
    | @init l1 l2 l3 ps a hp =>
      refine Goes.tok (Goes.tok (Goes.bind (parsePredicates_complete (lr := l3) hp []) (ih _ ?_) (fun _ => trivial) (by simp)))
      simp [problemOf, PBlock.reqs, PBlock.objs, PBlock.htn?, PBlock.goal?, PBlock.init?]

omit [Env] in
theorem P.bind_eq {x y : P α} {f : α → P β} {s t : LexState} (h : x s = y t) : (x >>= f) s = (y >>= f) t := by
  show P.bind' x f s = P.bind' y f t
  unfold P.bind'
  rw [h]

/-- The tokens before the blocks of a problem. -/
def headToks (name dname : Name) (l1 l2 l3 l4 l5 l6 l7 l8 l9 l10 : Nat) : List Tk :=
  [(lpar, l1), (.kw .define, l2), (lpar, l3), (.kw .problem, l4), (.ident name, l5), (rpar, l6), (lpar, l7),
    (.kw .domain, l8), (.ident dname, l9), (rpar, l10)]

/-- A file that starts with the tokens of a problem file without its end has the same blocks, and others behind. -/
theorem problem_goes {f : Bytes} {p : ProblemAST} (hf : Parses f (.problem p)) {name dname bs d l}
    {l1 l2 l3 l4 l5 l6 l7 l8 l9 l10 : Nat}
    (hb : Body true (PBlockText true) (closeProblem true) bs (d ++ [(.eof, l)]))
    (h : Feeds (LexState.init f) (headToks name dname l1 l2 l3 l4 l5 l6 l7 l8 l9 l10 ++ d)) :
    ∃ bs', p = problemOf (bs ++ bs') := by
  obtain ⟨N, hN⟩ := hf
  have key : ∃ M, ∀ n, M ≤ n → ∀ s, Feeds s (headToks name dname l1 l2 l3 l4 l5 l6 l7 l8 l9 l10 ++ d) → ∃ m s1,
      parseFile n s = (parseProblem m (problemOf bs) >>= fun p => pure (.problem p)) s1 := by
    have hd : Acc Any (fun n => parseDocumentType) [(.kw .define, l2), (lpar, l3), (.kw .problem, l4),
        (.ident name, l5), (rpar, l6), (lpar, l7), (.kw .domain, l8), (.ident dname, l9), (rpar, l10)]
        (DefType.problem name dname) := by
      simp only [parseDocumentType]
      exact Acc.exact (Acc.at (Acc.exact (Acc.at (Acc.tok (Acc.at (by
        simp only [parseProblemHeader]
        exact Acc.ident (Acc.at (Acc.exact (Acc.at (Acc.exact (Acc.at (Acc.exact (Acc.at (Acc.ident (Acc.at
          (Acc.exact Acc.ret.at))))))))))))))))
    obtain ⟨M1, hd⟩ := hd
    obtain ⟨M2, hg⟩ := parseProblem_goes hb d l rfl []
    refine ⟨max M1 M2, fun n hn s hs => ?_⟩
    obtain ⟨s1, h1, _, h3⟩ := hs
    obtain ⟨s2, h4, h5⟩ := hd n (by omega) s1 d h3 trivial
    obtain ⟨m, s3, _, h7⟩ := hg n (by omega) s2 [] (by simpa using h5)
    refine ⟨m, s3, ?_⟩
    simp only [parseFile]
    rw [P.bind_run (a := ()) (expectTok_ok.2 h1), P.bind_run h4]
    rw [List.nil_append] at h7
    have h8 : parseProblem n ProblemAST.new s2 = parseProblem m (problemOf bs) s3 := h7
    exact P.bind_eq h8
  obtain ⟨M, hM⟩ := key
  obtain ⟨m, s1, h1⟩ := hM (max N M) (by omega) _ h
  have h2 := hN (max N M) (by omega)
  unfold parse at h2
  rw [h1] at h2
  cases h3 : parseProblem m (problemOf bs) s1 with
  | ok r =>
    obtain ⟨r, s2⟩ := r
    rw [P.bind_run h3] at h2
    obtain ⟨bs', ts, h4, _, _⟩ := parseProblem_sound m bs s1 r s2 h3
    rw [P.pure_run] at h2
    cases h2
    exact ⟨bs', h4⟩
  | err e => rw [P.bind_of_err h3] at h2; cases h2
  | panic e => rw [P.bind_of_panic h3] at h2; cases h2
  | timeout =>
    exfalso
    have : (parseProblem m (problemOf bs) >>= fun p => (pure (.problem p) : P AST)) s1 = .timeout := by
      show P.bind' _ _ _ = _
      unfold P.bind'
      rw [h3]
    rw [this] at h2
    cases h2

end Verif
