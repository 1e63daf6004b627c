import Verif.Proofs.Reads

/-! C01 – C05, C08 – C10: the tokenizer. -/

namespace Verif

open Spec

variable [Env]

/-- C01.  Whatever calls were made before (`Reachable`), a token is reported with the line on which its text starts: the
file splits into what was consumed before, all layout behind it, the text of the token and the remaining bytes, and the reported
line is one plus the number of newlines before the text. -/
theorem C01_token_line (file : Bytes) (s s' : LexState) (t : Token) (peek : Bool) (hr : Reachable file s)
    (h : lex peek s = .tok t s') :
    ∃ done lay w post, file = (done ++ lay) ++ (w ++ post) ∧ s.rest = lay ++ (w ++ post) ∧ Layout lay ∧
      (∀ c r, w ++ post = c :: r → ¬ Blank c ∧ c ≠ 59) ∧ TextOf t w ∧ (t = .eof ↔ w ++ post = []) ∧
      s'.line = 1 + newlines (done ++ lay) := by
  obtain ⟨pre, hf, hn⟩ := hr.at
  obtain ⟨lay, w, r, hlay, hrest, ht, _, hl, he, _, hs⟩ := lex_tok_at h
  exact ⟨pre, lay, w, r, by rw [hf, hrest]; simp, hrest, hlay, hs, ht, he,
    by rw [hl, hn, newlines_append, Nat.add_assoc]⟩

/-- C01 for lexical errors: the reported line is that of the offending lexeme. -/
theorem C01_error_line (file : Bytes) (s s' : LexState) (e : LexError) (peek : Bool) (hr : Reachable file s)
    (h : lex peek s = .err e s') :
    ∃ done lay post, file = (done ++ lay) ++ post ∧ s.rest = lay ++ post ∧ Layout lay ∧
      (∃ c r, post = c :: r ∧ ¬ Blank c ∧ c ≠ 59) ∧
      (e.lexeme <+: post ∨ (58 :: e.lexeme) <+: post ∨ (63 :: e.lexeme) <+: post) ∧
      e.pos = 1 + newlines (done ++ lay) := by
  obtain ⟨pre, hf, hn⟩ := hr.at
  obtain ⟨lay, w, hlay, hrest, _, hp, _, hx, _, hs⟩ := lex_err_at h
  exact ⟨pre, lay, _, by rw [hf, hrest]; simp, hrest, hlay, hs, hx, by rw [hp, hn, newlines_append, Nat.add_assoc]⟩

/-- Instance: `b` on line 2, after a comment and a peek. -/
example : ∃ s s', Reachable b!"a ;c\n b " s ∧ getToken s = .tok (.ident b!"b") s' ∧ s'.line = 2 :=
  ⟨⟨b!"b ", 2⟩, ⟨b!" ", 2⟩, .tok (t := .ident b!"b") true (.tok (t := .ident b!"a") (s' := ⟨b!" ;c\n b ", 1⟩) false .init rfl) rfl, rfl, rfl⟩

/-- C02.  After any number of peeks the next read returns the same token or error, with the same line, and leaves the
tokenizer in the same state, and so does the next peek. -/
theorem C02_peeks_change_nothing (s s' : LexState) (h : Peeks s s') :
    getToken s' = getToken s ∧ lookahead s' = lookahead s := by
  induction h with
  | refl => exact ⟨rfl, rfl⟩
  | tok h1 _ ih =>
    exact ⟨ih.1.trans (lex_peek_state (.inl ⟨_, h1⟩) false), ih.2.trans (lex_peek_state (.inl ⟨_, h1⟩) true)⟩
  | err h1 _ ih =>
    exact ⟨ih.1.trans (lex_peek_state (.inr ⟨_, h1⟩) false), ih.2.trans (lex_peek_state (.inr ⟨_, h1⟩) true)⟩

/-- Instance: two peeks over a newline. -/
example : Peeks ⟨b!"\n x ", 1⟩ ⟨b!"x ", 2⟩ :=
  .tok (t := .ident b!"x") (s1 := ⟨b!"x ", 2⟩) rfl (.tok (t := .ident b!"x") rfl .refl)

/-- C03, the part that holds: a peeked token is the next token read, unless the next text is `<=` or `>=`; peeked
errors and panics are those of the next read.  Missing for the full statement: `<=` and `>=`, see
`C03_refuted`. -/
theorem C03_peek_agrees_partial (s : LexState) :
    (∀ t s1, lookahead s = .tok t s1 →
      (¬ ∃ lay r, Layout lay ∧ (s.rest = lay ++ 60 :: 61 :: r ∨ s.rest = lay ++ 62 :: 61 :: r)) →
      ∃ s2, getToken s = .tok t s2) ∧
    (∀ e s1, lookahead s = .err e s1 → ∃ s2, getToken s = .err e s2) ∧
    (∀ p, lookahead s = .panic p → getToken s = .panic p) := by
  obtain ⟨h1, h2, h3⟩ := lex_peek_get s
  refine ⟨fun t s1 h hn => ?_, h2, h3⟩
  rcases h1 t s1 h with h | ⟨lay, r, s2, hl, ⟨hr, _⟩ | ⟨hr, _⟩⟩
  · exact h
  · exact absurd ⟨lay, r, hl, .inl hr⟩ hn
  · exact absurd ⟨lay, r, hl, .inr hr⟩ hn

example : ∃ t s1, lookahead ⟨b!" (and", 3⟩ = .tok t s1 ∧ ∃ s2, getToken ⟨b!" (and", 3⟩ = .tok t s2 :=
  ⟨.punct .lparen, _, rfl, _, rfl⟩

/-- C03 fails on every `<=` and `>=`, wherever it stands: they are peeked as `<` and `>` but read as `<=` and `>=`. -/
theorem C03_refuted (lay r : Bytes) (n : Nat) (h : Layout lay) :
    (∃ s1 s2, lookahead ⟨lay ++ 60 :: 61 :: r, n⟩ = .tok (.op .lt) s1 ∧
      getToken ⟨lay ++ 60 :: 61 :: r, n⟩ = .tok (.op .le) s2) ∧
    (∃ s1 s2, lookahead ⟨lay ++ 62 :: 61 :: r, n⟩ = .tok (.op .gt) s1 ∧
      getToken ⟨lay ++ 62 :: 61 :: r, n⟩ = .tok (.op .ge) s2) := by
  unfold lookahead getToken
  rw [lex_skip h, lex_skip h, lex_skip h, lex_skip h]
  have h60 : StartByte 60 := by decide
  have h62 : StartByte 62 := by decide
  constructor
  · unfold lex
    simp only [skipLayout_start h60]
    exact ⟨_, _, rfl, rfl⟩
  · unfold lex
    simp only [skipLayout_start h62]
    exact ⟨_, _, rfl, rfl⟩

/-- C04.  A token sequence written out with arbitrary layout is read back exactly, each token with its line, and then
the end of the file is reported on the last line. -/
theorem C04_layout_independence (ts : List (Token × Nat)) (file : Bytes) (h : Written ts 1 file) :
    ∃ s', Reads (LexState.init file) ts s' ∧ getToken s' = .tok .eof ⟨[], 1 + newlines file⟩ :=
  h.reads

/-- Instance: three tokens on two lines, with a comment. -/
example : Written [(.punct .lparen, 1), (.ident b!"x", 2), (.num (.int 12), 2)] 1 b!"( ;c\n?x 12\t" :=
  .token (lay := []) (w := b!"(") .nil .lparen trivial
    (.token (lay := b!" ;c\n") (w := b!"?x") (.blank _ _ (by decide) (.comment b!"c" [] (by decide) .nil))
      (.variable_ (w := b!"x") (by decide)) ⟨32, rfl, by decide⟩
      (.token (lay := b!" ") (w := b!"12") (t := .num (.int 12)) (rest := b!"\t") (.blank _ _ (by decide) .nil)
        (.int (w := b!"12") (by decide) (by decide) (by decide)) (by intro c hc; cases hc; decide)
        (.done (.blank _ _ (by decide) .nil))))

/-- C05, the part that holds: in a file that ends with a blank or a parenthesis (or is empty), every successful read is
the end of file or consumes at least one byte; hence at most as many tokens as bytes are read.  Missing: other files,
see `C05_refuted`. -/
theorem C05_progress_partial (file : Bytes) (hf : file = [] ∨ ∃ c, file.getLast? = some c ∧ Delim c) :
    (∀ ts s, Reads (LexState.init file) ts s → ∀ t s', getToken s = .tok t s' →
      t = .eof ∨ s'.rest.length < s.rest.length) ∧
    (∀ ts s, Reads (LexState.init file) ts s → (∀ p ∈ ts, p.1 ≠ .eof) → ts.length ≤ file.length) := by
  have good : ∀ (s0 : LexState) ts s, Good s0 → Reads s0 ts s → Good s := by
    intro s0 ts s hg hr
    induction hr with
    | nil => exact hg
    | cons h1 _ ih => exact ih (hg.getToken h1).1
  constructor
  · intro ts s hr t s' h
    exact ((good _ _ _ (Good.init hf) hr).getToken h).2
  · intro ts s hr hne
    have : ∀ (s0 : LexState) ts s, Good s0 → Reads s0 ts s → (∀ p ∈ ts, p.1 ≠ .eof) →
        ts.length + s.rest.length ≤ s0.rest.length := by
      intro s0 ts s hg hr
      induction hr with
      | nil => intro _; simp
      | @cons s s1 s2 t ts h1 _ ih =>
        intro hne
        have hp := hg.getToken h1
        have h2 := ih hp.1 fun p hp => hne p (List.mem_cons_of_mem _ hp)
        have h3 := hp.2.resolve_left (hne (t, s1.line) List.mem_cons_self)
        simp only [List.length_cons]
        omega
    have := this _ _ _ (Good.init hf) hr hne
    simp only [LexState.init] at this
    omega

example : ∃ c, b!"(define)".getLast? = some c ∧ Delim c := ⟨41, rfl, by decide⟩

/-- Every failing read consumes at least one byte, in any file. -/
theorem C05_error_progress (s s' : LexState) (e : LexError) (h : getToken s = .err e s') :
    s'.rest.length < s.rest.length := by
  obtain ⟨lay, w, hlay, hr, hw, hp, hl, hx, hne⟩ := lex_err_spec h
  have := List.length_pos_iff.2 (hne rfl)
  rw [hr]
  simp only [List.length_append]
  omega

example : ∃ e s', getToken ⟨b!"a!b ", 1⟩ = .err e s' := ⟨_, _, rfl⟩

/-- C05 fails for every file whose last byte is a letter preceded by layout: the tokenizer returns an empty identifier
again and again without moving. -/
theorem C05_refuted (lay : Bytes) (c : UInt8) (n : Nat) (h : Layout lay) (hc : WordByte c) (hd : ¬ Digit c)
    (h45 : c ≠ 45) :
    getToken ⟨lay ++ [c], n⟩ = .tok (.ident []) ⟨[c], n + newlines lay⟩ ∧
    ∀ k, Reads ⟨[c], n⟩ (List.replicate k (.ident [], n)) ⟨[c], n⟩ := by
  have key : ∀ m, getToken ⟨[c], m⟩ = .tok (.ident []) ⟨[c], m⟩ := by
    intro m
    obtain ⟨hs, h1, h2, h3, h4, h5, h6, h7, h8⟩ := nameStart hc hd h45
    have hb : isBadByte c = false := word_good (w := [c]) (by simpa [Word] using hc) c (by simp)
    have hp : peekLexeme [c] = .ok [] [c] := by
      simp [peekLexeme, scanLexeme, hb, validUtf8, decodeUtf8]
    unfold getToken lex
    simp only [skipLayout_start hs, h45, h1, h2, h3, h4, h5, h6, h7, h8, if_false, hp, Bool.false_eq_true]
    rfl
  constructor
  · have := lex_skip h false [c] n
    unfold getToken at *
    rw [this]
    exact key _
  · intro k
    induction k with
    | zero => exact .nil
    | succ k ih => exact .cons (key n) ih

example : WordByte 97 ∧ ¬ Digit 97 ∧ (97 : UInt8) ≠ 45 := by decide

/-- C08, words with a colon: the published table, exactly; any other word is an invalid keyword. -/
theorem C08_colon_words (w : Bytes) (d : UInt8) (r : Bytes) (n : Nat) (hw : Word w) (hd : Delim d) :
    (∀ t, getToken ⟨58 :: (w ++ d :: r), n⟩ = .tok t ⟨d :: r, n⟩ ↔ (w, t) ∈ colonTable) ∧
    ((∀ t, (w, t) ∉ colonTable) →
      getToken ⟨58 :: (w ++ d :: r), n⟩ = .err ⟨.invalidKeyword, w, n⟩ ⟨d :: r, n⟩) := by
  rw [getToken_colon hw hd]
  constructor
  · intro t
    rw [← colonWord_iff]
    cases colonWord w <;> simp
  · intro h
    rw [(colonWord_none w).2 h]

example : Word b!"ordered-tasks" ∧ (b!"ordered-tasks", Token.kw .orderedSubtasks) ∈ colonTable := by decide

/-- C08, words without a colon that do not start with a digit or a hyphen: the published table, exactly; any other word
is an identifier. -/
theorem C08_plain_words (c : UInt8) (w : Bytes) (d : UInt8) (r : Bytes) (n : Nat) (hw : Word (c :: w))
    (hc : ¬ Digit c) (h45 : c ≠ 45) (hd : Delim d) :
    (∀ t, getToken ⟨c :: w ++ d :: r, n⟩ = .tok t ⟨d :: r, n⟩ ↔
      (c :: w, t) ∈ plainTable ∨ (t = .ident (c :: w) ∧ ∀ t', (c :: w, t') ∉ plainTable)) := by
  intro t
  rw [getToken_plain hw ⟨c, w, rfl, hc, h45⟩ hd, ← plainWord_none]
  rw [← plainWord_iff]
  cases plainWord (c :: w) <;> simp
  exact eq_comm

example : Word b!"my-task_1" ∧ ∀ t, (b!"my-task_1", t) ∉ plainTable := by
  refine ⟨by decide, fun t => ?_⟩
  simp [plainTable]

/-- C09, integers: a run of digits followed by anything but a digit or a dot is the number it denotes if that is below
`2^63`, and an error otherwise. -/
theorem C09_integers (c : UInt8) (w r : Bytes) (n : Nat) (hw : ∀ x ∈ c :: w, Digit x)
    (hr : ∀ x, r.head? = some x → ¬ Digit x ∧ x ≠ 46) :
    (decimal (c :: w) < 2 ^ 63 → getToken ⟨c :: w ++ r, n⟩ = .tok (.num (.int (decimal (c :: w)))) ⟨r, n⟩) ∧
    (2 ^ 63 ≤ decimal (c :: w) → ∃ s', getToken ⟨c :: w ++ r, n⟩ = .err ⟨.invalidIdentifier, c :: w, n⟩ s') := by
  have h := getToken_num (c := c) (cs := w ++ r) (hw c List.mem_cons_self) n
  have hp := peekNumber_int hw hr
  simp only [List.cons_append] at h hp ⊢
  rw [h, hp]
  constructor
  · intro hlt; rw [if_pos hlt]
  · intro hge; rw [if_neg (by omega)]; exact ⟨_, rfl⟩

omit [Env] in
/-- The value of a digit string is the usual one. -/
theorem C09_decimal_snoc (w : Bytes) (c : UInt8) : decimal (w ++ [c]) = 10 * decimal w + (c.toNat - 48) := by
  induction w with
  | nil => simp [decimal]
  | cons x w ih =>
    simp only [List.cons_append, decimal, ih, List.length_append, List.length_cons, List.length_nil, Nat.zero_add,
      Nat.pow_succ, Nat.mul_add]
    rw [← Nat.mul_assoc, Nat.mul_comm _ 10]
    omega

example : decimal b!"9223372036854775807" < 2 ^ 63 ∧ 2 ^ 63 ≤ decimal b!"9223372036854775808" := by decide

/-- C09, reals: digits, a dot, and digits form one real number token. -/
theorem C09_reals (c : UInt8) (w u r : Bytes) (n : Nat) (hw : ∀ x ∈ c :: w, Digit x) (hu : ∀ x ∈ u, Digit x)
    (hr : ∀ x, r.head? = some x → ¬ Digit x) :
    getToken ⟨(c :: w ++ 46 :: u) ++ r, n⟩ = .tok (.num (.real (c :: w ++ 46 :: u))) ⟨r, n⟩ := by
  have h := getToken_num (c := c) (cs := (w ++ 46 :: u) ++ r) (hw c List.mem_cons_self) n
  have hp := peekNumber_real hw hu hr
  simp only [List.cons_append] at h hp ⊢
  rw [h, hp]

example : getToken ⟨b!"0.25)", 7⟩ = .tok (.num (.real b!"0.25")) ⟨b!")", 7⟩ := rfl

/-- C10.  A name and the variable spelled with it are read as the same token. -/
theorem C10_variables_are_names (w : Bytes) (d : UInt8) (r : Bytes) (n : Nat) (hw : PlainName w) (hd : Delim d) :
    getToken ⟨63 :: (w ++ d :: r), n⟩ = getToken ⟨w ++ d :: r, n⟩ ∧
    getToken ⟨w ++ d :: r, n⟩ = .tok (.ident w) ⟨d :: r, n⟩ := by
  rw [getToken_var hw.1 hd, getToken_plain hw.1 hw.2.1 hd, (plainWord_none w).2 hw.2.2]
  exact ⟨rfl, rfl⟩

example : PlainName b!"x1" :=
  ⟨by decide, ⟨_, _, rfl, by decide, by decide⟩, fun t => by simp [plainTable]⟩

end Verif
