import Verif.Proofs.Cursor
import Verif.Proofs.Instance

/-! The tokenizer as it is written, with an absolute cursor and a `u32` line, in debug and in release builds. -/

namespace Verif

open Spec

variable [Env]

/-- A cursor that some calls of `get_token` and `lookahead` lead to. -/
inductive CursorReach (checked : Bool) (file : Bytes) : Cursor → Prop where
  | init : CursorReach checked file .new
  | tok {c t c'} (peek : Bool) : CursorReach checked file c → c.call checked file peek = .tok t c' →
      CursorReach checked file c'
  | err {c e c'} (peek : Bool) : CursorReach checked file c → c.call checked file peek = .err e c' →
      CursorReach checked file c'

/-- A debug build answers with an overflow or like a release build, and a release build always agrees with `lex`. -/
theorem call_agree (pre l : Bytes) (N : Nat) (peek : Bool) :
    Agree pre l N (Cursor.call false (pre ++ l) peek ⟨pre.length, UInt32.ofNat N⟩) (lex peek ⟨l, N⟩) :=
  parse_agree false peek _ l pre N (by simp; omega) (by simp) (by simp)

theorem call_checked (checked : Bool) (file : Bytes) (peek : Bool) (c : Cursor) :
    c.call checked file peek = .panic .overflow ∨ c.call checked file peek = c.call false file peek := by
  cases checked with
  | false => exact .inr rfl
  | true => exact parse_checked file peek _ c

theorem CursorReach.at {checked : Bool} {file : Bytes} {c : Cursor} (h : CursorReach checked file c) :
    ∃ pre l, file = pre ++ l ∧ c = ⟨pre.length, UInt32.ofNat (1 + newlines pre)⟩ := by
  have step : ∀ {pre l : Bytes} {c : Cursor} {s : LexState}, CursorAt pre l (1 + newlines pre) c s →
      ∃ pre' l', pre ++ l = pre' ++ l' ∧ c = ⟨pre'.length, UInt32.ofNat (1 + newlines pre')⟩ := by
    rintro pre l ⟨cp, cl⟩ s ⟨w, h1, h2, h3, h4⟩
    simp only at h2 h3
    refine ⟨pre ++ w, s.rest, by rw [h1]; simp, ?_⟩
    rw [h2, h3, h4, newlines_append, Nat.add_assoc]
  induction h with
  | init => exact ⟨[], file, rfl, by simp [Cursor.new, newlines]⟩
  | tok peek _ hc ih =>
    obtain ⟨pre, l, rfl, rfl⟩ := ih
    rcases call_checked checked (pre ++ l) peek _ with h | h
    · rw [h] at hc; cases hc
    · rw [h] at hc
      have := call_agree pre l (1 + newlines pre) peek
      rw [hc] at this
      generalize lex peek ⟨l, 1 + newlines pre⟩ = x at this
      cases this with | tok h => exact step h
  | err peek _ hc ih =>
    obtain ⟨pre, l, rfl, rfl⟩ := ih
    rcases call_checked checked (pre ++ l) peek _ with h | h
    · rw [h] at hc; cases hc
    · rw [h] at hc
      have := call_agree pre l (1 + newlines pre) peek
      rw [hc] at this
      generalize lex peek ⟨l, 1 + newlines pre⟩ = x at this
      cases this with | err h => exact step h

/-- C67.  Whatever calls were made before, in a debug or a release build: a token is read where the cursor stands, after
all layout there; a read puts the cursor behind its text, a peek in front of it; and the line is one plus the number of
newlines before the text, modulo 2³². -/
theorem C67_token (checked : Bool) (file : Bytes) (c c' : Cursor) (t : Token) (peek : Bool)
    (hr : CursorReach checked file c) (h : c.call checked file peek = .tok t c') :
    ∃ done lay w post, file = done ++ lay ++ w ++ post ∧ c.pos = done.length ∧ Layout lay ∧
      (∀ b r, w ++ post = b :: r → ¬ Blank b ∧ b ≠ 59) ∧ TextOf t w ∧
      c'.pos = (if peek then (done ++ lay).length else (done ++ lay ++ w).length) ∧
      c'.line.toNat = (1 + newlines (done ++ lay)) % 2 ^ 32 ∧ (t = .eof ↔ w ++ post = []) := by
  obtain ⟨pre, l, rfl, rfl⟩ := hr.at
  rcases call_checked checked (pre ++ l) peek _ with h' | h'
  · rw [h'] at h; cases h
  · rw [h'] at h
    have ha := call_agree pre l (1 + newlines pre) peek
    rw [h] at ha
    generalize hx : lex peek ⟨l, 1 + newlines pre⟩ = x at ha
    cases ha with
    | tok hat =>
      obtain ⟨v, h1, h2, h3, h4⟩ := hat
      obtain ⟨lay, w, r, hlay, hrest, ht, hs, hl, he, _, hb⟩ := lex_tok_at hx
      simp only at hrest hl
      refine ⟨pre, lay, w, r, by rw [hrest]; simp, rfl, hlay, hb, ht, ?_, ?_, he⟩
      · rw [h2]
        have e1 : v ++ (if peek then w ++ r else r) = lay ++ (w ++ r) := by rw [← hs, ← h1, hrest]
        have e2 := congrArg List.length e1
        cases peek <;> simp at e2 ⊢ <;> omega
      · rw [h3, hl, newlines_append]
        simp [Nat.add_assoc]

/-- C67 for errors: the reported line is that of the wrong lexeme, modulo 2³². -/
theorem C67_error (checked : Bool) (file : Bytes) (c c' : Cursor) (e : LexError) (peek : Bool)
    (hr : CursorReach checked file c) (h : c.call checked file peek = .err e c') :
    ∃ done lay post, file = done ++ lay ++ post ∧ c.pos = done.length ∧ Layout lay ∧
      (∃ b r, post = b :: r ∧ ¬ Blank b ∧ b ≠ 59) ∧
      (e.lexeme <+: post ∨ (58 :: e.lexeme) <+: post ∨ (63 :: e.lexeme) <+: post) ∧
      e.pos = (1 + newlines (done ++ lay)) % 2 ^ 32 := by
  obtain ⟨pre, l, rfl, rfl⟩ := hr.at
  rcases call_checked checked (pre ++ l) peek _ with h' | h'
  · rw [h'] at h; cases h
  · rw [h'] at h
    have ha := call_agree pre l (1 + newlines pre) peek
    rw [h] at ha
    generalize hx : lex peek ⟨l, 1 + newlines pre⟩ = x at ha
    cases ha with
    | err hat =>
      obtain ⟨lay, w, hlay, hrest, _, hp, _, hw, _, hb⟩ := lex_err_at hx
      simp only at hrest hp
      refine ⟨pre, lay, _, by rw [hrest, List.append_assoc], rfl, hlay, hb, hw, ?_⟩
      simp only [wrapLine]
      rw [hp, newlines_append, Nat.add_assoc]

/-- C67: with at most 2³² − 2 newlines in the file there is no overflow, except that a debug build must not look ahead
before the first byte has been read; and the nested calls for comments are bounded by the length of the file. -/
theorem C67_no_overflow (checked : Bool) (file : Bytes) (c : Cursor) (peek : Bool) (hr : CursorReach checked file c)
    (hn : 1 + newlines file < 2 ^ 32) (h0 : peek = true → c.pos ≠ 0) :
    c.call checked file peek ≠ .panic .overflow ∧ c.call checked file peek ≠ .stuck := by
  obtain ⟨pre, l, rfl, rfl⟩ := hr.at
  have ha := parse_agree checked peek ((pre ++ l).length + 1) l pre (1 + newlines pre) (by simp; omega)
    (fun _ => by rw [newlines_append] at hn; omega)
    (fun _ hp hpre => h0 hp (by simp [hpre]))
  unfold Cursor.call
  generalize lex peek ⟨l, 1 + newlines pre⟩ = x at ha
  constructor <;> intro h <;> rw [h] at ha <;> cases ha

/-- A release build never reports an overflow. -/
theorem C67_release (file : Bytes) (c : Cursor) (peek : Bool) (hr : CursorReach false file c) :
    c.call false file peek ≠ .panic .overflow ∧ c.call false file peek ≠ .stuck := by
  obtain ⟨pre, l, rfl, rfl⟩ := hr.at
  have ha := call_agree pre l (1 + newlines pre) peek
  generalize lex peek ⟨l, 1 + newlines pre⟩ = x at ha
  constructor <;> intro h <;> rw [h] at ha <;> cases ha

/-- What the caller of the tokenizer sees. -/
inductive Answer where
  | tok (t : Token)
  | err (e : LexError)
  | panic (p : CursorPanic)
  deriving DecidableEq, Repr

/-- A caller of the tokenizer: from the answers so far it decides whether to look ahead (`true`) or to read. -/
abbrev Client := List Answer → Bool

/-- CursorAt most `n` calls of the tokenizer of `Verif.Model.Cursor`; a panic ends them. -/
def Cursor.session (checked : Bool) (file : Bytes) (client : Client) : Nat → List Answer → Cursor → List Answer
  | 0, h, _ => h
  | n + 1, h, c =>
    match c.call checked file (client h) with
    | .tok t c => Cursor.session checked file client n (h ++ [.tok t]) c
    | .err e c => Cursor.session checked file client n (h ++ [.err e]) c
    | .panic p => h ++ [.panic p]
    | .stuck => h

/-- The same for the tokenizer of `Verif.Model.Lexer`. -/
def session (client : Client) : Nat → List Answer → LexState → List Answer
  | 0, h, _ => h
  | n + 1, h, s =>
    match lex (client h) s with
    | .tok t s => session client n (h ++ [.tok t]) s
    | .err e s => session client n (h ++ [.err e]) s
    | .panic p => h ++ [.panic (.known p)]

/-- Lines modulo 2³². -/
def Answer.wrap : Answer → Answer
  | .err e => .err (wrapLine e)
  | a => a

theorem session_agree (checked : Bool) (client : Client) : ∀ (n : Nat) (h : List Answer) (pre l : Bytes) (N : Nat),
    (checked = true → N + newlines l < 2 ^ 32) → (checked = true → pre ≠ []) →
    Cursor.session checked (pre ++ l) client n (h.map Answer.wrap) ⟨pre.length, UInt32.ofNat N⟩ =
      (session (fun h => client (h.map Answer.wrap)) n h ⟨l, N⟩).map Answer.wrap
  | 0, _, _, _, _, _, _ => rfl
  | n + 1, h, pre, l, N, hn, hp => by
    have step : ∀ {c : Cursor} {s : LexState} (a : Answer), CursorAt pre l N c s →
        Cursor.session checked (pre ++ l) client n (h.map Answer.wrap ++ [a.wrap]) c =
          (session (fun h => client (h.map Answer.wrap)) n (h ++ [a]) s).map Answer.wrap := by
      rintro ⟨cp, cl⟩ ⟨r, N'⟩ a ⟨w, h1, h2, h3, h4⟩
      simp only at h1 h2 h3 h4
      subst h1 h2 h3 h4
      have := session_agree checked client n (h ++ [a]) (pre ++ w) r (N + newlines w)
        (fun hc => by have := hn hc; rw [newlines_append] at this; omega) (fun hc => by simp [hp hc])
      simpa using this
    rw [Cursor.session, session, Cursor.call]
    have ha := parse_agree checked (client (h.map Answer.wrap)) ((pre ++ l).length + 1) l pre N (by simp; omega) hn
      (fun hc _ => hp hc)
    generalize Cursor.parse checked (pre ++ l) (client (h.map Answer.wrap)) ((pre ++ l).length + 1) _ = o at ha
    generalize lex (client (h.map Answer.wrap)) ⟨l, N⟩ = o' at ha
    cases ha with
    | tok hat => exact step (.tok _) hat
    | err hat => exact step (.err _) hat
    | panic => simp [Answer.wrap]

/-- C67: for every caller, however it mixes reading and looking ahead and whatever it makes of the answers, a release build
answers like the tokenizer of `Verif.Model.Lexer`, up to lines modulo 2³². -/
theorem C67_release_session (file : Bytes) (client : Client) (n : Nat) :
    Cursor.session false file client n [] .new =
      (session (fun h => client (h.map Answer.wrap)) n [] ⟨file, 1⟩).map Answer.wrap :=
  session_agree false client n [] [] file 1 (by simp) (by simp)

theorem session_exact (checked : Bool) (client : Client) : ∀ (n : Nat) (h : List Answer) (pre l : Bytes) (N : Nat),
    N + newlines l < 2 ^ 32 →
    (checked = true → pre ≠ [] ∨ (client h = false ∧ (n ≤ 1 ∨ ∃ s, getToken ⟨l, N⟩ = .tok (.punct .lparen) s))) →
    Cursor.session checked (pre ++ l) client n h ⟨pre.length, UInt32.ofNat N⟩ = session client n h ⟨l, N⟩
  | 0, _, _, _, _, _, _ => rfl
  | n + 1, h, pre, l, N, hn, hp => by
    have step : ∀ {c : Cursor} {s : LexState} (h : List Answer), CursorAt pre l N c s →
        (checked = true → pre = [] → n = 0 ∨ s.rest.length < l.length) →
        Cursor.session checked (pre ++ l) client n h c = session client n h s := by
      rintro ⟨cp, cl⟩ ⟨r, N'⟩ h ⟨w, h1, h2, h3, h4⟩ hk
      simp only at h1 h2 h3 h4 hk
      subst h1 h2 h3 h4
      cases n with
      | zero => rfl
      | succ n =>
        have := session_exact checked client (n + 1) h (pre ++ w) r (N + newlines w)
          (by rw [newlines_append] at hn; omega)
          (fun hc => .inl fun he => by
            obtain ⟨he1, he2⟩ := List.append_eq_nil_iff.1 he
            rcases hk hc he1 with h | h
            · omega
            · simp [he2] at h)
        simpa using this
    rw [Cursor.session, session, Cursor.call]
    have ha := parse_agree checked (client h) ((pre ++ l).length + 1) l pre N (by simp; omega) (fun _ => hn)
      (fun hc hl => by
        rcases hp hc with h' | h'
        · exact h'
        · rw [h'.1] at hl; cases hl)
    have hfirst : ∀ {t s}, lex (client h) ⟨l, N⟩ = .tok t s → checked = true → pre = [] →
        n = 0 ∨ s.rest.length < l.length := by
      intro t s hx hc he
      rcases hp hc with h' | ⟨h1, h2 | ⟨s', h2⟩⟩
      · exact absurd he h'
      · omega
      · right
        rw [h1, show lex false ⟨l, N⟩ = _ from h2] at hx
        cases hx
        obtain ⟨lay, w, r, _, hrest, ht, hs, _⟩ := lex_tok_spec h2
        simp only [Bool.false_eq_true, if_false] at hrest hs
        rw [hrest, hs]
        have : w ≠ [] := by
          cases ht with
          | spells h => exact spells_ne_nil h
        have := List.length_pos_of_ne_nil this
        simp
        omega
    have herr : ∀ {e s}, lex (client h) ⟨l, N⟩ = .err e s → wrapLine e = e ∧ (checked = true → pre = [] →
        n = 0 ∨ s.rest.length < l.length) := by
      intro e s hx
      obtain ⟨lay, w, _, hrest, _, h1, h2, _⟩ := lex_err_spec hx
      simp only at hrest h1
      rw [hrest, newlines_append] at hn
      refine ⟨by unfold wrapLine; rw [Nat.mod_eq_of_lt (by omega)], fun hc he => ?_⟩
      rcases hp hc with h' | ⟨h1, h2 | ⟨s', h2⟩⟩
      · exact absurd he h'
      · omega
      · rw [h1, show lex false ⟨l, N⟩ = _ from h2] at hx
        cases hx
    generalize Cursor.parse checked (pre ++ l) (client h) ((pre ++ l).length + 1) _ = o at ha
    generalize hx : lex (client h) ⟨l, N⟩ = o' at ha
    cases ha with
    | tok hat => exact step _ hat (hfirst hx)
    | err hat =>
      obtain ⟨h1, h2⟩ := herr hx
      dsimp only
      rw [h1]
      exact step _ hat h2
    | panic => rfl

/-- C67: with at most 2³² − 2 newlines in the file, debug and release builds give every caller the same answers, those of
the tokenizer of `Verif.Model.Lexer`.  In a debug build the caller has to begin, as `Parser::parse` does, by reading a
token, and may go on only if this is an opening parenthesis. -/
theorem C67_session (checked : Bool) (file : Bytes) (client : Client) (n : Nat) (hn : 1 + newlines file < 2 ^ 32)
    (hc : checked = true → client [] = false ∧
      (n ≤ 1 ∨ ∃ s, getToken ⟨file, 1⟩ = .tok (.punct .lparen) s)) :
    Cursor.session checked file client n [] .new = session client n [] ⟨file, 1⟩ :=
  session_exact checked client n [] [] file 1 hn fun h => .inr (hc h)

omit [Env] in
theorem skip_replicate (k : Nat) : ∀ (pre rest : Bytes) (n : UInt32),
    Cursor.skip false (pre ++ (List.replicate k 10 ++ rest)) ⟨pre.length, n⟩ =
      Cursor.skip false (pre ++ List.replicate k 10 ++ rest) ⟨pre.length + k, n + UInt32.ofNat k⟩ := by
  induction k with
  | zero => intro pre rest n; simp
  | succ k ih =>
    intro pre rest n
    rw [List.replicate_succ, List.cons_append, skip_cons, if_neg (by decide), if_pos rfl, if_neg (by simp), ih]
    have : n + 1 + UInt32.ofNat k = n + UInt32.ofNat (k + 1) := by
      rw [← line_succ, UInt32.add_assoc, UInt32.add_comm 1]
    rw [this]
    simp [Nat.add_assoc, Nat.add_comm 1]

omit [Env] in
theorem skip_overflow (k : Nat) : ∀ (pre rest : Bytes) (N : Nat), N < 2 ^ 32 → 2 ^ 32 ≤ N + k →
    Cursor.skip true (pre ++ (List.replicate k 10 ++ rest)) ⟨pre.length, UInt32.ofNat N⟩ = .error .overflow := by
  induction k with
  | zero => intro pre rest n; omega
  | succ k ih =>
    intro pre rest N h1 h2
    rw [List.replicate_succ, List.cons_append, skip_cons, if_neg (by decide), if_pos rfl]
    by_cases h : N + 1 = 2 ^ 32
    · obtain rfl : N = 2 ^ 32 - 1 := by omega
      rfl
    · rw [if_neg, line_succ]
      · exact ih _ _ _ (by omega) (by omega)
      · simpa using line_max (by omega)

/-- C67: the bound is sharp.  With one newline more at the start of the file, a debug build panics on the first token. -/
theorem C67_debug_overflow (rest : Bytes) (peek : Bool) :
    Cursor.call true (List.replicate (2 ^ 32 - 1) 10 ++ rest) peek .new = .panic .overflow := by
  have h := skip_overflow (2 ^ 32 - 1) [] rest 1 (by omega) (by omega)
  generalize 2 ^ 32 - 1 = k at h
  rw [Cursor.call, Cursor.parse, show Cursor.skip true (List.replicate k 10 ++ rest) .new = _ from h]

theorem release_lines (k : Nat) (rest : Bytes) :
    Cursor.call false (List.replicate k 10 ++ 40 :: rest) false .new =
      .tok (.punct .lparen) ⟨k + 1, 1 + UInt32.ofNat k⟩ := by
  have h := skip_replicate k [] (40 :: rest) 1
  have h' := skip_cons false (List.replicate k 10) 40 rest (1 + UInt32.ofNat k)
  rw [if_pos (by decide), List.length_replicate] at h'
  simp only [List.nil_append, List.length_nil, Nat.zero_add] at h
  rw [h'] at h
  have e := at_append (List.replicate k 10) 40 rest
  rw [List.length_replicate] at e
  rw [Cursor.call, Cursor.parse, show Cursor.skip false (List.replicate k 10 ++ 40 :: rest) .new = _ from h]
  dsimp only
  rw [if_neg (by simp), e]
  simp

/-- … and a release build reports line zero. -/
theorem C67_release_wraps (rest : Bytes) :
    ∃ c, Cursor.call false (List.replicate (2 ^ 32 - 1) 10 ++ 40 :: rest) false .new = .tok (.punct .lparen) c ∧
      c.line = 0 := by
  refine ⟨_, release_lines _ rest, ?_⟩
  rfl

/-- C67: the other overflow.  In a debug build looking ahead panics if nothing has been read and the file begins with a
letter, a digit or another character that begins a word. -/
theorem C67_early_look (b : UInt8) (rest : Bytes) (hb : WordByte b) (h45 : b ≠ 45) :
    Cursor.call true (b :: rest) true .new = .panic .overflow := by
  have hw : isWs b = false ∧ b ≠ 40 ∧ b ≠ 41 ∧ b ≠ 60 ∧ b ≠ 62 ∧ b ≠ 61 ∧ b ≠ 63 ∧ b ≠ 58 ∧ b ≠ 59 := by
    refine ⟨?_, ?_⟩
    · cases hw : isWs b with
      | false => rfl
      | true => exact absurd ((isWs_iff b).1 hw) (by
        simp only [Blank, List.mem_cons, List.not_mem_nil, or_false]
        rintro (rfl | rfl | rfl | rfl) <;> revert hb <;> decide)
    · refine ⟨?_, ?_, ?_, ?_, ?_, ?_, ?_, ?_⟩ <;> rintro rfl <;> revert hb <;> decide
  obtain ⟨hw, h1, h2, h3, h4, h5, h6, h7, h8⟩ := hw
  have h := skip_cons true [] b rest 1
  rw [if_pos (by simp [hw])] at h
  rw [Cursor.call, Cursor.parse, show Cursor.skip true (b :: rest) .new = _ from h]
  simp [h45, h1, h2, h3, h4, h5, h6, h7, h8]

/-- Instances: a debug build reads a file with a comment and a wrong keyword like the simple tokenizer, here with a caller
that always looks ahead before it reads. -/
example : ∃ client : Client, client [] = false ∧ client [.tok (.punct .lparen)] = true ∧
    @Cursor.session Env.plain true b!"( ;x\n :wrong) " client 4 [] .new =
      [.tok (.punct .lparen), .err ⟨.invalidKeyword, b!"wrong", 2⟩, .err ⟨.invalidKeyword, b!"wrong", 2⟩,
        .tok (.punct .rparen)] :=
  ⟨fun h => h.length == 1, rfl, rfl, by decide +kernel⟩

example : @Cursor.call Env.plain true b!"ab " true .new = .panic .overflow := by decide +kernel

example : @Cursor.call Env.plain true b!"ab " false .new = .tok (.ident b!"ab") ⟨2, 1⟩ := by decide +kernel

end Verif
