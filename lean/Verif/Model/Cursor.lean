import Verif.Model.Lexer

/-!
The tokenizer as it is written: the whole program, an absolute cursor and a `u32` line, with the arithmetic of a debug
build (`checked`: overflow panics) or of a release build (overflow wraps around).
`/repo/src/lexical_analyzer/tokenizer.rs`.  `Verif.Model.Lexer` is the simplified version that the parser model uses.
-/

namespace Verif

/-- The two cells of `LexicalAnalyzer`, tokenizer.rs:7-8.  The cursor is at most the length of the program plus one, which
is below `usize::MAX` for every `Vec<u8>`. -/
structure Cursor where
  pos : Nat
  line : UInt32
  deriving DecidableEq, Repr

/-- `LexicalAnalyzer::new`, tokenizer.rs:12-18. -/
def Cursor.new : Cursor := ⟨0, 1⟩

/-- `reset_cursor`, tokenizer.rs:21-23: the line is kept. -/
def Cursor.reset (c : Cursor) : Cursor := { c with pos := 0 }

/-- Panics: those of `Verif.Model.Lexer`, and arithmetic overflow. -/
inductive CursorPanic where
  | known (p : Panic)
  | overflow
  deriving DecidableEq, Repr

/-- Result of a call. -/
inductive CursorOut where
  | tok (t : Token) (c : Cursor)
  | err (e : LexError) (c : Cursor)
  | panic (p : CursorPanic)
  /-- the budget for nested calls of `parse` is used up -/
  | stuck
  deriving DecidableEq, Repr

theorem some_lt {l : Bytes} {i : Nat} {c : UInt8} (h : l[i]? = some c) : i < l.length := by
  rw [List.getElem?_eq_some_iff] at h
  exact h.1

/-- `skip_whitespaces`, tokenizer.rs:234-246 (the line is incremented in lines 240-242; an index beyond the end does not
occur and is answered with a panic). -/
def Cursor.skip (checked : Bool) (prog : Bytes) (c : Cursor) : Except CursorPanic Cursor :=
  if c.pos = prog.length then .ok c
  else
    match h : prog[c.pos]? with
    | none => .error (.known .lexemeEof)
    | some b =>
      if !isWs b then .ok c
      else if b = 10 then
        if checked && c.line == 0xFFFFFFFF then .error .overflow
        else Cursor.skip checked prog ⟨c.pos + 1, c.line + 1⟩
      else Cursor.skip checked prog ⟨c.pos + 1, c.line⟩
termination_by prog.length - c.pos
decreasing_by all_goals have := some_lt h; simp; omega

/-- The loop of the comment branch, tokenizer.rs:124-128: the position of the next newline, `none` if the index is out of
bounds. -/
def commentEnd (prog : Bytes) (pos : Nat) : Option Nat :=
  match h : prog[pos]? with
  | none => none
  | some b => if b = 10 then some pos else commentEnd prog (pos + 1)
termination_by prog.length - pos
decreasing_by have := some_lt h; omega

/-- The loop of `peek_lexeme`, tokenizer.rs:185-209: the new cursor and `is_invalid`; `none` if the first index is out of
bounds. -/
def lexemeEnd (prog : Bytes) (pos : Nat) (invalid : Bool) : Option (Nat × Bool) :=
  match h : prog[pos]? with
  | none => none
  | some b =>
    if isLexemeByte b then
      if pos < prog.length - 1 then lexemeEnd prog (pos + 1) (invalid || isBadByte b)
      else some (pos, invalid || isBadByte b)
    else some (pos, invalid)
termination_by prog.length - pos
decreasing_by have := some_lt h; omega

/-- `&self.program[a..b]`. -/
def slice (prog : Bytes) (a b : Nat) : Bytes := (prog.drop a).take (b - a)

/-- Result of `peek_lexeme`. -/
inductive LexemeAt where
  | ok (lexeme : Bytes) (pos : Nat)
  | err (lexeme : Bytes)
  | panic (p : Panic)
  deriving DecidableEq, Repr

/-- `peek_lexeme`, tokenizer.rs:184-224. -/
def lexemeAt (prog : Bytes) (pos : Nat) : LexemeAt :=
  match lexemeEnd prog pos false with
  | none => .panic .lexemeEof
  | some (e, invalid) =>
    if !validUtf8 (slice prog pos e) then .panic .utf8
    else if invalid then .err (slice prog pos e)
    else .ok (slice prog pos e) e

/-- The loop of `peek_number`, tokenizer.rs:249-261: the new cursor and `seen_dot`. -/
def numberEnd (prog : Bytes) (pos : Nat) (dot : Bool) : Nat × Bool :=
  match h : prog[pos]? with
  | none => (pos, dot)
  | some b =>
    if isDigit b then numberEnd prog (pos + 1) dot
    else if b = 46 && !dot then numberEnd prog (pos + 1) true
    else (pos, dot)
termination_by prog.length - pos
decreasing_by all_goals have := some_lt h; omega

/-- `peek_number`, tokenizer.rs:248-282: `parse::<f64>` succeeds on digits with one dot, `parse::<i64>` fails exactly on
overflow. -/
def numberAt (prog : Bytes) (pos : Nat) : Except Bytes (Num × Nat) :=
  match numberEnd prog pos false with
  | (e, true) => .ok (.real (slice prog pos e), e)
  | (e, false) =>
    if digitsVal (slice prog pos e) < 2 ^ 63 then .ok (.int (digitsVal (slice prog pos e)), e)
    else .error (slice prog pos e)

/-- `ordering_type`, tokenizer.rs:300-325, for `<` and `>`. -/
def orderingAt (prog : Bytes) (one two : Op) (peek : Bool) (c : Cursor) : CursorOut :=
  match prog[c.pos]? with
  | some 61 => .tok (.op two) (if peek then c else { c with pos := c.pos + 1 })
  | _ => .tok (.op one) c

/-- `parse`, tokenizer.rs:38-181.  The budget counts the nested calls in line 129. -/
def Cursor.parse [Env] (checked : Bool) (prog : Bytes) (peek : Bool) : Nat → Cursor → CursorOut
  | 0, _ => .stuck
  | n + 1, c0 =>
    match c0.skip checked prog with
    | .error p => .panic p
    | .ok c =>
      -- lines 40-42 and 178-180
      if c.pos = prog.length then .tok .eof c
      else match prog[c.pos]? with
      | none => .tok .eof c
      | some b =>
        -- lines 44-46
        let d : Cursor := if peek then c else { c with pos := c.pos + 1 }
        if b = 45 then .tok (.punct .dash) d
        else if b = 40 then .tok (.punct .lparen) d
        else if b = 41 then .tok (.punct .rparen) d
        else if b = 60 then orderingAt prog .lt .le peek d
        else if b = 62 then orderingAt prog .gt .ge peek d
        else if b = 61 then .tok (.op .equal) d
        else if b = 63 then
          -- lines 55-65
          let start := if peek then d.pos + 1 else d.pos
          match lexemeAt prog start with
          | .panic p => .panic (.known p)
          | .err l => .err ⟨.invalidIdentifier, l, d.line.toNat⟩ d
          | .ok l e => .tok (.ident l) (if peek then d else { d with pos := e })
        else if b = 58 then
          -- lines 67-121
          let start := if peek then d.pos + 1 else d.pos
          match lexemeAt prog start with
          | .panic p => .panic (.known p)
          | .err l => .err ⟨.invalidIdentifier, l, d.line.toNat⟩ d
          | .ok l e =>
            let f : Cursor := if peek then d else { d with pos := e }
            match colonWord l with
            | some t => .tok t f
            | none => .err ⟨.invalidKeyword, l, f.line.toNat⟩ f
        else if b = 59 then
          -- lines 123-130
          match commentEnd prog d.pos with
          | none => .panic (.known .commentEof)
          | some e => Cursor.parse checked prog peek n { d with pos := e }
        else if checked && d.pos == 0 then
          -- line 133 subtracts one from the cursor
          .panic .overflow
        else
          -- lines 133-136: without checks, zero minus one plus one is zero
          let start := if peek then d.pos else d.pos - 1
          if isDigit b then
            match numberAt prog start with
            | .error l => .err ⟨.invalidIdentifier, l, d.line.toNat⟩ d
            | .ok (v, e) => .tok (.num v) (if peek then d else { d with pos := e })
          else
            match lexemeAt prog start with
            | .panic p => .panic (.known p)
            | .err l => .err ⟨.invalidIdentifier, l, d.line.toNat⟩ d
            | .ok l e =>
              let f : Cursor := if peek then d else { d with pos := e }
              match plainWord l with
              | some t => .tok t f
              | none =>
                if identCharsOk l then .tok (.ident l) f
                else .err ⟨.invalidIdentifier, l, f.line.toNat⟩ f

/-- `get_token` and `lookahead`, tokenizer.rs:26-28 and 34-36, with a budget that always suffices. -/
def Cursor.call [Env] (checked : Bool) (prog : Bytes) (peek : Bool) (c : Cursor) : CursorOut :=
  Cursor.parse checked prog peek (prog.length + 1) c

end Verif
