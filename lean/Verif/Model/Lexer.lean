import Verif.Model.Token

/-! The tokenizer.  `/repo/src/lexical_analyzer/tokenizer.rs`. -/

namespace Verif

/-- State of `LexicalAnalyzer`, tokenizer.rs:5-9.  Simplified: instead of the program and an absolute cursor, the state
holds the part of the program at and after the cursor (the code never looks before the cursor).
`line` is `last_token_pos.line` (unbounded instead of `u32`). -/
structure LexState where
  rest : List UInt8
  line : Nat
  deriving DecidableEq, Repr

/-- `LexicalAnalyzer::new`, tokenizer.rs:12-18. -/
def LexState.init (program : Bytes) : LexState := ⟨program, 1⟩

/-- Result of one call of the tokenizer: a token, an error value, or a panic.  Tokens and errors leave the tokenizer in
a new state. -/
inductive LexOut where
  | tok (t : Token) (s : LexState)
  | err (e : LexError) (s : LexState)
  | panic (p : Panic)
  deriving DecidableEq, Repr

/-- Blank and comment skipping: `skip_whitespaces` (tokenizer.rs:234-246) fused with the comment branch of `parse`
(tokenizer.rs:123-130), which skips to the next newline and calls `parse` again.  `inComment` says whether we are
inside a comment.  The newline that ends a comment is skipped (and counted) as a blank by the recursive call.
`none` is the index-out-of-bounds panic of a comment that is not followed by a newline. -/
def skipLayout : List UInt8 → Nat → Bool → Option LexState
  | [], n, false => some ⟨[], n⟩
  | [], _, true => none
  | c :: cs, n, true => if c = 10 then skipLayout cs (n + 1) false else skipLayout cs n true
  | c :: cs, n, false =>
    if c = 59 then skipLayout cs n true
    else if isWs c then skipLayout cs (if c = 10 then n + 1 else n) false
    else some ⟨c :: cs, n⟩

/-- The byte continues a lexeme: everything except parentheses and blanks, tokenizer.rs:188-201. -/
def isLexemeByte (c : UInt8) : Bool := !(c == 41 || c == 40 || isWs c)

/-- The byte sets `is_invalid`, tokenizer.rs:188-201. -/
def isBadByte (c : UInt8) : Bool := isLexemeByte c && !(c == 95 || c == 45) && !latin1Alnum c

/-- The scanning loop of `peek_lexeme`, tokenizer.rs:202-209: the bytes of the lexeme, what follows, and `is_invalid`.
At the last byte of the program the loop stops without including it (the cursor only moves while
`cursor_pos < len - 1`), so the last byte is examined but not taken. -/
def scanLexeme : List UInt8 → List UInt8 × List UInt8 × Bool
  | [] => ([], [], false)
  | [c] => ([], [c], isBadByte c)
  | c :: d :: cs =>
    if isLexemeByte c then
      match scanLexeme (d :: cs) with
      | (l, r, bad) => (c :: l, r, isBadByte c || bad)
    else ([], c :: d :: cs, false)

/-- Result of `peek_lexeme`. -/
inductive LexemeOut where
  | ok (lexeme rest : List UInt8)
  | err (lexeme : List UInt8)
  | panic (p : Panic)
  deriving DecidableEq, Repr

/-- `peek_lexeme`, tokenizer.rs:184-224, started at the suffix `s`. -/
def peekLexeme (s : List UInt8) : LexemeOut :=
  match s with
  | [] => .panic .lexemeEof
  | _ :: _ =>
    match scanLexeme s with
    | (l, r, bad) =>
      if validUtf8 l then (if bad then .err l else .ok l r) else .panic .utf8

/-- The scanning loop of `peek_number`, tokenizer.rs:251-261: bytes taken, what follows, and `seen_dot`. -/
def scanNumber : List UInt8 → Bool → List UInt8 × List UInt8 × Bool
  | [], dot => ([], [], dot)
  | c :: cs, dot =>
    if isDigit c then
      match scanNumber cs dot with
      | (l, r, d) => (c :: l, r, d)
    else if c = 46 && !dot then
      match scanNumber cs true with
      | (l, r, d) => (c :: l, r, d)
    else ([], c :: cs, dot)

/-- Value of a string of decimal digits. -/
def digitsVal (l : List UInt8) : Nat := l.foldl (fun a c => a * 10 + (c.toNat - 48)) 0

/-- `peek_number`, tokenizer.rs:248-282: the number and what follows, or the lexeme of the error.
`parse::<f64>` succeeds on digits with one dot; `parse::<i64>` fails exactly on overflow. -/
def peekNumber (s : List UInt8) : Except (List UInt8) (Num × List UInt8) :=
  match scanNumber s false with
  | (l, r, true) => .ok (.real l, r)
  | (l, r, false) => if digitsVal l < 2 ^ 63 then .ok (.int (digitsVal l), r) else .error l

/-- Words after a colon, tokenizer.rs:76-114. -/
def colonWord (l : List UInt8) : Option Token :=
  if l = b!"negative-preconditions" then some (.req .negativePreconditions)
  else if l = b!"strips" then some (.req .strips)
  else if l = b!"hierarchy" then some (.req .hierarchy)
  else if l = b!"equality" then some (.req .equality)
  else if l = b!"method-preconditions" then some (.req .methodPreconditions)
  else if l = b!"typing" then some (.req .typedObjects)
  else if l = b!"universal-preconditions" then some (.req .universalPreconditions)
  else if l = b!"requirements" then some (.kw .requirements)
  else if l = b!"objects" then some (.kw .objects)
  else if l = b!"types" then some (.kw .types)
  else if l = b!"constants" then some (.kw .constants)
  else if l = b!"predicates" then some (.kw .predicates)
  else if l = b!"functions" then some (.kw .functions)
  else if l = b!"init" then some (.kw .init)
  else if l = b!"htn" then some (.kw .htn)
  else if l = b!"task" then some (.kw .task)
  else if l = b!"action" then some (.kw .action)
  else if l = b!"parameters" then some (.kw .parameters)
  else if l = b!"method" then some (.kw .method)
  else if l = b!"precondition" then some (.kw .precondition)
  else if l = b!"effect" then some (.kw .effect)
  else if l = b!"subtasks" ∨ l = b!"tasks" then some (.kw .subtasks)
  else if l = b!"ordered-subtasks" ∨ l = b!"ordered-tasks" then some (.kw .orderedSubtasks)
  else if l = b!"ordering" ∨ l = b!"order" then some (.kw .ordering)
  else if l = b!"constraints" then some (.kw .constraints)
  else if l = b!"goal" then some (.kw .goal)
  else if l = b!"domain" then some (.kw .domain)
  else if l = b!"problem" then some (.kw .problem)
  else none

/-- Words without a colon: the keywords of tokenizer.rs:151-153 and `is_operator`, tokenizer.rs:284-298. -/
def plainWord (l : List UInt8) : Option Token :=
  if l = b!"define" then some (.kw .define)
  else if l = b!"domain" then some (.kw .domain)
  else if l = b!"problem" then some (.kw .problem)
  else if l = b!"and" then some (.op .and)
  else if l = b!"or" then some (.op .or)
  else if l = b!"oneof" then some (.op .xor)
  else if l = b!"not" then some (.op .not)
  else if l = b!"forall" then some (.op .forall_)
  else if l = b!"exists" then some (.op .exists_)
  else if l = b!"imply" then some (.op .implication)
  else if l = b!"probabilistic" then some (.op .probabilistic)
  else none

/-- The second check on plain words: all characters alphanumeric, `_` or `-`, tokenizer.rs:160-163. -/
def identCharsOk [Env] (l : List UInt8) : Bool :=
  match decodeUtf8 l with
  | some cps => cps.all fun n => cpAlnum n || n == 95 || n == 45
  | none => false

/-- Advance the cursor by one byte. -/
def LexState.advance (s : LexState) : LexState := ⟨s.rest.tail, s.line⟩

/-- `ordering_type`, tokenizer.rs:300-325, for `<` and `>`: `s` is the tokenizer at the moment of the call, so with
`peek` the cursor is still on the operator itself. -/
def orderingType (one two : Op) (peek : Bool) (s : LexState) : LexOut :=
  match s.rest with
  | 61 :: _ => .tok (.op two) (if peek then s else s.advance)
  | _ => .tok (.op one) s

/-- `parse`, tokenizer.rs:38-181.  (The subtraction on line 133 underflows in debug builds when peeking at cursor 0;
the API never peeks before reading, so that case is not modelled.) -/
def lex [Env] (peek : Bool) (s : LexState) : LexOut :=
  match skipLayout s.rest s.line false with
  | none => .panic .commentEof
  | some ⟨[], n⟩ => .tok .eof ⟨[], n⟩
  | some ⟨c :: cs, n⟩ =>
    -- lines 44-46
    let st : LexState := if peek then ⟨c :: cs, n⟩ else ⟨cs, n⟩
    if c = 45 then .tok (.punct .dash) st
    else if c = 40 then .tok (.punct .lparen) st
    else if c = 41 then .tok (.punct .rparen) st
    else if c = 60 then orderingType .lt .le peek st
    else if c = 62 then orderingType .gt .ge peek st
    else if c = 61 then .tok (.op .equal) st
    else if c = 63 then
      -- variables, lines 55-65
      match peekLexeme cs with
      | .panic p => .panic p
      | .err l => .err ⟨.invalidIdentifier, l, n⟩ st
      | .ok l r => .tok (.ident l) (if peek then st else ⟨r, n⟩)
    else if c = 58 then
      -- keywords, lines 67-121
      match peekLexeme cs with
      | .panic p => .panic p
      | .err l => .err ⟨.invalidIdentifier, l, n⟩ st
      | .ok l r =>
        match colonWord l with
        | some t => .tok t (if peek then st else ⟨r, n⟩)
        | none => .err ⟨.invalidKeyword, l, n⟩ (if peek then st else ⟨r, n⟩)
    else if isDigit c then
      -- numbers, lines 138-144
      match peekNumber (c :: cs) with
      | .error l => .err ⟨.invalidIdentifier, l, n⟩ st
      | .ok (v, r) => .tok (.num v) (if peek then st else ⟨r, n⟩)
    else
      -- words, lines 145-176
      match peekLexeme (c :: cs) with
      | .panic p => .panic p
      | .err l => .err ⟨.invalidIdentifier, l, n⟩ st
      | .ok l r =>
        match plainWord l with
        | some t => .tok t (if peek then st else ⟨r, n⟩)
        | none =>
          if identCharsOk l then .tok (.ident l) (if peek then st else ⟨r, n⟩)
          else .err ⟨.invalidIdentifier, l, n⟩ (if peek then st else ⟨r, n⟩)

/-- `get_token`, tokenizer.rs:34-36. -/
def getToken [Env] (s : LexState) : LexOut := lex false s

/-- `lookahead`, tokenizer.rs:26-28. -/
def lookahead [Env] (s : LexState) : LexOut := lex true s

end Verif
