import Verif.Model.Lexer
import Verif.Model.AST

/-!
The parser.  `/repo/src/syntactic_analyzer`.

Nested `match self.tokenizer.get_token()? { expected => .., token => return Err(..) }` blocks are written as a sequence
of `expect..` calls with the same messages.  Loops and recursive calls carry an explicit budget (`Nat`);
when it is used up the result is `R.timeout`.
-/

namespace Verif

/-- A parser action: it reads from the tokenizer and returns, fails, panics, or runs out of budget. -/
def P (α : Type) : Type := LexState → R (α × LexState)

namespace P

def pure' {α} (a : α) : P α := fun s => .ok (a, s)

def bind' {α β} (x : P α) (f : α → P β) : P β := fun s =>
  match x s with
  | .ok (a, s') => f a s'
  | .err e => .err e
  | .panic p => .panic p
  | .timeout => .timeout

instance : Monad P where
  pure := pure'
  bind := bind'

/-- Budget used up. -/
def timeout {α} : P α := fun _ => .timeout

/-- A panic of the parser itself. -/
def panic {α} (p : Panic) : P α := fun _ => .panic p

end P

section
variable [Env]

/-- `self.tokenizer.get_token()?` -/
def getTok : P Token := fun s =>
  match getToken s with
  | .tok t s' => .ok (t, s')
  | .err e _ => .err (.lexical e)
  | .panic p => .panic p

/-- `self.tokenizer.lookahead()?` -/
def peekTok : P Token := fun s =>
  match lookahead s with
  | .tok t s' => .ok (t, s')
  | .err e _ => .err (.lexical e)
  | .panic p => .panic p

/-- `let _ = self.tokenizer.get_token();` (an error value is dropped). -/
def skipTok : P Unit := fun s =>
  match getToken s with
  | .tok _ s' => .ok ((), s')
  | .err _ s' => .ok ((), s')
  | .panic p => .panic p

/-- `self.tokenizer.get_last_token_position()` -/
def getPos : P Nat := fun s => .ok (s.line, s)

/-- `return Err(ParsingError::Syntactic(SyntacticError { expected, found, position: get_last_token_position() }))` -/
def synErr {α} (expected : Text) (found : Token) : P α := fun s =>
  .err (.syntactic ⟨expected, found, s.line⟩)

/-- `match self.tokenizer.get_token()? { t => {}, token => return Err(..) }` -/
def expectTok (t : Token) (msg : Text) : P Unit := do
  let tok ← getTok
  if tok = t then pure () else synErr msg tok

/-- `match self.tokenizer.get_token()? { Token::Identifier(x) => x, token => return Err(..) }` -/
def expectIdent (msg : Text) : P Name := do
  match ← getTok with
  | .ident x => pure x
  | tok => synErr msg tok

abbrev LP : Token := .punct .lparen
abbrev RP : Token := .punct .rparen

/-- `parse_requirements`, parser.rs:221-243. -/
def parseRequirements : Nat → List Req → P (List Req)
  | 0, _ => P.timeout
  | n + 1, acc => do
    match ← getTok with
    | .req r => parseRequirements n (acc ++ [r])
    | .punct .rparen => pure acc
    | tok => synErr [.s "either a requirement or a ')'"] tok

/-- The loop of `parse_args`, problem_parser/list_parser.rs:8-56.  `objs` are the names not yet typed, `res` is the
result so far, `tok` is the current token. -/
def argsLoop : Nat → List (Name × Nat) → List Symbol → Token → P (List Symbol)
  | 0, _, _, _ => P.timeout
  | n + 1, objs, res, tok =>
    match tok with
    | .ident x => do
      let pos ← getPos
      let t ← getTok
      argsLoop n (objs ++ [(x, pos)]) res t
    | .punct .dash => do
      let ty ← getTok
      let tyPos ← getPos
      match ty with
      | .ident t => do
        let next ← getTok
        argsLoop n [] (res ++ objs.map fun o => ⟨o.1, o.2, some t, some tyPos⟩) next
      | tok => synErr [.s "The type of objects"] tok
    | .punct .rparen => pure (res ++ objs.map fun o => ⟨o.1, o.2, none, none⟩)
    | tok => synErr [.s "an identifier"] tok

/-- `parse_args`, problem_parser/list_parser.rs:4-57. -/
def parseArgs (n : Nat) : P (List Symbol) := do
  let tok ← getTok
  argsLoop n [] [] tok

/-- `parse_predicate_definition`, domain_parser/predicate_parser.rs:30-48. -/
def parsePredicateDef (n : Nat) : P Predicate := do
  let name ← expectIdent [.s "a predicate name"]
  let pos ← getPos
  let vars ← parseArgs n
  pure ⟨name, pos, vars⟩

/-- `parse_predicates`, domain_parser/predicate_parser.rs:4-27. -/
def parsePredicates : Nat → List Predicate → P (List Predicate)
  | 0, _ => P.timeout
  | n + 1, acc => do
    match ← getTok with
    | .punct .lparen => do
      let p ← parsePredicateDef n
      parsePredicates n (acc ++ [p])
    | .punct .rparen => pure acc
    | tok => synErr [.s "predicate definition"] tok

/-- `parse_function_definition`, domain_parser/function_parser.rs:30-46. -/
def parseFunctionDef (n : Nat) : P Predicate := do
  let name ← expectIdent [.s "a function name"]
  let pos ← getPos
  let vars ← parseArgs n
  pure ⟨name, pos, vars⟩

/-- `parse_functions`, domain_parser/function_parser.rs:4-27. -/
def parseFunctions : Nat → List Predicate → P (List Predicate)
  | 0, _ => P.timeout
  | n + 1, acc => do
    match ← getTok with
    | .punct .lparen => do
      let p ← parseFunctionDef n
      parseFunctions n (acc ++ [p])
    | .punct .rparen => pure acc
    | tok => synErr [.s "function definition"] tok

/-- `Formula::Empty` test (`if let Formula::Empty = formula`). -/
def Formula.isEmpty : Formula → Bool
  | .empty => true
  | _ => false

mutual

/-- `parse_formula`, domain_parser/formula_parser.rs:4-218. -/
def parseFormula : Nat → P Formula
  | 0 => P.timeout
  | n + 1 => do
    match ← getTok with
    | .punct .rparen => pure .empty
    | .punct .lparen => do
      match ← getTok with
      | .op .not => do
        let f ← parseFormula n
        expectTok RP [.s "closing the not operator with ')'"]
        pure (.not f)
      | .op .and => do
        let fs ← parseFormulas n []
        pure (.and fs)
      | .op .xor => do
        let fs ← parseFormulas n []
        pure (.xor fs)
      | .op .or => do
        let fs ← parseFormulas n []
        pure (.or fs)
      | .op .equal => do
        let a ← expectIdent [.s "left hand side of the equality"]
        let b ← expectIdent [.s "right hand side of the equality"]
        expectTok RP [.s "equality's closing parenthesis"]
        pure (.equals a b)
      | .op .forall_ => do
        expectTok LP [.s "'(' after forall keyword"]
        let params ← parseArgs n
        let f ← parseFormula n
        expectTok RP [.s "')' to close the forall statement"]
        pure (.forall_ params f)
      | .op .exists_ => do
        expectTok LP [.s "'(' after existential quantification keyword"]
        let params ← parseArgs n
        let f ← parseFormula n
        expectTok RP [.s "')' to close the existential statement"]
        pure (.exists_ params f)
      | .op .probabilistic => do
        let bs ← parseBranches n []
        pure (.and bs)
      | .ident name => do
        let pos ← getPos
        let vars ← parseArgs n
        pure (.atom ⟨name, pos, vars⟩)
      | .punct .rparen => pure .empty
      | tok => synErr [.s "a boolean formula"] tok
    | tok => synErr [.s "a (potentially empty) boolean formula definition"] tok

/-- The loops of the `and`, `oneof` and `or` branches, formula_parser.rs:30-38, 42-50, 54-62. -/
def parseFormulas : Nat → List Formula → P (List Formula)
  | 0, _ => P.timeout
  | n + 1, acc => do
    let f ← parseFormula n
    if f.isEmpty then pure acc else parseFormulas n (acc ++ [f])

/-- The loop of the `probabilistic` branch, formula_parser.rs:156-185. -/
def parseBranches : Nat → List Formula → P (List Formula)
  | 0, _ => P.timeout
  | n + 1, acc => do
    match ← getTok with
    | .punct .rparen => pure acc
    | .num w => do
      let f ← parseFormula n
      if f.isEmpty then synErr [.s "a formula following the probability"] RP
      else parseBranches n (acc ++ [.weighted w f])
    | tok => synErr [.s "a probability or ')' to close the probabilistic block"] tok

end

/-- The loop over the terms of a subtask, init_tn_parser.rs:359-406 and 425-452, up to the closing `)`.
`msg` is the message for any other token. -/
def termsLoop (msg : Text) : Nat → List Symbol → P (List Symbol)
  | 0, _ => P.timeout
  | n + 1, acc => do
    match ← getTok with
    | .ident x => do
      let pos ← getPos
      termsLoop msg n (acc ++ [⟨x, pos, none, none⟩])
    | .punct .rparen => pure acc
    | tok => synErr msg tok

/-- `parse_subtask`, init_tn_parser.rs:339-480. -/
def parseSubtask (n : Nat) : P Subtask := do
  let id ← expectIdent [.s "task id"]
  let idPos ← getPos
  let idSym : Symbol := ⟨id, idPos, none, none⟩
  match ← getTok with
  | .punct .lparen => do
    let task ← expectIdent [.s "a subtask name for ", .n id, .s "!=..."]
    let taskPos ← getPos
    let terms ← termsLoop [.s "either a ')' or an identifier"] n []
    expectTok RP [.s "')' to close the block of ", .n task]
    pure ⟨some idSym, ⟨task, taskPos, none, none⟩, terms⟩
  | .ident term => do
    let pos ← getPos
    let terms ← termsLoop [.s "either a term for ", .n term, .s ", or ')'"] n [⟨term, pos, none, none⟩]
    pure ⟨none, idSym, terms⟩
  | .punct .rparen => pure ⟨none, idSym, []⟩
  | tok => synErr [.s "subtask definition"] tok

/-- The loop of `parse_subtasks` after `and`, init_tn_parser.rs:288-305. -/
def subtasksLoop : Nat → List Subtask → P (List Subtask)
  | 0, _ => P.timeout
  | n + 1, acc => do
    match ← getTok with
    | .punct .rparen => pure acc
    | .punct .lparen => do
      let t ← parseSubtask n
      subtasksLoop n (acc ++ [t])
    | tok => synErr [.s "subtask declarations"] tok

/-- `parse_subtasks`, init_tn_parser.rs:280-336. -/
def parseSubtasks (n : Nat) : P (List Subtask) := do
  expectTok LP [.s "'('"]
  match ← peekTok with
  | .op .and => do
    let _ ← getTok
    subtasksLoop n []
  | .ident _ => do
    let t ← parseSubtask n
    pure [t]
  | .punct .rparen => do
    let _ ← getTok
    pure []
  | tok => synErr [.s "subtask declarations"] tok

/-- The inner loop after `(< t1`, init_tn_parser.rs:110-137 and 241-259. -/
def afterLoop (t1 : Name) (msg : Text) : Nat → List (Name × Name) → P (List (Name × Name))
  | 0, _ => P.timeout
  | n + 1, acc => do
    match ← getTok with
    | .ident t2 => afterLoop t1 msg n (acc ++ [(t1, t2)])
    | .punct .rparen => pure acc
    | tok => synErr msg tok

/-- `parse_ordering`, init_tn_parser.rs:237-278. -/
def parseOrdering (n : Nat) : P (List (Name × Name)) := do
  expectTok (.op .lt) [.s "character '<' to start an ordering constraint"]
  let t1 ← expectIdent [.s "task identifier"]
  afterLoop t1 [.s "the task ids that come after ", .n t1] n []

/-- The loop after `(and` in an `:ordering` block, init_tn_parser.rs:83-107. -/
def orderingsLoop : Nat → List (Name × Name) → P (List (Name × Name))
  | 0, _ => P.timeout
  | n + 1, acc => do
    match ← getTok with
    | .punct .lparen => do
      let os ← parseOrdering n
      orderingsLoop n (acc ++ os)
    | .punct .rparen => pure acc
    | tok => synErr [.s "'('"] tok

/-- The body of an `:ordering` block, init_tn_parser.rs:80-171; returns the orderings extended by the new ones. -/
def parseOrderingBlock (n : Nat) (acc : List (Name × Name)) : P (List (Name × Name)) := do
  expectTok LP [.s "'('"]
  match ← getTok with
  | .op .and => orderingsLoop n acc
  | .op .lt => do
    let t1 ← expectIdent [.s "expected a task identifier"]
    afterLoop t1 [.s "another task id after ", .n t1] n acc
  | .punct .rparen => pure acc
  | tok => synErr [.s "ordering constraints"] tok

/-- `parse_constraint`, init_tn_parser.rs:542-665. -/
def parseConstraint : P Constraint := do
  match ← getTok with
  | .op .not => do
    expectTok LP [.s "'(' after keyword 'not'"]
    expectTok (.op .equal) [.s "equality keyword '='"]
    let t1 ← expectIdent [.s "task identifier"]
    let t2 ← expectIdent [.s "right hand side of ", .n t1, .s "!=..."]
    expectTok RP [.s ") to close the inequality constraint"]
    expectTok RP [.s ") to close the inequality constraint"]
    pure (.notEqual t1 t2)
  | .op .equal => do
    let t1 ← expectIdent [.s "a task identifier"]
    let t2 ← expectIdent [.s "right hand side of ", .n t1, .s "=..."]
    expectTok RP [.s ") to close the equality constraint"]
    pure (.equal t1 t2)
  | tok => synErr [.s "either an equalilty or non-equality constraint"] tok

/-- The loop of `parse_constraints` after `and`, init_tn_parser.rs:497-514. -/
def constraintsLoop : Nat → List Constraint → P (List Constraint)
  | 0, _ => P.timeout
  | n + 1, acc => do
    match ← getTok with
    | .punct .lparen => do
      let c ← parseConstraint
      constraintsLoop n (acc ++ [c])
    | .punct .rparen => pure acc
    | tok => synErr [.s "a constraint definition"] tok

/-- `parse_constraints`, init_tn_parser.rs:482-540. -/
def parseConstraints (n : Nat) : P (List Constraint) := do
  expectTok LP [.s "'('"]
  match ← peekTok with
  | .punct .rparen => do
    skipTok
    pure []
  | .op .and => do
    skipTok
    constraintsLoop n []
  | .op .not => do
    let c ← parseConstraint
    pure [c]
  | .op .equal => do
    let c ← parseConstraint
    pure [c]
  | tok => synErr [.s "constraint declerations"] tok

/-- The loop of `parse_htn` after `:subtasks`, init_tn_parser.rs:76-193. -/
def htnLoop (subtasks : List Subtask) :
    Nat → Option Nat → List (Name × Name) → Option (List Constraint) → P HTN
  | 0, _, _, _ => P.timeout
  | n + 1, opos, os, cs => do
    match ← getTok with
    | .kw .ordering => do
      let pos ← getPos
      let os' ← parseOrderingBlock n os
      htnLoop subtasks n (some pos) os' cs
    | .kw .constraints => do
      let cs' ← parseConstraints n
      htnLoop subtasks n opos os (some cs')
    | .punct .rparen => pure ⟨subtasks, opos, .partial_ os, cs⟩
    | tok => synErr [.s "the (potentially empty) ordering constraints of the task network"] tok

/-- `parse_htn`, init_tn_parser.rs:56-234.  Note the two exits that leave the closing `)` unread:
the empty network (lines 62-72) and `:ordered-subtasks` followed by `:constraints` (lines 198-206). -/
def parseHtn (n : Nat) : P HTN := do
  match ← peekTok with
  | .punct .rparen => pure ⟨[], none, .partial_ [], none⟩
  | _ => do
    match ← getTok with
    | .kw .subtasks => do
      let ts ← parseSubtasks n
      htnLoop ts n none [] none
    | .kw .orderedSubtasks => do
      let ts ← parseSubtasks n
      match ← getTok with
      | .kw .constraints => do
        let cs ← parseConstraints n
        pure ⟨ts, none, .total, some cs⟩
      | .punct .rparen => pure ⟨ts, none, .total, none⟩
      | tok => synErr [.s "closing ')' after task network definition"] tok
    | tok => synErr [.s ":subtasks or :ordered-subtasks keyword"] tok

/-- `parse_initial_tn`, init_tn_parser.rs:4-54 (its `loop` returns in every branch).  The empty network
(lines 34-43) leaves the closing `)` unread. -/
def parseInitialTn (n : Nat) : P InitTN := do
  match ← peekTok with
  | .kw .parameters => do
    let _ ← getTok
    expectTok LP [.s "'(' afer keyword :parameters"]
    let params ← parseArgs n
    let tn ← parseHtn n
    pure ⟨some params, tn⟩
  | .kw .subtasks => do
    let tn ← parseHtn n
    pure ⟨none, tn⟩
  | .kw .orderedSubtasks => do
    let tn ← parseHtn n
    pure ⟨none, tn⟩
  | .punct .rparen => pure ⟨none, ⟨[], none, .partial_ [], none⟩⟩
  | tok => synErr [.s "expected the definition of the initial task network"] tok

/-- `parse_task`, domain_parser/compound_task_parser.rs:4-45. -/
def parseTask (n : Nat) : P Task := do
  let name ← expectIdent [.s "a task/action name (identifier)"]
  let pos ← getPos
  expectTok (.kw .parameters) [.s "a (potentially empty) list of parameters after defininig ", .n name]
  expectTok LP [.s "'(' after :parameters"]
  let params ← parseArgs n
  pure ⟨name, pos, params⟩

/-- `parse_action`, domain_parser/action_parser.rs:4-67.  Left out: the text of the effect that is built and dropped
(building it does not panic). -/
def parseAction (n : Nat) : P Action := do
  let task ← parseTask n
  let pre ← (do
    match ← peekTok with
    | .kw .precondition => do
      skipTok
      let f ← parseFormula n
      pure (some f)
    | .kw .effect => pure none
    | .punct .rparen => pure none
    | tok => synErr [.s "(potentially empty) preconditions of ", .n task.name] tok : P (Option Formula))
  let eff ← (do
    match ← peekTok with
    | .kw .effect => do
      skipTok
      let f ← parseFormula n
      pure (some f)
    | .punct .rparen => pure none
    | tok => synErr [.s "(potentially empty) effects of ", .n task.name] tok : P (Option Formula))
  expectTok RP [.s "closing the scope of ", .n task.name, .s " using ')'"]
  pure ⟨task.name, task.pos, task.params, pre, eff⟩

/-- `parse_method`, domain_parser/method_parser.rs:4-135. -/
def parseMethod (n : Nat) : P Method := do
  let name ← expectIdent [.s "method name"]
  let namePos ← getPos
  expectTok (.kw .parameters) [.s "The parameters of method ", .n name, .s " "]
  expectTok LP [.s "'(' after keyword :parameters"]
  let params ← parseArgs n
  expectTok (.kw .task) [.s "keyword :task"]
  expectTok LP [.s "'(' after keyword :task"]
  let task ← expectIdent [.s "The task that method ", .n name, .s " decomposes"]
  let taskPos ← getPos
  let terms ← parseArgs n
  let nameSym : Symbol := ⟨name, namePos, none, none⟩
  let taskSym : Symbol := ⟨task, taskPos, none, none⟩
  match ← peekTok with
  | .kw .precondition => do
    skipTok
    let pre ← parseFormula n
    let tn ← parseHtn n
    pure ⟨nameSym, taskSym, terms, params, some pre, tn⟩
  | .kw .subtasks => do
    let tn ← parseHtn n
    pure ⟨nameSym, taskSym, terms, params, none, tn⟩
  | .kw .orderedSubtasks => do
    let tn ← parseHtn n
    pure ⟨nameSym, taskSym, terms, params, none, tn⟩
  | tok => synErr [.s "Either preconditions for ", .n name, .s " or its decomposition"] tok

/-- `parse_domain`, domain_parser/router.rs:4-103. -/
def parseDomain (name : Name) : Nat → DomainAST → P DomainAST
  | 0, _ => P.timeout
  | n + 1, d => do
    match ← getTok with
    | .punct .lparen => do
      match ← getTok with
      | .kw .predicates => do
        let ps ← parsePredicates n []
        parseDomain name n { d with predicates := d.predicates ++ ps }
      | .kw .functions => do
        let fs ← parseFunctions n []
        parseDomain name n { d with functions := d.functions ++ fs }
      | .kw .task => do
        let t ← parseTask n
        expectTok RP [.s "')' after definition of ", .n t.name]
        parseDomain name n { d with tasks := d.tasks ++ [t] }
      | .kw .method => do
        let m ← parseMethod n
        parseDomain name n { d with methods := d.methods ++ [m] }
      | .kw .action => do
        let a ← parseAction n
        parseDomain name n { d with actions := d.actions ++ [a] }
      | .kw .requirements => do
        let rs ← parseRequirements n []
        parseDomain name n { d with requirements := d.requirements ++ rs }
      | .kw .types => do
        let ts ← parseArgs n
        parseDomain name n { d with types := addSymbols d.types ts }
      | .kw .constants => do
        let cs ← parseArgs n
        parseDomain name n { d with constants := addSymbols d.constants cs }
      | tok => synErr [.s "a keyword"] tok
    | .punct .rparen => pure d
    | tok => synErr [.s "either ')' to close the definition of ", .n name,
        .s ", or '(' to start defining new components"] tok

/-- The objects added by an `:objects` block, problem_parser/router.rs:21-38: `type_pos.unwrap()` on typed objects;
untyped objects lose a (never present) type position. -/
def addObjects : List Symbol → List Symbol → R (List Symbol)
  | old, [] => .ok old
  | old, o :: os =>
    match o.ty, o.tyPos with
    | some t, some p => addObjects (old ++ [⟨o.name, o.pos, some t, some p⟩]) os
    | some _, none => .panic .typePos
    | none, _ => addObjects (old ++ [⟨o.name, o.pos, none, none⟩]) os

/-- Run a computation that does not touch the tokenizer. -/
def P.lift {α} (x : R α) : P α := fun s =>
  match x with
  | .ok a => .ok (a, s)
  | .err e => .err e
  | .panic p => .panic p
  | .timeout => .timeout

/-- `parse_problem`, problem_parser/router.rs:4-74.  The `:goal` branch (lines 46-49) does not read the `)` that closes
the block. -/
def parseProblem : Nat → ProblemAST → P ProblemAST
  | 0, _ => P.timeout
  | n + 1, p => do
    match ← getTok with
    | .punct .lparen => do
      match ← getTok with
      | .kw .requirements => do
        let rs ← parseRequirements n []
        parseProblem n { p with requirements := p.requirements ++ rs }
      | .kw .objects => do
        let os ← parseArgs n
        let objs ← P.lift (addObjects p.objects os)
        parseProblem n { p with objects := objs }
      | .kw .htn => do
        let tn ← parseInitialTn n
        parseProblem n { p with initTn := some tn }
      | .kw .goal => do
        let g ← parseFormula n
        parseProblem n { p with goal := some g }
      | .kw .init => do
        let ps ← parsePredicates n []
        parseProblem n { p with initState := ps }
      | tok => synErr [.s "a keyword for block definition"] tok
    | .eof => pure p
    | .punct .rparen => pure p
    | _ => P.panic .problemToken

/-- `DefinitionType`, definition_types.rs:2-10. -/
inductive DefType where
  | domain (name : Name)
  | problem (problemName domainName : Name)
  deriving DecidableEq, Repr

/-- `parse_domain_header`, parser.rs:104-131. -/
def parseDomainHeader : P DefType := do
  let name ← expectIdent [.s "domain name"]
  expectTok RP [.s "')'"]
  pure (.domain name)

/-- `parse_problem_header`, parser.rs:133-219. -/
def parseProblemHeader : P DefType := do
  let pname ← expectIdent [.s "problem name"]
  expectTok RP [.s "')'"]
  expectTok LP [.s "'('"]
  expectTok (.kw .domain) [.s "keyword 'domain'"]
  let dname ← expectIdent [.s "domain name"]
  expectTok RP [.s "the block of the definition of problem '", .n pname, .s "' is not closed with ')'"]
  pure (.problem pname dname)

/-- `parse_document_type`, parser.rs:58-102. -/
def parseDocumentType : P DefType := do
  expectTok (.kw .define) [.s "keyword 'define'"]
  expectTok LP [.s "'(' after keyword 'define'"]
  match ← getTok with
  | .kw .domain => parseDomainHeader
  | .kw .problem => parseProblemHeader
  | tok => synErr [.s "either keyword 'domain' or 'problem'"] tok

/-- `Parser::parse`, parser.rs:13-38. -/
def parseFile (n : Nat) : P AST := do
  expectTok LP [.s "start of the file with '('"]
  match ← parseDocumentType with
  | .domain name => do
    let d ← parseDomain name n (DomainAST.new name)
    pure (.domain d)
  | .problem _ _ => do
    let p ← parseProblem n ProblemAST.new
    pure (.problem p)

/-- `Parser::new(LexicalAnalyzer::new(&bytes)).parse()`, lib.rs:26-28. -/
def parse (fuel : Nat) (file : Bytes) : R AST :=
  match parseFile fuel (LexState.init file) with
  | .ok (a, _) => .ok a
  | .err e => .err e
  | .panic p => .panic p
  | .timeout => .timeout

/-- `FileVariant`, definition_types.rs:12-16. -/
inductive FileVariant where
  | domain | problem | maybeNotHddl
  deriving DecidableEq, Repr

/-- `Parser::classify`, parser.rs:40-56, on a fresh tokenizer (`classify_file`,
`/repo/src/language_server/diagnostic_utils.rs:17-21`).  Error values end the classification; panics propagate. -/
def classify (file : Bytes) : R FileVariant :=
  match getToken (LexState.init file) with
  | .panic p => .panic p
  | .tok (.punct .lparen) s =>
    match getToken s with
    | .panic p => .panic p
    | .tok (.kw .define) s =>
      match getToken s with
      | .panic p => .panic p
      | .tok (.punct .lparen) s =>
        match getToken s with
        | .panic p => .panic p
        | .tok (.kw .domain) _ => .ok .domain
        | .tok (.kw .problem) _ => .ok .problem
        | _ => .ok .maybeNotHddl
      | _ => .ok .maybeNotHddl
    | _ => .ok .maybeNotHddl
  | _ => .ok .maybeNotHddl

end
end Verif
