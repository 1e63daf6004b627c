import Verif.Model.Parser

/-!
The depth of the recursion of the parser.  `parse_formula` is the only function of the parser that calls itself; its calls
for operands are on the native stack at the same time as the calls for the formulas around them.  The model of the parser
is repeated here with a second result, the largest number of calls of `parse_formula` that were active at the same time.

What the native stack can hold depends on compiler and platform and is not modelled: with a stack for `k` calls the program
is aborted if and only if the depth is more than `k`.
-/

namespace Verif

/-- A parser action that also tells how many calls of `parse_formula` it had active at the same time. -/
def Deep (α : Type) : Type := LexState → R (α × LexState) × Nat

namespace Deep

def pure' {α} (a : α) : Deep α := fun s => (.ok (a, s), 0)

def bind' {α β} (x : Deep α) (f : α → Deep β) : Deep β := fun s =>
  match x s with
  | (.ok (a, s'), d) => ((f a s').1, max d (f a s').2)
  | (.err e, d) => (.err e, d)
  | (.panic p, d) => (.panic p, d)
  | (.timeout, d) => (.timeout, d)

instance : Monad Deep where
  pure := pure'
  bind := bind'

/-- An action without calls of `parse_formula`. -/
def flat {α} (x : P α) : Deep α := fun s => (x s, 0)

/-- A call: everything in `x` happens while it is active. -/
def call {α} (x : Deep α) : Deep α := fun s => ((x s).1, (x s).2 + 1)

end Deep

section
variable [Env]

open Deep

mutual

/-- `parse_formula`, domain_parser/formula_parser.rs:4-218. -/
def parseFormulaD : Nat → Deep Formula
  | 0 => call (flat P.timeout)
  | n + 1 => call do
    match ← flat getTok with
    | .punct .rparen => pure .empty
    | .punct .lparen => do
      match ← flat getTok with
      | .op .not => do
        let f ← parseFormulaD n
        flat (expectTok RP [.s "closing the not operator with ')'"])
        pure (.not f)
      | .op .and => do
        let fs ← parseFormulasD n []
        pure (.and fs)
      | .op .xor => do
        let fs ← parseFormulasD n []
        pure (.xor fs)
      | .op .or => do
        let fs ← parseFormulasD n []
        pure (.or fs)
      | .op .equal => do
        let a ← flat (expectIdent [.s "left hand side of the equality"])
        let b ← flat (expectIdent [.s "right hand side of the equality"])
        flat (expectTok RP [.s "equality's closing parenthesis"])
        pure (.equals a b)
      | .op .forall_ => do
        flat (expectTok LP [.s "'(' after forall keyword"])
        let params ← flat (parseArgs n)
        let f ← parseFormulaD n
        flat (expectTok RP [.s "')' to close the forall statement"])
        pure (.forall_ params f)
      | .op .exists_ => do
        flat (expectTok LP [.s "'(' after existential quantification keyword"])
        let params ← flat (parseArgs n)
        let f ← parseFormulaD n
        flat (expectTok RP [.s "')' to close the existential statement"])
        pure (.exists_ params f)
      | .op .probabilistic => do
        let bs ← parseBranchesD n []
        pure (.and bs)
      | .ident name => do
        let pos ← flat getPos
        let vars ← flat (parseArgs n)
        pure (.atom ⟨name, pos, vars⟩)
      | .punct .rparen => pure .empty
      | tok => flat (synErr [.s "a boolean formula"] tok)
    | tok => flat (synErr [.s "a (potentially empty) boolean formula definition"] tok)

/-- The loops of the `and`, `oneof` and `or` branches, formula_parser.rs:30-38, 42-50, 54-62. -/
def parseFormulasD : Nat → List Formula → Deep (List Formula)
  | 0, _ => flat P.timeout
  | n + 1, acc => do
    let f ← parseFormulaD n
    if f.isEmpty then pure acc else parseFormulasD n (acc ++ [f])

/-- The loop of the `probabilistic` branch, formula_parser.rs:156-185. -/
def parseBranchesD : Nat → List Formula → Deep (List Formula)
  | 0, _ => flat P.timeout
  | n + 1, acc => do
    match ← flat getTok with
    | .punct .rparen => pure acc
    | .num w => do
      let f ← parseFormulaD n
      if f.isEmpty then flat (synErr [.s "a formula following the probability"] RP)
      else parseBranchesD n (acc ++ [.weighted w f])
    | tok => flat (synErr [.s "a probability or ')' to close the probabilistic block"] tok)

end

/-- `parse_action`, domain_parser/action_parser.rs:4-67. -/
def parseActionD (n : Nat) : Deep Action := do
  let task ← flat (parseTask n)
  let pre ← (do
    match ← flat peekTok with
    | .kw .precondition => do
      flat skipTok
      let f ← parseFormulaD n
      pure (some f)
    | .kw .effect => pure none
    | .punct .rparen => pure none
    | tok => flat (synErr [.s "(potentially empty) preconditions of ", .n task.name] tok) : Deep (Option Formula))
  let eff ← (do
    match ← flat peekTok with
    | .kw .effect => do
      flat skipTok
      let f ← parseFormulaD n
      pure (some f)
    | .punct .rparen => pure none
    | tok => flat (synErr [.s "(potentially empty) effects of ", .n task.name] tok) : Deep (Option Formula))
  flat (expectTok RP [.s "closing the scope of ", .n task.name, .s " using ')'"])
  pure ⟨task.name, task.pos, task.params, pre, eff⟩

/-- `parse_method`, domain_parser/method_parser.rs:4-135. -/
def parseMethodD (n : Nat) : Deep Method := do
  let name ← flat (expectIdent [.s "method name"])
  let namePos ← flat getPos
  flat (expectTok (.kw .parameters) [.s "The parameters of method ", .n name, .s " "])
  flat (expectTok LP [.s "'(' after keyword :parameters"])
  let params ← flat (parseArgs n)
  flat (expectTok (.kw .task) [.s "keyword :task"])
  flat (expectTok LP [.s "'(' after keyword :task"])
  let task ← flat (expectIdent [.s "The task that method ", .n name, .s " decomposes"])
  let taskPos ← flat getPos
  let terms ← flat (parseArgs n)
  let nameSym : Symbol := ⟨name, namePos, none, none⟩
  let taskSym : Symbol := ⟨task, taskPos, none, none⟩
  match ← flat peekTok with
  | .kw .precondition => do
    flat skipTok
    let pre ← parseFormulaD n
    let tn ← flat (parseHtn n)
    pure ⟨nameSym, taskSym, terms, params, some pre, tn⟩
  | .kw .subtasks => do
    let tn ← flat (parseHtn n)
    pure ⟨nameSym, taskSym, terms, params, none, tn⟩
  | .kw .orderedSubtasks => do
    let tn ← flat (parseHtn n)
    pure ⟨nameSym, taskSym, terms, params, none, tn⟩
  | tok => flat (synErr [.s "Either preconditions for ", .n name, .s " or its decomposition"] tok)

/-- `parse_domain`, domain_parser/router.rs:4-103. -/
def parseDomainD (name : Name) : Nat → DomainAST → Deep DomainAST
  | 0, _ => flat P.timeout
  | n + 1, d => do
    match ← flat getTok with
    | .punct .lparen => do
      match ← flat getTok with
      | .kw .predicates => do
        let ps ← flat (parsePredicates n [])
        parseDomainD name n { d with predicates := d.predicates ++ ps }
      | .kw .functions => do
        let fs ← flat (parseFunctions n [])
        parseDomainD name n { d with functions := d.functions ++ fs }
      | .kw .task => do
        let t ← flat (parseTask n)
        flat (expectTok RP [.s "')' after definition of ", .n t.name])
        parseDomainD name n { d with tasks := d.tasks ++ [t] }
      | .kw .method => do
        let m ← parseMethodD n
        parseDomainD name n { d with methods := d.methods ++ [m] }
      | .kw .action => do
        let a ← parseActionD n
        parseDomainD name n { d with actions := d.actions ++ [a] }
      | .kw .requirements => do
        let rs ← flat (parseRequirements n [])
        parseDomainD name n { d with requirements := d.requirements ++ rs }
      | .kw .types => do
        let ts ← flat (parseArgs n)
        parseDomainD name n { d with types := addSymbols d.types ts }
      | .kw .constants => do
        let cs ← flat (parseArgs n)
        parseDomainD name n { d with constants := addSymbols d.constants cs }
      | tok => flat (synErr [.s "a keyword"] tok)
    | .punct .rparen => pure d
    | tok => flat (synErr [.s "either ')' to close the definition of ", .n name,
        .s ", or '(' to start defining new components"] tok)

/-- `parse_problem`, problem_parser/router.rs:4-74. -/
def parseProblemD : Nat → ProblemAST → Deep ProblemAST
  | 0, _ => flat P.timeout
  | n + 1, p => do
    match ← flat getTok with
    | .punct .lparen => do
      match ← flat getTok with
      | .kw .requirements => do
        let rs ← flat (parseRequirements n [])
        parseProblemD n { p with requirements := p.requirements ++ rs }
      | .kw .objects => do
        let os ← flat (parseArgs n)
        let objs ← flat (P.lift (addObjects p.objects os))
        parseProblemD n { p with objects := objs }
      | .kw .htn => do
        let tn ← flat (parseInitialTn n)
        parseProblemD n { p with initTn := some tn }
      | .kw .goal => do
        let g ← parseFormulaD n
        parseProblemD n { p with goal := some g }
      | .kw .init => do
        let ps ← flat (parsePredicates n [])
        parseProblemD n { p with initState := ps }
      | tok => flat (synErr [.s "a keyword for block definition"] tok)
    | .eof => pure p
    | .punct .rparen => pure p
    | _ => flat (P.panic .problemToken)

/-- `Parser::parse`, parser.rs:13-38. -/
def parseFileD (n : Nat) : Deep AST := do
  flat (expectTok LP [.s "start of the file with '('"])
  match ← flat parseDocumentType with
  | .domain name => do
    let d ← parseDomainD name n (DomainAST.new name)
    pure (.domain d)
  | .problem _ _ => do
    let p ← parseProblemD n ProblemAST.new
    pure (.problem p)

/-- The largest number of calls of `parse_formula` that are active at the same time when the file is parsed. -/
def parseDepth (fuel : Nat) (file : Bytes) : Nat := (parseFileD fuel (LexState.init file)).2

end
end Verif
