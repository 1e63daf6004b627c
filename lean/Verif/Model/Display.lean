import Verif.Model.Api

/-! Texts of tokens, errors, warnings and metadata. -/

namespace Verif

/-- `Display for RequirementType`, token_types.rs:100-114. -/
def Req.show : Req → String
  | .methodPreconditions => ":method-preconditions"
  | .hierarchy => ":hierarchy"
  | .typedObjects => ":typing"
  | .negativePreconditions => ":negative-preconditions"
  | .universalPreconditions => ":universal-preconditions"
  | .equality => ":equality"
  | .strips => ":strips"
  | .probabilisticEffects => ":probabilistic-effects"

/-- `Display for KeywordName`, token_types.rs:142-170. -/
def Kw.show : Kw → String
  | .define => ":define"
  | .domain => ":domain"
  | .problem => ":problem"
  | .requirements => ":requirements"
  | .objects => ":objects"
  | .types => ":types"
  | .task => ":task"
  | .constants => ":constants"
  | .predicates => ":predicates"
  | .functions => ":functions"
  | .init => ":init"
  | .htn => ":htn"
  | .action => ":action"
  | .parameters => ":parameters"
  | .method => ":method"
  | .precondition => ":precondition"
  | .effect => ":effect"
  | .subtasks => ":(sub)tasks"
  | .orderedSubtasks => ":ordered-(sub)tasks"
  | .ordering => ":ordering"
  | .constraints => ":constraints"
  | .goal => ":goal"

/-- `Display for OperationType`, token_types.rs:68-86. -/
def Op.show : Op → String
  | .or => "or"
  | .not => "not"
  | .and => "and"
  | .xor => "oneof"
  | .forall_ => "forall"
  | .exists_ => "exists"
  | .implication => "when"
  | .probabilistic => "probabilistic"
  | .equal => "="
  | .lt => "<"
  | .gt => ">"
  | .le => "<="
  | .ge => ">="

/-- `Display for PunctuationType`, token_types.rs:37-45. -/
def Punct.show : Punct → String
  | .dash => "-"
  | .lparen => "("
  | .rparen => ")"

/-- `Display for NumberType`, token_types.rs:179-186. -/
def Num.show [Env] : Num → Piece
  | .int n => .i n
  | .real l => .s (Env.showReal l)

/-- `Display for Token`, token_types.rs:16-28. -/
def Token.show [Env] : Token → Text
  | .kw k => [.s "Keyword ", .s k.show]
  | .ident x => [.s "Identifier ", .n x]
  | .num n => [.s "Number ", n.show]
  | .op o => [.s o.show]
  | .punct p => [.s p.show]
  | .req r => [.s "Requirement ", .s r.show]
  | .eof => [.s "End of file"]

/-- `Display for LexicalError`, errors/lexical.rs:18-31. -/
def LexError.show (e : LexError) : Text :=
  match e.kind with
  | .invalidIdentifier => [.s "line ", .i e.pos, .s ": '", .n e.lexeme, .s "' is an invalid identifier."]
  | .invalidKeyword => [.s "line ", .i e.pos, .s ": '", .n e.lexeme, .s "' is an invalid keyword."]
  | .invalidRealNumber =>
    [.s "line ", .i e.pos, .s ": '", .n e.lexeme, .s "' is an invalid real number. Expected digits after '.'"]

/-- `Display for SyntacticError`, errors/syntactic.rs:11-15. -/
def SynError.show [Env] (e : SynError) : Text :=
  [.s "line ", .i e.pos, .s ": expected '"] ++ e.expected ++ [.s "', but found '"] ++ e.found.show ++ [.s "'\n"]

/-- `Display for DuplicateError`, errors/semantic.rs:160-168. -/
def DupErr.show (e : DupErr) : Text :=
  [.s "'", .n e.symbol, .s "' is first defined in line ", .i e.first, .s ", and then redefined in line ",
    .i e.second, .s "."]

/-- `Display for TypeError`, errors/semantic.rs:117-143. -/
def TypeErr.show (e : TypeErr) : R Text :=
  let head : Text := [.s "line ", .i e.pos, .s ": Type error for variable ", .n e.var, .s ". "]
  match e.expected, e.found with
  | some x, some f => .ok (head ++ [.s "Expected object of type '", .n x, .s "', but found '", .n f, .s "'."])
  | some x, none => .ok (head ++ [.s "Expected object of type '", .n x, .s "', but did not find any typing."])
  | none, some f => .ok (head ++ [.s "Expected no type, but found '", .n f, .s "'."])
  | none, none => .panic .typeErrorDisplay

/-- "line _: <kind> _ is not defined." -/
def UndefErr.show (kind : String) (e : UndefErr) : Text :=
  [.s "line ", .i e.pos, .s ": ", .s kind, .s " ", .n e.symbol, .s " is not defined."]

/-- `Display for SemanticErrorType`, errors/semantic.rs:31-107. -/
def SemErr.show : SemErr → R Text
  | .dupObject e => .ok (.s "object " :: e.show)
  | .dupRequirement r => .ok [.s "requirement ", .s r.show]
  | .dupPredicate e => .ok (.s "predicate " :: e.show)
  | .dupAction e => .ok (.s "action " :: e.show)
  | .dupTask e => .ok (.s "compound task " :: e.show)
  | .dupMethod e => .ok (.s "method " :: e.show)
  | .dupParameter e => .ok (.s "parameter " :: e.show)
  | .undefPredicate e => .ok (e.show "predicate")
  | .undefType e => .ok (e.show "type")
  | .undefSubtask e => .ok (e.show "subtask")
  | .undefTask e => .ok (e.show "task")
  | .undefParameter e => .ok (e.show "parameter")
  | .undefObject e => .ok (e.show "object")
  | .predArity e => .ok [.s "line ", .i e.pos, .s ": predicate ", .n e.symbol, .s " takes ", .i e.expected,
      .s " parameters, but ", .i e.found, .s " are given."]
  | .taskArity e => .ok [.s "Task ", .n e.symbol, .s " takes ", .i e.expected, .s " parameters, but ", .i e.found,
      .s " are given."]
  | .predArgType e => e.show
  | .taskArgType e => e.show
  | .cyclicType => .ok [.s "Type hierarchy is cyclic."]
  | .cyclicOrdering p => .ok [.s "line ", .i p, .s ": task ordering is cyclic."]

/-- `Display for ParsingError`, errors/generic.rs:28-36. -/
def PErr.show [Env] : PErr → R Text
  | .lexical e => .ok e.show
  | .syntactic e => .ok e.show
  | .semantic e => e.show

/-- `Display for WarningType` on the only warning that is produced, warnings.rs:27-29. -/
def Warning.show (w : Warning) : Text :=
  [.s "line ", .i w.pos, .s ": compound task ", .n w.symbol, .s " does not have a primitive refinement"]

/-- `format_task_pairs`, metadata.rs:41-50. -/
def showPairs : List (Name × Name) → Text
  | [] => []
  | [(t, _)] => [.s "[", .n t, .s "]"]
  | (t, m) :: rest => [.s "[", .n t, .s "]-(", .n m, .s ")->"] ++ showPairs rest

/-- `Display for RecursionType`, metadata.rs:12-38. -/
def RecType.show : RecType → Text
  | .nonRecursive => [.s "Non-recursive"]
  | .recursive c => [.s "Recursive\n", .s "\tCycle: "] ++ showPairs c
  | .empty c => [.s "Empty recursion\n", .s "\tCycle: "] ++ showPairs c
  | .growingEmptyPrefix c => [.s "Growing empty prefix recursion\n", .s "\tCycle: "] ++ showPairs c
  | .growAndShrink c => [.s "Grow and shrink recursion\n", .s "\tCycle: "] ++ showPairs c

/-- `Display for MetaData`, metadata.rs:62-79. -/
def MetaData.show (m : MetaData) : Text :=
  [.s "Description\n", .s "\tHierarchy type: "] ++ m.recursion.show ++ [.s "\n"] ++
  (if m.nullables.length = 0 then [.s "\tNullable Tasks: None\n"]
   else [.s "\tNullable Tasks:\n"] ++ m.nullables.flatMap fun x => [.s "\t\t", .n x, .s "\n"]) ++
  [.s "\tNumber of actions: ", .i m.nActions, .s "\n",
   .s "\tNumber of abstract tasks: ", .i m.nTasks, .s "\n",
   .s "\tNumber of methods: ", .i m.nMethods, .s "\n"]

end Verif
