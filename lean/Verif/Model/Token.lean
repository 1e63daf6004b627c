import Verif.Model.Bytes

/-! Tokens.  `/repo/src/lexical_analyzer/token_types.rs`. -/

namespace Verif

/-- `PunctuationType`, token_types.rs:31-35. -/
inductive Punct where
  | dash | lparen | rparen
  deriving DecidableEq, Repr

/-- `OperationType`, token_types.rs:48-65. -/
inductive Op where
  | or | not | and | xor | forall_ | exists_ | implication | probabilistic
  | equal | lt | gt | le | ge
  deriving DecidableEq, Repr

/-- `RequirementType`, token_types.rs:89-98. -/
inductive Req where
  | methodPreconditions | hierarchy | typedObjects | negativePreconditions
  | universalPreconditions | equality | strips | probabilisticEffects
  deriving DecidableEq, Repr

/-- `KeywordName`, token_types.rs:117-140. -/
inductive Kw where
  | define | domain | problem | requirements | objects | types | task | constants | predicates
  | functions | init | htn | action | parameters | method | precondition | effect
  | subtasks | orderedSubtasks | ordering | constraints | goal
  deriving DecidableEq, Repr

/-- `NumberType`, token_types.rs:174-177.  Simplified: the lexer only produces non-negative integers, so `Nat`;
an `f64` is represented by its spelling. -/
inductive Num where
  | int (n : Nat)
  | real (spelling : List UInt8)
  deriving DecidableEq, Repr

/-- `Token`, token_types.rs:6-14. -/
inductive Token where
  | kw (k : Kw)
  | ident (n : Name)
  | num (n : Num)
  | op (o : Op)
  | punct (p : Punct)
  | req (r : Req)
  | eof
  deriving DecidableEq, Repr

/-- `LexicalErrorType`, `/repo/src/output/errors/lexical.rs:5-9`. -/
inductive LexErrKind where
  | invalidIdentifier | invalidRealNumber | invalidKeyword
  deriving DecidableEq, Repr

/-- `LexicalError`, `/repo/src/output/errors/lexical.rs:12-16`. -/
structure LexError where
  kind : LexErrKind
  lexeme : List UInt8
  pos : Nat
  deriving DecidableEq, Repr

/-- `SyntacticError`, `/repo/src/output/errors/syntactic.rs:5-9`.  Simplified: the found token is kept as a token
instead of its printed form (`Display` is `Token.show`). -/
structure SynError where
  expected : Text
  found : Token
  pos : Nat
  deriving DecidableEq, Repr

/-- `DuplicateError`, `/repo/src/output/errors/semantic.rs:154-158`. -/
structure DupErr where
  symbol : Name
  first : Nat
  second : Nat
  deriving DecidableEq, Repr

/-- `UndefinedSymbolError`, `/repo/src/output/errors/semantic.rs:171-174`. -/
structure UndefErr where
  symbol : Name
  pos : Nat
  deriving DecidableEq, Repr

/-- `ArityError`, `/repo/src/output/errors/semantic.rs:146-151`. -/
structure ArityErr where
  symbol : Name
  expected : Nat
  found : Nat
  pos : Nat
  deriving DecidableEq, Repr

/-- `TypeError`, `/repo/src/output/errors/semantic.rs:110-115`. -/
structure TypeErr where
  expected : Option Name
  found : Option Name
  var : Name
  pos : Nat
  deriving DecidableEq, Repr

/-- `SemanticErrorType`, `/repo/src/output/errors/semantic.rs:5-29`. -/
inductive SemErr where
  | dupObject (e : DupErr)
  | dupRequirement (r : Req)
  | dupPredicate (e : DupErr)
  | dupAction (e : DupErr)
  | dupTask (e : DupErr)
  | dupMethod (e : DupErr)
  | dupParameter (e : DupErr)
  | undefPredicate (e : UndefErr)
  | undefType (e : UndefErr)
  | undefSubtask (e : UndefErr)
  | undefTask (e : UndefErr)
  | undefParameter (e : UndefErr)
  | undefObject (e : UndefErr)
  | predArity (e : ArityErr)
  | taskArity (e : ArityErr)
  | predArgType (e : TypeErr)
  | taskArgType (e : TypeErr)
  | cyclicType
  | cyclicOrdering (pos : Nat)
  deriving DecidableEq, Repr

/-- `ParsingError`, `/repo/src/output/errors/generic.rs:4-8`. -/
inductive PErr where
  | lexical (e : LexError)
  | syntactic (e : SynError)
  | semantic (e : SemErr)
  deriving DecidableEq, Repr

/-- The places where the Rust code panics. -/
inductive Panic where
  /-- index out of bounds while skipping a comment, tokenizer.rs:124-128 -/
  | commentEof
  /-- index out of bounds at the start of `peek_lexeme`, tokenizer.rs:186 -/
  | lexemeEof
  /-- `from_utf8(..).unwrap()`, tokenizer.rs:213-220 -/
  | utf8
  /-- `panic!("unexpected token")`, problem_parser/router.rs:69-71 -/
  | problemToken
  /-- `type_pos.unwrap()`, problem_parser/router.rs:28 and generic_type_checker.rs:56 -/
  | typePos
  /-- `panic!()` on `exists`/`imply`, undefined_elements.rs:49-51 -/
  | existsFormula
  /-- `ordering_pos.unwrap()`, domain_analyzer.rs:196, problem_analyzer.rs:56 -/
  | orderingPos
  /-- `panic!("{} is not defined")`, tdg.rs:46 -/
  | tdgTask
  /-- `panic!("{} not found")`, tdg.rs:58 -/
  | tdgSubtask
  /-- `unwrap()` on a missing task name, tdg.rs:79 and tdg.rs:399 -/
  | tdgIndex
  /-- `panic!("{} does not exist in ..")`, tdg.rs:269, tdg.rs:342 -/
  | tdgNotInMethod
  /-- `assert_eq!(orderings.len(), subtasks.len() - 1)`, tdg.rs:273, tdg.rs:346 -/
  | tdgAssert
  /-- `id_to_task_mapping.get(id).unwrap()`, tdg.rs:319, tdg.rs:386 -/
  | tdgId
  /-- `panic!("expected domain, found problem")`, lib.rs:52,77,116 -/
  | expectedDomain
  /-- `panic!("expected problem, found domain")`, lib.rs:45,103 -/
  | expectedProblem
  /-- `unreachable!()` in the display of a type error, semantic.rs:139 -/
  | typeErrorDisplay
  /-- `Url::parse("//").unwrap()`, diagnostic_utils.rs:203 -/
  | dummyUrl
  /-- `line - 1` underflow, diagnostic_utils.rs:155 etc. (panics in debug builds) -/
  | lineUnderflow
  /-- `to_file_path().unwrap()`, request_handler.rs:101 -/
  | urlNotFile
  /-- `parent().unwrap()`, request_handler.rs:117 -/
  | noFolder
  /-- `read_dir(..).unwrap()`, request_handler.rs:118 -/
  | readDir
  /-- `tokio::fs::read(..).unwrap()`, request_handler.rs:78,122 -/
  | readFile
  /-- `to_str().unwrap()`, request_handler.rs:130,150 -/
  | folderName
  deriving DecidableEq, Repr

/-- Outcome of a computation: a value, an error value, a panic, or the step budget ran out. -/
inductive R (α : Type) where
  | ok (a : α)
  | err (e : PErr)
  | panic (p : Panic)
  | timeout
  deriving Repr

instance {α} [DecidableEq α] : DecidableEq (R α)
  | .ok a, .ok b => if h : a = b then isTrue (by rw [h]) else isFalse (by intro e; cases e; exact h rfl)
  | .err a, .err b => if h : a = b then isTrue (by rw [h]) else isFalse (by intro e; cases e; exact h rfl)
  | .panic a, .panic b => if h : a = b then isTrue (by rw [h]) else isFalse (by intro e; cases e; exact h rfl)
  | .timeout, .timeout => isTrue rfl
  | .ok _, .err _ => isFalse nofun
  | .ok _, .panic _ => isFalse nofun
  | .ok _, .timeout => isFalse nofun
  | .err _, .ok _ => isFalse nofun
  | .err _, .panic _ => isFalse nofun
  | .err _, .timeout => isFalse nofun
  | .panic _, .ok _ => isFalse nofun
  | .panic _, .err _ => isFalse nofun
  | .panic _, .timeout => isFalse nofun
  | .timeout, .ok _ => isFalse nofun
  | .timeout, .err _ => isFalse nofun
  | .timeout, .panic _ => isFalse nofun

namespace R

/-- Sequencing: `?` propagates errors, panics unwind. -/
def bind {α β} (x : R α) (f : α → R β) : R β :=
  match x with
  | .ok a => f a
  | .err e => .err e
  | .panic p => .panic p
  | .timeout => .timeout

instance : Monad R where
  pure := .ok
  bind := R.bind

@[simp] theorem pure_eq {α} (a : α) : (pure a : R α) = .ok a := rfl
@[simp] theorem bind_eq {α β} (x : R α) (f : α → R β) : (x >>= f) = R.bind x f := rfl
@[simp] theorem bind_ok {α β} (a : α) (f : α → R β) : R.bind (.ok a) f = f a := rfl
@[simp] theorem bind_err {α β} (e : PErr) (f : α → R β) : R.bind (.err e) f = .err e := rfl
@[simp] theorem bind_panic {α β} (p : Panic) (f : α → R β) : R.bind (.panic p) f = .panic p := rfl
@[simp] theorem bind_timeout {α β} (f : α → R β) : R.bind (.timeout) f = .timeout := rfl

end R
end Verif
