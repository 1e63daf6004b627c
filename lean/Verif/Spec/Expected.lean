import Verif.Model.Parser
import Verif.Spec.Grammar

/-!
What the messages of the parser say: for every text that a syntax error can carry as what was expected, the tokens that
a reader of the text would put there.  Nothing about when the parser uses which text.
-/

namespace Verif.Spec

open Verif

/-- Texts that ask for `(`, or for something that starts with `(`. -/
def askOpen : List String :=
  ["start of the file with '('", "'(' after keyword 'define'", "'('", "predicate definition", "function definition",
   "a (potentially empty) boolean formula definition", "'(' after forall keyword",
   "'(' after existential quantification keyword", "a formula following the probability", "subtask definition",
   "subtask declarations", "a constraint definition", "'(' after keyword 'not'", "'(' afer keyword :parameters",
   "'(' after :parameters", "'(' after keyword :parameters", "'(' after keyword :task"]

/-- Texts that ask for `)`. -/
def askClose : List String :=
  ["')'", "closing the not operator with ')'", "equality's closing parenthesis", "')' to close the forall statement",
   "')' to close the existential statement", ") to close the inequality constraint",
   ") to close the equality constraint", "closing ')' after task network definition"]

/-- Texts that ask for a name. -/
def askName : List String :=
  ["domain name", "problem name", "The type of objects", "an identifier", "a predicate name", "a function name",
   "left hand side of the equality", "right hand side of the equality", "task id", "task identifier",
   "expected a task identifier", "a task identifier", "a task/action name (identifier)", "method name"]

/-- Texts that ask for what comes after the `(` of a formula. -/
def askFormula : List String := ["a boolean formula", "a formula following the probability"]

/-- The tokens that come after the `(` of a formula: a name or a connective. -/
def FormulaStart (t : Token) : Prop :=
  (∃ x, t = .ident x) ∨
    t ∈ [.op .not, .op .and, .op .or, .op .xor, .op .equal, .op .forall_, .op .exists_, .op .probabilistic]

/-- `Says m K`: the text `m` asks for a token in `K`.  Two texts have two readings, as they are used both for the `(`
of a construct and for what follows it. -/
inductive Says : Text → (Token → Prop) → Prop
  | open_ {m} : m ∈ askOpen → Says [.s m] (· = lpar)
  | close {m} : m ∈ askClose → Says [.s m] (· = rpar)
  | closeProblem {x} : Says [.s "the block of the definition of problem '", .n x, .s "' is not closed with ')'"] (· = rpar)
  | closeSubtask {x} : Says [.s "')' to close the block of ", .n x] (· = rpar)
  | closeAction {x} : Says [.s "closing the scope of ", .n x, .s " using ')'"] (· = rpar)
  | closeTask {x} : Says [.s "')' after definition of ", .n x] (· = rpar)
  | name {m} : m ∈ askName → Says [.s m] (fun t => ∃ x, t = .ident x)
  | nameSubtask {x} : Says [.s "a subtask name for ", .n x, .s "!=..."] (fun t => ∃ x, t = .ident x)
  | nameNotEqual {x} : Says [.s "right hand side of ", .n x, .s "!=..."] (fun t => ∃ x, t = .ident x)
  | nameEqual {x} : Says [.s "right hand side of ", .n x, .s "=..."] (fun t => ∃ x, t = .ident x)
  | nameAfter {x} : Says [.s "the task ids that come after ", .n x] (fun t => ∃ x, t = .ident x)
  | nameAnother {x} : Says [.s "another task id after ", .n x] (fun t => ∃ x, t = .ident x)
  | nameDecomposed {x} : Says [.s "The task that method ", .n x, .s " decomposes"] (fun t => ∃ x, t = .ident x)
  | formula {m} : m ∈ askFormula → Says [.s m] FormulaStart
  | subtasks : Says [.s "subtask declarations"] (fun t => t = .op .and ∨ ∃ x, t = .ident x)
  | terms : Says [.s "either a ')' or an identifier"] (fun t => t = rpar ∨ ∃ x, t = .ident x)
  | termsOf {x} : Says [.s "either a term for ", .n x, .s ", or ')'"] (fun t => t = rpar ∨ ∃ x, t = .ident x)
  | probability : Says [.s "a probability or ')' to close the probabilistic block"] (fun t => t = rpar ∨ ∃ w, t = .num w)
  | requirement : Says [.s "either a requirement or a ')'"] (fun t => t = rpar ∨ ∃ r, t = .req r)
  | less : Says [.s "character '<' to start an ordering constraint"] (· = .op .lt)
  | orderings : Says [.s "ordering constraints"] (fun t => t = .op .and ∨ t = .op .lt)
  | equality : Says [.s "equality keyword '='"] (· = .op .equal)
  | constraint : Says [.s "either an equalilty or non-equality constraint"] (fun t => t = .op .not ∨ t = .op .equal)
  | constraints : Says [.s "constraint declerations"] (fun t => t = .op .and ∨ t = .op .not ∨ t = .op .equal)
  | network : Says [.s "the (potentially empty) ordering constraints of the task network"] (· = .kw .ordering)
  | htn : Says [.s ":subtasks or :ordered-subtasks keyword"] (fun t => t = .kw .subtasks ∨ t = .kw .orderedSubtasks)
  | initial : Says [.s "expected the definition of the initial task network"]
      (fun t => t = .kw .parameters ∨ t = .kw .subtasks ∨ t = .kw .orderedSubtasks)
  | parameters {x} : Says [.s "a (potentially empty) list of parameters after defininig ", .n x] (· = .kw .parameters)
  | parametersOf {x} : Says [.s "The parameters of method ", .n x, .s " "] (· = .kw .parameters)
  | task : Says [.s "keyword :task"] (· = .kw .task)
  | preconditions {x} : Says [.s "(potentially empty) preconditions of ", .n x] (· = .kw .precondition)
  | effects {x} : Says [.s "(potentially empty) effects of ", .n x] (· = .kw .effect)
  | decomposition {x} : Says [.s "Either preconditions for ", .n x, .s " or its decomposition"]
      (fun t => t = .kw .precondition ∨ t = .kw .subtasks ∨ t = .kw .orderedSubtasks)
  | block : Says [.s "a keyword"] (fun t => t ∈ ([.kw .predicates, .kw .functions, .kw .task, .kw .method, .kw .action,
      .kw .requirements, .kw .types, .kw .constants] : List Token))
  | components {x} : Says [.s "either ')' to close the definition of ", .n x,
      .s ", or '(' to start defining new components"] (fun t => t = rpar ∨ t = lpar)
  | problemBlock : Says [.s "a keyword for block definition"] (fun t => t ∈ ([.kw .requirements, .kw .objects, .kw .htn,
      .kw .goal, .kw .init] : List Token))
  | define : Says [.s "keyword 'define'"] (· = .kw .define)
  | domain : Says [.s "keyword 'domain'"] (· = .kw .domain)
  | document : Says [.s "either keyword 'domain' or 'problem'"] (fun t => t = .kw .domain ∨ t = .kw .problem)

end Verif.Spec
