import Verif.Model.AST

/-! The JSON value produced by the derived `Serialize` instances of the syntax tree. -/

namespace Verif

/-- A JSON value.  Strings are byte strings; field names are fixed texts of the program.  The text of the value is
in `Verif/Model/JsonText.lean`. -/
inductive Json where
  | null
  | num (n : Nat)
  /-- an `f64`, given by its spelling in the file -/
  | real (spelling : List UInt8)
  | str (x : Name)
  | arr (l : List Json)
  | obj (l : List (String × Json))
  deriving Repr

/-- `Option` is `null` or the value. -/
def jOpt {α} (f : α → Json) : Option α → Json
  | none => .null
  | some a => f a

/-- `TokenPosition`, token_pos.rs:5-8. -/
def jPos (n : Nat) : Json := .obj [("line", .num n)]

/-- `Symbol`, nodes/symbol.rs:8-15; absent types are skipped. -/
def jSymbol (s : Symbol) : Json :=
  .obj ([("name", .str s.name), ("name_pos", jPos s.pos)]
    ++ (match s.ty with | some t => [("symbol_type", .str t)] | none => [])
    ++ (match s.tyPos with | some p => [("type_pos", jPos p)] | none => []))

def jSymbols (l : List Symbol) : Json := .arr (l.map jSymbol)

/-- `Predicate`, nodes/predicate.rs:10-14. -/
def jPredicate (p : Predicate) : Json :=
  .obj [("name", .str p.name), ("name_pos", jPos p.pos), ("variables", jSymbols p.vars)]

/-- `NumberType`, token_types.rs:173-177. -/
def jNum : Num → Json
  | .int n => .obj [("Integer", .num n)]
  | .real l => .obj [("Real", .real l)]

mutual

/-- `Formula`, nodes/formula.rs:9-27. -/
def jFormula : Formula → Json
  | .empty => .str b!"Empty"
  | .atom p => .obj [("Atom", jPredicate p)]
  | .not f => .obj [("Not", jFormula f)]
  | .and fs => .obj [("And", .arr (jFormulas fs))]
  | .or fs => .obj [("Or", .arr (jFormulas fs))]
  | .xor fs => .obj [("Xor", .arr (jFormulas fs))]
  | .imply ps qs => .obj [("Imply", .arr [.arr (jFormulas ps), .arr (jFormulas qs)])]
  | .exists_ vs f => .obj [("Exists", .arr [jSymbols vs, jFormula f])]
  | .forall_ vs f => .obj [("ForAll", .arr [jSymbols vs, jFormula f])]
  | .weighted w f => .obj [("Weighted", .arr [jNum w, jFormula f])]
  | .equals a b => .obj [("Equals", .arr [.str a, .str b])]

def jFormulas : List Formula → List Json
  | [] => []
  | f :: fs => jFormula f :: jFormulas fs

end

/-- `Task`, nodes/task.rs:9-14. -/
def jTask (t : Task) : Json :=
  .obj [("name", .str t.name), ("name_pos", jPos t.pos), ("parameters", jSymbols t.params)]

/-- `Action`, nodes/action.rs:10-17. -/
def jAction (a : Action) : Json :=
  .obj [("name", .str a.name), ("name_pos", jPos a.pos), ("parameters", jSymbols a.params),
    ("preconditions", jOpt jFormula a.pre), ("effects", jOpt jFormula a.eff)]

/-- `Subtask`, nodes/htn.rs:23-28. -/
def jSubtask (s : Subtask) : Json :=
  .obj [("id", jOpt jSymbol s.id), ("task", jSymbol s.task), ("terms", jSymbols s.terms)]

/-- `Constraint`, nodes/htn.rs:31-35. -/
def jConstraint : Constraint → Json
  | .equal a b => .obj [("Equal", .arr [.str a, .str b])]
  | .notEqual a b => .obj [("NotEqual", .arr [.str a, .str b])]

/-- `TaskOrdering`, nodes/htn.rs:37-41. -/
def jOrdering : Ordering → Json
  | .total => .str b!"Total"
  | .partial_ os => .obj [("Partial", .arr (os.map fun e => .arr [.str e.1, .str e.2]))]

/-- `HTN`, nodes/htn.rs:15-21. -/
def jHtn (h : HTN) : Json :=
  .obj [("subtasks", .arr (h.subtasks.map jSubtask)), ("ordering_pos", jOpt jPos h.orderingPos),
    ("orderings", jOrdering h.orderings),
    ("constraints", jOpt (fun l => .arr (l.map jConstraint)) h.constraints)]

/-- `InitialTaskNetwork`, nodes/htn.rs:9-13. -/
def jInitTn (t : InitTN) : Json := .obj [("parameters", jOpt jSymbols t.params), ("tn", jHtn t.tn)]

/-- `Method`, nodes/method.rs:8-16. -/
def jMethod (m : Method) : Json :=
  .obj [("name", jSymbol m.name), ("task", jSymbol m.task), ("task_terms", jSymbols m.taskTerms),
    ("params", jSymbols m.params), ("precondition", jOpt jFormula m.pre), ("tn", jHtn m.tn)]

/-- `RequirementType`, token_types.rs:88-98. -/
def jReq : Req → Json
  | .methodPreconditions => .str b!"MethodPreconditions"
  | .hierarchy => .str b!"Hierarchy"
  | .typedObjects => .str b!"TypedObjects"
  | .negativePreconditions => .str b!"NegativePreconditions"
  | .universalPreconditions => .str b!"UniversalPreconditions"
  | .equality => .str b!"Equality"
  | .strips => .str b!"STRIPS"
  | .probabilisticEffects => .str b!"ProbabilisticEffects"

/-- `DomainAST`, domain.rs:3-14. -/
def jDomain (d : DomainAST) : Json :=
  .obj [("name", .str d.name), ("types", jOpt jSymbols d.types), ("constants", jOpt jSymbols d.constants),
    ("requirements", .arr (d.requirements.map jReq)), ("predicates", .arr (d.predicates.map jPredicate)),
    ("compound_tasks", .arr (d.tasks.map jTask)), ("methods", .arr (d.methods.map jMethod)),
    ("actions", .arr (d.actions.map jAction)), ("functions", .arr (d.functions.map jPredicate))]

/-- `ProblemAST`, problem.rs:4-11. -/
def jProblem (p : ProblemAST) : Json :=
  .obj [("requirements", .arr (p.requirements.map jReq)), ("init_tn", jOpt jInitTn p.initTn),
    ("init_state", .arr (p.initState.map jPredicate)), ("goal", jOpt jFormula p.goal),
    ("objects", jSymbols p.objects)]

end Verif
