import Verif.Model.TypeChecker
import Verif.Model.TDG

/-! Semantic analysis of domains.  `/repo/src/semantic_analyzer/analyzers/domain_analyzer.rs`. -/

namespace Verif

/-- `WarningType::NoPrimitiveRefinement`, `/repo/src/output/warnings.rs:4-18,47-50` (the only warning that is ever
produced). -/
structure Warning where
  symbol : Name
  pos : Nat
  deriving DecidableEq, Repr

/-- `SymbolTable`, symbol_table.rs:7-14.  The hash sets are kept as lists in insertion order. -/
structure SymbolTable where
  warnings : List Warning
  constants : List Symbol
  predicates : List Predicate
  tasks : List Task
  actions : List Action
  types : TypeGraph

/-- `check_duplicate_requirements`, domain_analyzer.rs:272-282. -/
def checkDupReqs : List Req → List Req → R Unit
  | _, [] => .ok ()
  | seen, r :: rs =>
    if r ∈ seen then semErr (.dupRequirement r) else checkDupReqs (r :: seen) rs

/-- `positions.get(name)`: position of the declaration with this name among those seen. -/
def seenPos (seen : List (Name × Nat)) (x : Name) : Option Nat :=
  (seen.find? fun e => e.1 = x).map (·.2)

/-- The check for duplicate parameters, domain_analyzer.rs:58-72 and 119-133. -/
def checkDupParams : List (Name × Nat) → List Symbol → R Unit
  | _, [] => .ok ()
  | seen, p :: ps =>
    match seenPos seen p.name with
    | some q => semErr (.dupParameter ⟨p.name, q, p.pos⟩)
    | none => checkDupParams ((p.name, p.pos) :: seen) ps

/-- `verify_predicates`, domain_analyzer.rs:223-246. -/
def verifyPredicates (g : TypeGraph) : List (Name × Nat) → List Predicate → R Unit
  | _, [] => .ok ()
  | seen, p :: ps =>
    match seenPos seen p.name with
    | some q => semErr (.dupPredicate ⟨p.name, q, p.pos⟩)
    | none => (g.checkDecls p.vars).bind fun _ => verifyPredicates g ((p.name, p.pos) :: seen) ps

/-- `verify_compound_tasks`, domain_analyzer.rs:249-270. -/
def verifyTasks (g : TypeGraph) : List (Name × Nat) → List Task → R Unit
  | _, [] => .ok ()
  | seen, t :: ts =>
    match seenPos seen t.name with
    | some q => semErr (.dupTask ⟨t.name, q, t.pos⟩)
    | none => (g.checkDecls t.params).bind fun _ => verifyTasks g ((t.name, t.pos) :: seen) ts

/-- Checks on an optional formula, domain_analyzer.rs:74-86, 88-100, 135-147. -/
def checkOptFormula (g : TypeGraph) (preds : List Predicate) (params constants : List Symbol) : Option Formula → R Unit
  | none => .ok ()
  | some f =>
    (checkPredDecls preds f).bind fun _ => checkFormula g params constants preds f.propPreds

/-- The loop over actions, domain_analyzer.rs:45-101. -/
def verifyActions (g : TypeGraph) (preds : List Predicate) (constants : List Symbol) :
    List (Name × Nat) → List Action → R Unit
  | _, [] => .ok ()
  | seen, a :: as =>
    match seenPos seen a.name with
    | some q => semErr (.dupAction ⟨a.name, q, a.pos⟩)
    | none =>
      (checkDupParams [] a.params).bind fun _ =>
      (checkOptFormula g preds a.params constants a.pre).bind fun _ =>
      (checkOptFormula g preds a.params constants a.eff).bind fun _ =>
      verifyActions g preds constants ((a.name, a.pos) :: seen) as

/-- The checks on the task of a method, domain_analyzer.rs:149-170 (the counts are reported in this order). -/
def checkMethodTask (tasks : List Task) (m : Method) : R Unit :=
  match tasks.find? fun t => m.task.name = t.name with
  | none => semErr (.undefTask ⟨m.task.name, m.task.pos⟩)
  | some t =>
    if m.taskTerms.length ≠ t.params.length then
      semErr (.taskArity ⟨m.task.name, m.taskTerms.length, t.params.length, m.task.pos⟩)
    else .ok ()

/-- The loop over the subtasks of a method, domain_analyzer.rs:183-192.  `tasks` and `actions` are in iteration order. -/
def checkSubtasks (g : TypeGraph) (params constants : List Symbol) (tasks : List Task) (actions : List Action) :
    List Subtask → R Unit
  | [] => .ok ()
  | s :: ss =>
    (taskConsistent g s.task s.terms params constants tasks actions).bind fun _ =>
      checkSubtasks g params constants tasks actions ss

/-- The check of an ordering, domain_analyzer.rs:194-198 and problem_analyzer.rs:53-59. -/
def checkOrdering (h : HTN) : R Unit :=
  if h.orderings.isAcyclic then .ok ()
  else match h.orderingPos with
    | some p => semErr (.cyclicOrdering p)
    | none => .panic .orderingPos

/-- The loop over methods, domain_analyzer.rs:106-199.  `tasksIt` and `actionsIt` are the hash sets of tasks and actions
in iteration order. -/
def verifyMethods (g : TypeGraph) (preds : List Predicate) (constants : List Symbol) (tasks tasksIt : List Task)
    (actionsIt : List Action) : List (Name × Nat) → List Method → R Unit
  | _, [] => .ok ()
  | seen, m :: ms =>
    match seenPos seen m.name.name with
    | some q => semErr (.dupMethod ⟨m.name.name, q, m.name.pos⟩)
    | none =>
      (checkDupParams [] m.params).bind fun _ =>
      (checkOptFormula g preds m.params constants m.pre).bind fun _ =>
      (checkMethodTask tasks m).bind fun _ =>
      (taskConsistent g m.task m.taskTerms m.params constants tasksIt []).bind fun _ =>
      (checkSubtasks g m.params constants tasksIt actionsIt m.tn.subtasks).bind fun _ =>
      (checkOrdering m.tn).bind fun _ =>
      verifyMethods g preds constants tasks tasksIt actionsIt ((m.name.name, m.name.pos) :: seen) ms

/-- The loop over the declared tasks, domain_analyzer.rs:202-210. -/
def collectWarnings (g : TDG) (fuel : Nat) : List Task → R (List Warning)
  | [] => .ok []
  | t :: ts =>
    (g.reachable fuel t.name).bind fun r =>
      (collectWarnings g fuel ts).bind fun ws =>
        .ok (if r.primitives.length = 0 ∧ r.nullable = false then ⟨t.name, t.pos⟩ :: ws else ws)

/-- The checks of `verify_domain` before the task decomposition graph is built, domain_analyzer.rs:20-199. -/
def checkDomain (ord : HashOrd) (d : DomainAST) : R Unit :=
  let g := TypeGraph.new d.types
  let constants := d.constants.getD []
  (checkDupReqs [] d.requirements).bind fun _ =>
  g.verify.bind fun _ =>
  (verifyPredicates g [] d.predicates).bind fun _ =>
  (verifyTasks g [] d.tasks).bind fun _ =>
  (verifyActions g d.predicates constants [] d.actions).bind fun _ =>
  verifyMethods g d.predicates constants d.tasks (arrange ord [10] d.tasks) (arrange ord [11] d.actions) [] d.methods

/-- `verify_domain`, domain_analyzer.rs:19-220. -/
def verifyDomain (ord : HashOrd) (fuel : Nat) (d : DomainAST) : R SymbolTable :=
  (checkDomain ord d).bind fun _ =>
  (TDG.new ord d).bind fun tdg =>
  (collectWarnings tdg fuel (arrange ord [10] d.tasks)).bind fun ws =>
    .ok ⟨ws, d.constants.getD [], d.predicates, d.tasks, d.actions, TypeGraph.new d.types⟩

end Verif
