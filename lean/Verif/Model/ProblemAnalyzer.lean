import Verif.Model.DomainAnalyzer

/-! Semantic analysis of problems.  `/repo/src/semantic_analyzer/analyzers/problem_analyzer.rs`,
`/repo/src/semantic_analyzer/type_checker/problem_type_checker.rs`. -/

namespace Verif

/-- The check for duplicate objects, problem_analyzer.rs:28-44. -/
def checkDupObjects : List (Name × Nat) → List Symbol → R Unit
  | _, [] => .ok ()
  | seen, o :: os =>
    match seenPos seen o.name with
    | some q => semErr (.dupObject ⟨o.name, q, o.pos⟩)
    | none => checkDupObjects ((o.name, o.pos) :: seen) os

/-- The loop over the arguments of an atom, problem_type_checker.rs:50-96.  For objects the reported found type is the
type written at the use (line 61), and the reported variable is the predicate (lines 62 and 80). -/
def checkPredArgs (st : SymbolTable) (objects : List Symbol) (pred : Name) : List Symbol → List Symbol → R Unit
  | e :: es, f :: fs =>
    match findParam objects f.name with
    | some o =>
      if st.types.consistent o.ty e.ty then checkPredArgs st objects pred es fs
      else semErr (.predArgType ⟨e.ty, f.ty, pred, f.pos⟩)
    | none =>
      match findSym st.constants f.name with
      | some c =>
        if st.types.consistent c.ty e.ty then checkPredArgs st objects pred es fs
        else semErr (.predArgType ⟨e.ty, c.ty, pred, f.pos⟩)
      | none => semErr (.undefObject ⟨f.name, f.pos⟩)
  | _, _ => .ok ()

/-- `check_predicate_instantiation`, problem_type_checker.rs:36-108. -/
def checkPredInst (st : SymbolTable) (objects : List Symbol) (p : Predicate) : R Unit :=
  match st.predicates.find? fun d => d.name = p.name with
  | some d =>
    if d.vars.length ≠ p.vars.length then semErr (.predArity ⟨p.name, d.vars.length, p.vars.length, p.pos⟩)
    else checkPredArgs st objects p.name d.vars p.vars
  | none => semErr (.undefPredicate ⟨p.name, p.pos⟩)

/-- The loops over initial state and goal atoms, problem_analyzer.rs:47-49 and 71-73. -/
def checkPredInsts (st : SymbolTable) (objects : List Symbol) : List Predicate → R Unit
  | [] => .ok ()
  | p :: ps => (checkPredInst st objects p).bind fun _ => checkPredInsts st objects ps

/-- The loop over the terms of a subtask, problem_type_checker.rs:126-205 and 217-296: objects, then parameters of the
network, then constants. -/
def checkSubtaskArgs (st : SymbolTable) (objects : List Symbol) (params : Option (List Symbol)) (task : Name) :
    List Symbol → List Symbol → R Unit
  | e :: es, f :: fs =>
    match findParam objects f.name with
    | some o =>
      if st.types.consistent o.ty e.ty then checkSubtaskArgs st objects params task es fs
      else semErr (.taskArgType ⟨e.ty, o.ty, task, f.pos⟩)
    | none =>
      match (params.getD []).find? fun x => x.name = f.name with
      | some p =>
        if st.types.consistent p.ty e.ty then checkSubtaskArgs st objects params task es fs
        else semErr (.taskArgType ⟨e.ty, p.ty, task, f.pos⟩)
      | none =>
        match findSym st.constants f.name with
        | some c =>
          if st.types.consistent c.ty e.ty then checkSubtaskArgs st objects params task es fs
          else semErr (.predArgType ⟨e.ty, c.ty, task, f.pos⟩)
        | none => semErr (.undefObject ⟨f.name, f.pos⟩)
  | _, _ => .ok ()

/-- `check_subtask_instantiation`, problem_type_checker.rs:111-304. -/
def checkSubtaskInst (st : SymbolTable) (objects : List Symbol) (params : Option (List Symbol)) (s : Subtask) : R Unit :=
  match st.actions.find? fun a => a.name = s.task.name with
  | some a =>
    if a.params.length ≠ s.terms.length then
      semErr (.taskArity ⟨s.task.name, a.params.length, s.terms.length, s.task.pos⟩)
    else checkSubtaskArgs st objects params s.task.name a.params s.terms
  | none =>
    match st.tasks.find? fun t => t.name = s.task.name with
    | some t =>
      if t.params.length ≠ s.terms.length then
        semErr (.taskArity ⟨s.task.name, t.params.length, s.terms.length, s.task.pos⟩)
      else checkSubtaskArgs st objects params s.task.name t.params s.terms
    | none => semErr (.undefSubtask ⟨s.task.name, s.task.pos⟩)

/-- The loop over the subtasks of the initial network, problem_analyzer.rs:61-65. -/
def checkSubtaskInsts (st : SymbolTable) (objects : List Symbol) (params : Option (List Symbol)) : List Subtask → R Unit
  | [] => .ok ()
  | s :: ss => (checkSubtaskInst st objects params s).bind fun _ => checkSubtaskInsts st objects params ss

/-- The check of the initial task network, problem_analyzer.rs:52-66. -/
def checkInitTn (st : SymbolTable) (objects : List Symbol) : Option InitTN → R Unit
  | none => .ok ()
  | some h => (checkOrdering h.tn).bind fun _ => checkSubtaskInsts st objects h.params h.tn.subtasks

/-- The check of the goal, problem_analyzer.rs:69-76. -/
def checkGoal (st : SymbolTable) (objects : List Symbol) : Option Formula → R Unit
  | none => .ok ()
  | some f => checkPredInsts st objects f.propPreds

/-- `verify_problem`, problem_analyzer.rs:20-85. -/
def verifyProblem (st : SymbolTable) (p : ProblemAST) : R (List Warning) :=
  (st.types.checkDecls p.objects).bind fun _ =>
  (checkDupObjects [] p.objects).bind fun _ =>
  (checkPredInsts st p.objects p.initState).bind fun _ =>
  (checkInitTn st p.objects p.initTn).bind fun _ =>
  (checkGoal st p.objects p.goal).bind fun _ =>
    .ok st.warnings

end Verif
