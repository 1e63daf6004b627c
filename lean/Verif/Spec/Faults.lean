import Verif.Spec.WellFormed

/-!
The order in which a domain and a problem are looked at, as a list of checks.  A check is given by what it finds, in
terms of the declarations of the file.  Nothing here mentions the analyser.
-/

namespace Verif.Spec

open Verif

/-- What a check can find: an error to be reported, or an `exists` formula, for which the analyser has no code. -/
inductive Finding
  | error (e : SemErr)
  | crash

/-- A check, as the set of its possible findings. -/
abbrev Check := Finding → Prop

/-- The check finds nothing. -/
def Passes (c : Check) : Prop := ∀ x, ¬ c x

/-- The first check that finds something finds `x`. -/
def FirstFinding (cs : List Check) (x : Finding) : Prop :=
  ∃ pre c post, cs = pre ++ c :: post ∧ (∀ y ∈ pre, Passes y) ∧ c x

/-- Checks for each element of a list, given the elements before it. -/
def forEach {α : Type} (f : List α → α → List Check) : (before : List α) → List α → List Check
  | _, [] => []
  | before, a :: as => f before a ++ forEach f (before ++ [a]) as

/-! ### Single checks -/

/-- The requirement is listed a second time. -/
def reqAgain (before : List Req) (r : Req) : Check := fun x => r ∈ before ∧ x = .error (.dupRequirement r)

/-- Some type is below itself. -/
def typeCycle (d : DomainAST) : Check :=
  fun x => (∃ t, Relation.TransGen (DirectSub (typesOf d)) t t) ∧ x = .error .cyclicType

/-- The name has been declared before (in line `l`). -/
def nameAgain {α : Type} (mk : DupErr → SemErr) (nameLine : α → Name × Nat) (before : List α) (a : α) : Check :=
  fun x => ∃ b ∈ before, (nameLine b).1 = (nameLine a).1 ∧
    x = .error (mk ⟨(nameLine a).1, (nameLine b).2, (nameLine a).2⟩)

/-- The type of a symbol is not known. -/
def typeUnknown (d : DomainAST) (s : Symbol) : Check :=
  fun x => ∃ t l, s.ty = some t ∧ s.tyPos = some l ∧ ¬ TypeKnown (typesOf d) t ∧ x = .error (.undefType ⟨t, l⟩)

/-- The predicate of an atom is not declared, or has another number of arguments. -/
def atomWrong (d : DomainAST) (p : Predicate) : Check := fun x =>
  ((∀ q ∈ d.predicates, q.name ≠ p.name) ∧ x = .error (.undefPredicate ⟨p.name, p.pos⟩)) ∨
  ∃ q ∈ d.predicates, q.name = p.name ∧ p.vars.length ≠ q.vars.length ∧
    x = .error (.predArity ⟨p.name, q.vars.length, p.vars.length, p.pos⟩)

/-- An argument is neither a parameter nor a constant. -/
def notBound (scope : List (List Symbol)) (v : Symbol) : Check :=
  fun x => Unbound scope v.name ∧ x = .error (.undefParameter ⟨v.name, v.pos⟩)

/-- The type of argument number `i` does not fit the declaration. -/
def argMisfit (d : DomainAST) (scope : List (List Symbol)) (declared : List Symbol → Prop) (mk : TypeErr → SemErr)
    (v : Symbol) (i : Nat) : Check :=
  fun x => ∃ (ps : List Symbol) (f : Symbol) (ty : Option Name), declared ps ∧ ps[i]? = some f ∧ TypeIn scope v.name ty ∧ ¬ Fits (typesOf d) ty f.ty ∧
    x = .error (mk ⟨f.ty, ty, v.name, v.pos⟩)

/-- The task of a method is not declared, or has another number of arguments (counts as the analyser reports them). -/
def methodTaskWrong (d : DomainAST) (m : Method) : Check := fun x =>
  ((∀ t ∈ d.tasks, t.name ≠ m.task.name) ∧ x = .error (.undefTask ⟨m.task.name, m.task.pos⟩)) ∨
  ∃ t ∈ d.tasks, t.name = m.task.name ∧ m.taskTerms.length ≠ t.params.length ∧
    x = .error (.taskArity ⟨m.task.name, m.taskTerms.length, t.params.length, m.task.pos⟩)

/-- The task of a subtask is not declared, or has another number of arguments. -/
def calleeWrong (d : DomainAST) (s : Subtask) : Check := fun x =>
  ((∀ ps, ¬ Callee d s.task.name ps) ∧ x = .error (.undefSubtask ⟨s.task.name, s.task.pos⟩)) ∨
  ∃ ps, Callee d s.task.name ps ∧ s.terms.length ≠ ps.length ∧
    x = .error (.taskArity ⟨s.task.name, ps.length, s.terms.length, s.task.pos⟩)

/-- The ordering of a task network has a cycle. -/
def orderCycle (h : HTN) : Check := fun x =>
  ∃ l, h.orderingPos = some l ∧ (∃ a, Relation.TransGen (Before h) a a) ∧ x = .error (.cyclicOrdering l)

/-! ### Formulas -/

/-- What a reader meets in a formula, from left to right: atoms, outside or below quantifiers, and `exists`. -/
inductive Occurrence
  | free (p : Predicate)
  | quantified (p : Predicate)
  | exists_

mutual

/-- The pieces of a formula; `below` says whether it is inside a quantifier. -/
def pieces (below : Bool) : Formula → List Occurrence
  | .empty => []
  | .equals _ _ => []
  | .atom p => [if below then .quantified p else .free p]
  | .not f => pieces below f
  | .weighted _ f => pieces below f
  | .and fs => piecesAll below fs
  | .or fs => piecesAll below fs
  | .xor fs => piecesAll below fs
  | .imply ps qs => .exists_ :: (piecesAll below ps ++ piecesAll below qs)
  | .forall_ _ f => pieces true f
  | .exists_ _ f => .exists_ :: pieces true f

/-- The pieces of several formulas. -/
def piecesAll (below : Bool) : List Formula → List Occurrence
  | [] => []
  | f :: fs => pieces below f ++ piecesAll below fs

end

/-- Looking at the predicate of a piece. -/
def pieceWrong (d : DomainAST) : Occurrence → Check
  | .free p => atomWrong d p
  | .quantified p => atomWrong d p
  | .exists_ => fun x => x = .crash

/-- The parameters declared for a predicate. -/
def DeclaredFor (d : DomainAST) (p : Predicate) (ps : List Symbol) : Prop :=
  ∃ q ∈ d.predicates, q.name = p.name ∧ ps = q.vars

/-- The atoms outside quantifiers, from left to right. -/
def freeAtoms (f : Formula) : List Predicate :=
  (pieces false f).filterMap fun | .free p => some p | _ => none

/-- The arguments of an atom: first whether they are bound, then their types. -/
def atomArgs (d : DomainAST) (params : List Symbol) (p : Predicate) : List Check :=
  p.vars.map (notBound [params, constantsOf d]) ++
  p.vars.zipIdx.map fun v => argMisfit d [params, constantsOf d] (DeclaredFor d p) .predArgType v.1 v.2

/-- A formula of an action or a method: the predicates of all atoms, then the types of the parameters, then the arguments
of the atoms outside quantifiers. -/
def formulaChecks (d : DomainAST) (params : List Symbol) (f : Formula) : List Check :=
  (pieces false f).map (pieceWrong d) ++ params.map (typeUnknown d) ++ (freeAtoms f).flatMap (atomArgs d params)

def optFormulaChecks (d : DomainAST) (params : List Symbol) : Option Formula → List Check
  | none => []
  | some f => formulaChecks d params f

/-! ### Domains -/

/-- A symbol's name and line. -/
def symLine (s : Symbol) : Name × Nat := (s.name, s.pos)

def paramNames (ps : List Symbol) : List Check := forEach (fun b s => [nameAgain .dupParameter symLine b s]) [] ps

def actionChecks (d : DomainAST) (a : Action) : List Check :=
  paramNames a.params ++ (optFormulaChecks d a.params a.pre ++ optFormulaChecks d a.params a.eff)

/-- A subtask: whether its arguments are bound, its task, the types of its arguments. -/
def subtaskChecks (d : DomainAST) (params : List Symbol) (s : Subtask) : List Check :=
  s.terms.map (notBound [params, constantsOf d]) ++ (calleeWrong d s ::
  s.terms.zipIdx.map fun v => argMisfit d [params, constantsOf d] (Callee d s.task.name) .taskArgType v.1 v.2)

/-- A method: parameters, precondition, task, arguments of the task, subtasks, ordering. -/
def methodChecks (d : DomainAST) (m : Method) : List Check :=
  paramNames m.params ++ (optFormulaChecks d m.params m.pre ++ (methodTaskWrong d m ::
  (m.taskTerms.map (notBound [m.params, constantsOf d]) ++
  ((m.taskTerms.zipIdx.map fun v => argMisfit d [m.params, constantsOf d]
    (fun ps => ∃ t ∈ d.tasks, t.name = m.task.name ∧ ps = t.params) .taskArgType v.1 v.2) ++
  (m.tn.subtasks.flatMap (subtaskChecks d m.params) ++ [orderCycle m.tn])))))

/-- A domain: requirements, type hierarchy, predicates, tasks, actions, methods. -/
def domainChecks (d : DomainAST) : List Check :=
  forEach (fun b r => [reqAgain b r]) [] d.requirements ++ (typeCycle d ::
  (forEach (fun b p => nameAgain .dupPredicate (fun p : Predicate => (p.name, p.pos)) b p :: p.vars.map (typeUnknown d)) []
    d.predicates ++
  (forEach (fun b t => nameAgain .dupTask (fun t : Task => (t.name, t.pos)) b t :: t.params.map (typeUnknown d)) [] d.tasks ++
  (forEach (fun b a => nameAgain .dupAction (fun a : Action => (a.name, a.pos)) b a :: actionChecks d a) [] d.actions ++
  forEach (fun b m => nameAgain .dupMethod (fun m : Method => symLine m.name) b m :: methodChecks d m) [] d.methods))))

/-! ### Problems -/

/-- An argument of a fact is neither an object nor a constant, or its type does not fit.  The report names the predicate
in place of the argument, and for objects the type written at the use in place of the one declared. -/
def factArg (d : DomainAST) (p : ProblemAST) (a : Predicate) (v : Symbol) (i : Nat) : Check := fun x =>
  (Unbound [p.objects, constantsOf d] v.name ∧ x = .error (.undefObject ⟨v.name, v.pos⟩)) ∨
  ∃ (ps : List Symbol) (f : Symbol) (ty : Option Name), DeclaredFor d a ps ∧ ps[i]? = some f ∧
    ¬ Fits (typesOf d) ty f.ty ∧
    ((TypeIn [p.objects] v.name ty ∧ x = .error (.predArgType ⟨f.ty, v.ty, a.name, v.pos⟩)) ∨
     (Unbound [p.objects] v.name ∧ TypeIn [constantsOf d] v.name ty ∧
       x = .error (.predArgType ⟨f.ty, ty, a.name, v.pos⟩)))

/-- A fact of the initial state or the goal. -/
def factChecks (d : DomainAST) (p : ProblemAST) (a : Predicate) : List Check :=
  atomWrong d a :: a.vars.zipIdx.map fun v => factArg d p a v.1 v.2

/-- An argument of an initial task is neither an object nor a parameter nor a constant, or its type does not fit.  The
report names the task in place of the argument; constants are reported as arguments of a predicate. -/
def initArg (d : DomainAST) (p : ProblemAST) (h : InitTN) (s : Subtask) (v : Symbol) (i : Nat) : Check := fun x =>
  (Unbound [p.objects, h.params.getD [], constantsOf d] v.name ∧ x = .error (.undefObject ⟨v.name, v.pos⟩)) ∨
  ∃ (ps : List Symbol) (f : Symbol) (ty : Option Name), Callee d s.task.name ps ∧ ps[i]? = some f ∧
    ¬ Fits (typesOf d) ty f.ty ∧
    ((TypeIn [p.objects, h.params.getD []] v.name ty ∧ x = .error (.taskArgType ⟨f.ty, ty, s.task.name, v.pos⟩)) ∨
     (Unbound [p.objects, h.params.getD []] v.name ∧ TypeIn [constantsOf d] v.name ty ∧
       x = .error (.predArgType ⟨f.ty, ty, s.task.name, v.pos⟩)))

/-- A task of the initial network. -/
def initTaskChecks (d : DomainAST) (p : ProblemAST) (h : InitTN) (s : Subtask) : List Check :=
  calleeWrong d s :: s.terms.zipIdx.map fun v => initArg d p h s v.1 v.2

def initTnChecks (d : DomainAST) (p : ProblemAST) : Option InitTN → List Check
  | none => []
  | some h => orderCycle h.tn :: h.tn.subtasks.flatMap (initTaskChecks d p h)

def goalChecks (d : DomainAST) (p : ProblemAST) : Option Formula → List Check
  | none => []
  | some f => (freeAtoms f).flatMap (factChecks d p)

/-- A problem: types of the objects, their names, initial state, initial task network, goal. -/
def problemChecks (d : DomainAST) (p : ProblemAST) : List Check :=
  p.objects.map (typeUnknown d) ++ (forEach (fun b o => [nameAgain .dupObject symLine b o]) [] p.objects ++
  (p.initState.flatMap (factChecks d p) ++ (initTnChecks d p p.initTn ++ goalChecks d p p.goal)))

end Verif.Spec
