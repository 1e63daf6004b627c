import Verif.Spec.WellFormed

/-!
Removing all types from a domain and a problem.
-/

namespace Verif.Spec

open Verif

/-- The symbol without its type. -/
def utSymbol (s : Symbol) : Symbol := { s with ty := none, tyPos := none }

def utPredicate (p : Predicate) : Predicate := { p with vars := p.vars.map utSymbol }

mutual

def utFormula : Formula → Formula
  | .empty => .empty
  | .atom p => .atom (utPredicate p)
  | .not f => .not (utFormula f)
  | .and fs => .and (utFormulas fs)
  | .or fs => .or (utFormulas fs)
  | .xor fs => .xor (utFormulas fs)
  | .imply ps qs => .imply (utFormulas ps) (utFormulas qs)
  | .exists_ vs f => .exists_ (vs.map utSymbol) (utFormula f)
  | .forall_ vs f => .forall_ (vs.map utSymbol) (utFormula f)
  | .weighted w f => .weighted w (utFormula f)
  | .equals a b => .equals a b

def utFormulas : List Formula → List Formula
  | [] => []
  | f :: fs => utFormula f :: utFormulas fs

end

def utTask (t : Task) : Task := { t with params := t.params.map utSymbol }

def utAction (a : Action) : Action :=
  { a with params := a.params.map utSymbol, pre := a.pre.map utFormula, eff := a.eff.map utFormula }

def utSubtask (s : Subtask) : Subtask := { s with terms := s.terms.map utSymbol }

def utHtn (h : HTN) : HTN := { h with subtasks := h.subtasks.map utSubtask }

def utInitTn (i : InitTN) : InitTN := ⟨i.params.map (List.map utSymbol), utHtn i.tn⟩

def utMethod (m : Method) : Method :=
  { m with
    taskTerms := m.taskTerms.map utSymbol
    params := m.params.map utSymbol
    pre := m.pre.map utFormula
    tn := utHtn m.tn }

/-- The domain without `:types` and without types of constants, parameters and arguments. -/
def utDomain (d : DomainAST) : DomainAST where
  name := d.name
  types := none
  constants := d.constants.map (List.map utSymbol)
  requirements := d.requirements
  predicates := d.predicates.map utPredicate
  tasks := d.tasks.map utTask
  methods := d.methods.map utMethod
  actions := d.actions.map utAction
  functions := d.functions.map utPredicate

/-- The problem without types of objects, parameters and arguments. -/
def utProblem (p : ProblemAST) : ProblemAST where
  requirements := p.requirements
  initTn := p.initTn.map utInitTn
  initState := p.initState.map utPredicate
  goal := p.goal.map utFormula
  objects := p.objects.map utSymbol

/-- The errors that are about types. -/
inductive AboutTypes : SemErr → Prop
  | cyclic : AboutTypes .cyclicType
  | undef {e} : AboutTypes (.undefType e)
  | predicate {e} : AboutTypes (.predArgType e)
  | task {e} : AboutTypes (.taskArgType e)

/-! ### Well-formed except for types

The same conditions as `DomainOk` and `ProblemOk`, without those on types. -/

/-- As many arguments as parameters, and all of them are bound. -/
def Supplied (scope : List (List Symbol)) (args formals : List Symbol) : Prop :=
  args.length = formals.length ∧ ∀ v ∈ args, ¬ Unbound scope v.name

structure FormulaFrame (d : DomainAST) (params : List Symbol) (f : Formula) : Prop where
  noExists : ¬ HasExists f
  declared : ∀ p, Occurs p f → ∃ q ∈ d.predicates, q.name = p.name ∧ p.vars.length = q.vars.length
  supplied : ∀ p, OccursFree p f → ∀ q ∈ d.predicates, q.name = p.name → Supplied [params, constantsOf d] p.vars q.vars

structure ActionFrame (d : DomainAST) (a : Action) : Prop where
  params : (a.params.map (·.name)).Nodup
  pre : ∀ f, a.pre = some f → FormulaFrame d a.params f
  eff : ∀ f, a.eff = some f → FormulaFrame d a.params f

structure MethodFrame (d : DomainAST) (m : Method) : Prop where
  params : (m.params.map (·.name)).Nodup
  pre : ∀ f, m.pre = some f → FormulaFrame d m.params f
  task : ∃ t ∈ d.tasks, t.name = m.task.name ∧ Supplied [m.params, constantsOf d] m.taskTerms t.params
  subtasks : ∀ s ∈ m.tn.subtasks, ∃ ps, Callee d s.task.name ps ∧ Supplied [m.params, constantsOf d] s.terms ps
  ordering : Acyclic (Before m.tn)

structure DomainFrame (d : DomainAST) : Prop where
  requirements : d.requirements.Nodup
  predicates : (d.predicates.map (·.name)).Nodup
  tasks : (d.tasks.map (·.name)).Nodup
  actionNames : (d.actions.map (·.name)).Nodup
  actions : ∀ a ∈ d.actions, ActionFrame d a
  methodNames : (d.methods.map (·.name.name)).Nodup
  methods : ∀ m ∈ d.methods, MethodFrame d m

def FactFrame (d : DomainAST) (p : ProblemAST) (a : Predicate) : Prop :=
  ∃ q ∈ d.predicates, q.name = a.name ∧ Supplied [p.objects, constantsOf d] a.vars q.vars

structure InitTnFrame (d : DomainAST) (p : ProblemAST) (h : InitTN) : Prop where
  ordering : Acyclic (Before h.tn)
  subtasks : ∀ s ∈ h.tn.subtasks, ∃ ps, Callee d s.task.name ps ∧
    Supplied [p.objects, h.params.getD [], constantsOf d] s.terms ps

structure ProblemFrame (d : DomainAST) (p : ProblemAST) : Prop where
  objects : (p.objects.map (·.name)).Nodup
  init : ∀ a ∈ p.initState, FactFrame d p a
  htn : ∀ h, p.initTn = some h → InitTnFrame d p h
  goal : ∀ f, p.goal = some f → ∀ a, OccursFree a f → FactFrame d p a

end Verif.Spec
