import Verif.Spec.WellFormed

/-! Renaming of variables, declaration by declaration. -/

namespace Verif.Spec

open Verif

variable (ρ : Name → Name)

/-- Another name for a variable, with the same type. -/
def rvSymbol (s : Symbol) : Symbol := { s with name := ρ s.name }

/-- Other names for the arguments of an atom. -/
def rvPredicate (p : Predicate) : Predicate := { p with vars := p.vars.map (rvSymbol ρ) }

mutual

/-- Other names for the variables of a formula, also below quantifiers. -/
def rvFormula : Formula → Formula
  | .empty => .empty
  | .atom p => .atom (rvPredicate ρ p)
  | .not f => .not (rvFormula f)
  | .and fs => .and (rvFormulas fs)
  | .or fs => .or (rvFormulas fs)
  | .xor fs => .xor (rvFormulas fs)
  | .imply ps qs => .imply (rvFormulas ps) (rvFormulas qs)
  | .exists_ vs f => .exists_ (vs.map (rvSymbol ρ)) (rvFormula f)
  | .forall_ vs f => .forall_ (vs.map (rvSymbol ρ)) (rvFormula f)
  | .weighted w f => .weighted w (rvFormula f)
  | .equals a b => .equals (ρ a) (ρ b)

def rvFormulas : List Formula → List Formula
  | [] => []
  | f :: fs => rvFormula f :: rvFormulas fs

end

def rvAction (a : Action) : Action :=
  { a with params := a.params.map (rvSymbol ρ), pre := a.pre.map (rvFormula ρ), eff := a.eff.map (rvFormula ρ) }

def rvSubtask (s : Subtask) : Subtask := { s with terms := s.terms.map (rvSymbol ρ) }

def rvConstraint : Constraint → Constraint
  | .equal a b => .equal (ρ a) (ρ b)
  | .notEqual a b => .notEqual (ρ a) (ρ b)

/-- Labels are no variables. -/
def rvHtn (h : HTN) : HTN :=
  { h with subtasks := h.subtasks.map (rvSubtask ρ), constraints := h.constraints.map (List.map (rvConstraint ρ)) }

def rvMethod (m : Method) : Method :=
  { m with
    taskTerms := m.taskTerms.map (rvSymbol ρ), params := m.params.map (rvSymbol ρ), pre := m.pre.map (rvFormula ρ),
    tn := rvHtn ρ m.tn }

/-- Other names for variables, not necessarily different from each other. -/
def OtherNames : List Symbol → List Symbol → Prop := List.Forall₂ fun s t => t = { s with name := t.name }

/-- A renaming of variables that keeps different variables apart and leaves the given constants or objects alone. -/
def NoCapture (ρ : Name → Name) (cs : List Symbol) : Prop := Function.Injective ρ ∧ ∀ c ∈ cs, ρ c.name = c.name

/-- The domains differ in the names of parameters and variables only: those of predicates and tasks arbitrarily, those of each
action and each method consistently within the declaration. -/
structure LocalNames (d d' : DomainAST) : Prop where
  types : d'.types = d.types
  constants : d'.constants = d.constants
  requirements : d'.requirements = d.requirements
  predicates : List.Forall₂ (fun p q => ∃ vs, OtherNames p.vars vs ∧ q = { p with vars := vs }) d.predicates d'.predicates
  tasks : List.Forall₂ (fun t u => ∃ vs, OtherNames t.params vs ∧ u = { t with params := vs }) d.tasks d'.tasks
  actions : List.Forall₂ (fun a b => ∃ ρ, NoCapture ρ (constantsOf d) ∧ b = rvAction ρ a) d.actions d'.actions
  methods : List.Forall₂ (fun m n => ∃ ρ, NoCapture ρ (constantsOf d) ∧ n = rvMethod ρ m) d.methods d'.methods

/-- The problems differ in the names of the parameters of the initial task network only. -/
structure LocalNamesP (d : DomainAST) (p p' : ProblemAST) : Prop where
  objects : p'.objects = p.objects
  initState : p'.initState = p.initState
  goal : p'.goal = p.goal
  initTn : ∃ ρ, NoCapture ρ (p.objects ++ constantsOf d) ∧
    p'.initTn = p.initTn.map fun i => ⟨i.params.map (List.map (rvSymbol ρ)), rvHtn ρ i.tn⟩

/-- An error about a domain, for other names of variables: the reports of repeated and undeclared parameters and of arguments of
a wrong type name a variable. -/
def rvError : SemErr → SemErr
  | .dupParameter e => .dupParameter { e with symbol := ρ e.symbol }
  | .undefParameter e => .undefParameter { e with symbol := ρ e.symbol }
  | .predArgType e => .predArgType { e with var := ρ e.var }
  | .taskArgType e => .taskArgType { e with var := ρ e.var }
  | e => e

/-- An error about a problem, for other names of variables: the report of a wrong type names the predicate or task. -/
def rvErrorP : SemErr → SemErr
  | .undefObject e => .undefObject { e with symbol := ρ e.symbol }
  | e => e

/-- An answer with another error. -/
def onError {α : Type} (h : SemErr → SemErr) : R α → R α
  | .err (.semantic e) => .err (.semantic (h e))
  | r => r

end Verif.Spec
