import Verif.Spec.Lexical
import Verif.Spec.Renaming
import Verif.Spec.WellFormed

/-!
Writing a syntax tree as a text, and the syntax trees that can be written.
-/

namespace Verif.Spec

open Verif

/-! ### Text -/

/-- Names, each with its type. -/
def symbolToks : List Symbol → List Token
  | [] => []
  | s :: ss => .ident s.name :: ((match s.ty with | some t => [.punct .dash, .ident t] | none => []) ++ symbolToks ss)

def predToks (p : Predicate) : List Token := lpar :: .ident p.name :: (symbolToks p.vars ++ [rpar])

def isWeighted : Formula → Bool
  | .weighted _ _ => true
  | _ => false

mutual

def formulaToks : Formula → List Token
  | .empty => [lpar, rpar]
  | .atom p => predToks p
  | .not f => lpar :: .op .not :: (formulaToks f ++ [rpar])
  | .and fs => lpar :: .op (if fs.any isWeighted then .probabilistic else .and) :: (formulasToks fs ++ [rpar])
  | .or fs => lpar :: .op .or :: (formulasToks fs ++ [rpar])
  | .xor fs => lpar :: .op .xor :: (formulasToks fs ++ [rpar])
  | .imply ps qs => lpar :: .op .implication :: (formulasToks ps ++ formulasToks qs ++ [rpar])
  | .exists_ vs f => lpar :: .op .exists_ :: lpar :: (symbolToks vs ++ rpar :: (formulaToks f ++ [rpar]))
  | .forall_ vs f => lpar :: .op .forall_ :: lpar :: (symbolToks vs ++ rpar :: (formulaToks f ++ [rpar]))
  | .weighted w f => .num w :: formulaToks f
  | .equals a b => [lpar, .op .equal, .ident a, .ident b, rpar]

def formulasToks : List Formula → List Token
  | [] => []
  | f :: fs => formulaToks f ++ formulasToks fs

end

def optToks (k : Kw) : Option Formula → List Token
  | none => []
  | some f => .kw k :: formulaToks f

def taskToks (name : Name) (params : List Symbol) : List Token :=
  .ident name :: .kw .parameters :: lpar :: (symbolToks params ++ [rpar])

def termToks (terms : List Symbol) : List Token := terms.map fun s => .ident s.name

def subtaskToks (s : Subtask) : List Token :=
  match s.id with
  | none => lpar :: .ident s.task.name :: (termToks s.terms ++ [rpar])
  | some i => lpar :: .ident i.name :: lpar :: .ident s.task.name :: (termToks s.terms ++ [rpar, rpar])

def orderToks (o : Name × Name) : List Token := [lpar, .op .lt, .ident o.1, .ident o.2, rpar]

def constraintToks : Constraint → List Token
  | .equal a b => [lpar, .op .equal, .ident a, .ident b, rpar]
  | .notEqual a b => [lpar, .op .not, lpar, .op .equal, .ident a, .ident b, rpar, rpar]

/-- A conjunction. -/
def andToks {α : Type} (f : α → List Token) (l : List α) : List Token := lpar :: .op .and :: (l.flatMap f ++ [rpar])

/-- A network with `:ordered-subtasks` and `:constraints`. -/
def ConstrainedTotal (h : HTN) : Prop := h.orderings = .total ∧ h.constraints ≠ none

instance (h : HTN) : Decidable (ConstrainedTotal h) := by unfold ConstrainedTotal; infer_instance

/-- A task network.  The closing parenthesis is included if `close` or if the network does not have `:ordered-subtasks` and
`:constraints`. -/
def htnToks (close : Bool) (h : HTN) : List Token :=
  match h.orderings with
  | .total => .kw .orderedSubtasks :: (andToks subtaskToks h.subtasks ++
      (match h.constraints with
       | some cs => .kw .constraints :: (andToks constraintToks cs ++ if close then [rpar] else [])
       | none => [rpar]))
  | .partial_ os => .kw .subtasks :: (andToks subtaskToks h.subtasks ++
      (match h.orderingPos with | some _ => .kw .ordering :: andToks orderToks os | none => []) ++
      (match h.constraints with | some cs => .kw .constraints :: andToks constraintToks cs | none => []) ++ [rpar])

def methodToks (close : Bool) (m : Method) : List Token :=
  lpar :: .kw .method :: .ident m.name.name :: .kw .parameters :: lpar :: (symbolToks m.params ++ rpar :: .kw .task ::
    lpar :: .ident m.task.name :: (symbolToks m.taskTerms ++ rpar :: (optToks .precondition m.pre ++ htnToks close m.tn)))

def actionToks (a : Action) : List Token :=
  lpar :: .kw .action :: (taskToks a.name a.params ++ optToks .precondition a.pre ++ optToks .effect a.eff ++ [rpar])

/-- A block. -/
def blockToks (k : Kw) (ts : List Token) : List Token := lpar :: .kw k :: (ts ++ [rpar])

/-- The text of a domain; every type and every constant has its own block.  If `close` is false, the closing parentheses
of methods with `:ordered-subtasks` and `:constraints` are left out. -/
def domainToks (close : Bool) (d : DomainAST) : List Token :=
  [lpar, .kw .define, lpar, .kw .domain, .ident d.name, rpar] ++
    (blockToks .requirements (d.requirements.map .req) ++
    (typesOf d).flatMap (fun s => blockToks .types (symbolToks [s])) ++
    (constantsOf d).flatMap (fun s => blockToks .constants (symbolToks [s])) ++
    blockToks .predicates (d.predicates.flatMap predToks) ++
    blockToks .functions (d.functions.flatMap predToks) ++
    d.tasks.flatMap (fun t => blockToks .task (taskToks t.name t.params)) ++
    d.actions.flatMap actionToks ++
    d.methods.flatMap (methodToks close) ++ [rpar])

/-- The text of a problem with the given name for the domain of the given name. -/
def problemToks (close : Bool) (name dname : Name) (p : ProblemAST) : List Token :=
  [lpar, .kw .define, lpar, .kw .problem, .ident name, rpar, lpar, .kw .domain, .ident dname, rpar] ++
    (blockToks .requirements (p.requirements.map .req) ++
    p.objects.flatMap (fun s => blockToks .objects (symbolToks [s])) ++
    blockToks .init (p.initState.flatMap predToks) ++
    (match p.initTn with
     | some i => lpar :: .kw .htn ::
        ((match i.params with | some ps => .kw .parameters :: lpar :: (symbolToks ps ++ [rpar]) | none => []) ++ htnToks close i.tn)
     | none => []) ++
    (match p.goal with | some f => lpar :: .kw .goal :: (formulaToks f ++ if close then [rpar] else []) | none => []) ++
    [rpar])

/-- The closing parenthesis of a method with `:ordered-subtasks` and `:constraints` ends the domain. -/
def keptMethods : List Method → List Method
  | [] => []
  | m :: ms => m :: if ConstrainedTotal m.tn then [] else keptMethods ms

/-- What is read of a domain that is written with all closing parentheses. -/
def readDomain (d : DomainAST) : DomainAST := { d with methods := keptMethods d.methods }

/-- What is read of a problem that is written with all closing parentheses: the closing parenthesis of an initial task network
with `:ordered-subtasks` and `:constraints` ends the problem. -/
def readProblem (p : ProblemAST) : ProblemAST :=
  { p with goal := if ∃ i ∈ p.initTn, ConstrainedTotal i.tn then none else p.goal }

/-! ### Trees -/

/-- The type and its position come together. -/
def SymbolShape (s : Symbol) : Prop := s.tyPos.isSome = s.ty.isSome

def Untyped (s : Symbol) : Prop := s.ty = none ∧ s.tyPos = none

/-- A list of names with types: names without type come last. -/
def ListShape (ss : List Symbol) : Prop := (∀ s ∈ ss, SymbolShape s) ∧ ss.Pairwise fun a b => a.ty = none → b.ty = none

/-- Formulas that can be written: no implications, no empty operands, and probabilities only in the branches of
`probabilistic`, which is represented by a conjunction. -/
inductive FormulaShape : Formula → Prop
  | empty : FormulaShape .empty
  | atom {p} : ListShape p.vars → FormulaShape (.atom p)
  | not {f} : FormulaShape f → FormulaShape (.not f)
  | and {fs} : (∀ f ∈ fs, FormulaShape f) → (∀ f ∈ fs, f ≠ .empty) → FormulaShape (.and fs)
  | or {fs} : (∀ f ∈ fs, FormulaShape f) → (∀ f ∈ fs, f ≠ .empty) → FormulaShape (.or fs)
  | xor {fs} : (∀ f ∈ fs, FormulaShape f) → (∀ f ∈ fs, f ≠ .empty) → FormulaShape (.xor fs)
  | exists_ {vs f} : ListShape vs → FormulaShape f → FormulaShape (.exists_ vs f)
  | forall_ {vs f} : ListShape vs → FormulaShape f → FormulaShape (.forall_ vs f)
  | equals {a b} : FormulaShape (.equals a b)
  | probabilistic {bs : List (Num × Formula)} : (∀ b ∈ bs, FormulaShape b.2) → (∀ b ∈ bs, b.2 ≠ .empty) →
      FormulaShape (.and (bs.map fun b => .weighted b.1 b.2))

structure SubtaskShape (s : Subtask) : Prop where
  id : ∀ i, s.id = some i → Untyped i
  task : Untyped s.task
  terms : ∀ t ∈ s.terms, Untyped t

/-- The position of `:ordering` is recorded if there are ordering constraints, and not for `:ordered-subtasks`. -/
structure HtnShape (h : HTN) : Prop where
  subtasks : ∀ s ∈ h.subtasks, SubtaskShape s
  total : h.orderings = .total → h.orderingPos = none
  ordering : ∀ os, h.orderings = .partial_ os → h.orderingPos = none → os = []

structure MethodShape (m : Method) : Prop where
  name : Untyped m.name
  task : Untyped m.task
  terms : ListShape m.taskTerms
  params : ListShape m.params
  pre : ∀ f, m.pre = some f → FormulaShape f
  tn : HtnShape m.tn

structure ActionShape (a : Action) : Prop where
  params : ListShape a.params
  pre : ∀ f, a.pre = some f → FormulaShape f
  eff : ∀ f, a.eff = some f → FormulaShape f

/-- Domains that can be written. -/
structure DomainShape (d : DomainAST) : Prop where
  noTypes : d.types ≠ some []
  types : ∀ s ∈ typesOf d, SymbolShape s
  noConstants : d.constants ≠ some []
  constants : ∀ s ∈ constantsOf d, SymbolShape s
  predicates : ∀ p ∈ d.predicates, ListShape p.vars
  tasks : ∀ t ∈ d.tasks, ListShape t.params
  methods : ∀ m ∈ d.methods, MethodShape m
  actions : ∀ a ∈ d.actions, ActionShape a
  functions : ∀ p ∈ d.functions, ListShape p.vars

/-- Problems that can be written. -/
structure ProblemShape (p : ProblemAST) : Prop where
  objects : ∀ s ∈ p.objects, SymbolShape s
  init : ∀ a ∈ p.initState, ListShape a.vars
  goal : ∀ f, p.goal = some f → FormulaShape f
  params : ∀ i, p.initTn = some i → ∀ ps, i.params = some ps → ListShape ps
  tn : ∀ i, p.initTn = some i → HtnShape i.tn

/-! ### Spelling -/

/-- Tokens that can be written: names consist of letters, digits, `_` and `-`, integers have 63 bits, real numbers have digits
and a point, and `:probabilistic-effects` is not among the requirements. -/
def Utterable : Token → Prop
  | .ident x => Word x
  | .num (.int n) => n < 2 ^ 63
  | .num (.real l) => ∃ w u, l = w ++ 46 :: u ∧ w ≠ [] ∧ (∀ c ∈ w, Digit c) ∧ ∀ c ∈ u, Digit c
  | .req r => r ≠ .probabilisticEffects
  | .eof => False
  | _ => True

end Verif.Spec
