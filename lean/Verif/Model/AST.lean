import Verif.Model.Token

/-! Syntax trees.  `/repo/src/syntactic_analyzer/syntax_tree`. -/

namespace Verif

/-- `Symbol`, nodes/symbol.rs:8-15. -/
structure Symbol where
  name : Name
  pos : Nat
  ty : Option Name
  tyPos : Option Nat
  deriving DecidableEq, Repr

/-- `Predicate`, nodes/predicate.rs:10-14, and `Function`, nodes/function.rs:7-11 (same fields). -/
structure Predicate where
  name : Name
  pos : Nat
  vars : List Symbol
  deriving DecidableEq, Repr

/-- `Formula`, nodes/formula.rs:10-27. -/
inductive Formula where
  | empty
  | atom (p : Predicate)
  | not (f : Formula)
  | and (fs : List Formula)
  | or (fs : List Formula)
  | xor (fs : List Formula)
  | imply (ps qs : List Formula)
  | exists_ (vars : List Symbol) (f : Formula)
  | forall_ (vars : List Symbol) (f : Formula)
  | weighted (w : Num) (f : Formula)
  | equals (a b : Name)
  deriving Repr

mutual

/-- `Formula::get_propositional_predicates`, nodes/formula.rs:30-61. -/
def Formula.propPreds : Formula → List Predicate
  | .empty => []
  | .atom p => [p]
  | .not f => f.propPreds
  | .and fs => Formula.propPredsList fs
  | .or fs => Formula.propPredsList fs
  | .xor fs => Formula.propPredsList fs
  | .imply ps qs => Formula.propPredsList ps ++ Formula.propPredsList qs
  | .weighted _ f => f.propPreds
  | .equals _ _ => []
  | .exists_ _ _ => []
  | .forall_ _ _ => []

/-- The `flat_map` over operands in `get_propositional_predicates`. -/
def Formula.propPredsList : List Formula → List Predicate
  | [] => []
  | f :: fs => f.propPreds ++ Formula.propPredsList fs

end

/-- `Task`, nodes/task.rs:10-14. -/
structure Task where
  name : Name
  pos : Nat
  params : List Symbol
  deriving DecidableEq, Repr

/-- `Action`, nodes/action.rs:11-17. -/
structure Action where
  name : Name
  pos : Nat
  params : List Symbol
  pre : Option Formula
  eff : Option Formula
  deriving Repr

/-- `Subtask`, nodes/htn.rs:24-28. -/
structure Subtask where
  id : Option Symbol
  task : Symbol
  terms : List Symbol
  deriving DecidableEq, Repr

/-- `Constraint`, nodes/htn.rs:32-35. -/
inductive Constraint where
  | equal (a b : Name)
  | notEqual (a b : Name)
  deriving DecidableEq, Repr

/-- `TaskOrdering`, nodes/htn.rs:38-41. -/
inductive Ordering where
  | total
  | partial_ (pairs : List (Name × Name))
  deriving DecidableEq, Repr

/-- `HTN`, nodes/htn.rs:16-21. -/
structure HTN where
  subtasks : List Subtask
  orderingPos : Option Nat
  orderings : Ordering
  constraints : Option (List Constraint)
  deriving DecidableEq, Repr

/-- `InitialTaskNetwork`, nodes/htn.rs:10-13. -/
structure InitTN where
  params : Option (List Symbol)
  tn : HTN
  deriving DecidableEq, Repr

/-- `Method`, nodes/method.rs:9-16. -/
structure Method where
  name : Symbol
  task : Symbol
  taskTerms : List Symbol
  params : List Symbol
  pre : Option Formula
  tn : HTN
  deriving Repr

/-- `DomainAST`, domain.rs:4-14. -/
structure DomainAST where
  name : Name
  types : Option (List Symbol)
  constants : Option (List Symbol)
  requirements : List Req
  predicates : List Predicate
  tasks : List Task
  methods : List Method
  actions : List Action
  functions : List Predicate
  deriving Repr

/-- `DomainAST::new`, domain.rs:17-29. -/
def DomainAST.new (name : Name) : DomainAST :=
  ⟨name, none, none, [], [], [], [], [], []⟩

/-- Adding a list of symbols one by one to an optional list: the loops over `add_var_type` and `add_constant`,
domain.rs:55-75 and domain_parser/router.rs:67-79.  Adding nothing leaves `None` unchanged. -/
def addSymbols (old : Option (List Symbol)) (new : List Symbol) : Option (List Symbol) :=
  new.foldl (fun acc s => match acc with | some l => some (l ++ [s]) | none => some [s]) old

/-- `ProblemAST`, problem.rs:5-11. -/
structure ProblemAST where
  requirements : List Req
  initTn : Option InitTN
  initState : List Predicate
  goal : Option Formula
  objects : List Symbol
  deriving Repr

/-- `ProblemAST::new`, problem.rs:14-22. -/
def ProblemAST.new : ProblemAST := ⟨[], none, [], none, []⟩

/-- `AbstractSyntaxTree`, generic.rs:5-8. -/
inductive AST where
  | domain (d : DomainAST)
  | problem (p : ProblemAST)
  deriving Repr

end Verif
