import Verif.Model.AST

/-!
Specification of the concrete syntax as a relation between token sequences (each token with its line) and syntax trees.
It does not mention the parser.

The relations carry a flag `q`.  With `q = false` they describe the supported HDDL grammar.  With `q = true` they also
contain the malformed texts that the parser lets through; every such rule has the premise `q = true` (or `Joint`) and
says what is wrong with the text.
-/

namespace Verif.Spec

open Verif

/-- A token and the line on which it starts. -/
abbrev Tk := Token × Nat

abbrev lpar : Token := .punct .lparen
abbrev rpar : Token := .punct .rparen

/-! ### Lists of names with types -/

/-- The entries of a list: names, and types introduced by a dash. -/
inductive Items : List Tk → Prop
  | nil : Items []
  | name {x l ts} : Items ts → Items ((.ident x, l) :: ts)
  | type {l t l' ts} : Items ts → Items ((.punct .dash, l) :: (.ident t, l') :: ts)

/-- The first type mentioned in a list, with its line. -/
def firstType : List Tk → Option (Name × Nat)
  | (.punct .dash, _) :: (.ident t, l) :: _ => some (t, l)
  | _ :: ts => firstType ts
  | [] => none

/-- The symbols of a list: every name, with the first type that follows it. -/
def symbolsOf : List Tk → List Symbol
  | (.ident x, l) :: ts => ⟨x, l, (firstType ts).map (·.1), (firstType ts).map (·.2)⟩ :: symbolsOf ts
  | (.punct .dash, _) :: _ :: ts => symbolsOf ts
  | _ => []

/-- A list of names with optional types. -/
def TypedList (ss : List Symbol) (ts : List Tk) : Prop := Items ts ∧ ss = symbolsOf ts

/-- Plain names as tokens and as symbols. -/
def nameToks (xs : List (Name × Nat)) : List Tk := xs.map fun x => (.ident x.1, x.2)

def nameSyms (xs : List (Name × Nat)) : List Symbol := xs.map fun x => ⟨x.1, x.2, none, none⟩

/-! ### Predicates, formulas -/

/-- A sequence of predicates, functions or facts, each in parentheses. -/
inductive Predicates : List Predicate → List Tk → Prop
  | nil : Predicates [] []
  | cons {name l1 l2 l3 vars items ps ts} : TypedList vars items → Predicates ps ts →
      Predicates (⟨name, l2, vars⟩ :: ps) ((lpar, l1) :: (.ident name, l2) :: (items ++ (rpar, l3) :: ts))

mutual

/-- Formulas. -/
inductive FormulaText (q : Bool) : Formula → List Tk → Prop
  | empty {l1 l2} : FormulaText q .empty [(lpar, l1), (rpar, l2)]
  /-- malformed: a closing parenthesis in place of a formula -/
  | missing {l} : q = true → FormulaText q .empty [(rpar, l)]
  | atom {name l1 l2 l3 vars items} : TypedList vars items →
      FormulaText q (.atom ⟨name, l2, vars⟩) ((lpar, l1) :: (.ident name, l2) :: (items ++ [(rpar, l3)]))
  | not {l1 l2 l3 f ts} : FormulaText q f ts →
      FormulaText q (.not f) ((lpar, l1) :: (.op .not, l2) :: (ts ++ [(rpar, l3)]))
  | and {l1 l2 fs ts} : FormulasText q fs ts → FormulaText q (.and fs) ((lpar, l1) :: (.op .and, l2) :: ts)
  | or {l1 l2 fs ts} : FormulasText q fs ts → FormulaText q (.or fs) ((lpar, l1) :: (.op .or, l2) :: ts)
  | xor {l1 l2 fs ts} : FormulasText q fs ts → FormulaText q (.xor fs) ((lpar, l1) :: (.op .xor, l2) :: ts)
  | equals {l1 l2 l3 l4 l5 a b} : FormulaText q (.equals a b)
      [(lpar, l1), (.op .equal, l2), (.ident a, l3), (.ident b, l4), (rpar, l5)]
  | forall_ {l1 l2 l3 l4 l5 vars items f ts} : TypedList vars items → FormulaText q f ts →
      FormulaText q (.forall_ vars f)
        ((lpar, l1) :: (.op .forall_, l2) :: (lpar, l3) :: (items ++ (rpar, l4) :: (ts ++ [(rpar, l5)])))
  | exists_ {l1 l2 l3 l4 l5 vars items f ts} : TypedList vars items → FormulaText q f ts →
      FormulaText q (.exists_ vars f)
        ((lpar, l1) :: (.op .exists_, l2) :: (lpar, l3) :: (items ++ (rpar, l4) :: (ts ++ [(rpar, l5)])))
  | probabilistic {l1 l2 bs ts} : BranchesText q bs ts →
      FormulaText q (.and bs) ((lpar, l1) :: (.op .probabilistic, l2) :: ts)

/-- The operands of `and`, `or` and `oneof`, with the closing parenthesis. -/
inductive FormulasText (q : Bool) : List Formula → List Tk → Prop
  | nil {l} : FormulasText q [] [(rpar, l)]
  /-- malformed: `()` ends the list of operands and the closing parenthesis is missing -/
  | unclosed {l1 l2} : q = true → FormulasText q [] [(lpar, l1), (rpar, l2)]
  | cons {f fs ts ts'} : FormulaText q f ts → f ≠ .empty → FormulasText q fs ts' →
      FormulasText q (f :: fs) (ts ++ ts')

/-- The branches of `probabilistic`, with the closing parenthesis. -/
inductive BranchesText (q : Bool) : List Formula → List Tk → Prop
  | nil {l} : BranchesText q [] [(rpar, l)]
  | cons {w l f fs ts ts'} : FormulaText q f ts → f ≠ .empty → BranchesText q fs ts' →
      BranchesText q (.weighted w f :: fs) ((.num w, l) :: (ts ++ ts'))

end

/-- An optional formula introduced by a keyword. -/
inductive OptFormula (q : Bool) (k : Kw) : Option Formula → List Tk → Prop
  | none : OptFormula q k none []
  | some {l f ts} : FormulaText q f ts → OptFormula q k (some f) ((.kw k, l) :: ts)

/-! ### Tasks and actions -/

/-- Name and parameters of a task or action. -/
inductive TaskText : Task → List Tk → Prop
  | mk {name l1 l2 l3 l4 params items} : TypedList params items →
      TaskText ⟨name, l1, params⟩
        ((.ident name, l1) :: (.kw .parameters, l2) :: (lpar, l3) :: (items ++ [(rpar, l4)]))

/-- An action after the keyword, with the closing parenthesis. -/
inductive ActionText (q : Bool) : Action → List Tk → Prop
  | mk {name pos params pre eff l a b c} : TaskText ⟨name, pos, params⟩ a → OptFormula q .precondition pre b →
      OptFormula q .effect eff c → ActionText q ⟨name, pos, params, pre, eff⟩ (a ++ b ++ c ++ [(rpar, l)])

/-! ### Task networks -/

/-- A subtask after its opening parenthesis, optionally labelled. -/
inductive SubtaskText : Subtask → List Tk → Prop
  | plain {task l1 l2 xs} :
      SubtaskText ⟨none, ⟨task, l1, none, none⟩, nameSyms xs⟩ ((.ident task, l1) :: (nameToks xs ++ [(rpar, l2)]))
  | labelled {id l1 l2 task l3 l4 l5 xs} :
      SubtaskText ⟨some ⟨id, l1, none, none⟩, ⟨task, l3, none, none⟩, nameSyms xs⟩
        ((.ident id, l1) :: (lpar, l2) :: (.ident task, l3) :: (nameToks xs ++ [(rpar, l4), (rpar, l5)]))

inductive SubtaskList : List Subtask → List Tk → Prop
  | nil : SubtaskList [] []
  | cons {l t ts a b} : SubtaskText t a → SubtaskList ts b → SubtaskList (t :: ts) ((lpar, l) :: (a ++ b))

/-- The subtasks of a network: none, one, or a conjunction. -/
inductive SubtasksText : List Subtask → List Tk → Prop
  | none {l1 l2} : SubtasksText [] [(lpar, l1), (rpar, l2)]
  | one {l t a} : SubtaskText t a → SubtasksText [t] ((lpar, l) :: a)
  | many {l1 l2 l3 ts a} : SubtaskList ts a →
      SubtasksText ts ((lpar, l1) :: (.op .and, l2) :: (a ++ [(rpar, l3)]))

/-- `< a b c ..` with the closing parenthesis: `a` before each of `b`, `c`, .. -/
inductive OrderText : List (Name × Name) → List Tk → Prop
  | mk {l1 a l2 l3} {bs : List (Name × Nat)} :
      OrderText (bs.map fun b => (a, b.1)) ((.op .lt, l1) :: (.ident a, l2) :: (nameToks bs ++ [(rpar, l3)]))

inductive OrderList : List (Name × Name) → List Tk → Prop
  | nil : OrderList [] []
  | cons {l o os a b} : OrderText o a → OrderList os b → OrderList (o ++ os) ((lpar, l) :: (a ++ b))

/-- The ordering constraints of a network: none, one chain, or a conjunction. -/
inductive OrdersText : List (Name × Name) → List Tk → Prop
  | none {l1 l2} : OrdersText [] [(lpar, l1), (rpar, l2)]
  | one {l o a} : OrderText o a → OrdersText o ((lpar, l) :: a)
  | many {l1 l2 l3 os a} : OrderList os a →
      OrdersText os ((lpar, l1) :: (.op .and, l2) :: (a ++ [(rpar, l3)]))

/-- A variable constraint after its opening parenthesis. -/
inductive ConstraintText : Constraint → List Tk → Prop
  | equal {l1 l2 l3 l4 a b} :
      ConstraintText (.equal a b) [(.op .equal, l1), (.ident a, l2), (.ident b, l3), (rpar, l4)]
  | notEqual {l1 l2 l3 l4 l5 l6 l7 a b} :
      ConstraintText (.notEqual a b)
        [(.op .not, l1), (lpar, l2), (.op .equal, l3), (.ident a, l4), (.ident b, l5), (rpar, l6), (rpar, l7)]

inductive ConstraintList : List Constraint → List Tk → Prop
  | nil : ConstraintList [] []
  | cons {l c cs a b} : ConstraintText c a → ConstraintList cs b → ConstraintList (c :: cs) ((lpar, l) :: (a ++ b))

inductive ConstraintsText : List Constraint → List Tk → Prop
  | none {l1 l2} : ConstraintsText [] [(lpar, l1), (rpar, l2)]
  | one {l c a} : ConstraintText c a → ConstraintsText [c] ((lpar, l) :: a)
  | many {l1 l2 l3 cs a} : ConstraintList cs a →
      ConstraintsText cs ((lpar, l1) :: (.op .and, l2) :: (a ++ [(rpar, l3)]))

/-- What may follow the subtasks of a partially ordered network. -/
inductive TnItem where
  | ordering (line : Nat) (pairs : List (Name × Name))
  | constraints (cs : List Constraint)

def TnItem.pairs : TnItem → List (Name × Name)
  | .ordering _ ps => ps
  | .constraints _ => []

def TnItem.line? : TnItem → Option Nat
  | .ordering l _ => some l
  | .constraints _ => none

def TnItem.constraints? : TnItem → Option (List Constraint)
  | .ordering _ _ => none
  | .constraints cs => some cs

inductive TnItems : List TnItem → List Tk → Prop
  | nil : TnItems [] []
  | ordering {l os is a b} : OrdersText os a → TnItems is b →
      TnItems (.ordering l os :: is) ((.kw .ordering, l) :: (a ++ b))
  | constraints {l cs is a b} : ConstraintsText cs a → TnItems is b →
      TnItems (.constraints cs :: is) ((.kw .constraints, l) :: (a ++ b))

/-- How the text of a block relates to the parenthesis that closes the block. -/
inductive Ending where
  /-- the text includes the closing parenthesis -/
  | closed
  /-- the text stops before the closing parenthesis -/
  | open_
  /-- the text stops before the closing parenthesis, and the closing parenthesis must follow -/
  | atParen
  deriving DecidableEq

/-- Task networks.  Orderings accumulate; the last `:ordering` gives the position and the last `:constraints` the
constraints. -/
inductive HtnText : HTN → List Tk → Ending → Prop
  | empty : HtnText ⟨[], none, .partial_ [], none⟩ [] .atParen
  | partial_ {l1 l2 ts is a b} : SubtasksText ts a → TnItems is b →
      HtnText ⟨ts, (is.filterMap TnItem.line?).getLast?, .partial_ (is.flatMap TnItem.pairs),
          (is.filterMap TnItem.constraints?).getLast?⟩
        ((.kw .subtasks, l1) :: (a ++ b ++ [(rpar, l2)])) .closed
  | total {l1 l2 ts a} : SubtasksText ts a →
      HtnText ⟨ts, none, .total, none⟩ ((.kw .orderedSubtasks, l1) :: (a ++ [(rpar, l2)])) .closed
  | constrained {l1 l2 ts cs a b} : SubtasksText ts a → ConstraintsText cs b →
      HtnText ⟨ts, none, .total, some cs⟩ ((.kw .orderedSubtasks, l1) :: (a ++ (.kw .constraints, l2) :: b)) .open_

/-- A method after the keyword.  Without precondition, the task network must not be empty. -/
inductive MethodText (q : Bool) : Method → List Tk → Ending → Prop
  | mk {name task n1 n2 l1 l2 l3 l4 l5 l6 params pitems terms titems pre tn b c e} :
      TypedList params pitems → TypedList terms titems → OptFormula q .precondition pre b → HtnText tn c e →
      (pre = none → c ≠ []) →
      MethodText q ⟨⟨name, n1, none, none⟩, ⟨task, n2, none, none⟩, terms, params, pre, tn⟩
        ((.ident name, n1) :: (.kw .parameters, l1) :: (lpar, l2) :: (pitems ++ (rpar, l3) :: (.kw .task, l4) ::
          (lpar, l5) :: (.ident task, n2) :: (titems ++ (rpar, l6) :: (b ++ c)))) e

/-- The initial task network after the keyword. -/
inductive InitTnText : InitTN → List Tk → Ending → Prop
  | plain {tn a e} : HtnText tn a e → InitTnText ⟨none, tn⟩ a e
  | params {l1 l2 l3 ps items tn a e} : TypedList ps items → HtnText tn a e →
      InitTnText ⟨some ps, tn⟩ ((.kw .parameters, l1) :: (lpar, l2) :: (items ++ (rpar, l3) :: a)) e

/-! ### Files -/

/-- Requirement keywords. -/
def reqToks (rs : List (Req × Nat)) : List Tk := rs.map fun r => (.req r.1, r.2)

/-- The blocks of a domain. -/
inductive DBlock where
  | predicates (ps : List Predicate)
  | functions (fs : List Predicate)
  | task (t : Task)
  | method (m : Method)
  | action (a : Action)
  | requirements (rs : List Req)
  | types (ss : List Symbol)
  | constants (ss : List Symbol)

/-- The text of a domain block, from its opening parenthesis. -/
inductive DBlockText (q : Bool) : DBlock → List Tk → Ending → Prop
  | predicates {l1 l2 l3 ps a} : Predicates ps a →
      DBlockText q (.predicates ps) ((lpar, l1) :: (.kw .predicates, l2) :: (a ++ [(rpar, l3)])) .closed
  | functions {l1 l2 l3 ps a} : Predicates ps a →
      DBlockText q (.functions ps) ((lpar, l1) :: (.kw .functions, l2) :: (a ++ [(rpar, l3)])) .closed
  | task {l1 l2 l3 t a} : TaskText t a →
      DBlockText q (.task t) ((lpar, l1) :: (.kw .task, l2) :: (a ++ [(rpar, l3)])) .closed
  | method {l1 l2 m a e} : MethodText q m a e →
      DBlockText q (.method m) ((lpar, l1) :: (.kw .method, l2) :: a) e
  | action {l1 l2 x a} : ActionText q x a →
      DBlockText q (.action x) ((lpar, l1) :: (.kw .action, l2) :: a) .closed
  | requirements {l1 l2 l3 rs} :
      DBlockText q (.requirements (rs.map Prod.fst))
        ((lpar, l1) :: (.kw .requirements, l2) :: (reqToks rs ++ [(rpar, l3)])) .closed
  | types {l1 l2 l3 ss items} : TypedList ss items →
      DBlockText q (.types ss) ((lpar, l1) :: (.kw .types, l2) :: (items ++ [(rpar, l3)])) .closed
  | constants {l1 l2 l3 ss items} : TypedList ss items →
      DBlockText q (.constants ss) ((lpar, l1) :: (.kw .constants, l2) :: (items ++ [(rpar, l3)])) .closed

/-- The blocks of a problem. -/
inductive PBlock where
  | requirements (rs : List Req)
  | objects (ss : List Symbol)
  | htn (tn : InitTN)
  | goal (f : Formula)
  | init (ps : List Predicate)

/-- The text of a problem block, from its opening parenthesis. -/
inductive PBlockText (q : Bool) : PBlock → List Tk → Ending → Prop
  | requirements {l1 l2 l3 rs} :
      PBlockText q (.requirements (rs.map Prod.fst))
        ((lpar, l1) :: (.kw .requirements, l2) :: (reqToks rs ++ [(rpar, l3)])) .closed
  | objects {l1 l2 l3 ss items} : TypedList ss items →
      PBlockText q (.objects ss) ((lpar, l1) :: (.kw .objects, l2) :: (items ++ [(rpar, l3)])) .closed
  | htn {l1 l2 tn a e} : InitTnText tn a e → PBlockText q (.htn tn) ((lpar, l1) :: (.kw .htn, l2) :: a) e
  | goal {l1 l2 f a} : FormulaText q f a → PBlockText q (.goal f) ((lpar, l1) :: (.kw .goal, l2) :: a) .open_
  | init {l1 l2 l3 ps a} : Predicates ps a →
      PBlockText q (.init ps) ((lpar, l1) :: (.kw .init, l2) :: (a ++ [(rpar, l3)])) .closed

/-- The next token is a closing parenthesis. -/
def AtParen (ts : List Tk) : Prop := ∃ l r, ts = (rpar, l) :: r

/-- What may follow a block that ended with `e`.  After a block whose text stops before its closing parenthesis, that
parenthesis must follow; malformed: it may be missing. -/
def Joint (q : Bool) : Ending → List Tk → Prop
  | .closed, _ => True
  | .open_, ts => q = true ∨ AtParen ts
  | .atParen, ts => AtParen ts

/-- A sequence of blocks up to the first closing parenthesis where a block could start.  That parenthesis closes the
file, or it closes the last block if the text of that block stops before it. -/
inductive Body {β : Type} (q : Bool) (block : β → List Tk → Ending → Prop) (stop : List Tk → Prop) :
    List β → List Tk → Prop
  | done {ts} : stop ts → Body q block stop [] ts
  | block {b bs ts ts' e} : block b ts e → Joint q e ts' → Body q block stop bs ts' →
      Body q block stop (b :: bs) (ts ++ ts')

def closeParen (ts : List Tk) : Prop := ∃ l, ts = [(rpar, l)]

/-- A problem may also (malformed) just stop. -/
def closeProblem (q : Bool) (ts : List Tk) : Prop := closeParen ts ∨ (q = true ∧ ∃ l, ts = [(.eof, l)])

/-! ### The model denoted by a file -/

/-- A non-empty list, or nothing. -/
def nonEmpty {α} : List α → Option (List α)
  | [] => none
  | l => some l

def DBlock.reqs : DBlock → List Req | .requirements rs => rs | _ => []
def DBlock.preds : DBlock → List Predicate | .predicates ps => ps | _ => []
def DBlock.funs : DBlock → List Predicate | .functions ps => ps | _ => []
def DBlock.tasks : DBlock → List Task | .task t => [t] | _ => []
def DBlock.methods : DBlock → List Method | .method m => [m] | _ => []
def DBlock.actions : DBlock → List Action | .action a => [a] | _ => []
def DBlock.typeSyms : DBlock → List Symbol | .types ss => ss | _ => []
def DBlock.constSyms : DBlock → List Symbol | .constants ss => ss | _ => []

/-- The domain with the given blocks: every kind of declaration accumulates in order. -/
def domainOf (name : Name) (bs : List DBlock) : DomainAST where
  name := name
  types := nonEmpty (bs.flatMap DBlock.typeSyms)
  constants := nonEmpty (bs.flatMap DBlock.constSyms)
  requirements := bs.flatMap DBlock.reqs
  predicates := bs.flatMap DBlock.preds
  tasks := bs.flatMap DBlock.tasks
  methods := bs.flatMap DBlock.methods
  actions := bs.flatMap DBlock.actions
  functions := bs.flatMap DBlock.funs

def PBlock.reqs : PBlock → List Req | .requirements rs => rs | _ => []
def PBlock.objs : PBlock → List Symbol | .objects ss => ss | _ => []
def PBlock.htn? : PBlock → Option InitTN | .htn tn => some tn | _ => none
def PBlock.goal? : PBlock → Option Formula | .goal f => some f | _ => none
def PBlock.init? : PBlock → Option (List Predicate) | .init ps => some ps | _ => none

/-- The problem with the given blocks: requirements and objects accumulate, otherwise the last block counts. -/
def problemOf (bs : List PBlock) : ProblemAST where
  requirements := bs.flatMap PBlock.reqs
  initTn := (bs.filterMap PBlock.htn?).getLast?
  initState := (bs.filterMap PBlock.init?).getLast?.getD []
  goal := (bs.filterMap PBlock.goal?).getLast?
  objects := bs.flatMap PBlock.objs

/-- The part of a file that determines the syntax tree. -/
inductive FileText (q : Bool) : AST → List Tk → Prop
  | domain {name bs ts l1 l2 l3 l4 l5 l6} : Body q (DBlockText q) closeParen bs ts →
      FileText q (.domain (domainOf name bs))
        ((lpar, l1) :: (.kw .define, l2) :: (lpar, l3) :: (.kw .domain, l4) :: (.ident name, l5) :: (rpar, l6) :: ts)
  | problem {name dname bs ts l1 l2 l3 l4 l5 l6 l7 l8 l9 l10} : Body q (PBlockText q) (closeProblem q) bs ts →
      FileText q (.problem (problemOf bs))
        ((lpar, l1) :: (.kw .define, l2) :: (lpar, l3) :: (.kw .problem, l4) :: (.ident name, l5) :: (rpar, l6) ::
          (lpar, l7) :: (.kw .domain, l8) :: (.ident dname, l9) :: (rpar, l10) :: ts)

end Verif.Spec
