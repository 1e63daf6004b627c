import Verif.Spec.Grammar
import Verif.Spec.Lexical

/-!
Well-formed files, in which every block is closed, and the names recorded in a syntax tree.  Independent of the parser.
-/

namespace Verif.Spec

open Verif

/-! ### Well-formed files -/

/-- A sequence of blocks, each with its closing parenthesis.  The endings tell for which blocks the closing parenthesis
is not part of the text given by `block`. -/
inductive Closed {β : Type} (block : β → List Tk → Ending → Prop) : List (β × Ending) → List Tk → Prop
  | nil : Closed block [] []
  | closed {b bs ts ts'} : block b ts .closed → Closed block bs ts' → Closed block ((b, .closed) :: bs) (ts ++ ts')
  | other {b bs e ts l ts'} : block b ts e → e ≠ .closed → Closed block bs ts' →
      Closed block ((b, e) :: bs) (ts ++ (rpar, l) :: ts')

/-- A well-formed domain file: header, blocks, closing parenthesis. -/
inductive DomainFile : Name → List (DBlock × Ending) → List Tk → Prop
  | mk {name bs ts l1 l2 l3 l4 l5 l6 l7} : Closed (DBlockText false) bs ts → DomainFile name bs
      ((lpar, l1) :: (.kw .define, l2) :: (lpar, l3) :: (.kw .domain, l4) :: (.ident name, l5) :: (rpar, l6) ::
        (ts ++ [(rpar, l7)]))

/-- A well-formed problem file. -/
inductive ProblemFile : List (PBlock × Ending) → List Tk → Prop
  | mk {name dname bs ts l1 l2 l3 l4 l5 l6 l7 l8 l9 l10 l11} : Closed (PBlockText false) bs ts → ProblemFile bs
      ((lpar, l1) :: (.kw .define, l2) :: (lpar, l3) :: (.kw .problem, l4) :: (.ident name, l5) :: (rpar, l6) ::
        (lpar, l7) :: (.kw .domain, l8) :: (.ident dname, l9) :: (rpar, l10) :: (ts ++ [(rpar, l11)]))

/-- The blocks up to and including the first one whose text does not include its closing parenthesis. -/
def firstBlocks {β : Type} : List (β × Ending) → List β
  | [] => []
  | (b, .closed) :: bs => b :: firstBlocks bs
  | (b, _) :: _ => [b]

/-- All blocks except possibly the last one are closed. -/
def LastOnly {β : Type} (bs : List (β × Ending)) : Prop := ∀ x ∈ bs.dropLast, x.2 = .closed

/-! ### Names recorded in a syntax tree, with their lines -/

/-- A name and, if present, its type. -/
def symbolNames (s : Symbol) : List (Name × Nat) :=
  (s.name, s.pos) :: (match s.ty, s.tyPos with | some t, some l => [(t, l)] | _, _ => [])

def predNames (p : Predicate) : List (Name × Nat) := (p.name, p.pos) :: p.vars.flatMap symbolNames

def formulaNames : Formula → List (Name × Nat)
  | .empty => []
  | .atom p => predNames p
  | .not f => formulaNames f
  | .and fs | .or fs | .xor fs => fs.flatMap formulaNames
  | .imply ps qs => ps.flatMap formulaNames ++ qs.flatMap formulaNames
  | .exists_ vs f | .forall_ vs f => vs.flatMap symbolNames ++ formulaNames f
  | .weighted _ f => formulaNames f
  | .equals _ _ => []

def optNames : Option Formula → List (Name × Nat)
  | none => []
  | some f => formulaNames f

def taskNames (t : Task) : List (Name × Nat) := (t.name, t.pos) :: t.params.flatMap symbolNames

def actionNames (a : Action) : List (Name × Nat) :=
  (a.name, a.pos) :: (a.params.flatMap symbolNames ++ optNames a.pre ++ optNames a.eff)

def subtaskNames (t : Subtask) : List (Name × Nat) :=
  (match t.id with | some i => symbolNames i | none => []) ++ symbolNames t.task ++ t.terms.flatMap symbolNames

def htnNames (tn : HTN) : List (Name × Nat) := tn.subtasks.flatMap subtaskNames

def methodNames (m : Method) : List (Name × Nat) :=
  symbolNames m.name ++ symbolNames m.task ++ m.taskTerms.flatMap symbolNames ++ m.params.flatMap symbolNames ++
    optNames m.pre ++ htnNames m.tn

def domainNames (d : DomainAST) : List (Name × Nat) :=
  (d.types.getD []).flatMap symbolNames ++ (d.constants.getD []).flatMap symbolNames ++
    d.predicates.flatMap predNames ++ d.tasks.flatMap taskNames ++ d.methods.flatMap methodNames ++
    d.actions.flatMap actionNames ++ d.functions.flatMap predNames

def problemNames (p : ProblemAST) : List (Name × Nat) :=
  p.objects.flatMap symbolNames ++ p.initState.flatMap predNames ++ optNames p.goal ++
    (match p.initTn with | none => [] | some i => (i.params.getD []).flatMap symbolNames ++ htnNames i.tn)

/-- All names recorded with a line in a syntax tree. -/
def astNames : AST → List (Name × Nat)
  | .domain d => domainNames d
  | .problem p => problemNames p

/-- The lines recorded for `:ordering` blocks. -/
def orderingLines : AST → List Nat
  | .domain d => d.methods.filterMap fun m => m.tn.orderingPos
  | .problem p => (p.initTn.bind fun i => i.tn.orderingPos).toList

/-- The name `x` is written in the file on line `l`, as `x` or `?x`, up to the next blank or parenthesis. -/
def WrittenAt (file : Bytes) (x : Name) (l : Nat) : Prop :=
  ∃ pre w c post, file = pre ++ (w ++ c :: post) ∧ (w = x ∨ w = 63 :: x) ∧ (∀ c ∈ x, ¬ Delim c) ∧ Delim c ∧
    l = 1 + newlines pre

end Verif.Spec
