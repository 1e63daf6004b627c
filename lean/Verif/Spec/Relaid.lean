import Verif.Model.DomainAnalyzer
import Verif.Spec.Renaming

/-!
Answers and syntax trees with other lines and other names, and files that differ in their layout.
-/

namespace Verif.Spec

open Verif

/-! ### Syntax trees -/

section Trees

variable (ρ : Name → Name) (φ : Nat → Nat)

def mvSymbol (s : Symbol) : Symbol := ⟨ρ s.name, φ s.pos, s.ty.map ρ, s.tyPos.map φ⟩

def mvPredicate (p : Predicate) : Predicate := ⟨ρ p.name, φ p.pos, p.vars.map (mvSymbol ρ φ)⟩

mutual

def mvFormula : Formula → Formula
  | .empty => .empty
  | .atom p => .atom (mvPredicate ρ φ p)
  | .not f => .not (mvFormula f)
  | .and fs => .and (mvFormulas fs)
  | .or fs => .or (mvFormulas fs)
  | .xor fs => .xor (mvFormulas fs)
  | .imply ps qs => .imply (mvFormulas ps) (mvFormulas qs)
  | .exists_ vs f => .exists_ (vs.map (mvSymbol ρ φ)) (mvFormula f)
  | .forall_ vs f => .forall_ (vs.map (mvSymbol ρ φ)) (mvFormula f)
  | .weighted w f => .weighted w (mvFormula f)
  | .equals a b => .equals (ρ a) (ρ b)

def mvFormulas : List Formula → List Formula
  | [] => []
  | f :: fs => mvFormula f :: mvFormulas fs

end

def mvTask (t : Task) : Task := ⟨ρ t.name, φ t.pos, t.params.map (mvSymbol ρ φ)⟩

def mvAction (a : Action) : Action :=
  ⟨ρ a.name, φ a.pos, a.params.map (mvSymbol ρ φ), a.pre.map (mvFormula ρ φ), a.eff.map (mvFormula ρ φ)⟩

def mvSubtask (s : Subtask) : Subtask :=
  ⟨s.id.map (mvSymbol ρ φ), mvSymbol ρ φ s.task, s.terms.map (mvSymbol ρ φ)⟩

def mvHtn (h : HTN) : HTN :=
  ⟨h.subtasks.map (mvSubtask ρ φ), h.orderingPos.map φ, rnOrdering ρ h.orderings,
    h.constraints.map (List.map (rnConstraint ρ))⟩

def mvInitTn (i : InitTN) : InitTN := ⟨i.params.map (List.map (mvSymbol ρ φ)), mvHtn ρ φ i.tn⟩

def mvMethod (m : Method) : Method :=
  ⟨mvSymbol ρ φ m.name, mvSymbol ρ φ m.task, m.taskTerms.map (mvSymbol ρ φ), m.params.map (mvSymbol ρ φ),
    m.pre.map (mvFormula ρ φ), mvHtn ρ φ m.tn⟩

/-- The domain with every name `x` replaced by `ρ x` and every line `l` by `φ l`. -/
def mvDomain (d : DomainAST) : DomainAST where
  name := ρ d.name
  types := d.types.map (List.map (mvSymbol ρ φ))
  constants := d.constants.map (List.map (mvSymbol ρ φ))
  requirements := d.requirements
  predicates := d.predicates.map (mvPredicate ρ φ)
  tasks := d.tasks.map (mvTask ρ φ)
  methods := d.methods.map (mvMethod ρ φ)
  actions := d.actions.map (mvAction ρ φ)
  functions := d.functions.map (mvPredicate ρ φ)

def mvProblem (p : ProblemAST) : ProblemAST where
  requirements := p.requirements
  initTn := p.initTn.map (mvInitTn ρ φ)
  initState := p.initState.map (mvPredicate ρ φ)
  goal := p.goal.map (mvFormula ρ φ)
  objects := p.objects.map (mvSymbol ρ φ)

def mvAST : AST → AST
  | .domain d => .domain (mvDomain ρ φ d)
  | .problem p => .problem (mvProblem ρ φ p)

/-! ### Answers -/

def mvDup (e : DupErr) : DupErr := ⟨ρ e.symbol, φ e.first, φ e.second⟩

def mvUndef (e : UndefErr) : UndefErr := ⟨ρ e.symbol, φ e.pos⟩

def mvArity (e : ArityErr) : ArityErr := ⟨ρ e.symbol, e.expected, e.found, φ e.pos⟩

def mvType (e : TypeErr) : TypeErr := ⟨e.expected.map ρ, e.found.map ρ, ρ e.var, φ e.pos⟩

/-- The semantic error with names and lines replaced. -/
def mvSemErr : SemErr → SemErr
  | .dupObject e => .dupObject (mvDup ρ φ e)
  | .dupRequirement r => .dupRequirement r
  | .dupPredicate e => .dupPredicate (mvDup ρ φ e)
  | .dupAction e => .dupAction (mvDup ρ φ e)
  | .dupTask e => .dupTask (mvDup ρ φ e)
  | .dupMethod e => .dupMethod (mvDup ρ φ e)
  | .dupParameter e => .dupParameter (mvDup ρ φ e)
  | .undefPredicate e => .undefPredicate (mvUndef ρ φ e)
  | .undefType e => .undefType (mvUndef ρ φ e)
  | .undefSubtask e => .undefSubtask (mvUndef ρ φ e)
  | .undefTask e => .undefTask (mvUndef ρ φ e)
  | .undefParameter e => .undefParameter (mvUndef ρ φ e)
  | .undefObject e => .undefObject (mvUndef ρ φ e)
  | .predArity e => .predArity (mvArity ρ φ e)
  | .taskArity e => .taskArity (mvArity ρ φ e)
  | .predArgType e => .predArgType (mvType ρ φ e)
  | .taskArgType e => .taskArgType (mvType ρ φ e)
  | .cyclicType => .cyclicType
  | .cyclicOrdering l => .cyclicOrdering (φ l)

/-- The error with names and lines replaced; the text of an unreadable word is kept. -/
def mvErr : PErr → PErr
  | .lexical e => .lexical ⟨e.kind, e.lexeme, φ e.pos⟩
  | .syntactic e => .syntactic ⟨e.expected, rnToken ρ e.found, φ e.pos⟩
  | .semantic e => .semantic (mvSemErr ρ φ e)

def mvWarning (w : Warning) : Warning := ⟨ρ w.symbol, φ w.pos⟩

end Trees

/-! ### The lines of an answer -/

def SemErr.lines : SemErr → List Nat
  | .dupObject e | .dupPredicate e | .dupAction e | .dupTask e | .dupMethod e | .dupParameter e => [e.first, e.second]
  | .undefPredicate e | .undefType e | .undefSubtask e | .undefTask e | .undefParameter e | .undefObject e => [e.pos]
  | .predArity e | .taskArity e => [e.pos]
  | .predArgType e | .taskArgType e => [e.pos]
  | .dupRequirement _ | .cyclicType => []
  | .cyclicOrdering l => [l]

def PErr.lines : PErr → List Nat
  | .lexical e => [e.pos]
  | .syntactic e => [e.pos]
  | .semantic e => SemErr.lines e

/-- Same answers up to renaming, with corresponding lines: `Λ` relates the lines of warnings and `Μ` the lines of errors. -/
inductive SameAnswer (ρ : Name → Name) (Λ Μ : Nat → Nat → Prop) : R (List Warning) → R (List Warning) → Prop
  | ok {ws ws'} : List.Forall₂ (fun w w' => w'.symbol = ρ w.symbol ∧ Λ w.pos w'.pos) ws ws' →
      SameAnswer ρ Λ Μ (.ok ws) (.ok ws')
  | err {e e'} : mvErr id (fun _ => 0) e' = mvErr ρ (fun _ => 0) e → List.Forall₂ Μ (PErr.lines e) (PErr.lines e') →
      SameAnswer ρ Λ Μ (.err e) (.err e')
  | panic {x} : SameAnswer ρ Λ Μ (.panic x) (.panic x)

/-! ### Files -/

/-- Token texts with the same tokens up to renaming, with corresponding lines. -/
def Laid (ρ : Name → Name) (Λ : Nat → Nat → Prop) (ts ts' : List Tk) : Prop :=
  List.Forall₂ (fun t t' => t'.1 = rnToken ρ t.1 ∧ Λ t.2 t'.2) ts ts'

/-- `Relaid ρ Λ n n' r r'`: from line `n` of one file and line `n'` of the other, the files consist of the same tokens, up to
the renaming, with other layout and other spellings of the tokens.  If nothing is renamed, the files need only consist of
tokens up to a place from which on they agree byte by byte; nothing is said about the bytes from there.  `Λ` relates the
lines. -/
inductive Relaid (ρ : Name → Name) (Λ : Nat → Nat → Prop) : Nat → Nat → Bytes → Bytes → Prop
  | done {n n' lay lay'} : Layout lay → Layout lay' → Λ (n + newlines lay) (n' + newlines lay') → Relaid ρ Λ n n' lay lay'
  | same {n n' lay lay' r} : (∀ x, ρ x = x) → Layout lay → Layout lay' →
      (∀ k, k ≤ newlines r → Λ (n + newlines lay + k) (n' + newlines lay' + k)) →
      Relaid ρ Λ n n' (lay ++ r) (lay' ++ r)
  | token {n n' lay lay' t w w' r r'} : Layout lay → Layout lay' → Spells t w → Spells (rnToken ρ t) w' →
      Follows t r → Follows t r' → Λ (n + newlines lay) (n' + newlines lay') →
      Relaid ρ Λ (n + newlines lay) (n' + newlines lay') r r' → Relaid ρ Λ n n' (lay ++ (w ++ r)) (lay' ++ (w' ++ r'))

end Verif.Spec
