import Batteries.Data.List.Basic
import Verif.Spec.Grammar
import Verif.Spec.Lexical

/-!
Consistent renaming of syntax trees and texts.  All lines are forgotten, so that trees of files with different layout can be
compared.
-/

namespace Verif.Spec

open Verif

variable (ρ : Name → Name)

def rnSymbol (s : Symbol) : Symbol := ⟨ρ s.name, 0, s.ty.map ρ, s.tyPos.map fun _ => 0⟩

def rnPredicate (p : Predicate) : Predicate := ⟨ρ p.name, 0, p.vars.map (rnSymbol ρ)⟩

mutual

def rnFormula : Formula → Formula
  | .empty => .empty
  | .atom p => .atom (rnPredicate ρ p)
  | .not f => .not (rnFormula f)
  | .and fs => .and (rnFormulas fs)
  | .or fs => .or (rnFormulas fs)
  | .xor fs => .xor (rnFormulas fs)
  | .imply ps qs => .imply (rnFormulas ps) (rnFormulas qs)
  | .exists_ vs f => .exists_ (vs.map (rnSymbol ρ)) (rnFormula f)
  | .forall_ vs f => .forall_ (vs.map (rnSymbol ρ)) (rnFormula f)
  | .weighted w f => .weighted w (rnFormula f)
  | .equals a b => .equals (ρ a) (ρ b)

def rnFormulas : List Formula → List Formula
  | [] => []
  | f :: fs => rnFormula f :: rnFormulas fs

end

def rnTask (t : Task) : Task := ⟨ρ t.name, 0, t.params.map (rnSymbol ρ)⟩

def rnAction (a : Action) : Action :=
  ⟨ρ a.name, 0, a.params.map (rnSymbol ρ), a.pre.map (rnFormula ρ), a.eff.map (rnFormula ρ)⟩

def rnSubtask (s : Subtask) : Subtask := ⟨s.id.map (rnSymbol ρ), rnSymbol ρ s.task, s.terms.map (rnSymbol ρ)⟩

def rnConstraint : Constraint → Constraint
  | .equal a b => .equal (ρ a) (ρ b)
  | .notEqual a b => .notEqual (ρ a) (ρ b)

def rnOrdering : Ordering → Ordering
  | .total => .total
  | .partial_ ps => .partial_ (ps.map (Prod.map ρ ρ))

def rnHtn (h : HTN) : HTN :=
  ⟨h.subtasks.map (rnSubtask ρ), h.orderingPos.map fun _ => 0, rnOrdering ρ h.orderings,
    h.constraints.map (List.map (rnConstraint ρ))⟩

def rnInitTn (i : InitTN) : InitTN := ⟨i.params.map (List.map (rnSymbol ρ)), rnHtn ρ i.tn⟩

def rnMethod (m : Method) : Method :=
  ⟨rnSymbol ρ m.name, rnSymbol ρ m.task, m.taskTerms.map (rnSymbol ρ), m.params.map (rnSymbol ρ),
    m.pre.map (rnFormula ρ), rnHtn ρ m.tn⟩

def rnDomain (d : DomainAST) : DomainAST where
  name := ρ d.name
  types := d.types.map (List.map (rnSymbol ρ))
  constants := d.constants.map (List.map (rnSymbol ρ))
  requirements := d.requirements
  predicates := d.predicates.map (rnPredicate ρ)
  tasks := d.tasks.map (rnTask ρ)
  methods := d.methods.map (rnMethod ρ)
  actions := d.actions.map (rnAction ρ)
  functions := d.functions.map (rnPredicate ρ)

def rnProblem (p : ProblemAST) : ProblemAST where
  requirements := p.requirements
  initTn := p.initTn.map (rnInitTn ρ)
  initState := p.initState.map (rnPredicate ρ)
  goal := p.goal.map (rnFormula ρ)
  objects := p.objects.map (rnSymbol ρ)

def rnAST : AST → AST
  | .domain d => .domain (rnDomain ρ d)
  | .problem p => .problem (rnProblem ρ p)

def rnDBlock : DBlock → DBlock
  | .predicates ps => .predicates (ps.map (rnPredicate ρ))
  | .functions ps => .functions (ps.map (rnPredicate ρ))
  | .task t => .task (rnTask ρ t)
  | .method m => .method (rnMethod ρ m)
  | .action a => .action (rnAction ρ a)
  | .requirements rs => .requirements rs
  | .types ss => .types (ss.map (rnSymbol ρ))
  | .constants ss => .constants (ss.map (rnSymbol ρ))

def rnPBlock : PBlock → PBlock
  | .requirements rs => .requirements rs
  | .objects ss => .objects (ss.map (rnSymbol ρ))
  | .htn tn => .htn (rnInitTn ρ tn)
  | .goal f => .goal (rnFormula ρ f)
  | .init ps => .init (ps.map (rnPredicate ρ))

/-- Renaming of a token: names are renamed, other tokens are kept. -/
def rnToken : Token → Token
  | .ident x => .ident (ρ x)
  | t => t

/-- The second text is the first one with names renamed; the lines may differ. -/
def Renamed (ts ts' : List Tk) : Prop := List.Forall₂ (fun t t' => t'.1 = rnToken ρ t.1) ts ts'

/-- Two files are the same text up to layout, spelling of keywords, and a renaming. -/
def SameText (f f' : Bytes) : Prop := ∃ ts ts', Written ts 1 f ∧ Written ts' 1 f' ∧ Renamed ρ ts ts'

end Verif.Spec
