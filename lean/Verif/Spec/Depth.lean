import Verif.Spec.Grammar

/-! Specification of nesting: of formulas, and of the parentheses of a text. -/

namespace Verif.Spec

open Verif

mutual

/-- How deeply operands are nested in a formula.  (A formula without operands has height 0.) -/
def height : Formula → Nat
  | .empty => 0
  | .atom _ => 0
  | .equals _ _ => 0
  | .not f => height f + 1
  | .and fs => heightOver fs
  | .or fs => heightOver fs
  | .xor fs => heightOver fs
  | .imply ps qs => max (heightOver ps) (heightOver qs)
  | .exists_ _ f => height f + 1
  | .forall_ _ f => height f + 1
  | .weighted _ f => height f

/-- The height of a formula with these operands. -/
def heightOver : List Formula → Nat
  | [] => 0
  | f :: fs => max (height f + 1) (heightOver fs)

end

/-- The formulas of a domain or problem. -/
def formulasOf : AST → List Formula
  | .domain d => d.actions.flatMap (fun a => a.pre.toList ++ a.eff.toList) ++ d.methods.flatMap fun m => m.pre.toList
  | .problem p => p.goal.toList

/-- How many parentheses are open at the same time in a text, if `c` are open before it. -/
def nesting (c : Nat) : List Tk → Nat
  | [] => c
  | (t, _) :: ts => if t = lpar then nesting (c + 1) ts else if t = rpar then max c (nesting (c - 1) ts) else nesting c ts

end Verif.Spec
