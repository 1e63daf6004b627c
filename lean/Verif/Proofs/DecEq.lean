import Verif.Model.AST

/-! Syntax trees have decidable equality.  Used only for concrete files. -/

namespace Verif

mutual

/-- Equality test of formulas. -/
def Formula.eqb : Formula → Formula → Bool
  | .empty, .empty => true
  | .atom p, .atom q => decide (p = q)
  | .not f, .not g => Formula.eqb f g
  | .and f, .and g => Formula.eqbList f g
  | .or f, .or g => Formula.eqbList f g
  | .xor f, .xor g => Formula.eqbList f g
  | .imply f f', .imply g g' => Formula.eqbList f g && Formula.eqbList f' g'
  | .exists_ v f, .exists_ w g => decide (v = w) && Formula.eqb f g
  | .forall_ v f, .forall_ w g => decide (v = w) && Formula.eqb f g
  | .weighted v f, .weighted w g => decide (v = w) && Formula.eqb f g
  | .equals x y, .equals z w => decide (x = z) && decide (y = w)
  | _, _ => false

def Formula.eqbList : List Formula → List Formula → Bool
  | [], [] => true
  | f :: fs, g :: gs => Formula.eqb f g && Formula.eqbList fs gs
  | _, _ => false

end

mutual

theorem Formula.eqb_iff : (a b : Formula) → (a.eqb b = true ↔ a = b)
  | .empty, b => by cases b <;> simp [Formula.eqb]
  | .atom p, b => by cases b <;> simp [Formula.eqb]
  | .not f, b => by cases b <;> simp [Formula.eqb, Formula.eqb_iff f]
  | .and f, b => by cases b <;> simp [Formula.eqb, Formula.eqbList_iff f]
  | .or f, b => by cases b <;> simp [Formula.eqb, Formula.eqbList_iff f]
  | .xor f, b => by cases b <;> simp [Formula.eqb, Formula.eqbList_iff f]
  | .imply f f', b => by cases b <;> simp [Formula.eqb, Formula.eqbList_iff f, Formula.eqbList_iff f']
  | .exists_ _ f, b => by cases b <;> simp [Formula.eqb, Formula.eqb_iff f]
  | .forall_ _ f, b => by cases b <;> simp [Formula.eqb, Formula.eqb_iff f]
  | .weighted _ f, b => by cases b <;> simp [Formula.eqb, Formula.eqb_iff f]
  | .equals _ _, b => by cases b <;> simp [Formula.eqb]

theorem Formula.eqbList_iff : (a b : List Formula) → (Formula.eqbList a b = true ↔ a = b)
  | [], b => by cases b <;> simp [Formula.eqbList]
  | f :: fs, b => by cases b <;> simp [Formula.eqbList, Formula.eqb_iff f, Formula.eqbList_iff fs]

end

instance : DecidableEq Formula := fun a b => decidable_of_iff _ (Formula.eqb_iff a b)

deriving instance DecidableEq for Action
deriving instance DecidableEq for Method
deriving instance DecidableEq for DomainAST
deriving instance DecidableEq for ProblemAST
deriving instance DecidableEq for AST

end Verif
