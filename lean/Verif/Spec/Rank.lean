import Verif.Spec.Recursion

/-! The classes of recursion, ordered by how much recursion there is. -/

namespace Verif.Spec

/-- The place of a class: a domain is in the highest class that one of its cycles shows. -/
def Class.rank : Class → Nat
  | .none => 0
  | .plain => 1
  | .growingEmptyPrefix => 2
  | .empty => 3
  | .growAndShrink => 4

end Verif.Spec
