import Verif.Model.Token

/-!
Iteration order of `HashMap` and `HashSet`.

`std` uses a randomly seeded hash function per container, so the order in which a container is iterated is arbitrary,
but it is the same for every iteration over the same unchanged container.  A run is therefore parameterised by
a `HashOrd`: for every container (identified by a `Site`) and size, some permutation of the positions.
-/

namespace Verif

/-- Identifies a hash container of a run. -/
abbrev Site := List Nat

/-- The iteration orders of one run. -/
structure HashOrd where
  order : Site → Nat → List Nat
  isPerm : ∀ s n, (order s n).Perm (List.range n)

/-- The elements of the container `l` (given in insertion order) in iteration order. -/
def arrange {α} (ord : HashOrd) (s : Site) (l : List α) : List α :=
  (ord.order s l.length).filterMap fun i => l[i]?

/-- Insertion order (used in examples). -/
def HashOrd.id : HashOrd := ⟨fun _ n => List.range n, fun _ _ => List.Perm.refl _⟩

/-- Reverse insertion order (used in examples). -/
def HashOrd.rev : HashOrd := ⟨fun _ n => (List.range n).reverse, fun _ _ => List.reverse_perm _⟩

end Verif
