import Verif.Model.Api
import Verif.Spec.Renaming

/-! Consistent renaming of metadata. -/

namespace Verif.Spec

open Verif

/-- The renaming keeps whether the label of a subtask occurs in a label that follows one. -/
def KeepsLabels (ρ : Name → Name) (h : HTN) : Prop := ∀ os, h.orderings = .partial_ os →
  ∀ s ∈ h.subtasks, ∀ i, s.id = some i → ∀ e ∈ os, (ρ i.name <:+: ρ e.2 ↔ i.name <:+: e.2)

/-- A step of a cycle (task and method) with names renamed. -/
def rnPair (ρ : Name → Name) : Name × Name → Name × Name := Prod.map ρ ρ

/-- The class of a renamed domain. -/
def rnRec (ρ : Name → Name) : RecType → RecType
  | .nonRecursive => .nonRecursive
  | .recursive c => .recursive (c.map (rnPair ρ))
  | .empty c => .empty (c.map (rnPair ρ))
  | .growingEmptyPrefix c => .growingEmptyPrefix (c.map (rnPair ρ))
  | .growAndShrink c => .growAndShrink (c.map (rnPair ρ))

/-- Metadata with names renamed. -/
def rnMeta (ρ : Name → Name) (md : MetaData) : MetaData :=
  { md with recursion := rnRec ρ md.recursion, nullables := md.nullables.map ρ }

end Verif.Spec
