import Verif.Spec.Growth
import Verif.Spec.Clash

/-! Domains that consist of parts with different compound tasks. -/

namespace Verif.Spec

open Verif

/-- The name of a compound task or of an action. -/
def Declared (d : DomainAST) (x : Name) : Prop := (∃ t ∈ d.tasks, t.name = x) ∨ ActionName d x

/-- `u` has all declarations of `d`, and no other methods for the tasks of `d`.  No other action has the name of a task of `d`
and no other task has the name of an action of `d`. -/
structure PartOf (d u : DomainAST) : Prop where
  whole : Extends d u
  methods : ∀ m ∈ u.methods, (∃ t ∈ d.tasks, t.name = m.task.name) → m ∈ d.methods
  fresh : ∀ t ∈ u.tasks, t ∉ d.tasks → ∀ a ∈ d.actions, t.name ≠ a.name

/-- `u` consists of the parts `d` and `e`, which may have types, constants, predicates and actions in common. -/
structure Merged (d e u : DomainAST) : Prop where
  left : PartOf d u
  right : PartOf e u
  types : ∀ x ∈ typesOf u, x ∈ typesOf d ∨ x ∈ typesOf e
  predicates : ∀ x ∈ u.predicates, x ∈ d.predicates ∨ x ∈ e.predicates
  tasks : ∀ x ∈ u.tasks, x ∈ d.tasks ∨ x ∈ e.tasks
  actions : ∀ x ∈ u.actions, x ∈ d.actions ∨ x ∈ e.actions
  methods : ∀ x ∈ u.methods, x ∈ d.methods ∨ x ∈ e.methods

/-- What remains to be checked about a domain that consists of two well-formed parts. -/
structure Compatible (u : DomainAST) : Prop where
  requirements : u.requirements.Nodup
  types : Acyclic (DirectSub (typesOf u))
  predicates : (u.predicates.map (·.name)).Nodup
  tasks : (u.tasks.map (·.name)).Nodup
  actions : (u.actions.map (·.name)).Nodup
  methods : (u.methods.map (·.name.name)).Nodup

end Verif.Spec
