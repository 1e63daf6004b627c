import Verif.Spec.WellFormed

/-!
Splitting a method: some of its subtasks are moved to a method of a new task, as planners do that want short methods.
-/

namespace Verif.Spec

open Verif

/-- A name without a type, as an argument. -/
def argument (x : Name) : Symbol := ⟨x, 0, none, none⟩

/-- The subtask that calls the new task `t`, with all parameters of the method. -/
def callRest (t : Name) (params : List Symbol) : Subtask := ⟨none, argument t, params.map fun s => argument s.name⟩

/-- What stays: the subtasks `b` between `a` and `c` are replaced by the new task. -/
def frontMethod (m : Method) (t : Name) (a c : List Subtask) : Method :=
  { m with tn := { m.tn with subtasks := a ++ callRest t m.params :: c } }

/-- The method `x` for the new task `t`, with the subtasks `b`. -/
def restMethod (m : Method) (t x : Name) (b : List Subtask) : Method :=
  ⟨argument x, argument t, m.params.map fun s => argument s.name, m.params, none, ⟨b, none, .total, none⟩⟩

/-- Nothing in the domain is called `t`. -/
structure NewTask (d : DomainAST) (t : Name) : Prop where
  tasks : ∀ u ∈ d.tasks, u.name ≠ t
  actions : ∀ a ∈ d.actions, a.name ≠ t
  methods : ∀ m ∈ d.methods, m.task.name ≠ t ∧ ∀ s ∈ m.tn.subtasks, s.task.name ≠ t

/-- `d'` is `d` with the totally ordered method `m` split: some consecutive subtasks are moved to the method `x` of the new task `t`. -/
def SplitMethod (d : DomainAST) (m : Method) (t x : Name) (d' : DomainAST) : Prop :=
  ∃ ms₁ ms₂ ts₁ ts₂ a b c, d.methods = ms₁ ++ m :: ms₂ ∧ d.tasks = ts₁ ++ ts₂ ∧ m.tn.subtasks = a ++ b ++ c ∧
    m.tn.orderings = .total ∧ NewTask d t ∧ (∀ n ∈ d.methods, n.name.name ≠ x) ∧
    d' = { d with tasks := ts₁ ++ ⟨t, 0, m.params⟩ :: ts₂, methods := ms₁ ++ frontMethod m t a c :: restMethod m t x b :: ms₂ }

end Verif.Spec
