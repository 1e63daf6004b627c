import Verif.Spec.WellFormed

/-! Domains and problems from which unused declarations were removed. -/

namespace Verif.Spec

open Verif

/-- The first list is the second one without some of the elements with the property. -/
inductive Drops {α : Type} (P : α → Prop) : List α → List α → Prop
  | nil : Drops P [] []
  | keep {x l l'} : Drops P l l' → Drops P (x :: l) (x :: l')
  | drop {x l l'} : P x → Drops P l l' → Drops P l (x :: l')

/-! ### What a domain uses -/

/-- The type is given to a parameter or constant or is the parent of a type. -/
def UsesType (d : DomainAST) (t : Name) : Prop :=
  (∃ s ∈ typesOf d, s.ty = some t) ∨ (∃ s ∈ constantsOf d, s.ty = some t) ∨ ∃ l, ParamsOf d l ∧ ∃ s ∈ l, s.ty = some t

/-- The name is an argument of an atom or task. -/
inductive UsesName (d : DomainAST) : Name → Prop
  | atom {l f p v} : FormulaOf d l f → Occurs p f → v ∈ p.vars → UsesName d v.name
  | task {m v} : m ∈ d.methods → v ∈ m.taskTerms → UsesName d v.name
  | subtask {m s v} : m ∈ d.methods → s ∈ m.tn.subtasks → v ∈ s.terms → UsesName d v.name

/-- The name is the predicate of an atom. -/
def UsesPredicate (d : DomainAST) (x : Name) : Prop := ∃ l f p, FormulaOf d l f ∧ Occurs p f ∧ p.name = x

/-- The name is the task of a subtask. -/
def UsesSubtask (d : DomainAST) (x : Name) : Prop := ∃ m ∈ d.methods, ∃ s ∈ m.tn.subtasks, s.task.name = x

/-- The name is the task of a method. -/
def HasMethod (d : DomainAST) (x : Name) : Prop := ∃ m ∈ d.methods, m.task.name = x

/-- `d` is `d'` without some declarations that `d` does not use.  A type that is used stays known. -/
structure Pruned (d d' : DomainAST) : Prop where
  requirements : d.requirements.Sublist d'.requirements
  types : Drops (fun t => ¬ UsesType d t.name ∧ ∀ u, t.ty = some u → UsesType d u → TypeKnown (typesOf d) u) (typesOf d) (typesOf d')
  constants : Drops (fun c => ¬ UsesName d c.name) (constantsOf d) (constantsOf d')
  predicates : Drops (fun p => ¬ UsesPredicate d p.name) d.predicates d'.predicates
  tasks : Drops (fun t => ¬ UsesSubtask d t.name ∧ ¬ HasMethod d t.name) d.tasks d'.tasks
  actions : Drops (fun a => ¬ UsesSubtask d a.name) d.actions d'.actions
  methods : d.methods.Sublist d'.methods

/-! ### What a problem uses -/

/-- The type is given to an object or a parameter of the initial task network. -/
def UsesTypeP (p : ProblemAST) (t : Name) : Prop :=
  (∃ s ∈ p.objects, s.ty = some t) ∨ ∃ h, p.initTn = some h ∧ ∃ s ∈ h.params.getD [], s.ty = some t

/-- The atom is in the initial state or in the goal. -/
def AtomP (p : ProblemAST) (a : Predicate) : Prop := a ∈ p.initState ∨ ∃ f, p.goal = some f ∧ OccursFree a f

/-- The subtask is in the initial task network. -/
def SubtaskP (p : ProblemAST) (s : Subtask) : Prop := ∃ h, p.initTn = some h ∧ s ∈ h.tn.subtasks

/-- The name is an argument of an atom or subtask. -/
def UsesNameP (p : ProblemAST) (x : Name) : Prop :=
  (∃ a, AtomP p a ∧ ∃ v ∈ a.vars, v.name = x) ∨ ∃ s, SubtaskP p s ∧ ∃ v ∈ s.terms, v.name = x

/-- The declaration in the domain is not used by the problem. -/
structure UnusedBy (p : ProblemAST) (d d' : DomainAST) : Prop where
  types : Drops (fun t => ¬ UsesTypeP p t.name ∧ ∀ u, t.ty = some u → UsesTypeP p u → TypeKnown (typesOf d) u) (typesOf d) (typesOf d')
  constants : Drops (fun c => ¬ UsesNameP p c.name) (constantsOf d) (constantsOf d')
  predicates : Drops (fun q => ∀ a, AtomP p a → a.name ≠ q.name) d.predicates d'.predicates
  tasks : Drops (fun t => ∀ s, SubtaskP p s → s.task.name ≠ t.name) d.tasks d'.tasks
  actions : Drops (fun a => ∀ s, SubtaskP p s → s.task.name ≠ a.name) d.actions d'.actions

/-- `p` is `p'` without some facts, objects that `p` does not use, the goal or the initial task network. -/
structure PrunedP (p p' : ProblemAST) : Prop where
  objects : Drops (fun o => ¬ UsesNameP p o.name) p.objects p'.objects
  init : ∀ a ∈ p.initState, a ∈ p'.initState
  goal : p.goal = none ∨ p.goal = p'.goal
  htn : p.initTn = none ∨ p.initTn = p'.initTn

end Verif.Spec
