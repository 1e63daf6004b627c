import Verif.Spec.Renaming
import Verif.Spec.WellFormed

/-! The parts of a problem, each with all objects but nothing else.  Nothing here mentions the analyser. -/

namespace Verif.Spec

open Verif

/-- The objects of a problem alone. -/
def objectsOnly (p : ProblemAST) : ProblemAST := { p with initState := [], initTn := none, goal := none }

/-- The objects of a problem with one fact, one atom of the goal, the initial network without subtasks, the initial network with one of
the subtasks, or nothing else. -/
inductive Slice (p : ProblemAST) : ProblemAST → Prop
  | objects : Slice p (objectsOnly p)
  | fact {a} : a ∈ p.initState → Slice p { objectsOnly p with initState := [a] }
  | goal {f a} : p.goal = some f → OccursFree a f → Slice p { objectsOnly p with goal := some (.atom a) }
  | network {h} : p.initTn = some h → Slice p { objectsOnly p with initTn := some ⟨h.params, { h.tn with subtasks := [] }⟩ }
  | subtask {h s} : p.initTn = some h → s ∈ h.tn.subtasks →
      Slice p { objectsOnly p with initTn := some ⟨h.params, { h.tn with subtasks := [s] }⟩ }

/-! ### Repairing a problem -/

/-- A subtask of the initial task network calls a declared task with fitting arguments. -/
def SubtaskOk (d : DomainAST) (p : ProblemAST) (params : List Symbol) (s : Subtask) : Prop :=
  ∃ ps, Callee d s.task.name ps ∧ ArgsFit (typesOf d) [p.objects, params, constantsOf d] s.terms ps

/-- All atoms of the goal outside quantifiers are in order. -/
def GoalOk (d : DomainAST) (p : ProblemAST) (g : Option Formula) : Prop := ∀ f, g = some f → ∀ a, OccursFree a f → FactOk d p a

/-- Everything about a problem but facts, goal and subtasks. -/
structure HeaderOkP (d : DomainAST) (p : ProblemAST) : Prop where
  objectTypes : TypesKnown (typesOf d) p.objects
  objects : (p.objects.map (·.name)).Nodup
  ordering : ∀ h, p.initTn = some h → Acyclic (Before h.tn)

open Classical in
/-- The number of faulty facts and subtasks, and one for a faulty goal. -/
noncomputable def faultsP (d : DomainAST) (p : ProblemAST) : Nat :=
  p.initState.countP (fun a => ¬ FactOk d p a) +
    (p.initTn.elim 0 fun h => h.tn.subtasks.countP (fun s => ¬ SubtaskOk d p (h.params.getD []) s)) +
    if GoalOk d p p.goal then 0 else 1

/-- One faulty fact, subtask or goal is replaced by a correct one. -/
inductive RepairP (d : DomainAST) (p : ProblemAST) : ProblemAST → Prop
  | fact {as a a' bs} : p.initState = as ++ a :: bs → ¬ FactOk d p a → FactOk d p a' →
      RepairP d p { p with initState := as ++ a' :: bs }
  | subtask {h as s s' bs} : p.initTn = some h → h.tn.subtasks = as ++ s :: bs → ¬ SubtaskOk d p (h.params.getD []) s →
      SubtaskOk d p (h.params.getD []) s' → RepairP d p { p with initTn := some ⟨h.params, { h.tn with subtasks := as ++ s' :: bs }⟩ }
  | goal {g} : ¬ GoalOk d p p.goal → GoalOk d p g → RepairP d p { p with goal := g }

/-- `n` repairs. -/
inductive RepairsP (d : DomainAST) (p : ProblemAST) : Nat → ProblemAST → Prop
  | none : RepairsP d p 0 p
  | more {n q q'} : RepairsP d p n q → RepairP d q q' → RepairsP d p (n + 1) q'

end Verif.Spec
