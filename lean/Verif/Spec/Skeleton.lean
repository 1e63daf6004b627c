import Verif.Model.AST

/-!
What is left of a domain if everything but the names of tasks, actions and methods, the subtasks of the methods and their
orderings is removed.
-/

namespace Verif.Spec

open Verif

/-- Only the name. -/
def nameOnly (s : Symbol) : Symbol := ⟨s.name, 0, none, none⟩

/-- A subtask without its arguments, with or without its label. -/
def subtaskOnly (label : Bool) (s : Subtask) : Subtask :=
  ⟨if label then s.id.map nameOnly else none, nameOnly s.task, []⟩

/-- A task network without arguments and constraints; labels only matter for ordering constraints. -/
def orderOnly (h : HTN) : HTN :=
  match h.orderings with
  | .total => ⟨h.subtasks.map (subtaskOnly false), none, .total, none⟩
  | .partial_ os => ⟨h.subtasks.map (subtaskOnly true), if os = [] then none else some 0, .partial_ os, none⟩

def methodOnly (m : Method) : Method := ⟨nameOnly m.name, nameOnly m.task, [], [], none, orderOnly m.tn⟩

/-- The skeleton of a domain: no types, constants, predicates, functions, requirements, parameters, arguments, preconditions,
effects, constraints and lines. -/
def skeleton (d : DomainAST) : DomainAST where
  name := b!"d"
  types := none
  constants := none
  requirements := []
  predicates := []
  tasks := d.tasks.map fun t => ⟨t.name, 0, []⟩
  methods := d.methods.map methodOnly
  actions := d.actions.map fun a => ⟨a.name, 0, [], none, none⟩
  functions := []

end Verif.Spec
