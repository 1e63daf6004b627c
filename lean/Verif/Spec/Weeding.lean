import Verif.Spec.Clash
import Verif.Spec.Planning

/-!
Domains without some compound tasks and the methods that mention them, and the plans of a domain.
Nothing here mentions the analyser.
-/

namespace Verif.Spec

open Verif

/-- The domain without the given compound tasks and the methods that are for them or have them as subtasks. -/
def weeded (W : List Name) (d : DomainAST) : DomainAST :=
  { d with
    tasks := d.tasks.filter fun t => decide (t.name ∉ W)
    methods := d.methods.filter fun m => decide (m.task.name ∉ W ∧ ∀ s ∈ m.tn.subtasks, s.task.name ∉ W) }

/-- The network can be decomposed into the given actions. -/
def DecomposedInto (d : DomainAST) (p : ProblemAST) (n acts : List Ground) : Prop :=
  Relation.ReflTransGen (Decomposes d p) n acts ∧ ∀ x ∈ acts, ActionName d x.1

/-- The initial network of the problem, for some values of its parameters, can be decomposed into the given actions. -/
def Yields (d : DomainAST) (p : ProblemAST) (acts : List Ground) : Prop :=
  ∃ n, Initial d p n ∧ DecomposedInto d p n acts

end Verif.Spec
