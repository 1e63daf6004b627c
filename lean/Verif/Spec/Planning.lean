import Verif.Spec.WellFormed

/-!
What happens with a problem after it was verified: task networks are decomposed by methods and actions change states.
Independent of the analyser.
-/

namespace Verif.Spec

open Verif

/-- A task or fact without variables: name and arguments. -/
abbrev Ground := Name × List Name

/-- The object or constant `x` may be used where `ty` is declared. -/
def HasType (d : DomainAST) (p : ProblemAST) (x : Name) (ty : Option Name) : Prop :=
  ∃ t, TypeIn [p.objects, constantsOf d] x t ∧ Fits (typesOf d) t ty

/-- The arguments may be used for the formal parameters, one by one. -/
def WellTyped (d : DomainAST) (p : ProblemAST) (args : List Name) (formals : List Symbol) : Prop :=
  List.Forall₂ (fun x s => HasType d p x s.ty) args formals

/-- The values of the parameters have the declared types. -/
def Respects (d : DomainAST) (p : ProblemAST) (params : List Symbol) (σ : Name → Name) : Prop :=
  ∀ s ∈ params, HasType d p (σ s.name) s.ty

/-- The value of a term: parameters are replaced by their values, other names stand for themselves. -/
def value (params : List Symbol) (σ : Name → Name) (v : Symbol) : Name :=
  if v.name ∈ params.map (·.name) then σ v.name else v.name

/-- The instances of the subtasks of a network. -/
def instances (params : List Symbol) (σ : Name → Name) (tn : HTN) : List Ground :=
  tn.subtasks.map fun s => (s.task.name, s.terms.map (value params σ))

/-- The initial task network for some values of its parameters. -/
inductive Initial (d : DomainAST) (p : ProblemAST) : List Ground → Prop
  | mk {h σ} : p.initTn = some h → Respects d p (h.params.getD []) σ →
      Initial d p (instances (h.params.getD []) σ h.tn)

/-- One decomposition: some task of the network is replaced by the subtasks of a method for it.  Orderings are left out:
any task may be decomposed at any time. -/
inductive Decomposes (d : DomainAST) (p : ProblemAST) : List Ground → List Ground → Prop
  | mk {before after m σ} : m ∈ d.methods → Respects d p m.params σ →
      Decomposes d p (before ++ (m.task.name, m.taskTerms.map (value m.params σ)) :: after)
        (before ++ instances m.params σ m.tn ++ after)

/-- A network that can be obtained from the initial one. -/
def Obtained (d : DomainAST) (p : ProblemAST) (n : List Ground) : Prop :=
  ∃ n0, Initial d p n0 ∧ Relation.ReflTransGen (Decomposes d p) n0 n

/-- One action: whatever is true afterwards was true before or is an instance of an atom of the effect. -/
inductive Acts (d : DomainAST) : (params : List Symbol) → (Name → Name) → (Ground → Prop) → (Ground → Prop) → Prop
  | mk {a : Action} {σ} {S S' : Ground → Prop} : a ∈ d.actions →
      (∀ x, S' x → S x ∨ ∃ fm q, a.eff = some fm ∧ Occurs q fm ∧ x = (q.name, q.vars.map (value a.params σ))) →
      Acts d a.params σ S S'

/-- The states that can be reached from the initial state by actions with well-typed parameters. -/
inductive Reached (d : DomainAST) (p : ProblemAST) : (Ground → Prop) → Prop
  | init : Reached d p fun x => ∃ q ∈ p.initState, x = (q.name, q.vars.map (·.name))
  | act {ps σ S S'} : Reached d p S → Respects d p ps σ → Acts d ps σ S S' → Reached d p S'

/-- No name is declared both as an object of the problem and as a constant of the domain or as a parameter of the
initial task network. -/
def ObjectsApart (d : DomainAST) (p : ProblemAST) : Prop :=
  ∀ o ∈ p.objects, (∀ c ∈ constantsOf d, c.name ≠ o.name) ∧
    ∀ h, p.initTn = some h → ∀ v ∈ h.params.getD [], v.name ≠ o.name

end Verif.Spec
