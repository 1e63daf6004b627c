import Mathlib.Logic.Relation
import Batteries.Data.List.Basic
import Verif.Model.AST

/-!
Declarative well-formedness of domains and problems, and what an error report has to say to be true.
Nothing here mentions the analyser.
-/

namespace Verif.Spec

open Verif

/-! ### Types -/

/-- No cycle of any length. -/
def Acyclic {α : Type} (r : α → α → Prop) : Prop := ∀ x, ¬ Relation.TransGen r x x

/-- `s - t` is declared. -/
def DirectSub (types : List Symbol) (s t : Name) : Prop := ∃ x ∈ types, x.name = s ∧ x.ty = some t

/-- The type is declared, or is mentioned as the parent of a declared type. -/
def TypeKnown (types : List Symbol) (t : Name) : Prop := ∃ x ∈ types, x.name = t ∨ x.ty = some t

/-- An argument of type `found` may be used where `expected` is declared. -/
inductive Fits (types : List Symbol) : Option Name → Option Name → Prop
  | untyped : Fits types none none
  | sub {s t} : Relation.ReflTransGen (DirectSub types) s t → Fits types (some s) (some t)

/-- All types of a list of symbols are known. -/
def TypesKnown (types : List Symbol) (l : List Symbol) : Prop := ∀ s ∈ l, ∀ t, s.ty = some t → TypeKnown types t

/-! ### Scopes -/

/-- `s` is the first symbol with name `x`. -/
def FirstNamed (l : List Symbol) (x : Name) (s : Symbol) : Prop :=
  ∃ pre post, l = pre ++ s :: post ∧ s.name = x ∧ ∀ y ∈ pre, y.name ≠ x

/-- Type of a name in nested scopes, the innermost first. -/
inductive TypeIn : List (List Symbol) → Name → Option Name → Prop
  | here {l ls x s} : FirstNamed l x s → TypeIn (l :: ls) x s.ty
  | outer {l ls x ty} : (∀ s ∈ l, s.name ≠ x) → TypeIn ls x ty → TypeIn (l :: ls) x ty

/-- The name is in none of the scopes. -/
def Unbound (scope : List (List Symbol)) (x : Name) : Prop := ∀ l ∈ scope, ∀ s ∈ l, s.name ≠ x

/-- One argument fits one formal parameter. -/
def ArgFits (types : List Symbol) (scope : List (List Symbol)) (arg formal : Symbol) : Prop :=
  ∃ ty, TypeIn scope arg.name ty ∧ Fits types ty formal.ty

/-- The arguments fit the formal parameters, one by one. -/
def ArgsFit (types : List Symbol) (scope : List (List Symbol)) (args formals : List Symbol) : Prop :=
  List.Forall₂ (ArgFits types scope) args formals

/-! ### Formulas -/

/-- The atom occurs in the formula. -/
inductive Occurs (p : Predicate) : Formula → Prop
  | atom : Occurs p (.atom p)
  | not {f} : Occurs p f → Occurs p (.not f)
  | and {f fs} : f ∈ fs → Occurs p f → Occurs p (.and fs)
  | or {f fs} : f ∈ fs → Occurs p f → Occurs p (.or fs)
  | xor {f fs} : f ∈ fs → Occurs p f → Occurs p (.xor fs)
  | left {f ps qs} : f ∈ ps → Occurs p f → Occurs p (.imply ps qs)
  | right {f ps qs} : f ∈ qs → Occurs p f → Occurs p (.imply ps qs)
  | weighted {w f} : Occurs p f → Occurs p (.weighted w f)
  | forall_ {vs f} : Occurs p f → Occurs p (.forall_ vs f)
  | exists_ {vs f} : Occurs p f → Occurs p (.exists_ vs f)

/-- The atom occurs outside quantifiers. -/
inductive OccursFree (p : Predicate) : Formula → Prop
  | atom : OccursFree p (.atom p)
  | not {f} : OccursFree p f → OccursFree p (.not f)
  | and {f fs} : f ∈ fs → OccursFree p f → OccursFree p (.and fs)
  | or {f fs} : f ∈ fs → OccursFree p f → OccursFree p (.or fs)
  | xor {f fs} : f ∈ fs → OccursFree p f → OccursFree p (.xor fs)
  | left {f ps qs} : f ∈ ps → OccursFree p f → OccursFree p (.imply ps qs)
  | right {f ps qs} : f ∈ qs → OccursFree p f → OccursFree p (.imply ps qs)
  | weighted {w f} : OccursFree p f → OccursFree p (.weighted w f)

/-- The formula has an `exists` (or an implication, which the parser never produces) somewhere. -/
inductive HasExists : Formula → Prop
  | exists_ {vs f} : HasExists (.exists_ vs f)
  | imply {ps qs} : HasExists (.imply ps qs)
  | not {f} : HasExists f → HasExists (.not f)
  | and {f fs} : f ∈ fs → HasExists f → HasExists (.and fs)
  | or {f fs} : f ∈ fs → HasExists f → HasExists (.or fs)
  | xor {f fs} : f ∈ fs → HasExists f → HasExists (.xor fs)
  | weighted {w f} : HasExists f → HasExists (.weighted w f)
  | forall_ {vs f} : HasExists f → HasExists (.forall_ vs f)

/-- The formula has an `exists` somewhere. -/
inductive ExistsIn : Formula → Prop
  | exists_ {vs f} : ExistsIn (.exists_ vs f)
  | not {f} : ExistsIn f → ExistsIn (.not f)
  | and {f fs} : f ∈ fs → ExistsIn f → ExistsIn (.and fs)
  | or {f fs} : f ∈ fs → ExistsIn f → ExistsIn (.or fs)
  | xor {f fs} : f ∈ fs → ExistsIn f → ExistsIn (.xor fs)
  | weighted {w f} : ExistsIn f → ExistsIn (.weighted w f)
  | forall_ {vs f} : ExistsIn f → ExistsIn (.forall_ vs f)

/-! ### Domains -/

def typesOf (d : DomainAST) : List Symbol := d.types.getD []

def constantsOf (d : DomainAST) : List Symbol := d.constants.getD []

/-- A formula of an action or method with the given parameters. -/
structure FormulaOk (d : DomainAST) (params : List Symbol) (f : Formula) : Prop where
  noExists : ¬ HasExists f
  paramTypes : TypesKnown (typesOf d) params
  /-- every atom, also below quantifiers, is declared with its number of arguments -/
  declared : ∀ p, Occurs p f → ∃ q ∈ d.predicates, q.name = p.name ∧ p.vars.length = q.vars.length
  /-- outside quantifiers, arguments are bound and have fitting types -/
  typed : ∀ p, OccursFree p f → ∀ q ∈ d.predicates, q.name = p.name →
    ArgsFit (typesOf d) [params, constantsOf d] p.vars q.vars

structure ActionOk (d : DomainAST) (a : Action) : Prop where
  params : (a.params.map (·.name)).Nodup
  pre : ∀ f, a.pre = some f → FormulaOk d a.params f
  eff : ∀ f, a.eff = some f → FormulaOk d a.params f

/-- The parameters declared for a task name: those of the action with that name, otherwise those of the compound task. -/
inductive Callee (d : DomainAST) (x : Name) : List Symbol → Prop
  | action {a} : a ∈ d.actions → a.name = x → Callee d x a.params
  | task {t} : (∀ a ∈ d.actions, a.name ≠ x) → t ∈ d.tasks → t.name = x → Callee d x t.params

/-- The ordering constraints of a task network. -/
def Before (h : HTN) (a b : Name) : Prop := ∃ os, h.orderings = .partial_ os ∧ (a, b) ∈ os

structure MethodOk (d : DomainAST) (m : Method) : Prop where
  params : (m.params.map (·.name)).Nodup
  pre : ∀ f, m.pre = some f → FormulaOk d m.params f
  task : ∃ t ∈ d.tasks, t.name = m.task.name ∧ ArgsFit (typesOf d) [m.params, constantsOf d] m.taskTerms t.params
  subtasks : ∀ s ∈ m.tn.subtasks, ∃ ps, Callee d s.task.name ps ∧
    ArgsFit (typesOf d) [m.params, constantsOf d] s.terms ps
  ordering : Acyclic (Before m.tn)

/-- Well-formed domains. -/
structure DomainOk (d : DomainAST) : Prop where
  requirements : d.requirements.Nodup
  types : Acyclic (DirectSub (typesOf d))
  predicates : (d.predicates.map (·.name)).Nodup
  predicateTypes : ∀ p ∈ d.predicates, TypesKnown (typesOf d) p.vars
  tasks : (d.tasks.map (·.name)).Nodup
  taskTypes : ∀ t ∈ d.tasks, TypesKnown (typesOf d) t.params
  actionNames : (d.actions.map (·.name)).Nodup
  actions : ∀ a ∈ d.actions, ActionOk d a
  methodNames : (d.methods.map (·.name.name)).Nodup
  methods : ∀ m ∈ d.methods, MethodOk d m

/-! ### Problems -/

/-- An atom of the initial state or goal. -/
def FactOk (d : DomainAST) (p : ProblemAST) (a : Predicate) : Prop :=
  ∃ q ∈ d.predicates, q.name = a.name ∧ ArgsFit (typesOf d) [p.objects, constantsOf d] a.vars q.vars

structure InitTnOk (d : DomainAST) (p : ProblemAST) (h : InitTN) : Prop where
  ordering : Acyclic (Before h.tn)
  subtasks : ∀ s ∈ h.tn.subtasks, ∃ ps, Callee d s.task.name ps ∧
    ArgsFit (typesOf d) [p.objects, h.params.getD [], constantsOf d] s.terms ps

/-- Problems that are well-formed with respect to a domain. -/
structure ProblemOk (d : DomainAST) (p : ProblemAST) : Prop where
  objectTypes : TypesKnown (typesOf d) p.objects
  objects : (p.objects.map (·.name)).Nodup
  init : ∀ a ∈ p.initState, FactOk d p a
  htn : ∀ h, p.initTn = some h → InitTnOk d p h
  goal : ∀ f, p.goal = some f → ∀ a, OccursFree a f → FactOk d p a

/-! ### Error reports -/

/-- The report names the first repetition in a list of declarations (name and line): no name is repeated before `y`,
and `x` is the earlier declaration of the same name. -/
def Repeats (l : List (Name × Nat)) (e : DupErr) : Prop :=
  ∃ a x b y c, l = a ++ x :: b ++ y :: c ∧ ((a ++ x :: b).map (·.1)).Nodup ∧ x.1 = y.1 ∧ e = ⟨y.1, x.2, y.2⟩

/-- The first repetition in a list of declarations whose names and lines are given by `kp`; everything before it
passes its check. -/
def RepeatsAfter {α : Type} (kp : α → Name × Nat) (ok : α → Prop) (l : List α) (e : DupErr) : Prop :=
  ∃ a x b y c, l = a ++ x :: b ++ y :: c ∧ ((a ++ x :: b).map (fun z => (kp z).1)).Nodup ∧
    (∀ z ∈ a ++ x :: b, ok z) ∧ (kp x).1 = (kp y).1 ∧ e = ⟨(kp y).1, (kp x).2, (kp y).2⟩

/-- The report names an argument whose type does not fit. -/
def Misfit (types : List Symbol) (scope : List (List Symbol)) (args formals : List Symbol) (e : TypeErr) : Prop :=
  ∃ (i : Nat) (v f : Symbol), args[i]? = some v ∧ formals[i]? = some f ∧ e.var = v.name ∧ e.pos = v.pos ∧ e.expected = f.ty ∧
    TypeIn scope v.name e.found ∧ ¬ Fits types e.found e.expected

/-- Formulas of the domain with the parameters in scope. -/
inductive FormulaOf (d : DomainAST) : List Symbol → Formula → Prop
  | pre {a f} : a ∈ d.actions → a.pre = some f → FormulaOf d a.params f
  | eff {a f} : a ∈ d.actions → a.eff = some f → FormulaOf d a.params f
  | method {m f} : m ∈ d.methods → m.pre = some f → FormulaOf d m.params f

/-- Parameter lists of the domain. -/
inductive ParamsOf (d : DomainAST) : List Symbol → Prop
  | predicate {p} : p ∈ d.predicates → ParamsOf d p.vars
  | task {t} : t ∈ d.tasks → ParamsOf d t.params
  | action {a} : a ∈ d.actions → ParamsOf d a.params
  | method {m} : m ∈ d.methods → ParamsOf d m.params

/-- Calls in methods: the task of the method, and its subtasks. -/
inductive CallOf (d : DomainAST) : Method → Symbol → List Symbol → Prop
  | task {m} : m ∈ d.methods → CallOf d m m.task m.taskTerms
  | subtask {m s} : m ∈ d.methods → s ∈ m.tn.subtasks → CallOf d m s.task s.terms

/-- What is true of the domain when the analyser reports an error. -/
inductive DomainReport (d : DomainAST) : SemErr → Prop
  | dupRequirement {r a b c} : d.requirements = a ++ r :: b ++ r :: c → (a ++ r :: b).Nodup →
      DomainReport d (.dupRequirement r)
  | cyclicType {x} : Relation.TransGen (DirectSub (typesOf d)) x x → DomainReport d .cyclicType
  | dupPredicate {e} : Repeats (d.predicates.map fun p => (p.name, p.pos)) e → DomainReport d (.dupPredicate e)
  | dupTask {e} : Repeats (d.tasks.map fun p => (p.name, p.pos)) e → DomainReport d (.dupTask e)
  | dupAction {e} : Repeats (d.actions.map fun p => (p.name, p.pos)) e → DomainReport d (.dupAction e)
  | dupMethod {e} : Repeats (d.methods.map fun p => (p.name.name, p.name.pos)) e → DomainReport d (.dupMethod e)
  | dupActionParameter {a e} : a ∈ d.actions → Repeats (a.params.map fun p => (p.name, p.pos)) e →
      DomainReport d (.dupParameter e)
  | dupMethodParameter {m e} : m ∈ d.methods → Repeats (m.params.map fun p => (p.name, p.pos)) e →
      DomainReport d (.dupParameter e)
  | undefType {l t pos} {s : Symbol} : ParamsOf d l → s ∈ l → s.ty = some t → s.tyPos = some pos → ¬ TypeKnown (typesOf d) t →
      DomainReport d (.undefType ⟨t, pos⟩)
  | undefPredicate {l f p} : FormulaOf d l f → Occurs p f → (∀ q ∈ d.predicates, q.name ≠ p.name) →
      DomainReport d (.undefPredicate ⟨p.name, p.pos⟩)
  | predArity {l f p q} : FormulaOf d l f → Occurs p f → q ∈ d.predicates → q.name = p.name →
      p.vars.length ≠ q.vars.length → DomainReport d (.predArity ⟨p.name, q.vars.length, p.vars.length, p.pos⟩)
  | undefVariable {l f p} {v : Symbol} : FormulaOf d l f → OccursFree p f → v ∈ p.vars → Unbound [l, constantsOf d] v.name →
      DomainReport d (.undefParameter ⟨v.name, v.pos⟩)
  | predArgType {l f p q e} : FormulaOf d l f → OccursFree p f → q ∈ d.predicates → q.name = p.name →
      Misfit (typesOf d) [l, constantsOf d] p.vars q.vars e → DomainReport d (.predArgType e)
  | undefTask {m} : m ∈ d.methods → (∀ t ∈ d.tasks, t.name ≠ m.task.name) →
      DomainReport d (.undefTask ⟨m.task.name, m.task.pos⟩)
  /-- the counts are the wrong way around: the first one is the number of terms found, the second the declared number -/
  | methodArity {m t} : m ∈ d.methods → t ∈ d.tasks → t.name = m.task.name → m.taskTerms.length ≠ t.params.length →
      DomainReport d (.taskArity ⟨m.task.name, m.taskTerms.length, t.params.length, m.task.pos⟩)
  | undefTerm {m x terms} {v : Symbol} : CallOf d m x terms → v ∈ terms → Unbound [m.params, constantsOf d] v.name →
      DomainReport d (.undefParameter ⟨v.name, v.pos⟩)
  | undefSubtask {m s} : m ∈ d.methods → s ∈ m.tn.subtasks → (∀ ps, ¬ Callee d s.task.name ps) →
      DomainReport d (.undefSubtask ⟨s.task.name, s.task.pos⟩)
  | subtaskArity {m s ps} : m ∈ d.methods → s ∈ m.tn.subtasks → Callee d s.task.name ps → s.terms.length ≠ ps.length →
      DomainReport d (.taskArity ⟨s.task.name, ps.length, s.terms.length, s.task.pos⟩)
  | methodTaskType {m t e} : m ∈ d.methods → t ∈ d.tasks → t.name = m.task.name →
      Misfit (typesOf d) [m.params, constantsOf d] m.taskTerms t.params e → DomainReport d (.taskArgType e)
  | subtaskType {m s ps e} : m ∈ d.methods → s ∈ m.tn.subtasks → Callee d s.task.name ps →
      Misfit (typesOf d) [m.params, constantsOf d] s.terms ps e → DomainReport d (.taskArgType e)
  | cyclicOrdering {m x pos} : m ∈ d.methods → Relation.TransGen (Before m.tn) x x → m.tn.orderingPos = some pos →
      DomainReport d (.cyclicOrdering pos)

/-- The atoms of a problem that are checked: initial state, and goal outside quantifiers. -/
inductive FactOf (p : ProblemAST) : Predicate → Prop
  | init {a} : a ∈ p.initState → FactOf p a
  | goal {f a} : p.goal = some f → OccursFree a f → FactOf p a

/-- What is true of the problem when the analyser reports an error. -/
inductive ProblemReport (d : DomainAST) (p : ProblemAST) : SemErr → Prop
  | undefType {s : Symbol} {t pos} : s ∈ p.objects → s.ty = some t → s.tyPos = some pos → ¬ TypeKnown (typesOf d) t →
      ProblemReport d p (.undefType ⟨t, pos⟩)
  | dupObject {e} : Repeats (p.objects.map fun s => (s.name, s.pos)) e → ProblemReport d p (.dupObject e)
  | undefPredicate {a} : FactOf p a → (∀ q ∈ d.predicates, q.name ≠ a.name) →
      ProblemReport d p (.undefPredicate ⟨a.name, a.pos⟩)
  | predArity {a q} : FactOf p a → q ∈ d.predicates → q.name = a.name → a.vars.length ≠ q.vars.length →
      ProblemReport d p (.predArity ⟨a.name, q.vars.length, a.vars.length, a.pos⟩)
  | undefObject {a} {v : Symbol} : FactOf p a → v ∈ a.vars → Unbound [p.objects, constantsOf d] v.name →
      ProblemReport d p (.undefObject ⟨v.name, v.pos⟩)
  /-- a constant of the wrong type; the predicate is named in place of the argument -/
  | constantType {a q} {i : Nat} {v f : Symbol} {ty} : FactOf p a → q ∈ d.predicates → q.name = a.name → a.vars[i]? = some v →
      q.vars[i]? = some f → (∀ o ∈ p.objects, o.name ≠ v.name) → TypeIn [constantsOf d] v.name ty →
      ¬ Fits (typesOf d) ty f.ty → ProblemReport d p (.predArgType ⟨f.ty, ty, a.name, v.pos⟩)
  /-- an object of the wrong type; the reported found type is the one written at the use, if any -/
  | objectType {a q} {i : Nat} {v f : Symbol} {ty} : FactOf p a → q ∈ d.predicates → q.name = a.name → a.vars[i]? = some v →
      q.vars[i]? = some f → TypeIn [p.objects] v.name ty → ¬ Fits (typesOf d) ty f.ty →
      ProblemReport d p (.predArgType ⟨f.ty, v.ty, a.name, v.pos⟩)
  | undefSubtask {h s} : p.initTn = some h → s ∈ h.tn.subtasks → (∀ ps, ¬ Callee d s.task.name ps) →
      ProblemReport d p (.undefSubtask ⟨s.task.name, s.task.pos⟩)
  | taskArity {h s ps} : p.initTn = some h → s ∈ h.tn.subtasks → Callee d s.task.name ps → s.terms.length ≠ ps.length →
      ProblemReport d p (.taskArity ⟨s.task.name, ps.length, s.terms.length, s.task.pos⟩)
  | undefTerm {h s} {v : Symbol} : p.initTn = some h → s ∈ h.tn.subtasks → v ∈ s.terms →
      Unbound [p.objects, h.params.getD [], constantsOf d] v.name → ProblemReport d p (.undefObject ⟨v.name, v.pos⟩)
  /-- an object or parameter of the wrong type; the task is named in place of the argument -/
  | termType {h s ps} {i : Nat} {v f : Symbol} {ty} : p.initTn = some h → s ∈ h.tn.subtasks → Callee d s.task.name ps →
      s.terms[i]? = some v → ps[i]? = some f → TypeIn [p.objects, h.params.getD []] v.name ty →
      ¬ Fits (typesOf d) ty f.ty → ProblemReport d p (.taskArgType ⟨f.ty, ty, s.task.name, v.pos⟩)
  /-- a constant of the wrong type in a subtask; it is reported as the argument of a predicate -/
  | termConstantType {h s ps} {i : Nat} {v f : Symbol} {ty} : p.initTn = some h → s ∈ h.tn.subtasks → Callee d s.task.name ps →
      s.terms[i]? = some v → ps[i]? = some f → (∀ l ∈ [p.objects, h.params.getD []], ∀ o ∈ l, o.name ≠ v.name) →
      TypeIn [constantsOf d] v.name ty → ¬ Fits (typesOf d) ty f.ty →
      ProblemReport d p (.predArgType ⟨f.ty, ty, s.task.name, v.pos⟩)
  | cyclicOrdering {h x pos} : p.initTn = some h → Relation.TransGen (Before h.tn) x x → h.tn.orderingPos = some pos →
      ProblemReport d p (.cyclicOrdering pos)

/-! ### Parts of a domain, in the order in which they are checked -/

/-- Requirements and types are fine. -/
def HeadOk (d : DomainAST) : Prop := d.requirements.Nodup ∧ Acyclic (DirectSub (typesOf d))

def PredicatesOk (d : DomainAST) : Prop :=
  (d.predicates.map (·.name)).Nodup ∧ ∀ p ∈ d.predicates, TypesKnown (typesOf d) p.vars

def TasksOk (d : DomainAST) : Prop :=
  (d.tasks.map (·.name)).Nodup ∧ ∀ p ∈ d.tasks, TypesKnown (typesOf d) p.params

def ActionsOk (d : DomainAST) : Prop := (d.actions.map (·.name)).Nodup ∧ ∀ a ∈ d.actions, ActionOk d a

/-- The first action that fails has a repeated parameter. -/
def BadActionParam (d : DomainAST) (e : DupErr) : Prop :=
  ∃ a x c, d.actions = a ++ x :: c ∧ ((a ++ [x]).map (·.name)).Nodup ∧ (∀ y ∈ a, ActionOk d y) ∧
    Repeats (x.params.map fun s => (s.name, s.pos)) e

/-- The first method that fails has a repeated parameter. -/
def BadMethodParam (d : DomainAST) (e : DupErr) : Prop :=
  ∃ a x c, d.methods = a ++ x :: c ∧ ((a ++ [x]).map (·.name.name)).Nodup ∧ (∀ y ∈ a, MethodOk d y) ∧
    Repeats (x.params.map fun s => (s.name, s.pos)) e

/-- The first method that fails is fine except for a cyclic ordering. -/
def BadOrdering (d : DomainAST) (pos : Nat) : Prop :=
  ∃ a x c, d.methods = a ++ x :: c ∧ ((a ++ [x]).map (·.name.name)).Nodup ∧ (∀ y ∈ a, MethodOk d y) ∧
    MethodOk d { x with tn := { x.tn with orderings := .total } } ∧ ¬ Acyclic (Before x.tn) ∧ x.tn.orderingPos = some pos

end Verif.Spec
