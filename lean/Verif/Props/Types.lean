import Verif.Proofs.Subtyping
import Verif.Proofs.GrowthP
import Verif.Props.Declarations

/-! C78 and C79: changes of types, objects and facts that keep files accepted. -/

namespace Verif

open Spec

variable [Env] {ord ord' : HashOrd} {f f' g g' : Bytes} {d d' : DomainAST} {p p' : ProblemAST}

/-! ### C78: types -/

/-- C78: an accepted domain is still accepted if constants and parameters of methods get more special types and parameters of
predicates and compound tasks get more general types. -/
theorem C78_domain (hf : Parses f (.domain d)) (hf' : Parses f' (.domain d')) (h : Retyped (rnDomain id d) (rnDomain id d'))
    (ha : ∃ ws, Returns ord f none (.ok ws)) : ∃ ws, Returns ord' f' none (.ok ws) := by
  rw [returns_domain_iff hf, ← domainOk_lines] at ha
  rw [returns_domain_iff hf', ← domainOk_lines]
  exact domainOk_retyped h ha

/-- C78: an accepted problem is still accepted if moreover objects and parameters of the initial task network get more special
types. -/
theorem C78_problem (hf : Parses f (.domain d)) (hf' : Parses f' (.domain d')) (hg : Parses g (.problem p))
    (hg' : Parses g' (.problem p')) (h : Retyped (rnDomain id d) (rnDomain id d'))
    (hp : RetypedP (rnDomain id d) (rnProblem id p) (rnProblem id p')) (ha : ∃ ws, Returns ord f (some g) (.ok ws)) :
    ∃ ws, Returns ord' f' (some g') (.ok ws) := by
  rw [returns_problem_iff hf hg, ← domainOk_lines, ← problemOk_lines] at ha
  rw [returns_problem_iff hf' hg', ← domainOk_lines, ← problemOk_lines]
  exact ⟨domainOk_retyped h ha.1, problemOk_retyped h hp ha.2⟩

/-! ### C79: objects and facts -/

/-- C79: a problem that extends an accepted one by objects and facts (and may lack facts and the goal) is accepted exactly if
the additional objects and facts are fine: no object is repeated, the additional ones have known types, and the additional facts
are declared and have arguments that fit. -/
theorem C79_problem (hf : Parses f (.domain d)) (hg : Parses g (.problem p)) (hg' : Parses g' (.problem p'))
    (ha : ∃ ws, Returns ord f (some g) (.ok ws)) (h : ExtendsP (rnDomain id d) (rnProblem id p) (rnProblem id p')) :
    (∃ ws, Returns ord' f (some g') (.ok ws)) ↔ AdditionsP (rnDomain id d) (rnProblem id p) (rnProblem id p') := by
  rw [returns_problem_iff hf hg, ← problemOk_lines] at ha
  rw [returns_problem_iff hf hg', ← problemOk_lines]
  exact ⟨fun h1 => (problemOk_extends h ha.2).mp h1.2, fun h1 => ⟨ha.1, (problemOk_extends h ha.2).mpr h1⟩⟩

theorem parses_treeP {n : Nat} {t : ProblemAST}
    (h : (match parse n f with | .ok (.problem d) => decide (d = t) | _ => false) = true) : Parses f (.problem t) := by
  split at h
  · rename_i d h1
    exact of_decide_eq_true h ▸ .of_ok h1
  · cases h

/-- A domain in which `a` is a subtype of `b`. -/
def someTypes : Bytes := b!"(define (domain d) (:types a - b) (:constants c - b) (:predicates (p ?x - a) (q ?x - b)) (:task t :parameters (?x - a))
  (:action m :parameters (?y - b) :precondition (q c))
  (:method k :parameters (?z - a ?w - b) :task (t ?z) :precondition (p ?z) :ordered-subtasks (and (m ?w) (m c))))\n"

/-- The constant and a parameter of the method have more special types, a predicate and a task more general ones. -/
def otherTypes : Bytes := b!"(define (domain d) (:types a - b) (:constants c - a) (:predicates (p ?x - b) (q ?x - b)) (:task t :parameters (?x - b))
  (:action m :parameters (?y - b) :precondition (q c))
  (:method k :parameters (?z - a ?w - a) :task (t ?z) :precondition (p ?z) :ordered-subtasks (and (m ?w) (m c))))\n"

/-- The syntax tree of the two, by the types in which they differ. -/
def typesTree (c p t w : Name) : DomainAST where
  name := b!"d"
  types := some [⟨b!"a", 1, some b!"b", some 1⟩]
  constants := some [⟨b!"c", 1, some c, some 1⟩]
  requirements := []
  predicates := [⟨b!"p", 1, [⟨b!"x", 1, some p, some 1⟩]⟩, ⟨b!"q", 1, [⟨b!"x", 1, some b!"b", some 1⟩]⟩]
  tasks := [⟨b!"t", 1, [⟨b!"x", 1, some t, some 1⟩]⟩]
  methods := [⟨⟨b!"k", 3, none, none⟩, ⟨b!"t", 3, none, none⟩, [⟨b!"z", 3, none, none⟩],
    [⟨b!"z", 3, some b!"a", some 3⟩, ⟨b!"w", 3, some w, some 3⟩], some (.atom ⟨b!"p", 3, [⟨b!"z", 3, none, none⟩]⟩),
    ⟨[⟨none, ⟨b!"m", 3, none, none⟩, [⟨b!"w", 3, none, none⟩]⟩, ⟨none, ⟨b!"m", 3, none, none⟩, [⟨b!"c", 3, none, none⟩]⟩],
      none, .total, none⟩⟩]
  actions := [⟨b!"m", 2, [⟨b!"y", 2, some b!"b", some 2⟩], some (.atom ⟨b!"q", 2, [⟨b!"c", 2, none, none⟩]⟩), none⟩]
  functions := []

def someObjects : Bytes := b!"(define (problem x) (:domain d) (:objects o - a u - b)
  (:htn :parameters (?v - b) :subtasks (and (t o) (m ?v))) (:init (p o) (q u)))\n"

/-- An object and the parameter of the initial task network have more special types. -/
def otherObjects : Bytes := b!"(define (problem x) (:domain d) (:objects o - a u - a)
  (:htn :parameters (?v - a) :subtasks (and (t o) (m ?v))) (:init (p o) (q u)))\n"

def objectsTree (u v : Name) : ProblemAST where
  requirements := []
  initTn := some ⟨some [⟨b!"v", 2, some v, some 2⟩], ⟨[⟨none, ⟨b!"t", 2, none, none⟩, [⟨b!"o", 2, none, none⟩]⟩,
    ⟨none, ⟨b!"m", 2, none, none⟩, [⟨b!"v", 2, none, none⟩]⟩], none, .partial_ [], none⟩⟩
  initState := [⟨b!"p", 2, [⟨b!"o", 2, none, none⟩]⟩, ⟨b!"q", 2, [⟨b!"u", 2, none, none⟩]⟩]
  goal := none
  objects := [⟨b!"o", 1, some b!"a", some 1⟩, ⟨b!"u", 1, some u, some 1⟩]

omit [Env] in
theorem a_fits_b {types : List Symbol} {s : Symbol} {l : List Symbol} (h : types = s :: l) (hs : s.name = b!"a") (ht : s.ty = some b!"b") :
    Fits types (some b!"a") (some b!"b") :=
  .sub (.single ⟨s, by rw [h]; exact List.mem_cons_self, hs, ht⟩)

omit [Env] in
theorem narrowZW {types : List Symbol} {s : Symbol} {l : List Symbol} (h : types = s :: l := by rfl) (hs : s.name = b!"a" := by rfl)
    (ht : s.ty = some b!"b" := by rfl) : Narrowed types
      ([⟨b!"z", 3, some b!"a", some 3⟩, ⟨b!"w", 3, some b!"b", some 3⟩].map (rnSymbol id))
      ([⟨b!"z", 3, some b!"a", some 3⟩, ⟨b!"w", 3, some b!"a", some 3⟩].map (rnSymbol id)) :=
  .cons ⟨rfl, fits_refl _⟩ (.cons ⟨rfl, a_fits_b h hs ht⟩ .nil)

omit [Env] in
/-- Instance of `C78_domain` and `C78_problem`. -/
example : @Parses Env.plain someTypes (.domain (typesTree b!"b" b!"a" b!"a" b!"b")) ∧
    @Parses Env.plain otherTypes (.domain (typesTree b!"a" b!"b" b!"b" b!"a")) ∧
    @Parses Env.plain someObjects (.problem (objectsTree b!"b" b!"b")) ∧
    @Parses Env.plain otherObjects (.problem (objectsTree b!"a" b!"a")) ∧
    Retyped (rnDomain id (typesTree b!"b" b!"a" b!"a" b!"b")) (rnDomain id (typesTree b!"a" b!"b" b!"b" b!"a")) ∧
    RetypedP (rnDomain id (typesTree b!"b" b!"a" b!"a" b!"b")) (rnProblem id (objectsTree b!"b" b!"b")) (rnProblem id (objectsTree b!"a" b!"a")) ∧
    @Returns Env.plain HashOrd.id someTypes (some someObjects) (.ok []) :=
  ⟨@parses_tree Env.plain _ 100 _ (by decide +kernel), @parses_tree Env.plain _ 100 _ (by decide +kernel),
    @parses_treeP Env.plain _ 100 _ (by decide +kernel), @parses_treeP Env.plain _ 100 _ (by decide +kernel),
    ⟨rfl, rfl, .cons ⟨rfl, a_fits_b rfl rfl rfl⟩ .nil,
      .cons ⟨rfl, .cons (a_fits_b rfl rfl rfl) .nil⟩ (.cons ⟨rfl, widened_refl _⟩ .nil),
      .cons ⟨rfl, .cons (a_fits_b rfl rfl rfl) .nil⟩ .nil, rfl,
      .cons ⟨(typesTree b!"a" b!"b" b!"b" b!"a").methods.flatMap fun m => m.params.map (rnSymbol id), narrowZW, rfl⟩ .nil⟩,
    ⟨.cons ⟨rfl, fits_refl _⟩ (.cons ⟨rfl, a_fits_b rfl rfl rfl⟩ .nil), rfl, rfl,
      .some ⟨.cons ⟨rfl, a_fits_b rfl rfl rfl⟩ .nil, rfl⟩⟩,
    @returns_run Env.plain _ _ _ 100 _ (by decide +kernel) (by simp)⟩

/-- More objects, other facts. -/
def moreObjects : Bytes := b!"(define (problem x) (:domain d) (:objects o n - a u - b)
  (:htn :parameters (?v - b) :subtasks (and (t o) (m ?v))) (:init (q u) (p n)))\n"

def moreObjectsTree : ProblemAST :=
  { objectsTree b!"b" b!"b" with
    objects := [⟨b!"o", 1, some b!"a", some 1⟩, ⟨b!"n", 1, some b!"a", some 1⟩, ⟨b!"u", 1, some b!"b", some 1⟩]
    initState := [⟨b!"q", 2, [⟨b!"u", 2, none, none⟩]⟩, ⟨b!"p", 2, [⟨b!"n", 2, none, none⟩]⟩] }

omit [Env] in
/-- Instance of `C79_problem`. -/
example : @Parses Env.plain someTypes (.domain (typesTree b!"b" b!"a" b!"a" b!"b")) ∧
    @Parses Env.plain someObjects (.problem (objectsTree b!"b" b!"b")) ∧
    @Parses Env.plain moreObjects (.problem moreObjectsTree) ∧
    ExtendsP (rnDomain id (typesTree b!"b" b!"a" b!"a" b!"b")) (rnProblem id (objectsTree b!"b" b!"b")) (rnProblem id moreObjectsTree) ∧
    @Returns Env.plain HashOrd.id someTypes (some someObjects) (.ok []) ∧
    @Returns Env.plain HashOrd.id someTypes (some moreObjects) (.ok []) := by
  refine ⟨@parses_tree Env.plain _ 100 _ (by decide +kernel), @parses_treeP Env.plain _ 100 _ (by decide +kernel),
    @parses_treeP Env.plain _ 100 _ (by decide +kernel), ⟨by decide +kernel, rfl, .inl rfl, by decide +kernel, ?_⟩,
    @returns_run Env.plain _ _ _ 100 _ (by decide +kernel) (by simp), @returns_run Env.plain _ _ _ 100 _ (by decide +kernel) (by simp)⟩
  intro o ho hn h hh
  cases hh
  revert o ho hn
  decide +kernel

/-- An object with the name of a constant. -/
def shadowObject : Bytes := b!"(define (problem x) (:domain d) (:objects o - a u - b c - a)
  (:init (q u) (r c)))\n"

def noShadow : Bytes := b!"(define (problem x) (:domain d) (:objects o - a u - b)
  (:init (q u) (r c)))\n"

def shadowTypes : Bytes := b!"(define (domain d) (:types a - b e) (:constants c - e) (:predicates (q ?x - b) (r ?x - e)))\n"

omit [Env] in
/-- The condition on constants is needed: an additional object with the name of a constant hides it, so that a fact that was fine
before is rejected. -/
theorem C79_refuted : (∃ ws, @Returns Env.plain HashOrd.id shadowTypes (some noShadow) (.ok ws)) ∧
    (∃ d p p', @Parses Env.plain shadowTypes (.domain d) ∧ @Parses Env.plain noShadow (.problem p) ∧
      @Parses Env.plain shadowObject (.problem p') ∧ p'.initState = p.initState ∧ p'.goal = p.goal ∧ p'.initTn = p.initTn ∧
      (p'.objects.map (·.name)).Nodup ∧ TypesKnown (typesOf d) p'.objects ∧ ∀ o ∈ p.objects, o ∈ p'.objects) ∧
    ¬ ∃ ws, @Returns Env.plain HashOrd.id shadowTypes (some shadowObject) (.ok ws) := by
  refine ⟨⟨[], @returns_run Env.plain _ _ _ 100 _ (by decide +kernel) (by simp)⟩, ?_, fun ⟨ws, h⟩ => ?_⟩
  · refine ⟨⟨b!"d", some [⟨b!"a", 1, some b!"b", some 1⟩, ⟨b!"e", 1, none, none⟩], some [⟨b!"c", 1, some b!"e", some 1⟩], [],
      [⟨b!"q", 1, [⟨b!"x", 1, some b!"b", some 1⟩]⟩, ⟨b!"r", 1, [⟨b!"x", 1, some b!"e", some 1⟩]⟩], [], [], [], []⟩,
      ⟨[], none, [⟨b!"q", 2, [⟨b!"u", 2, none, none⟩]⟩, ⟨b!"r", 2, [⟨b!"c", 2, none, none⟩]⟩], none,
        [⟨b!"o", 1, some b!"a", some 1⟩, ⟨b!"u", 1, some b!"b", some 1⟩]⟩,
      ⟨[], none, [⟨b!"q", 2, [⟨b!"u", 2, none, none⟩]⟩, ⟨b!"r", 2, [⟨b!"c", 2, none, none⟩]⟩], none,
        [⟨b!"o", 1, some b!"a", some 1⟩, ⟨b!"u", 1, some b!"b", some 1⟩, ⟨b!"c", 1, some b!"a", some 1⟩]⟩,
      @parses_tree Env.plain _ 100 _ (by decide +kernel), @parses_treeP Env.plain _ 100 _ (by decide +kernel),
      @parses_treeP Env.plain _ 100 _ (by decide +kernel), rfl, rfl, rfl, by decide, ?_, by decide +kernel⟩
    intro o ho t ht
    simp only [List.mem_cons, List.not_mem_nil, or_false] at ho
    rcases ho with rfl | rfl | rfl <;> cases ht
    · exact ⟨_, List.mem_cons_self, .inl rfl⟩
    · exact ⟨_, List.mem_cons_self, .inr rfl⟩
    · exact ⟨_, List.mem_cons_self, .inl rfl⟩
  · have h4 := @returns_run Env.plain HashOrd.id shadowTypes (some shadowObject) 100
      (.err (.semantic (.predArgType ⟨some b!"e", none, b!"r", 2⟩))) (by decide +kernel) (by simp)
    cases @Returns.det Env.plain _ _ _ _ _ h h4

end Verif
