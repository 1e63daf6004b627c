import Verif.Proofs.Pruning
import Verif.Proofs.Mentions
import Verif.Props.Types

/-! C80: unused declarations can be removed. -/

namespace Verif

open Spec

variable [Env] {ord ord' : HashOrd} {f f' g g' : Bytes} {d d' : DomainAST} {p p' : ProblemAST}

/-- C80: an accepted domain is still accepted without requirements, methods, and types, constants, predicates, tasks and actions that
the rest does not use. -/
theorem C80_domain (hf : Parses f (.domain d)) (hf' : Parses f' (.domain d')) (h : Pruned (rnDomain id d) (rnDomain id d'))
    (ha : ∃ ws, Returns ord' f' none (.ok ws)) : ∃ ws, Returns ord f none (.ok ws) := by
  rw [returns_domain_iff hf', ← domainOk_lines] at ha
  rw [returns_domain_iff hf, ← domainOk_lines]
  exact domainOk_pruned h ha

/-- C80: an accepted problem is still accepted without declarations of the domain that neither the rest of the domain nor the
problem uses, without facts, the goal, the initial task network, and objects that the rest does not use. -/
theorem C80_problem (hf : Parses f (.domain d)) (hf' : Parses f' (.domain d')) (hg : Parses g (.problem p))
    (hg' : Parses g' (.problem p')) (h : Pruned (rnDomain id d) (rnDomain id d'))
    (hu : UnusedBy (rnProblem id p) (rnDomain id d) (rnDomain id d')) (hp : PrunedP (rnProblem id p) (rnProblem id p'))
    (ha : ∃ ws, Returns ord' f' (some g') (.ok ws)) : ∃ ws, Returns ord f (some g) (.ok ws) := by
  rw [returns_problem_iff hf' hg', ← domainOk_lines, ← problemOk_lines] at ha
  rw [returns_problem_iff hf hg, ← domainOk_lines, ← problemOk_lines]
  exact ⟨domainOk_pruned h ha.1, problemOk_pruned h hu hp ha.2⟩

/-! ### Instance -/

/-- `someTypes` with an additional type, constant, predicate, task, action and two methods. -/
def unusedTypes : Bytes := b!"(define (domain d) (:types e - a a - b) (:constants h - e c - b)
  (:predicates (p ?x - a) (r ?x - e) (q ?x - b)) (:task t :parameters (?x - a)) (:task s :parameters (?x - e))
  (:action m :parameters (?y - b) :precondition (q c)) (:action n :parameters (?y - e) :precondition (r h))
  (:method j :parameters (?z - e) :task (t ?z) :precondition (r ?z) :ordered-subtasks (and (s h)))
  (:method k :parameters (?z - a ?w - b) :task (t ?z) :precondition (p ?z) :ordered-subtasks (and (m ?w) (m c)))
  (:method i :parameters (?z - e) :task (s ?z) :ordered-subtasks (and (n ?z) (t ?z))))\n"

def unusedTypesTree : DomainAST where
  name := b!"d"
  types := some [⟨b!"e", 1, some b!"a", some 1⟩, ⟨b!"a", 1, some b!"b", some 1⟩]
  constants := some [⟨b!"h", 1, some b!"e", some 1⟩, ⟨b!"c", 1, some b!"b", some 1⟩]
  requirements := []
  predicates := [⟨b!"p", 2, [⟨b!"x", 2, some b!"a", some 2⟩]⟩, ⟨b!"r", 2, [⟨b!"x", 2, some b!"e", some 2⟩]⟩,
    ⟨b!"q", 2, [⟨b!"x", 2, some b!"b", some 2⟩]⟩]
  tasks := [⟨b!"t", 2, [⟨b!"x", 2, some b!"a", some 2⟩]⟩, ⟨b!"s", 2, [⟨b!"x", 2, some b!"e", some 2⟩]⟩]
  methods := [
    ⟨⟨b!"j", 4, none, none⟩, ⟨b!"t", 4, none, none⟩, [⟨b!"z", 4, none, none⟩],
      [⟨b!"z", 4, some b!"e", some 4⟩], some (.atom ⟨b!"r", 4, [⟨b!"z", 4, none, none⟩]⟩),
      ⟨[⟨none, ⟨b!"s", 4, none, none⟩, [⟨b!"h", 4, none, none⟩]⟩], none, .total, none⟩⟩,
    ⟨⟨b!"k", 5, none, none⟩, ⟨b!"t", 5, none, none⟩, [⟨b!"z", 5, none, none⟩],
      [⟨b!"z", 5, some b!"a", some 5⟩, ⟨b!"w", 5, some b!"b", some 5⟩], some (.atom ⟨b!"p", 5, [⟨b!"z", 5, none, none⟩]⟩),
      ⟨[⟨none, ⟨b!"m", 5, none, none⟩, [⟨b!"w", 5, none, none⟩]⟩, ⟨none, ⟨b!"m", 5, none, none⟩, [⟨b!"c", 5, none, none⟩]⟩],
        none, .total, none⟩⟩,
    ⟨⟨b!"i", 6, none, none⟩, ⟨b!"s", 6, none, none⟩, [⟨b!"z", 6, none, none⟩], [⟨b!"z", 6, some b!"e", some 6⟩], none,
      ⟨[⟨none, ⟨b!"n", 6, none, none⟩, [⟨b!"z", 6, none, none⟩]⟩, ⟨none, ⟨b!"t", 6, none, none⟩, [⟨b!"z", 6, none, none⟩]⟩],
        none, .total, none⟩⟩]
  actions := [⟨b!"m", 3, [⟨b!"y", 3, some b!"b", some 3⟩], some (.atom ⟨b!"q", 3, [⟨b!"c", 3, none, none⟩]⟩), none⟩,
    ⟨b!"n", 3, [⟨b!"y", 3, some b!"e", some 3⟩], some (.atom ⟨b!"r", 3, [⟨b!"h", 3, none, none⟩]⟩), none⟩]
  functions := []

/-- `someObjects` with an additional object and additional facts. -/
def unusedObjects : Bytes := b!"(define (problem x) (:domain d) (:objects n - e o - a u - b)
  (:htn :parameters (?v - b) :subtasks (and (t o) (m ?v))) (:init (p o) (r n) (q u) (p h)))\n"

def unusedObjectsTree : ProblemAST :=
  { objectsTree b!"b" b!"b" with
    objects := [⟨b!"n", 1, some b!"e", some 1⟩, ⟨b!"o", 1, some b!"a", some 1⟩, ⟨b!"u", 1, some b!"b", some 1⟩]
    initState := [⟨b!"p", 2, [⟨b!"o", 2, none, none⟩]⟩, ⟨b!"r", 2, [⟨b!"n", 2, none, none⟩]⟩,
      ⟨b!"q", 2, [⟨b!"u", 2, none, none⟩]⟩, ⟨b!"p", 2, [⟨b!"h", 2, none, none⟩]⟩] }

omit [Env] in
theorem Spec.UsesName.names {x : Name} (h : UsesName d x) : x ∈ (domainNames d).map Prod.fst := by
  cases h with
  | atom h1 h2 h3 => exact List.mem_map_of_mem (h1.names _ (h2.names _ (predNames_var h3)))
  | task h1 h2 => exact List.mem_map_of_mem ((CallOf.task h1).names.2 _ h2)
  | subtask h1 h2 h3 => exact List.mem_map_of_mem ((CallOf.subtask h1 h2).names.2 _ h3)

omit [Env] in
theorem Spec.UsesPredicate.names {x : Name} (h : UsesPredicate d x) : x ∈ (domainNames d).map Prod.fst := by
  obtain ⟨_, _, a, h1, h2, rfl⟩ := h
  exact List.mem_map_of_mem (h1.names _ (h2.names _ (predNames_self a)))

omit [Env] in
theorem Spec.UsesSubtask.names {x : Name} (h : UsesSubtask d x) : x ∈ (domainNames d).map Prod.fst := by
  obtain ⟨m, h1, s, h2, rfl⟩ := h
  exact List.mem_map_of_mem (CallOf.subtask h1 h2).names.1

omit [Env] in
theorem Spec.HasMethod.names {x : Name} (h : HasMethod d x) : x ∈ (domainNames d).map Prod.fst := by
  obtain ⟨m, h1, rfl⟩ := h
  exact List.mem_map_of_mem (CallOf.task h1).names.1

/-- The types given to symbols in a domain. -/
def givenTypes (d : DomainAST) : List (Option Name) :=
  (typesOf d ++ constantsOf d ++ d.predicates.flatMap (·.vars) ++ d.tasks.flatMap (·.params) ++ d.actions.flatMap (·.params) ++
    d.methods.flatMap (·.params)).map (·.ty)

omit [Env] in
theorem Spec.UsesType.given {x : Name} (h : UsesType d x) : some x ∈ givenTypes d := by
  simp only [givenTypes, List.mem_map, List.mem_append, List.mem_flatMap]
  rcases h with ⟨s, h1, h2⟩ | ⟨s, h1, h2⟩ | ⟨l, h1, s, h2, h3⟩
  · exact ⟨s, by simp [h1], h2⟩
  · exact ⟨s, by simp [h1], h2⟩
  · refine ⟨s, ?_, h3⟩
    cases h1 with
    | predicate h => exact .inl (.inl (.inl (.inr ⟨_, h, h2⟩)))
    | task h => exact .inl (.inl (.inr ⟨_, h, h2⟩))
    | action h => exact .inl (.inr ⟨_, h, h2⟩)
    | method h => exact .inr ⟨_, h, h2⟩

omit [Env] in
theorem someTypes_names : (domainNames (rnDomain id (typesTree b!"b" b!"a" b!"a" b!"b"))).map Prod.fst =
    [b!"a", b!"b", b!"c", b!"b", b!"p", b!"x", b!"a", b!"q", b!"x", b!"b", b!"t", b!"x", b!"a", b!"k", b!"t", b!"z", b!"z", b!"a",
      b!"w", b!"b", b!"p", b!"z", b!"m", b!"w", b!"m", b!"c", b!"m", b!"y", b!"b", b!"q", b!"c"] := by
  simp [domainNames, rnDomain, typesTree, symbolNames, predNames, taskNames, methodNames, actionNames, optNames, formulaNames, htnNames,
    subtaskNames, rnSymbol, rnPredicate, rnTask, rnMethod, rnAction, rnFormula, rnHtn, rnSubtask]

omit [Env] in
theorem someTypes_pruned : Pruned (rnDomain id (typesTree b!"b" b!"a" b!"a" b!"b")) (rnDomain id unusedTypesTree) := by
  refine ⟨.refl _, .drop ⟨fun h => ?_, fun u hu _ => ?_⟩ (.keep .nil), .drop (fun h => ?_) (.keep .nil),
    .keep (.drop (fun h => ?_) (.keep .nil)), .keep (.drop ⟨fun h => ?_, fun h => ?_⟩ .nil), .keep (.drop (fun h => ?_) .nil), ?_⟩
  · have := h.given; revert this; decide +kernel
  · cases hu
    exact ⟨_, List.mem_cons_self, .inl rfl⟩
  · have := someTypes_names ▸ h.names; revert this; decide +kernel
  · have := someTypes_names ▸ h.names; revert this; decide +kernel
  · have := someTypes_names ▸ h.names; revert this; decide +kernel
  · have := someTypes_names ▸ h.names; revert this; decide +kernel
  · have := someTypes_names ▸ h.names; revert this; decide +kernel
  · exact .cons _ (.cons_cons _ (.cons _ .slnil))

omit [Env] in
theorem someObjects_atom {a : Predicate} (h : AtomP (rnProblem id (objectsTree b!"b" b!"b")) a) :
    a ∈ (rnProblem id (objectsTree b!"b" b!"b")).initState := by
  rcases h with h | ⟨f, h, _⟩
  · exact h
  · cases h

omit [Env] in
theorem someObjects_subtask {s : Subtask} (h : SubtaskP (rnProblem id (objectsTree b!"b" b!"b")) s) :
    s ∈ (rnProblem id (objectsTree b!"b" b!"b")).initTn.elim [] (·.tn.subtasks) := by
  obtain ⟨_, h, h1⟩ := h
  rw [h]
  exact h1

omit [Env] in
theorem someObjects_type {x : Name} (h : UsesTypeP (rnProblem id (objectsTree b!"b" b!"b")) x) :
    some x ∈ [some b!"a", some b!"b"] := by
  rcases h with ⟨s, h1, h2⟩ | ⟨t, h1, s, h2, h3⟩
  · rw [← h2]
    clear h2
    revert s
    decide +kernel
  · cases h1
    rw [← h3]
    clear h3
    revert s
    decide +kernel

omit [Env] in
theorem someObjects_name {x : Name} (h : UsesNameP (rnProblem id (objectsTree b!"b" b!"b")) x) : x ∈ [b!"o", b!"u", b!"v"] := by
  rcases h with ⟨a, h1, v, h2, rfl⟩ | ⟨a, h1, v, h2, rfl⟩
  · replace h1 := someObjects_atom h1
    revert v
    revert a
    decide +kernel
  · replace h1 := someObjects_subtask h1
    revert v
    revert a
    decide +kernel

omit [Env] in
/-- Instance of `C80_domain` and `C80_problem`. -/
example : @Parses Env.plain someTypes (.domain (typesTree b!"b" b!"a" b!"a" b!"b")) ∧
    @Parses Env.plain unusedTypes (.domain unusedTypesTree) ∧ @Parses Env.plain someObjects (.problem (objectsTree b!"b" b!"b")) ∧
    @Parses Env.plain unusedObjects (.problem unusedObjectsTree) ∧
    Pruned (rnDomain id (typesTree b!"b" b!"a" b!"a" b!"b")) (rnDomain id unusedTypesTree) ∧
    UnusedBy (rnProblem id (objectsTree b!"b" b!"b")) (rnDomain id (typesTree b!"b" b!"a" b!"a" b!"b")) (rnDomain id unusedTypesTree) ∧
    PrunedP (rnProblem id (objectsTree b!"b" b!"b")) (rnProblem id unusedObjectsTree) ∧
    @Returns Env.plain HashOrd.id unusedTypes (some unusedObjects) (.ok []) := by
  refine ⟨@parses_tree Env.plain _ 100 _ (by decide +kernel), @parses_tree Env.plain _ 100 _ (by decide +kernel),
    @parses_treeP Env.plain _ 100 _ (by decide +kernel), @parses_treeP Env.plain _ 100 _ (by decide +kernel), someTypes_pruned,
    ⟨.drop ⟨fun h => ?_, fun u hu _ => ?_⟩ (.keep .nil), .drop (fun h => ?_) (.keep .nil), .keep (.drop (fun a h => ?_) (.keep .nil)),
      .keep (.drop (fun s h => ?_) .nil), .keep (.drop (fun s h => ?_) .nil)⟩,
    ⟨.drop (fun h => ?_) (.keep (.keep .nil)), by decide +kernel, .inl rfl, .inr rfl⟩,
    @returns_run Env.plain _ _ _ 100 _ (by decide +kernel) (by simp)⟩
  · have := someObjects_type h; revert this; decide +kernel
  · cases hu
    exact ⟨_, List.mem_cons_self, .inl rfl⟩
  · have := someObjects_name h; revert this; decide +kernel
  · have := someObjects_atom h; clear h; revert a; decide +kernel
  · have := someObjects_subtask h; clear h; revert s; decide +kernel
  · have := someObjects_subtask h; clear h; revert s; decide +kernel
  · have := someObjects_name h; revert this; decide +kernel

/-- The type `b` is only known because it is the parent of `a`. -/
def lastMention : Bytes := b!"(define (domain d) (:types a - b e) (:predicates (p ?x - b)))\n"

def noMention : Bytes := b!"(define (domain d) (:types e) (:predicates (p ?x - b)))\n"

def mentionTree (ts : List Symbol) : DomainAST where
  name := b!"d"
  types := some ts
  constants := none
  requirements := []
  predicates := [⟨b!"p", 1, [⟨b!"x", 1, some b!"b", some 1⟩]⟩]
  tasks := []
  methods := []
  actions := []
  functions := []

omit [Env] in
/-- The condition that used types stay known is needed: the type `a` is not used, but removing it makes its parent unknown, so that
the domain is rejected. -/
theorem C80_refuted : ∃ t ts, @Parses Env.plain lastMention (.domain (mentionTree (t :: ts))) ∧
    @Parses Env.plain noMention (.domain (mentionTree ts)) ∧ ¬ UsesType (mentionTree ts) t.name ∧
    (∃ ws, @Returns Env.plain HashOrd.id lastMention none (.ok ws)) ∧ ¬ ∃ ws, @Returns Env.plain HashOrd.id noMention none (.ok ws) := by
  refine ⟨⟨b!"a", 1, some b!"b", some 1⟩, [⟨b!"e", 1, none, none⟩], @parses_tree Env.plain _ 100 _ (by decide +kernel),
    @parses_tree Env.plain _ 100 _ (by decide +kernel), fun h => ?_,
    ⟨[], @returns_run Env.plain _ _ _ 100 _ (by decide +kernel) (by simp)⟩, fun ⟨ws, h⟩ => ?_⟩
  · have := h.given; revert this; decide +kernel
  · have h4 := @returns_run Env.plain HashOrd.id noMention none 100 (.err (.semantic (.undefType ⟨b!"b", 1⟩))) (by decide +kernel) (by simp)
    cases @Returns.det Env.plain _ _ _ _ _ h h4

end Verif
