import Verif.Proofs.Moving
import Verif.Props.Pruning

/-! C85: objects can become constants, and constants can become objects. -/

namespace Verif

open Spec

variable [Env] {ord ord' : HashOrd} {f f' g g' : Bytes} {d d' : DomainAST} {p p' : ProblemAST} {cs : List Symbol}

/-- C85: if objects of an accepted problem become constants of the domain, domain and problem stay accepted. -/
theorem C85_promote (hf : Parses f (.domain d)) (hf' : Parses f' (.domain d')) (hg : Parses g (.problem p))
    (hg' : Parses g' (.problem p')) (h : Moved cs (rnDomain id d) (rnProblem id p) (rnDomain id d') (rnProblem id p'))
    (ha : ∃ ws, Returns ord f (some g) (.ok ws)) :
    (∃ ws, Returns ord' f' none (.ok ws)) ∧ ∃ ws, Returns ord' f' (some g') (.ok ws) := by
  rw [returns_problem_iff hf hg, ← domainOk_lines, ← problemOk_lines] at ha
  rw [returns_domain_iff hf', returns_problem_iff hf' hg', ← domainOk_lines, ← problemOk_lines]
  exact ⟨domainOk_moved h ha.1, domainOk_moved h ha.1, ((problemOk_moved h).mp ha.2).1⟩

/-- C85: if constants of the domain become objects of the problem, domain and problem stay accepted exactly if the domain is still
accepted without these constants, their types are known, and no object has the name of one of them. -/
theorem C85_demote (hf : Parses f (.domain d)) (hf' : Parses f' (.domain d')) (hg : Parses g (.problem p))
    (hg' : Parses g' (.problem p')) (h : Moved cs (rnDomain id d) (rnProblem id p) (rnDomain id d') (rnProblem id p'))
    (ha : ∃ ws, Returns ord' f' (some g') (.ok ws)) :
    (∃ ws, Returns ord f (some g) (.ok ws)) ↔
      (∃ ws, Returns ord f none (.ok ws)) ∧ TypesKnown (typesOf d) cs ∧ (p.objects.map (·.name)).Nodup := by
  have e1 : TypesKnown (typesOf d) cs ↔ TypesKnown (typesOf (rnDomain id d)) cs := by
    simp only [TypesKnown, TypeKnown, typesOf, rnDomain]
    cases d.types <;> simp [rnSymbol]
  have e2 : (rnProblem id p).objects.map (·.name) = p.objects.map (·.name) := by simp [rnProblem, rnSymbol]
  rw [returns_problem_iff hf' hg', ← domainOk_lines, ← problemOk_lines] at ha
  rw [returns_problem_iff hf hg, returns_domain_iff hf, ← domainOk_lines, ← problemOk_lines, problemOk_moved h, e1, e2]
  exact ⟨fun h => ⟨h.1, h.2.2⟩, fun h => ⟨h.1, ha.2, h.2⟩⟩

/-- C85: constants that the domain does not use can become objects of the problem and back. -/
theorem C85_unused (hf : Parses f (.domain d)) (hf' : Parses f' (.domain d')) (hg : Parses g (.problem p))
    (hg' : Parses g' (.problem p')) (h : Moved cs (rnDomain id d) (rnProblem id p) (rnDomain id d') (rnProblem id p'))
    (hu : ∀ c ∈ cs, ¬ UsesName (rnDomain id d) c.name) (ht : TypesKnown (typesOf (rnDomain id d)) cs)
    (ho : (p.objects.map (·.name)).Nodup) :
    (∃ ws, Returns ord f (some g) (.ok ws)) ↔ ∃ ws, Returns ord' f' (some g') (.ok ws) := by
  have e2 : (rnProblem id p).objects.map (·.name) = p.objects.map (·.name) := by simp [rnProblem, rnSymbol]
  rw [returns_problem_iff hf hg, returns_problem_iff hf' hg', ← domainOk_lines, ← problemOk_lines, ← domainOk_lines (d := d'),
    ← problemOk_lines (d := d'), problemOk_moved h, e2]
  exact ⟨fun h' => ⟨domainOk_moved h h'.1, h'.2.1⟩, fun h' => ⟨domainOk_moved_back h hu h'.1, h'.2, ht, ho⟩⟩

/-! ### Instance -/

/-- `someTypes` with the object `u` of `someObjects` as a constant. -/
def promotedTypes : Bytes := b!"(define (domain d) (:types a - b) (:constants u c - b) (:predicates (p ?x - a) (q ?x - b)) (:task t :parameters (?x - a))
  (:action m :parameters (?y - b) :precondition (q c))
  (:method k :parameters (?z - a ?w - b) :task (t ?z) :precondition (p ?z) :ordered-subtasks (and (m ?w) (m c))))\n"

def promotedTypesTree : DomainAST :=
  { typesTree b!"b" b!"a" b!"a" b!"b" with
    constants := some [⟨b!"u", 1, some b!"b", some 1⟩, ⟨b!"c", 1, some b!"b", some 1⟩] }

def promotedObjects : Bytes := b!"(define (problem x) (:domain d) (:objects o - a)
  (:htn :parameters (?v - b) :subtasks (and (t o) (m ?v))) (:init (p o) (q u)))\n"

def promotedObjectsTree : ProblemAST := { objectsTree b!"b" b!"b" with objects := [⟨b!"o", 1, some b!"a", some 1⟩] }

/-- What is moved. -/
def promoted : List Symbol := [rnSymbol id ⟨b!"u", 1, some b!"b", some 1⟩]

omit [Env] in
theorem promoted_moved : Moved promoted (rnDomain id (typesTree b!"b" b!"a" b!"a" b!"b")) (rnProblem id (objectsTree b!"b" b!"b"))
    (rnDomain id promotedTypesTree) (rnProblem id promotedObjectsTree) := by
  refine ⟨rfl, rfl, .swap _ _ _, .refl _, by decide +kernel, fun h hh => ?_⟩
  cases hh
  decide +kernel

omit [Env] in
/-- Instance of `C85_promote`, `C85_demote` and `C85_unused`. -/
example : @Parses Env.plain someTypes (.domain (typesTree b!"b" b!"a" b!"a" b!"b")) ∧
    @Parses Env.plain promotedTypes (.domain promotedTypesTree) ∧ @Parses Env.plain someObjects (.problem (objectsTree b!"b" b!"b")) ∧
    @Parses Env.plain promotedObjects (.problem promotedObjectsTree) ∧
    Moved promoted (rnDomain id (typesTree b!"b" b!"a" b!"a" b!"b")) (rnProblem id (objectsTree b!"b" b!"b"))
      (rnDomain id promotedTypesTree) (rnProblem id promotedObjectsTree) ∧
    (∀ c ∈ promoted, ¬ UsesName (rnDomain id (typesTree b!"b" b!"a" b!"a" b!"b")) c.name) ∧
    TypesKnown (typesOf (rnDomain id (typesTree b!"b" b!"a" b!"a" b!"b"))) promoted ∧
    ((objectsTree b!"b" b!"b").objects.map (·.name)).Nodup ∧
    @Returns Env.plain HashOrd.id someTypes (some someObjects) (.ok []) ∧
    @Returns Env.plain HashOrd.id promotedTypes (some promotedObjects) (.ok []) := by
  refine ⟨@parses_tree Env.plain _ 100 _ (by decide +kernel), @parses_tree Env.plain _ 100 _ (by decide +kernel),
    @parses_treeP Env.plain _ 100 _ (by decide +kernel), @parses_treeP Env.plain _ 100 _ (by decide +kernel), promoted_moved,
    fun c hc h => ?_, fun s hs t ht => ?_, by decide +kernel,
    @returns_run Env.plain _ _ _ 100 _ (by decide +kernel) (by simp), @returns_run Env.plain _ _ _ 100 _ (by decide +kernel) (by simp)⟩
  · have := someTypes_names ▸ h.names
    clear h
    revert c
    decide +kernel
  · obtain rfl := List.mem_singleton.mp hs
    cases ht
    exact ⟨_, List.mem_cons_self, .inr rfl⟩

/-! ### The conditions are needed -/

/-- The type of the constant is not declared. -/
def strangeConstant : Bytes := b!"(define (domain d) (:types a) (:constants c - e) (:predicates (q ?x)))\n"

def withoutStrange : Bytes := b!"(define (domain d) (:types a) (:predicates (q ?x)))\n"

def strangeTree (cs : Option (List Symbol)) : DomainAST where
  name := b!"d"
  types := some [⟨b!"a", 1, none, none⟩]
  constants := cs
  requirements := []
  predicates := [⟨b!"q", 1, [⟨b!"x", 1, none, none⟩]⟩]
  tasks := []
  methods := []
  actions := []
  functions := []

def fewObjects : Bytes := b!"(define (problem x) (:domain d) (:objects o - a) (:init))\n"

def strangeObjects : Bytes := b!"(define (problem x) (:domain d) (:objects o - a c - e) (:init))\n"

def fewTree (os : List Symbol) : ProblemAST where
  requirements := []
  initTn := none
  initState := []
  goal := none
  objects := ⟨b!"o", 1, some b!"a", some 1⟩ :: os

omit [Env] in
/-- C85: types of constants are not checked, those of objects are; so a constant that nothing uses cannot become an object if its type
is not declared. -/
theorem C85_type_refuted : ∃ c : Symbol, @Parses Env.plain withoutStrange (.domain (strangeTree none)) ∧
    @Parses Env.plain strangeConstant (.domain (strangeTree (some [c]))) ∧ @Parses Env.plain strangeObjects (.problem (fewTree [c])) ∧
    @Parses Env.plain fewObjects (.problem (fewTree [])) ∧
    Moved [rnSymbol id c] (rnDomain id (strangeTree none)) (rnProblem id (fewTree [c])) (rnDomain id (strangeTree (some [c])))
      (rnProblem id (fewTree [])) ∧
    (∃ ws, @Returns Env.plain HashOrd.id strangeConstant (some fewObjects) (.ok ws)) ∧
    ¬ ∃ ws, @Returns Env.plain HashOrd.id withoutStrange (some strangeObjects) (.ok ws) := by
  refine ⟨⟨b!"c", 1, some b!"e", some 1⟩, @parses_tree Env.plain _ 100 _ (by decide +kernel),
    @parses_tree Env.plain _ 100 _ (by decide +kernel), @parses_treeP Env.plain _ 100 _ (by decide +kernel),
    @parses_treeP Env.plain _ 100 _ (by decide +kernel), ⟨rfl, rfl, .refl _, .refl _, by decide +kernel, fun _ h => nomatch h⟩,
    ⟨[], @returns_run Env.plain _ _ _ 100 _ (by decide +kernel) (by simp)⟩, fun ⟨ws, h⟩ => ?_⟩
  have h4 := @returns_run Env.plain HashOrd.id withoutStrange (some strangeObjects) 100 (.err (.semantic (.undefType ⟨b!"e", 1⟩)))
    (by decide +kernel) (by simp)
  cases @Returns.det Env.plain _ _ _ _ _ h h4

/-- The object `o` has the name of a parameter of the initial task network. -/
def hiddenParameter : Bytes := b!"(define (problem x) (:domain d) (:objects u - b o - a)
  (:htn :parameters (?o - b) :subtasks (and (t o))) (:init (q u)))\n"

def hidingParameter : Bytes := b!"(define (problem x) (:domain d) (:objects u - b)
  (:htn :parameters (?o - b) :subtasks (and (t o))) (:init (q u)))\n"

def hiddenTree (os : List Symbol) : ProblemAST where
  requirements := []
  initTn := some ⟨some [⟨b!"o", 2, some b!"b", some 2⟩], ⟨[⟨none, ⟨b!"t", 2, none, none⟩, [⟨b!"o", 2, none, none⟩]⟩],
    none, .partial_ [], none⟩⟩
  initState := [⟨b!"q", 2, [⟨b!"u", 2, none, none⟩]⟩]
  goal := none
  objects := ⟨b!"u", 1, some b!"b", some 1⟩ :: os

/-- `someTypes` with another constant. -/
def hidingTypes : Bytes := b!"(define (domain d) (:types a - b) (:constants c - b o - a) (:predicates (p ?x - a) (q ?x - b)) (:task t :parameters (?x - a))
  (:action m :parameters (?y - b) :precondition (q c))
  (:method k :parameters (?z - a ?w - b) :task (t ?z) :precondition (p ?z) :ordered-subtasks (and (m ?w) (m c))))\n"

omit [Env] in
/-- C85: objects hide the parameters of the initial task network, constants do not; so an object with the name of a parameter cannot
become a constant. -/
theorem C85_parameter_refuted : ∃ o : Symbol, @Parses Env.plain someTypes (.domain (typesTree b!"b" b!"a" b!"a" b!"b")) ∧
    @Parses Env.plain hidingTypes (.domain { typesTree b!"b" b!"a" b!"a" b!"b" with
      constants := some [⟨b!"c", 1, some b!"b", some 1⟩, o] }) ∧
    @Parses Env.plain hiddenParameter (.problem (hiddenTree [o])) ∧ @Parses Env.plain hidingParameter (.problem (hiddenTree [])) ∧
    (∃ ws, @Returns Env.plain HashOrd.id someTypes (some hiddenParameter) (.ok ws)) ∧
    (∃ ws, @Returns Env.plain HashOrd.id hidingTypes none (.ok ws)) ∧
    ¬ ∃ ws, @Returns Env.plain HashOrd.id hidingTypes (some hidingParameter) (.ok ws) := by
  refine ⟨⟨b!"o", 1, some b!"a", some 1⟩, @parses_tree Env.plain _ 100 _ (by decide +kernel),
    @parses_tree Env.plain _ 100 _ (by decide +kernel), @parses_treeP Env.plain _ 100 _ (by decide +kernel),
    @parses_treeP Env.plain _ 100 _ (by decide +kernel),
    ⟨[], @returns_run Env.plain _ _ _ 100 _ (by decide +kernel) (by simp)⟩,
    ⟨[], @returns_run Env.plain _ _ _ 100 _ (by decide +kernel) (by simp)⟩, fun ⟨ws, h⟩ => ?_⟩
  have h4 := @returns_run Env.plain HashOrd.id hidingTypes (some hidingParameter) 100
    (.err (.semantic (.taskArgType ⟨some b!"a", some b!"b", b!"t", 2⟩))) (by decide +kernel) (by simp)
  cases @Returns.det Env.plain _ _ _ _ _ h h4

/-- The object `c` has the name of a constant. -/
def hiddenConstant : Bytes := b!"(define (problem x) (:domain d) (:objects o - a c - a) (:init (p c)))\n"

def hidingConstant : Bytes := b!"(define (problem x) (:domain d) (:objects o - a) (:init (p c)))\n"

/-- `someTypes` with a constant that is declared twice. -/
def doubleTypes : Bytes := b!"(define (domain d) (:types a - b) (:constants c - b c - a) (:predicates (p ?x - a) (q ?x - b)) (:task t :parameters (?x - a))
  (:action m :parameters (?y - b) :precondition (q c))
  (:method k :parameters (?z - a ?w - b) :task (t ?z) :precondition (p ?z) :ordered-subtasks (and (m ?w) (m c))))\n"

omit [Env] in
/-- C85: objects hide constants; so an object with the name of a constant cannot become another constant. -/
theorem C85_constant_refuted : ∃ o : Symbol, @Parses Env.plain someTypes (.domain (typesTree b!"b" b!"a" b!"a" b!"b")) ∧
    @Parses Env.plain doubleTypes (.domain { typesTree b!"b" b!"a" b!"a" b!"b" with
      constants := some [⟨b!"c", 1, some b!"b", some 1⟩, o] }) ∧
    @Parses Env.plain hiddenConstant (.problem { fewTree [o] with initState := [⟨b!"p", 1, [⟨b!"c", 1, none, none⟩]⟩] }) ∧
    @Parses Env.plain hidingConstant (.problem { fewTree [] with initState := [⟨b!"p", 1, [⟨b!"c", 1, none, none⟩]⟩] }) ∧
    (∃ ws, @Returns Env.plain HashOrd.id someTypes (some hiddenConstant) (.ok ws)) ∧
    (∃ ws, @Returns Env.plain HashOrd.id doubleTypes none (.ok ws)) ∧
    ¬ ∃ ws, @Returns Env.plain HashOrd.id doubleTypes (some hidingConstant) (.ok ws) := by
  refine ⟨⟨b!"c", 1, some b!"a", some 1⟩, @parses_tree Env.plain _ 100 _ (by decide +kernel),
    @parses_tree Env.plain _ 100 _ (by decide +kernel), @parses_treeP Env.plain _ 100 _ (by decide +kernel),
    @parses_treeP Env.plain _ 100 _ (by decide +kernel),
    ⟨[], @returns_run Env.plain _ _ _ 100 _ (by decide +kernel) (by simp)⟩,
    ⟨[], @returns_run Env.plain _ _ _ 100 _ (by decide +kernel) (by simp)⟩, fun ⟨ws, h⟩ => ?_⟩
  have h4 := @returns_run Env.plain HashOrd.id doubleTypes (some hidingConstant) 100
    (.err (.semantic (.predArgType ⟨some b!"a", some b!"b", b!"p", 1⟩))) (by decide +kernel) (by simp)
  cases @Returns.det Env.plain _ _ _ _ _ h h4

end Verif
