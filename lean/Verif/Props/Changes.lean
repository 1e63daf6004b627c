import Verif.Proofs.DecEq
import Verif.Proofs.Growth
import Verif.Props.Invariance

/-! How the verdict changes when declarations are moved, added or left out. -/

namespace Verif

open Spec

variable [Env] {ord ord' : HashOrd} {f f' g g' : Bytes} {d d' : DomainAST} {p p' : ProblemAST}

theorem returns_domain_iff (hf : Parses f (.domain d)) : (∃ ws, Returns ord f none (.ok ws)) ↔ DomainOk d := C23_acceptance hf

theorem returns_problem_iff (hf : Parses f (.domain d)) (hg : Parses g (.problem p)) :
    (∃ ws, Returns ord f (some g) (.ok ws)) ↔ DomainOk d ∧ ProblemOk d p := by
  rw [accepts_problem_iff]
  constructor
  · rintro ⟨d2, p2, h1, h2, h3, h4⟩
    cases h1.det hf
    cases h3.det hg
    exact ⟨h2, h4⟩
  · rintro ⟨h1, h2⟩
    exact ⟨d, p, hf, h1, hg, h2⟩

omit [Env] in
theorem domainOk_lines : DomainOk (rnDomain id d) ↔ DomainOk d := domainOk_rn injective_id

omit [Env] in
theorem problemOk_lines : ProblemOk (rnDomain id d) (rnProblem id p) ↔ ProblemOk d p := problemOk_rn injective_id

omit [Env] in
theorem constantsOnce_lines : ConstantsOnce (rnDomain id d) ↔ ConstantsOnce d := by
  unfold ConstantsOnce
  rw [constantsOf_rn, List.map_map]
  rfl

/-- Two files that parse to domains with a decidable relation. -/
theorem parses_pair {n : Nat} {r : DomainAST → DomainAST → Prop} [∀ d d', Decidable (r d d')]
    (h : (match parse n f, parse n f' with | .ok (.domain d), .ok (.domain d') => decide (r d d') | _, _ => false) = true) :
    ∃ d d', Parses f (.domain d) ∧ Parses f' (.domain d') ∧ r d d' := by
  split at h
  · rename_i d d' h1 h2
    exact ⟨d, d', .of_ok h1, .of_ok h2, of_decide_eq_true h⟩
  · cases h

/-- Two files that parse to problems with a decidable relation. -/
theorem parses_pairP {n : Nat} {r : ProblemAST → ProblemAST → Prop} [∀ d d', Decidable (r d d')]
    (h : (match parse n f, parse n f' with | .ok (.problem d), .ok (.problem d') => decide (r d d') | _, _ => false) = true) :
    ∃ d d', Parses f (.problem d) ∧ Parses f' (.problem d') ∧ r d d' := by
  split at h
  · rename_i d d' h1 h2
    exact ⟨d, d', .of_ok h1, .of_ok h2, of_decide_eq_true h⟩
  · cases h

omit [Env] in
instance : Decidable (Rearranged d d') :=
  decidable_of_iff (d.requirements.Perm d'.requirements ∧ (typesOf d).Perm (typesOf d') ∧ (constantsOf d).Perm (constantsOf d') ∧
    d.predicates.Perm d'.predicates ∧ d.tasks.Perm d'.tasks ∧ d.actions.Perm d'.actions ∧ d.methods.Perm d'.methods)
    ⟨fun ⟨a, b, c, d, e, f, g⟩ => ⟨a, b, c, d, e, f, g⟩, fun ⟨a, b, c, d, e, f, g⟩ => ⟨a, b, c, d, e, f, g⟩⟩

omit [Env] in
instance : Decidable (RearrangedP p p') :=
  decidable_of_iff (p.objects.Perm p'.objects ∧ p.initState.Perm p'.initState ∧ p.goal = p'.goal ∧ p.initTn = p'.initTn)
    ⟨fun ⟨a, b, c, d⟩ => ⟨a, b, c, d⟩, fun ⟨a, b, c, d⟩ => ⟨a, b, c, d⟩⟩

omit [Env] in
instance : Decidable (ConstantsOnce d) := inferInstanceAs (Decidable (List.Nodup _))

omit [Env] in
instance : Decidable (Extends d d') :=
  decidable_of_iff ((∀ x ∈ typesOf d, x ∈ typesOf d') ∧ (∀ x ∈ constantsOf d, x ∈ constantsOf d') ∧
    (∀ x ∈ d.predicates, x ∈ d'.predicates) ∧ (∀ x ∈ d.tasks, x ∈ d'.tasks) ∧ (∀ x ∈ d.actions, x ∈ d'.actions) ∧
    (∀ x ∈ d.methods, x ∈ d'.methods) ∧ (∀ a ∈ d'.actions, a ∉ d.actions → ∀ t ∈ d.tasks, t.name ≠ a.name))
    ⟨fun ⟨a, b, c, d, e, f, g⟩ => ⟨a, b, c, d, e, f, g⟩, fun ⟨a, b, c, d, e, f, g⟩ => ⟨a, b, c, d, e, f, g⟩⟩

/-! ### C60: the order of declarations -/

/-- C60: the same declarations in another order are accepted or rejected alike. -/
theorem C60_domain (hf : Parses f (.domain d)) (hf' : Parses f' (.domain d')) (hc : ConstantsOnce d)
    (h : Rearranged (rnDomain id d) (rnDomain id d')) :
    (∃ ws, Returns ord f none (.ok ws)) ↔ ∃ ws, Returns ord' f' none (.ok ws) := by
  rw [returns_domain_iff hf, returns_domain_iff hf', ← domainOk_lines, ← domainOk_lines (d := d')]
  exact domainOk_perm h (constantsOnce_lines.mpr hc)

/-- C60 for problems. -/
theorem C60_problem (hf : Parses f (.domain d)) (hf' : Parses f' (.domain d')) (hg : Parses g (.problem p))
    (hg' : Parses g' (.problem p')) (hc : ConstantsOnce d) (h : Rearranged (rnDomain id d) (rnDomain id d'))
    (hp : RearrangedP (rnProblem id p) (rnProblem id p')) :
    (∃ ws, Returns ord f (some g) (.ok ws)) ↔ ∃ ws, Returns ord' f' (some g') (.ok ws) := by
  rw [returns_problem_iff hf hg, returns_problem_iff hf' hg', ← domainOk_lines, ← domainOk_lines (d := d'), ← problemOk_lines,
    ← problemOk_lines (d := d')]
  exact and_congr (domainOk_perm h (constantsOnce_lines.mpr hc)) (problemOk_perm h (constantsOnce_lines.mpr hc) hp)

omit [Env] in
theorem rearranged_blocks {n n' : Name} {bs bs' : List DBlock} (h : bs.Perm bs') : Rearranged (domainOf n bs) (domainOf n' bs') := by
  refine ⟨h.flatMap_right _, ?_, ?_, h.flatMap_right _, h.flatMap_right _, h.flatMap_right _, h.flatMap_right _⟩
  · simp only [typesOf, domainOf, nonEmpty_getD]; exact h.flatMap_right _
  · simp only [constantsOf, domainOf, nonEmpty_getD]; exact h.flatMap_right _

omit [Env] in
theorem perm_short {α : Type} {l l' : List α} (h : l.Perm l') (hl : l.length ≤ 1) : l = l' := by
  match l, hl with
  | [], _ => exact h.nil_eq
  | [x], _ => exact (List.singleton_perm.mp h).symm ▸ rfl

omit [Env] in
theorem Spec.Once.rn {bs : List PBlock} (h : Once bs) : Once (bs.map (rnPBlock id)) := by
  constructor
  · rw [filterMap_rn PBlock.htn? (rnInitTn id), List.length_map]
    · exact h.htn
    · intro b; cases b <;> simp [rnPBlock, PBlock.htn?]
  · rw [filterMap_rn PBlock.init? (List.map (rnPredicate id)), List.length_map]
    · exact h.init
    · intro b; cases b <;> simp [rnPBlock, PBlock.init?]
  · rw [filterMap_rn PBlock.goal? (rnFormula id), List.length_map]
    · exact h.goal
    · intro b; cases b <;> simp [rnPBlock, PBlock.goal?]

omit [Env] in
theorem rearrangedP_blocks {bs bs' : List PBlock} (ho : Once bs) (h : bs.Perm bs') :
    RearrangedP (problemOf bs) (problemOf bs') := by
  have h1 := perm_short (h.filterMap PBlock.htn?) ho.htn
  have h2 := perm_short (h.filterMap PBlock.init?) ho.init
  have h3 := perm_short (h.filterMap PBlock.goal?) ho.goal
  refine ⟨h.flatMap_right _, ?_, ?_, ?_⟩
  · simp only [problemOf]; rw [h2]
  · simp only [problemOf]; rw [h3]
  · simp only [problemOf]; rw [h1]

/-- C60 on files: the blocks of two domain files, each in any layout, are the same up to their order and lines. -/
theorem C60_domain_blocks {n n' : Name} {bs bs' : List (DBlock × Ending)} {ts ts' more more' : List Tk}
    (h : DomainFile n bs ts) (h' : DomainFile n' bs' ts') (hl : LastOnly bs) (hl' : LastOnly bs')
    (hw : Written (ts ++ more) 1 f) (hw' : Written (ts' ++ more') 1 f')
    (hb : ((bs.map (·.1)).map (rnDBlock id)).Perm ((bs'.map (·.1)).map (rnDBlock id)))
    (hc : ConstantsOnce (domainOf n (bs.map (·.1)))) :
    (∃ ws, Returns ord f none (.ok ws)) ↔ ∃ ws, Returns ord' f' none (.ok ws) := by
  refine C60_domain (C13_domain_partial n bs ts more f h hl hw) (C13_domain_partial n' bs' ts' more' f' h' hl' hw') hc ?_
  rw [domainOf_rn, domainOf_rn]
  exact rearranged_blocks hb

/-- C60 on files, for problems in which no block overrides another one. -/
theorem C60_problem_blocks {n n' : Name} {bs bs' : List (DBlock × Ending)} {cs cs' : List (PBlock × Ending)}
    {ts ts' us us' more more' more2 more2' : List Tk}
    (h : DomainFile n bs ts) (h' : DomainFile n' bs' ts') (hl : LastOnly bs) (hl' : LastOnly bs')
    (hw : Written (ts ++ more) 1 f) (hw' : Written (ts' ++ more') 1 f')
    (hb : ((bs.map (·.1)).map (rnDBlock id)).Perm ((bs'.map (·.1)).map (rnDBlock id)))
    (hc : ConstantsOnce (domainOf n (bs.map (·.1))))
    (k : ProblemFile cs us) (k' : ProblemFile cs' us') (kl : LastOnly cs) (kl' : LastOnly cs')
    (kw : Written (us ++ more2) 1 g) (kw' : Written (us' ++ more2') 1 g')
    (kb : ((cs.map (·.1)).map (rnPBlock id)).Perm ((cs'.map (·.1)).map (rnPBlock id))) (ko : Once (cs.map (·.1))) :
    (∃ ws, Returns ord f (some g) (.ok ws)) ↔ ∃ ws, Returns ord' f' (some g') (.ok ws) := by
  refine C60_problem (C13_domain_partial n bs ts more f h hl hw) (C13_domain_partial n' bs' ts' more' f' h' hl' hw')
    (C14_problem_partial cs us more2 g k kl kw) (C14_problem_partial cs' us' more2' g' k' kl' kw') hc ?_ ?_
  · rw [domainOf_rn, domainOf_rn]
    exact rearranged_blocks hb
  · rw [problemOf_rn, problemOf_rn]
    exact rearrangedP_blocks ko.rn kb

/-- Declarations before their uses. -/
def declaredFirst : Bytes := b!"(define (domain d) (:types a - b) (:constants c - a e - b) (:predicates (p ?x - b) (q)) (:task t :parameters (?x - a))
  (:action m :parameters (?y - a) :precondition (p ?y)) (:action n :parameters ())
  (:method k :parameters () :task (t c) :ordered-subtasks (and (m c) (n))))\n"

/-- Declarations after their uses. -/
def declaredLast : Bytes := b!"(define (domain d) (:method k :parameters () :task (t c) :ordered-subtasks (and (m c) (n)))
  (:action n :parameters ()) (:task t :parameters (?x - a)) (:action m :parameters (?y - a) :precondition (p ?y))
  (:predicates (q)) (:constants e - b c - a) (:predicates (p ?x - b)) (:types a - b))\n"

/-- Instance of `C60_domain`. -/
example : ∃ d d', @Parses Env.plain declaredFirst (.domain d) ∧ @Parses Env.plain declaredLast (.domain d') ∧
    (ConstantsOnce d ∧ Rearranged (rnDomain id d) (rnDomain id d')) ∧
    ∃ ws, @Returns Env.plain HashOrd.id declaredFirst none (.ok ws) := by
  obtain ⟨d, d', h1, h2, h3⟩ := @parses_pair Env.plain declaredFirst declaredLast 200
    (fun d d' => ConstantsOnce d ∧ Rearranged (rnDomain id d) (rnDomain id d')) _ (by decide +kernel)
  exact ⟨d, d', h1, h2, h3, _, @returns_run Env.plain _ _ _ 200 (.ok []) (by decide +kernel) (by simp)⟩

def objectsFirst : Bytes := b!"(define (problem x) (:domain d) (:objects o - a u - b) (:init (p o) (q)) (:htn :subtasks (and (t o))))\n"

def objectsLast : Bytes := b!"(define (problem x) (:domain d) (:htn :subtasks (and (t o))) (:objects u - b)
  (:init (q) (p o)) (:objects o - a))\n"

/-- Instance of `C60_problem`. -/
example : ∃ p p', @Parses Env.plain objectsFirst (.problem p) ∧ @Parses Env.plain objectsLast (.problem p') ∧
    RearrangedP (rnProblem id p) (rnProblem id p') ∧
    ∃ ws, @Returns Env.plain HashOrd.id declaredFirst (some objectsFirst) (.ok ws) := by
  obtain ⟨d, d', h1, h2, h3⟩ := @parses_pairP Env.plain objectsFirst objectsLast 200
    (fun d d' => RearrangedP (rnProblem id d) (rnProblem id d')) _ (by decide +kernel)
  exact ⟨d, d', h1, h2, h3, _, @returns_run Env.plain _ _ _ 200 (.ok []) (by decide +kernel) (by simp)⟩

/-- A constant declared twice, first with the type that is needed. -/
def goodFirst : Bytes := b!"(define (domain d) (:types a b) (:constants c - a c - b) (:predicates (p ?x - a)) (:action m :parameters () :precondition (p c)))\n"

def badFirst : Bytes := b!"(define (domain d) (:types a b) (:constants c - b c - a) (:predicates (p ?x - a)) (:action m :parameters () :precondition (p c)))\n"

omit [Env] in
/-- The order matters if a constant is declared twice: duplicates are not reported, and the first declaration counts. -/
theorem C60_refuted : ∃ d d', @Parses Env.plain goodFirst (.domain d) ∧ @Parses Env.plain badFirst (.domain d') ∧
    Rearranged (rnDomain id d) (rnDomain id d') ∧ (∃ ws, @Returns Env.plain HashOrd.id goodFirst none (.ok ws)) ∧
    ¬ ∃ ws, @Returns Env.plain HashOrd.id badFirst none (.ok ws) := by
  obtain ⟨d, d', h1, h2, h3⟩ := @parses_pair Env.plain goodFirst badFirst 200
    (fun d d' => Rearranged (rnDomain id d) (rnDomain id d')) _ (by decide +kernel)
  refine ⟨d, d', h1, h2, h3, ⟨_, @returns_run Env.plain _ _ _ 200 (.ok []) (by decide +kernel) (by simp)⟩, fun ⟨ws, h⟩ => ?_⟩
  have h4 := @returns_run Env.plain HashOrd.id badFirst none 200
    (.err (.semantic (.predArgType ⟨some b!"a", some b!"b", b!"c", 1⟩))) (by decide +kernel) (by simp)
  cases @Returns.det Env.plain _ _ _ _ _ h h4

/-! ### C61: parts without effect -/

/-- C61: the name of a domain, its requirements (unless one is repeated), its functions and its variable constraints have no
effect on the verdict. -/
theorem C61_domain (hf : Parses f (.domain d)) (hf' : Parses f' (.domain d')) (h : coreDomain d = coreDomain d')
    (hr : d.requirements.Nodup ↔ d'.requirements.Nodup) :
    (∃ ws, Returns ord f none (.ok ws)) ↔ ∃ ws, Returns ord' f' none (.ok ws) := by
  rw [returns_domain_iff hf, returns_domain_iff hf', domainOk_core, domainOk_core (d := d'), h, hr]

/-- C61 for problems: besides, the requirements and the variable constraints of the problem, its name and the name of the
domain in the problem have no effect. -/
theorem C61_problem (hf : Parses f (.domain d)) (hf' : Parses f' (.domain d')) (hg : Parses g (.problem p))
    (hg' : Parses g' (.problem p')) (h : coreDomain d = coreDomain d') (hr : d.requirements.Nodup ↔ d'.requirements.Nodup)
    (hp : coreProblem p = coreProblem p') :
    (∃ ws, Returns ord f (some g) (.ok ws)) ↔ ∃ ws, Returns ord' f' (some g') (.ok ws) := by
  rw [returns_problem_iff hf hg, returns_problem_iff hf' hg', domainOk_core, domainOk_core (d := d'), problemOk_core,
    problemOk_core (d := d'), h, hr, hp]

/-- A domain with constraints, functions, and undeclared requirements. -/
def decorated : Bytes := b!"(define (domain d) (:requirements :typing :hierarchy) (:predicates (p ?x) (q)) (:functions (cost ?u - nonsense)) (:task t :parameters (?x))
  (:action m :parameters (?y) :precondition (p ?y))
  (:method k :parameters (?z) :task (t ?z) :subtasks (and (m ?z)) :constraints (and (= ?z ?w))))\n"

def undecorated : Bytes := b!"(define (domain e) (:predicates (p ?x) (q)) (:task t :parameters (?x))
  (:action m :parameters (?y) :precondition (p ?y))
  (:method k :parameters (?z) :task (t ?z) :subtasks (and (m ?z))))\n"

/-- Instance of `C61_domain`: the constraint even mentions an undeclared variable, and the function an undeclared type. -/
example : ∃ d d', @Parses Env.plain decorated (.domain d) ∧ @Parses Env.plain undecorated (.domain d') ∧
    (coreDomain d = coreDomain d' ∧ d.requirements.Nodup ∧ d'.requirements.Nodup ∧ d.methods ≠ d'.methods ∧ d.functions ≠ d'.functions) ∧
    ∃ ws, @Returns Env.plain HashOrd.id decorated none (.ok ws) := by
  obtain ⟨d, d', h1, h2, h3⟩ := @parses_pair Env.plain decorated undecorated 200
    (fun d d' => coreDomain d = coreDomain d' ∧ d.requirements.Nodup ∧ d'.requirements.Nodup ∧ d.methods ≠ d'.methods ∧ d.functions ≠ d'.functions)
    _ (by decide +kernel)
  exact ⟨d, d', h1, h2, h3, _, @returns_run Env.plain _ _ _ 200 (.ok []) (by decide +kernel) (by simp)⟩

/-! ### C62: additions -/

/-- C62: a domain that extends an accepted one is accepted exactly if its additional declarations are fine: the existing
actions and methods need not be checked again. -/
theorem C62_domain (hf : Parses f (.domain d)) (hf' : Parses f' (.domain d')) (ha : ∃ ws, Returns ord f none (.ok ws))
    (hc : ConstantsOnce d') (h : Extends (rnDomain id d) (rnDomain id d')) :
    (∃ ws, Returns ord' f' none (.ok ws)) ↔ Additions (rnDomain id d) (rnDomain id d') := by
  rw [returns_domain_iff hf', ← domainOk_lines]
  exact domainOk_extends h (constantsOnce_lines.mpr hc) (domainOk_lines.mpr ((returns_domain_iff hf).mp ha))

/-- C62: every problem accepted for a domain is accepted for each accepted extension of it. -/
theorem C62_problem (hf : Parses f (.domain d)) (hf' : Parses f' (.domain d')) (ha : ∃ ws, Returns ord f (some g) (.ok ws))
    (hc : ConstantsOnce d') (h : Extends (rnDomain id d) (rnDomain id d')) (hd : ∃ ws, Returns ord' f' none (.ok ws)) :
    ∃ ws, Returns ord' f' (some g) (.ok ws) := by
  obtain ⟨d2, p, h1, h2, h3, h4⟩ := accepts_problem_iff.mp ha
  cases h1.det hf
  refine (returns_problem_iff hf' h3).mpr ⟨(returns_domain_iff hf').mp hd, ?_⟩
  rw [← problemOk_lines] at h4 ⊢
  exact problemOk_mono h (constantsOnce_lines.mpr hc) h4

/-- `declaredFirst` with an additional type, predicate, action and method. -/
def enlarged : Bytes := b!"(define (domain d) (:types a - b f - a) (:constants c - a e - b g - f) (:predicates (p ?x - b) (q) (r ?x - f)) (:task t :parameters (?x - a))
  (:action m :parameters (?y - a) :precondition (p ?y)) (:action n :parameters ())
  (:action o :parameters (?y - f) :precondition (and (p ?y) (r ?y)))
  (:method k :parameters () :task (t c) :ordered-subtasks (and (m c) (n)))
  (:method l :parameters () :task (t g) :ordered-subtasks (and (m c) (o g))))\n"

/-- Instance of `C62_domain` and `C62_problem`. -/
example : ∃ d d', @Parses Env.plain declaredFirst (.domain d) ∧ @Parses Env.plain enlarged (.domain d') ∧
    (ConstantsOnce d' ∧ Extends (rnDomain id d) (rnDomain id d')) ∧
    (∃ ws, @Returns Env.plain HashOrd.id declaredFirst (some objectsFirst) (.ok ws)) ∧
    (∃ ws, @Returns Env.plain HashOrd.id enlarged none (.ok ws)) := by
  obtain ⟨d, d', h1, h2, h3⟩ := @parses_pair Env.plain declaredFirst enlarged 200
    (fun d d' => ConstantsOnce d' ∧ Extends (rnDomain id d) (rnDomain id d')) _ (by decide +kernel)
  exact ⟨d, d', h1, h2, h3, ⟨_, @returns_run Env.plain _ _ _ 200 (.ok []) (by decide +kernel) (by simp)⟩,
    ⟨_, @returns_run Env.plain _ _ _ 200 (.ok []) (by decide +kernel) (by simp)⟩⟩

/-- `unshadowed` with an additional action that has the name of the task. -/
def shadowed : Bytes := b!"(define (domain d) (:task t :parameters (?x)) (:task u :parameters ()) (:action t :parameters ())
  (:method k :parameters (?y) :task (u) :ordered-subtasks (and (t ?y))))\n"

def unshadowed : Bytes := b!"(define (domain d) (:task t :parameters (?x)) (:task u :parameters ())
  (:method k :parameters (?y) :task (u) :ordered-subtasks (and (t ?y))))\n"

omit [Env] in
/-- The condition on new actions is needed: with a new action that has the name of a task, an existing method is rejected,
although all names are distinct within each kind and the new action by itself is fine. -/
theorem C62_refuted : ∃ d d', @Parses Env.plain unshadowed (.domain d) ∧ @Parses Env.plain shadowed (.domain d') ∧
    (rnDomain id d).actions = [] ∧ (rnDomain id d').actions = [⟨b!"t", 0, [], none, none⟩] ∧
    (rnDomain id d).tasks = (rnDomain id d').tasks ∧ (rnDomain id d).methods = (rnDomain id d').methods ∧
    (∃ ws, @Returns Env.plain HashOrd.id unshadowed none (.ok ws)) ∧
    ¬ ∃ ws, @Returns Env.plain HashOrd.id shadowed none (.ok ws) := by
  obtain ⟨d, d', h1, h2, h3, h4, h5, h6⟩ := @parses_pair Env.plain unshadowed shadowed 200
    (fun d d' => (rnDomain id d).actions = [] ∧ (rnDomain id d').actions = [⟨b!"t", 0, [], none, none⟩] ∧
      (rnDomain id d).tasks = (rnDomain id d').tasks ∧ (rnDomain id d).methods = (rnDomain id d').methods) _ (by decide +kernel)
  refine ⟨d, d', h1, h2, h3, h4, h5, h6,
    ⟨_, @returns_run Env.plain _ _ _ 200 (.ok [⟨b!"t", 1⟩, ⟨b!"u", 1⟩]) (by decide +kernel) (by simp)⟩, fun ⟨ws, h⟩ => ?_⟩
  have h4 := @returns_run Env.plain HashOrd.id shadowed none 200
    (.err (.semantic (.taskArity ⟨b!"t", 0, 1, 2⟩))) (by decide +kernel) (by simp)
  cases @Returns.det Env.plain _ _ _ _ _ h h4

end Verif
