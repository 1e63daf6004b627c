import Verif.Proofs.Untyping
import Verif.Props.Changes
import Verif.Props.Faults
import Verif.Props.Skeleton

/-! C100: removing all types from files. -/

namespace Verif

open Spec

variable [Env] {ord ord' : HashOrd} {f f' g g' : Bytes} {d d' : DomainAST} {p p' : ProblemAST}

omit [Env] in
theorem domainOk_untyped (h : rnDomain id d' = rnDomain id (utDomain d)) : DomainOk d' ↔ DomainFrame d := by
  rw [← domainOk_lines, h, domainOk_lines, domainOk_ut]

omit [Env] in
theorem problemOk_untyped (h : rnDomain id d' = rnDomain id (utDomain d)) (hp : rnProblem id p' = rnProblem id (utProblem p)) :
    ProblemOk d' p' ↔ ProblemFrame d p := by
  rw [← problemOk_lines, h, hp, problemOk_lines, problemOk_ut]

omit [Env] in
theorem skeleton_ut (d : DomainAST) : skeleton (utDomain d) = skeleton d := by
  have (h : HTN) : orderOnly (utHtn h) = orderOnly h := by
    rcases h with ⟨s, q, _ | os, c⟩ <;> simp [orderOnly, utHtn, utSubtask, subtaskOnly, Function.comp_def]
  simp [skeleton, utDomain, utTask, utAction, utMethod, methodOnly, this, Function.comp_def]

/-- C100: a domain file from which all types are removed is accepted exactly if the domain is well-formed except for types. -/
theorem C100_exact (hf' : Parses f' (.domain d')) (h : rnDomain id d' = rnDomain id (utDomain d)) :
    (∃ ws, Returns ord' f' none (.ok ws)) ↔ DomainFrame d := by
  rw [returns_domain_iff hf', domainOk_untyped h]

/-- C100: if a domain file is accepted, then it is still accepted when all types are removed, with warnings about the same
tasks. -/
theorem C100_domain (hf : Parses f (.domain d)) (hf' : Parses f' (.domain d')) (h : rnDomain id d' = rnDomain id (utDomain d))
    {ws : List Warning} (ha : Returns ord f none (.ok ws)) :
    ∃ ws', Returns ord f' none (.ok ws') ∧ ws'.map (·.symbol) = ws.map (·.symbol) := by
  obtain ⟨ws', h1⟩ := (C100_exact (ord' := ord) hf' h).mpr ((returns_domain_iff hf).mp ⟨ws, ha⟩).frame
  refine ⟨ws', h1, C82_warnings hf' hf ?_ h1 ha⟩
  rw [← skeleton_rn (d := d'), h, skeleton_rn, skeleton_ut]

/-- C100: the metadata does not change when all types are removed. -/
theorem C100_metadata (hf : Parses f (.domain d)) (hf' : Parses f' (.domain d')) (h : rnDomain id d' = rnDomain id (utDomain d))
    {md : MetaData} : Metadata ord f md ↔ Metadata ord f' md :=
  C82_metadata hf hf' (by rw [← skeleton_rn (d := d'), h, skeleton_rn, skeleton_ut])

/-- C100: if a domain file is accepted without its types, then with them it is accepted or an error about types is reported. -/
theorem C100_only_types (hf : Parses f (.domain d)) (hf' : Parses f' (.domain d')) (h : rnDomain id d' = rnDomain id (utDomain d))
    (ha : ∃ ws, Returns ord' f' none (.ok ws)) :
    (∃ ws, Returns ord f none (.ok ws)) ∨ ∃ se, Returns ord f none (.err (.semantic se)) ∧ AboutTypes se := by
  have hs := (C100_exact hf' h).mp ha
  rcases returns_none (ord := ord) hf with ⟨ws, _, h1⟩ | ⟨e, hc, h1⟩ | ⟨x, hc, _⟩
  · exact .inl ⟨ws, h1⟩
  · obtain ⟨se, rfl, hr⟩ := checkDomain_report hc
    exact .inr ⟨se, h1 none, report_types hs hr⟩
  · obtain ⟨_, l, fm, h2, h3⟩ := checkDomain_panic (parsed_positioned hf) hc
    exact absurd h3 (frame_formula hs h2).noExists

/-- C100: every other error stays one, so a domain file for which another error is reported, or for which the analyser
panics, is not accepted without its types either. -/
theorem C100_other (hf : Parses f (.domain d)) (hf' : Parses f' (.domain d')) (h : rnDomain id d' = rnDomain id (utDomain d))
    {r : R (List Warning)} (hr : Returns ord f none r) (hn : ∀ ws, r ≠ .ok ws)
    (ht : ∀ se, AboutTypes se → r ≠ .err (.semantic se)) (ws' : List Warning) : ¬ Returns ord' f' none (.ok ws') := by
  intro ha
  rcases C100_only_types (ord := ord) hf hf' h ⟨ws', ha⟩ with ⟨ws, h1⟩ | ⟨se, h1, h2⟩
  · exact hn ws (hr.det h1)
  · exact ht se h2 (hr.det h1)

/-- C100: the same for problems: accepted without types exactly if well-formed except for types. -/
theorem C100_problem_exact (hf' : Parses f' (.domain d')) (hg' : Parses g' (.problem p'))
    (h : rnDomain id d' = rnDomain id (utDomain d)) (hp : rnProblem id p' = rnProblem id (utProblem p)) :
    (∃ ws, Returns ord' f' (some g') (.ok ws)) ↔ DomainFrame d ∧ ProblemFrame d p := by
  rw [returns_problem_iff hf' hg', domainOk_untyped h, problemOk_untyped h hp]

/-- C100: accepted problem files are accepted without types too, with warnings about the same tasks. -/
theorem C100_problem (hf : Parses f (.domain d)) (hf' : Parses f' (.domain d')) (hg : Parses g (.problem p))
    (hg' : Parses g' (.problem p')) (h : rnDomain id d' = rnDomain id (utDomain d))
    (hp : rnProblem id p' = rnProblem id (utProblem p)) {ws : List Warning} (ha : Returns ord f (some g) (.ok ws)) :
    ∃ ws', Returns ord f' (some g') (.ok ws') ∧ ws'.map (·.symbol) = ws.map (·.symbol) := by
  obtain ⟨h1, h2⟩ := (returns_ok_some hf hg).mp ha
  obtain ⟨ws', h3, h4⟩ := C100_domain hf hf' h ((returns_ok_none hf).mpr h1)
  exact ⟨ws', (returns_ok_some hf' hg').mpr ⟨(returns_ok_none hf').mp h3, (problemOk_untyped h hp).mpr h2.frame⟩, h4⟩

/-- C100: if a problem file is accepted with its domain file when the types are removed from both, then with the types they
are accepted or an error about types is reported. -/
theorem C100_problem_only_types (hf : Parses f (.domain d)) (hf' : Parses f' (.domain d')) (hg : Parses g (.problem p))
    (hg' : Parses g' (.problem p')) (h : rnDomain id d' = rnDomain id (utDomain d))
    (hp : rnProblem id p' = rnProblem id (utProblem p)) (ha : ∃ ws, Returns ord' f' (some g') (.ok ws)) :
    (∃ ws, Returns ord f (some g) (.ok ws)) ∨ ∃ se, Returns ord f (some g) (.err (.semantic se)) ∧ AboutTypes se := by
  obtain ⟨hs, hps⟩ := (C100_problem_exact hf' hg' h hp).mp ha
  rcases returns_none (ord := ord) hf with ⟨ws, hac, h1⟩ | ⟨e, hc, h1⟩ | ⟨x, hc, _⟩
  · have h2 := returns_of_accepts hf hg hac
    have hd := (returns_domain_iff hf).mp ⟨ws, h1⟩
    cases hv : verifyProblem (tableOf ws d) p with
    | ok u => rw [hv] at h2; exact .inl ⟨u, h2⟩
    | err e =>
      rw [hv] at h2
      obtain ⟨se, rfl, hr⟩ := verifyProblem_report hd hv
      exact .inr ⟨se, h2, report_typesP hs hps hr⟩
    | panic x => exact absurd hv (verifyProblem_nopanic _ (parsed_positionedP hg) x)
    | timeout => exact absurd hv (verifyProblem_timeout _)
  · obtain ⟨se, rfl, hr⟩ := checkDomain_report hc
    exact .inr ⟨se, h1 _, report_types hs hr⟩
  · obtain ⟨_, l, fm, h2, h3⟩ := checkDomain_panic (parsed_positioned hf) hc
    exact absurd h3 (frame_formula hs h2).noExists

/-! ### Instances -/

def typedDomain : Bytes := b!"(define (domain d) (:types a c - b) (:constants k - a) (:predicates (p ?x - b ?y - a))
 (:task t :parameters (?x - b)) (:task u :parameters ())
 (:action m :parameters (?x - a) :precondition (and (p k ?x) (forall (?z - c) (p ?z k))) :effect (not (p ?x ?x)))
 (:method n :parameters (?x - c ?y - a) :task (t ?x) :precondition (p ?x ?y) :ordered-subtasks (and (m ?y) (t ?x))))\n"

/-- As `typedDomain`, with a wrong type of the parameter `?y` of the method. -/
def mistypedDomain : Bytes := b!"(define (domain d) (:types a c - b) (:constants k - a) (:predicates (p ?x - b ?y - a))
 (:task t :parameters (?x - b)) (:task u :parameters ())
 (:action m :parameters (?x - a) :precondition (and (p k ?x) (forall (?z - c) (p ?z k))) :effect (not (p ?x ?x)))
 (:method n :parameters (?x - c ?y - c) :task (t ?x) :precondition (p ?x ?y) :ordered-subtasks (and (m ?y) (t ?x))))\n"

/-- As `typedDomain`, without the type of the parameter `?y` of the method only. -/
def partlyTyped : Bytes := b!"(define (domain d) (:types a c - b) (:constants k - a) (:predicates (p ?x - b ?y - a))
 (:task t :parameters (?x - b)) (:task u :parameters ())
 (:action m :parameters (?x - a) :precondition (and (p k ?x) (forall (?z - c) (p ?z k))) :effect (not (p ?x ?x)))
 (:method n :parameters (?x - c ?y) :task (t ?x) :precondition (p ?x ?y) :ordered-subtasks (and (m ?y) (t ?x))))\n"

def typelessDomain : Bytes := b!"(define (domain d) (:constants k) (:predicates (p ?x ?y)) (:task t :parameters (?x))
 (:task u :parameters ())
 (:action m :parameters (?x) :precondition (and (p k ?x) (forall (?z) (p ?z k))) :effect (not (p ?x ?x)))
 (:method n :parameters (?x ?y) :task (t ?x) :precondition (p ?x ?y) :ordered-subtasks (and (m ?y) (t ?x))))\n"

def typedProblem : Bytes := b!"(define (problem q) (domain d) (:objects i - c j - a)
 (:htn :parameters (?v - a) :ordered-subtasks (and (m ?v) (t i) (m k))) (:init (p i j) (p k k)) (:goal (p j k)))\n"

/-- As `typedProblem`, with a fact whose arguments are swapped. -/
def mistypedProblem : Bytes := b!"(define (problem q) (domain d) (:objects i - c j - a)
 (:htn :parameters (?v - a) :ordered-subtasks (and (m ?v) (t i) (m k))) (:init (p j i) (p k k)) (:goal (p j k)))\n"

def typelessProblem : Bytes := b!"(define (problem q) (domain d) (:objects i j)
 (:htn :parameters (?v) :ordered-subtasks (and (m ?v) (t i) (m k)))\n (:init (p i j) (p k k)) (:goal (p j k)))\n"

/-- Instance: all types of an accepted domain and problem are removed; both are accepted with a warning about `u`. -/
example : (∃ d d', @Parses Env.plain typedDomain (.domain d) ∧ @Parses Env.plain typelessDomain (.domain d') ∧
      rnDomain id d' = rnDomain id (utDomain d)) ∧
    (∃ p p', @Parses Env.plain typedProblem (.problem p) ∧ @Parses Env.plain typelessProblem (.problem p') ∧
      rnProblem id p' = rnProblem id (utProblem p)) ∧
    @Returns Env.plain HashOrd.id typedDomain none (.ok [⟨b!"u", 2⟩]) ∧
    @Returns Env.plain HashOrd.id typedDomain (some typedProblem) (.ok [⟨b!"u", 2⟩]) :=
  let _ := Env.plain
  ⟨parses_pair (n := 400) (by decide +kernel), parses_pairP (n := 400) (by decide +kernel),
    returns_run (n := 400) (by decide +kernel) (by decide), returns_run (n := 400) (by decide +kernel) (by decide)⟩

/-- Instance: the untyped files are also those of a domain and a problem with type errors. -/
example : (∃ d d', @Parses Env.plain mistypedDomain (.domain d) ∧ @Parses Env.plain typelessDomain (.domain d') ∧
      rnDomain id d' = rnDomain id (utDomain d)) ∧
    @Returns Env.plain HashOrd.id mistypedDomain none (.err (.semantic (.predArgType ⟨some b!"a", some b!"c", b!"y", 4⟩))) ∧
    @Returns Env.plain HashOrd.id typelessDomain none (.ok [⟨b!"u", 2⟩]) ∧
    @Returns Env.plain HashOrd.id typedDomain (some mistypedProblem)
      (.err (.semantic (.predArgType ⟨some b!"a", none, b!"p", 2⟩))) :=
  let _ := Env.plain
  ⟨parses_pair (n := 400) (by decide +kernel), returns_run (n := 400) (by decide +kernel) (by decide),
    returns_run (n := 400) (by decide +kernel) (by decide), returns_run (n := 400) (by decide +kernel) (by decide)⟩

omit [Env] in
/-- All types have to be removed: an accepted domain can be rejected when a single type is removed. -/
theorem C100_partly : @Returns Env.plain HashOrd.id typedDomain none (.ok [⟨b!"u", 2⟩]) ∧
    @Returns Env.plain HashOrd.id partlyTyped none (.err (.semantic (.predArgType ⟨some b!"a", none, b!"y", 4⟩))) :=
  let _ := Env.plain
  ⟨returns_run (n := 400) (by decide +kernel) (by decide), returns_run (n := 400) (by decide +kernel) (by decide)⟩

end Verif
