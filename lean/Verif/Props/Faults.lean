import Verif.Props.Decomposition
import Verif.Proofs.Faults

/-!
C75: which semantic error is reported.  `Spec/Faults.lean` lists what is looked at, in order, and what each check finds in
terms of the declarations; `verify` reports the first finding.
-/

namespace Verif

open Spec

variable [Env] {ord : HashOrd} {f g : Bytes} {prob : Option Bytes} {d : DomainAST} {p : ProblemAST}

theorem parsed_positioned (hf : Parses f (.domain d)) : Positioned d := by
  obtain ⟨_, h1, _⟩ := (C45_grammar f _).mp hf
  exact FileText.positioned h1

theorem parsed_positionedP (hg : Parses g (.problem p)) : PositionedP p := by
  obtain ⟨_, h1, _⟩ := (C45_grammar g _).mp hg
  exact FileText.positionedP h1

/-- C75 for domains: a semantic error is reported exactly if it is the first finding. -/
theorem C75_domain (hf : Parses f (.domain d)) (e : SemErr) :
    Returns ord f none (.err (.semantic e)) ↔ FirstFinding (domainChecks d) (.error e) := by
  rw [returns_err_none hf]
  exact (checkDomain_meets (parsed_positioned hf)).err e

/-- C75 for domains with a problem: the checks of the problem come after those of the domain. -/
theorem C75_problem (hf : Parses f (.domain d)) (hg : Parses g (.problem p)) (e : SemErr) :
    Returns ord f (some g) (.err (.semantic e)) ↔ FirstFinding (domainChecks d ++ problemChecks d p) (.error e) := by
  have hm := checkDomain_meets (ord := ord) (parsed_positioned hf)
  rw [returns_err_some hf hg, firstFinding_append, hm.err e]
  refine or_congr_right ⟨?_, ?_⟩
  · rintro ⟨ws, hac, h⟩
    exact ⟨hm.ok_of (checked_of_accepts hac), ((verifyProblem_meets (accepts_iff.mp ⟨ws, hac⟩) (parsed_positionedP hg)).err e).mp h⟩
  · rintro ⟨h1, h2⟩
    obtain ⟨_, hok⟩ := hm.ok.mpr h1
    have hd := (checkDomain_ok ord d).mp hok
    obtain ⟨ws, hac⟩ := accepts_iff.mpr hd
    exact ⟨ws, hac, ((verifyProblem_meets hd (parsed_positionedP hg)).err e).mpr h2⟩

/-- C75: a finding in the domain is reported whatever the problem file contains, even if it cannot be parsed. -/
theorem C75_domain_first (hf : Parses f (.domain d)) (e : SemErr) (h : FirstFinding (domainChecks d) (.error e)) :
    Returns ord f prob (.err (.semantic e)) :=
  returns_of_err hf (((checkDomain_meets (parsed_positioned hf)).err e).mpr h)

/-- C75: `verify` accepts exactly if no check finds anything. -/
theorem C75_accepted (hf : Parses f (.domain d)) :
    ((∃ ws, Returns ord f none (.ok ws)) ↔ ∀ c ∈ domainChecks d, Passes c) ∧
    ∀ {g p}, Parses g (.problem p) →
      ((∃ ws, Returns ord f (some g) (.ok ws)) ↔ ∀ c ∈ domainChecks d ++ problemChecks d p, Passes c) := by
  have hm := checkDomain_meets (ord := ord) (parsed_positioned hf)
  have h1 : DomainOk d ↔ ∀ c ∈ domainChecks d, Passes c := by
    rw [← hm.ok, ← checkDomain_ok ord d]
    exact ⟨fun h => ⟨(), h⟩, fun ⟨_, h⟩ => h⟩
  refine ⟨by simp only [returns_ok_none hf]; rw [← h1]; exact accepts_iff, fun hg => ?_⟩
  simp only [returns_ok_some hf hg]
  constructor
  · rintro ⟨ws, hac, hp⟩ c hc
    have hd := accepts_iff.mp ⟨ws, hac⟩
    rcases List.mem_append.mp hc with hc | hc
    · exact h1.mp hd c hc
    · exact (verifyProblem_meets (ws := ws) hd (parsed_positionedP hg)).ok_of ((verifyProblem_ok hd ws).mpr ⟨hp, rfl⟩) c hc
  · intro h
    have hd := h1.mpr fun c hc => h c (List.mem_append_left _ hc)
    obtain ⟨ws, hac⟩ := accepts_iff.mpr hd
    obtain ⟨ws', h2⟩ := (verifyProblem_meets (ws := ws) hd (parsed_positionedP hg)).ok.mpr
      fun c hc => h c (List.mem_append_right _ hc)
    exact ⟨ws, hac, ((verifyProblem_ok hd ws').mp h2).1⟩

/-- C75: the analysis of a parsed domain crashes exactly if the first finding is an `exists` formula. -/
theorem C75_crash (hf : Parses f (.domain d)) :
    Returns ord f none (.panic .existsFormula) ↔ FirstFinding (domainChecks d) .crash := by
  rw [returns_panic_none hf]
  exact (checkDomain_meets (parsed_positioned hf)).crash

/-- Instance: a file whose first fault in the text is a method for an unknown task (line 2); the repeated predicate (line
3) is what is found first. -/
example : ∃ d, @Parses Env.plain b!"(define (domain d) (:method m :parameters ()\n :task (t) :subtasks ())
 (:predicates (p) (p)))\n" (.domain d) ∧ FirstFinding (domainChecks d) (.error (.dupPredicate ⟨b!"p", 3, 3⟩)) := by
  obtain ⟨a, h1, h2⟩ := @parses_holds b!"(define (domain d) (:method m :parameters ()\n :task (t) :subtasks ())
 (:predicates (p) (p)))\n" Env.plain 40 (shapeIs [] [] [(b!"t", [])]) (by decide +kernel)
  obtain ⟨d, rfl, _⟩ := shape_of h2
  exact ⟨d, h1, (@C75_domain Env.plain HashOrd.id _ d h1 _).mp
    (@returns_run Env.plain _ _ _ 40 _ (by decide +kernel) (by simp))⟩

/-- Instance: in a formula, an unknown predicate further right is found before an unknown variable. -/
example : ∃ d, @Parses Env.plain b!"(define (domain d) (:predicates (p ?x))
 (:action a :parameters () :precondition (and (p ?y)\n (q))))\n" (.domain d) ∧
    FirstFinding (domainChecks d) (.error (.undefPredicate ⟨b!"q", 3⟩)) := by
  obtain ⟨a, h1, h2⟩ := @parses_holds b!"(define (domain d) (:predicates (p ?x))
 (:action a :parameters () :precondition (and (p ?y)\n (q))))\n" Env.plain 40 (shapeIs [] [b!"a"] []) (by decide +kernel)
  obtain ⟨d, rfl, _⟩ := shape_of h2
  exact ⟨d, h1, (@C75_domain Env.plain HashOrd.id _ d h1 _).mp
    (@returns_run Env.plain _ _ _ 40 _ (by decide +kernel) (by simp))⟩

/-- Instance: a problem with a repeated object and an undeclared fact; the repeated object is found first. -/
example : ∃ d p, @Parses Env.plain b!"(define (domain d) (:predicates (p ?x)))\n" (.domain d) ∧
    @Parses Env.plain b!"(define (problem q) (domain d) (:init (r o))\n (:objects o o))\n" (.problem p) ∧
    FirstFinding (domainChecks d ++ problemChecks d p) (.error (.dupObject ⟨b!"o", 2, 2⟩)) := by
  obtain ⟨a, h1, h2⟩ := @parses_holds b!"(define (domain d) (:predicates (p ?x)))\n" Env.plain 40 (shapeIs [] [] [])
    (by decide +kernel)
  obtain ⟨d, rfl, _⟩ := shape_of h2
  obtain ⟨a, h3, h4⟩ := @parses_holds b!"(define (problem q) (domain d) (:init (r o))\n (:objects o o))\n" Env.plain 40
    (fun | .problem _ => true | _ => false) (by decide +kernel)
  cases a with
  | domain _ => cases h4
  | problem p =>
    exact ⟨d, p, h1, h3, (@C75_problem Env.plain HashOrd.id _ _ d p h1 h3 _).mp
      (@returns_run Env.plain _ _ _ 40 _ (by decide +kernel) (by simp))⟩

/-- Instance: an `exists` before any other fault. -/
example : ∃ d, @Parses Env.plain b!"(define (domain d) (:action a :parameters ()
 :precondition (exists (?x) (q))))\n" (.domain d) ∧ FirstFinding (domainChecks d) .crash := by
  obtain ⟨a, h1, h2⟩ := @parses_holds b!"(define (domain d) (:action a :parameters ()
 :precondition (exists (?x) (q))))\n" Env.plain 40 (shapeIs [] [b!"a"] []) (by decide +kernel)
  obtain ⟨d, rfl, _⟩ := shape_of h2
  exact ⟨d, h1, (@C75_crash Env.plain HashOrd.id _ d h1).mp
    (@returns_run Env.plain _ _ _ 40 _ (by decide +kernel) (by simp))⟩

end Verif
