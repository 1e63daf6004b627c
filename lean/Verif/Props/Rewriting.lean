import Verif.Proofs.Rewriting
import Verif.Props.Skeleton
import Verif.Props.Types

/-! C83: formulas can be rewritten by laws of logic. -/

namespace Verif

open Spec

variable [Env] {ord ord' : HashOrd} {f f' g g' : Bytes} {d d' : DomainAST} {p p' : ProblemAST} {md : MetaData}

omit [Env] in
/-- The laws keep the meaning of formulas. -/
theorem C83_meaning {dual : Bool} {f g : Formula} (h : Laws dual f g) : SameMeaning f g := laws_meaning h

/-- C83: if preconditions and effects are rewritten, the verdict is the same. -/
theorem C83_domain (hf : Parses f (.domain d)) (hf' : Parses f' (.domain d')) (h : Rewritten (rnDomain id d) (rnDomain id d')) :
    (∃ ws, Returns ord f none (.ok ws)) ↔ ∃ ws, Returns ord' f' none (.ok ws) := by
  rw [returns_domain_iff hf, ← domainOk_lines, returns_domain_iff hf', ← domainOk_lines (d := d')]
  exact ⟨domainOk_rewritten h, domainOk_rewritten h.symm⟩

/-- C83: if moreover the goal is rewritten, where quantifiers can be exchanged, the verdict is the same. -/
theorem C83_problem (hf : Parses f (.domain d)) (hf' : Parses f' (.domain d')) (hg : Parses g (.problem p))
    (hg' : Parses g' (.problem p')) (h : Rewritten (rnDomain id d) (rnDomain id d')) (hp : RewrittenProblem (rnProblem id p) (rnProblem id p')) :
    (∃ ws, Returns ord f (some g) (.ok ws)) ↔ ∃ ws, Returns ord' f' (some g') (.ok ws) := by
  rw [returns_problem_iff hf hg, ← domainOk_lines, ← problemOk_lines, returns_problem_iff hf' hg', ← domainOk_lines (d := d'),
    ← problemOk_lines (d := d')]
  exact ⟨fun h1 => ⟨domainOk_rewritten h h1.1, problemOk_rewritten h hp h1.2⟩,
    fun h1 => ⟨domainOk_rewritten h.symm h1.1, problemOk_rewritten h.symm hp.symm h1.2⟩⟩

/-- C83: the metadata are the same. -/
theorem C83_metadata (hf : Parses f (.domain d)) (hf' : Parses f' (.domain d')) (h : Rewritten (rnDomain id d) (rnDomain id d')) :
    Metadata ord f md ↔ Metadata ord f' md :=
  C82_metadata hf hf' (by rw [← skeleton_rn, ← skeleton_rn (d := d'), skeleton_rewritten h])

/-- C83: the same tasks are warned about. -/
theorem C83_warnings (hf : Parses f (.domain d)) (hf' : Parses f' (.domain d')) (h : Rewritten (rnDomain id d) (rnDomain id d'))
    {ws ws' : List Warning} (hr : Returns ord f none (.ok ws)) (hr' : Returns ord f' none (.ok ws')) :
    ws.map (·.symbol) = ws'.map (·.symbol) :=
  C82_warnings hf hf' (by rw [← skeleton_rn, ← skeleton_rn (d := d'), skeleton_rewritten h]) hr hr'

/-! ### Instance -/

/-- A domain with one action. -/
def lawTree (l : Nat) (pre : Option Formula) (ty : Option Name) : DomainAST where
  name := b!"d"
  types := none
  constants := none
  requirements := []
  predicates := [⟨b!"p", 1, [⟨b!"x", 1, none, none⟩]⟩, ⟨b!"q", 1, []⟩]
  tasks := []
  methods := []
  actions := [⟨b!"go", l, [⟨b!"x", l, ty, ty.map fun _ => l⟩], pre, none⟩]
  functions := []

def lawP (l : Nat) (x : Name) : Formula := .atom ⟨b!"p", l, [⟨x, l, none, none⟩]⟩

def lawQ (l : Nat) : Formula := .atom ⟨b!"q", l, []⟩

/-- A negated disjunction. -/
def lawNot : Bytes := b!"(define (domain d) (:predicates (p ?x) (q))
  (:action go :parameters (?x) :precondition (not (or (p ?x) (not (q))))))\n"

/-- The same as a conjunction, in the other order. -/
def lawAnd : Bytes := b!"(define (domain d) (:predicates (p ?x) (q)) (:action go :parameters (?x) :precondition (and (q) (not (p ?x)))))\n"

def lawProblem (goal : Formula) : ProblemAST where
  requirements := []
  initTn := none
  initState := []
  goal := some goal
  objects := [⟨b!"o", 1, none, none⟩]

/-- A problem whose goal has `exists`. -/
def lawExists : Bytes := b!"(define (problem x) (:domain d) (:objects o) (:init ) (:goal (not (exists (?x) (or (p ?x) (q))))))\n"

def lawForall : Bytes := b!"(define (problem x) (:domain d) (:objects o) (:init ) (:goal (forall (?x) (not (or (p ?x) (q))))))\n"

omit [Env] in
/-- Instance: the hypotheses of `C83_domain` and `C83_metadata` for two accepted domains. -/
theorem lawDomain_spec : ∃ d d', @Parses Env.plain lawNot (.domain d) ∧ @Parses Env.plain lawAnd (.domain d') ∧
    Rewritten (rnDomain id d) (rnDomain id d') ∧ ∃ ws, @Returns Env.plain HashOrd.id lawNot none (.ok ws) := by
  refine ⟨lawTree 2 (some (.not (.or [lawP 2 b!"x", .not (lawQ 2)]))) none, lawTree 1 (some (.and [lawQ 1, .not (lawP 1 b!"x")])) none,
    @parses_tree Env.plain _ 100 _ (by decide +kernel), @parses_tree Env.plain _ 100 _ (by decide +kernel), ?_,
    [], @returns_run Env.plain _ _ _ 100 _ (by decide +kernel) (by simp)⟩
  refine ⟨rfl, .cons ⟨rfl, .some ?_, .none⟩ .nil, .nil⟩
  show Laws false (.not (.or [lawP 0 b!"x", .not (lawQ 0)])) (.and [lawQ 0, .not (lawP 0 b!"x")])
  exact .trans .notOr (.trans (.and (fs := [.not (lawP 0 b!"x")]) (gs := []) .notNot) (.andPerm (.swap _ _ _)))

omit [Env] in
/-- Instance: the hypotheses of `C83_problem` for two accepted problems. -/
theorem lawProblem_spec : ∃ p p', @Parses Env.plain lawExists (.problem p) ∧ @Parses Env.plain lawForall (.problem p') ∧
    RewrittenProblem (rnProblem id p) (rnProblem id p') ∧ ∃ ws, @Returns Env.plain HashOrd.id lawNot (some lawExists) (.ok ws) := by
  refine ⟨lawProblem (.not (.exists_ [⟨b!"x", 1, none, none⟩] (.or [lawP 1 b!"x", lawQ 1]))),
    lawProblem (.forall_ [⟨b!"x", 1, none, none⟩] (.not (.or [lawP 1 b!"x", lawQ 1]))),
    @parses_treeP Env.plain _ 100 _ (by decide +kernel), @parses_treeP Env.plain _ 100 _ (by decide +kernel), ?_,
    [], @returns_run Env.plain _ _ _ 100 _ (by decide +kernel) (by simp)⟩
  refine ⟨rfl, ?_⟩
  show Laws true (.not (.exists_ [⟨b!"x", 0, none, none⟩] (.or [lawP 0 b!"x", lawQ 0])))
    (.forall_ [⟨b!"x", 0, none, none⟩] (.not (.or [lawP 0 b!"x", lawQ 0])))
  exact .notExists rfl

/-! ### What does not hold -/

def dualExists : Bytes :=
  b!"(define (domain d) (:predicates (p ?x) (q)) (:action go :parameters (?x) :precondition (not (exists (?y) (p ?y)))))\n"

def dualForall : Bytes :=
  b!"(define (domain d) (:predicates (p ?x) (q)) (:action go :parameters (?x) :precondition (forall (?y) (not (p ?y)))))\n"

omit [Env] in
/-- In preconditions, quantifiers cannot be exchanged: with `exists`, `verify` crashes. -/
theorem C83_dual_refuted : ∃ f g, Laws true f g ∧ @Parses Env.plain dualExists (.domain (lawTree 1 (some f) none)) ∧
    @Parses Env.plain dualForall (.domain (lawTree 1 (some g) none)) ∧
    @Returns Env.plain HashOrd.id dualExists none (.panic .existsFormula) ∧ @Returns Env.plain HashOrd.id dualForall none (.ok []) :=
  ⟨.not (.exists_ [⟨b!"y", 1, none, none⟩] (lawP 1 b!"y")), .forall_ [⟨b!"y", 1, none, none⟩] (.not (lawP 1 b!"y")), .notExists rfl,
    @parses_tree Env.plain _ 100 _ (by decide +kernel), @parses_tree Env.plain _ 100 _ (by decide +kernel),
    @returns_run Env.plain _ _ _ 100 _ (by decide +kernel) (by simp), @returns_run Env.plain _ _ _ 100 _ (by decide +kernel) (by simp)⟩

def trueOr : Bytes := b!"(define (domain d) (:predicates (p ?x) (q)) (:action go :parameters (?x) :precondition (or (and) (r))))\n"

def trueAnd : Bytes := b!"(define (domain d) (:predicates (p ?x) (q)) (:action go :parameters (?x) :precondition (and)))\n"

omit [Env] in
/-- It is not enough that formulas mean the same: parts without influence are checked, too. -/
theorem C83_meaning_refuted : ∃ f g, SameMeaning f g ∧ @Parses Env.plain trueOr (.domain (lawTree 1 (some f) none)) ∧
    @Parses Env.plain trueAnd (.domain (lawTree 1 (some g) none)) ∧
    @Returns Env.plain HashOrd.id trueOr none (.err (.semantic (.undefPredicate ⟨b!"r", 1⟩))) ∧
    @Returns Env.plain HashOrd.id trueAnd none (.ok []) := by
  refine ⟨.or [.and [], .atom ⟨b!"r", 1, []⟩], .and [], ?_,
    @parses_tree Env.plain _ 100 _ (by decide +kernel), @parses_tree Env.plain _ 100 _ (by decide +kernel),
    @returns_run Env.plain _ _ _ 100 _ (by decide +kernel) (by simp), @returns_run Env.plain _ _ _ 100 _ (by decide +kernel) (by simp)⟩
  intro I σ
  simp [Interp.True, Interp.All, Interp.Some]

def noPrecondition : Bytes := b!"(define (domain d) (:predicates (p ?x) (q)) (:action go :parameters (?x - u)))\n"

def truePrecondition : Bytes := b!"(define (domain d) (:predicates (p ?x) (q)) (:action go :parameters (?x - u) :precondition (and)))\n"

omit [Env] in
/-- A precondition that is always true cannot be added: the types of parameters are only checked if there is a precondition or an
effect. -/
theorem C83_added_refuted : (∀ (I : Interp) σ, I.True (.and []) σ) ∧
    @Parses Env.plain noPrecondition (.domain (lawTree 1 none (some b!"u"))) ∧
    @Parses Env.plain truePrecondition (.domain (lawTree 1 (some (.and [])) (some b!"u"))) ∧
    @Returns Env.plain HashOrd.id noPrecondition none (.ok []) ∧
    @Returns Env.plain HashOrd.id truePrecondition none (.err (.semantic (.undefType ⟨b!"u", 1⟩))) := by
  refine ⟨?_, @parses_tree Env.plain _ 100 _ (by decide +kernel), @parses_tree Env.plain _ 100 _ (by decide +kernel),
    @returns_run Env.plain _ _ _ 100 _ (by decide +kernel) (by simp), @returns_run Env.plain _ _ _ 100 _ (by decide +kernel) (by simp)⟩
  intro I σ
  simp [Interp.True, Interp.All]

end Verif
