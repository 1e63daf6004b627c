import Verif.Proofs.Slices
import Verif.Props.Changes
import Verif.Props.Clash
import Verif.Props.Sequence

/-! C107: the parts of a problem are checked one by one. -/

namespace Verif

open Spec

variable [Env] {ord ord' : HashOrd} {f g g' : Bytes} {d : DomainAST} {p q q' : ProblemAST} {Λ : Nat → Nat → Prop}

/-- C107: if a problem is accepted, so is each of its parts alone. -/
theorem C107_parts (hf : Parses f (.domain d)) (hg : Parses g (.problem p)) (ha : ∃ ws, Returns ord f (some g) (.ok ws))
    (hq : Slice p q) (hg' : Parses g' (.problem q')) (hc : CorrespondsP Λ q q') : ∃ ws, Returns ord' f (some g') (.ok ws) := by
  rw [returns_problem_iff hf hg] at ha
  rw [returns_problem_iff hf hg']
  refine ⟨ha.1, ?_⟩
  have e : rnProblem id q = rnProblem id q' := by
    obtain ⟨e, l, l', rfl, rfl, _⟩ := hc
    rw [rnProblem_mv, rnProblem_mv]
  rw [← problemOk_lines, ← e, problemOk_lines]
  exact problemOk_slice ha.2 hq

/-- C107: if each part alone is accepted, in whatever files they are written, the problem is accepted. -/
theorem C107_whole (hf : Parses f (.domain d)) (hg : Parses g (.problem p))
    (h : ∀ q, Slice p q → ∃ g' q' ord, Parses g' (.problem q') ∧ rnProblem id q' = rnProblem id q ∧
      ∃ ws, Returns ord f (some g') (.ok ws)) : ∃ ws, Returns ord f (some g) (.ok ws) := by
  rw [returns_problem_iff hf hg]
  have key : ∀ q, Slice p q → DomainOk d ∧ ProblemOk d q := by
    intro q hq
    obtain ⟨g', q', ord, h1, h2, h3⟩ := h q hq
    rw [returns_problem_iff hf h1, ← problemOk_lines, h2, problemOk_lines] at h3
    exact h3
  exact ⟨(key _ .objects).1, problemOk_slices fun q hq => (key q hq).2⟩

/-- C107: whatever is reported about a problem (for a domain that is accepted) is about one of its parts: the file with this part alone
gives the same report, at the corresponding line. -/
theorem C107_report (hf : Parses f (.domain d)) (hg : Parses g (.problem p)) (ha : ∃ ws, Returns ord f none (.ok ws))
    {r : R (List Warning)} (hr : Returns ord f (some g) r) (hne : ∀ ws, r ≠ .ok ws) :
    ∃ q, Slice p q ∧ ∀ Λ g' q', Parses g' (.problem q') → CorrespondsP Λ q q' →
      ∃ r', Returns ord f (some g') r' ∧ SameAnswer id Eq Λ r r' := by
  obtain ⟨ws, hw⟩ := ha
  have hac := returns_accepts hf hw
  have h1 := returns_of_accepts hf hg hac
  obtain ⟨q, h2, h3⟩ := verifyProblem_slice (h1.det hr) hne
  refine ⟨q, h2, fun Λ g' q' hg' hc => ⟨_, returns_of_accepts hf hg' hac, ?_⟩⟩
  obtain ⟨e, l, l', rfl, rfl, hl⟩ := hc
  rw [← h3, ← SymbolTable.mv_id (st := tableOf ws d), verifyProblem_mv Function.injective_id, verifyProblem_mv Function.injective_id]
  exact sameAnswer_mv (ρ := id) (φ₁ := id) (φ₂ := id) (fun _ => rfl) hl (verifyProblem_timeout _)

/-- C107: after `n` repairs of faulty facts, subtasks or a faulty goal, in whatever order and by whatever correct ones, a problem is
accepted exactly if `n` is the number of faults it had and the rest is in order. -/
theorem C107_repaired (hf : Parses f (.domain d)) (ha : ∃ ws, Returns ord f none (.ok ws)) {n : Nat} (h : RepairsP d p n q)
    (hg : Parses g (.problem q')) (e : rnProblem id q' = rnProblem id q) :
    (∃ ws, Returns ord f (some g) (.ok ws)) ↔ HeaderOkP d p ∧ n = faultsP d p := by
  rw [returns_domain_iff hf] at ha
  rw [returns_problem_iff hf hg, and_iff_right ha, ← problemOk_lines, e, problemOk_lines, problemOk_faults, repairsP_header h]
  have := repairsP_faults h
  exact and_congr_right fun _ => by omega

/-! ### Instance -/

def sliceDomain : Bytes := b!"(define (domain d) (:predicates (p ?x)) (:action a :parameters (?x)))\n"

def sliceTree : DomainAST where
  name := b!"d"
  types := none
  constants := none
  requirements := []
  predicates := [⟨b!"p", 1, [⟨b!"x", 1, none, none⟩]⟩]
  tasks := []
  methods := []
  actions := [⟨b!"a", 1, [⟨b!"x", 1, none, none⟩], none, none⟩]
  functions := []

/-- A problem with a fault in the initial network and one in the goal. -/
def sliceProblem : Bytes := b!"(define (problem x) (:domain d) (:objects o)
  (:htn :ordered-subtasks (and (a o) (b o)))
  (:init (p o))
  (:goal (and (p o) (q o))))\n"

def sliceProblemTree (ss : List Name) (init : List Predicate) (goal : Option Formula) : ProblemAST where
  requirements := []
  initTn := some ⟨none, ⟨ss.map fun s => ⟨none, ⟨s, 2, none, none⟩, [⟨b!"o", 2, none, none⟩]⟩, none, .total, none⟩⟩
  initState := init
  goal := goal
  objects := [⟨b!"o", 1, none, none⟩]

def sliceAtom (x : Name) (l : Nat) : Predicate := ⟨x, l, [⟨b!"o", l, none, none⟩]⟩

/-- The part that the report is about. -/
def slicePart : Bytes := b!"(define (problem x) (:domain d) (:objects o)
  (:htn :ordered-subtasks (and (b o))) (:init ))\n"

def sliceFacts : Bytes := b!"(define (problem x) (:domain d) (:objects o) (:init (p o) (p o)))\n"

def sliceFact : Bytes := b!"(define (problem x) (:domain d) (:objects o) (:init (p o)))\n"

def sliceObjects : Bytes := b!"(define (problem x) (:domain d) (:objects o) (:init ))\n"

def sliceFactsTree (init : List Predicate) : ProblemAST := { sliceProblemTree [] init none with initTn := none }

omit [Env] in
/-- Instance: `sliceProblem` is rejected because of a subtask, `slicePart` is the problem with this subtask alone and gives the same
report. -/
theorem slice_report : ∃ p q, @Parses Env.plain sliceDomain (.domain sliceTree) ∧ @Parses Env.plain sliceProblem (.problem p) ∧
    @Parses Env.plain slicePart (.problem q) ∧ Slice p q ∧ q ≠ p ∧ @Returns Env.plain HashOrd.id sliceDomain none (.ok []) ∧
    @Returns Env.plain HashOrd.id sliceDomain (some sliceProblem) (semErr (.undefSubtask ⟨b!"b", 2⟩)) ∧
    @Returns Env.plain HashOrd.id sliceDomain (some slicePart) (semErr (.undefSubtask ⟨b!"b", 2⟩)) := by
  refine ⟨sliceProblemTree [b!"a", b!"b"] [sliceAtom b!"p" 3] (some (.and [.atom (sliceAtom b!"p" 4), .atom (sliceAtom b!"q" 4)])),
    sliceProblemTree [b!"b"] [] none, @parses_tree Env.plain _ 400 _ (by decide +kernel), @parses_treeP Env.plain _ 400 _ (by decide +kernel),
    @parses_treeP Env.plain _ 400 _ (by decide +kernel), ?_, (fun h => by cases congrArg ProblemAST.goal h), @returns_run Env.plain _ _ _ 400 _ (by decide +kernel) (by simp),
    @returns_run Env.plain _ _ _ 400 _ (by decide +kernel) (by simp [semErr]), @returns_run Env.plain _ _ _ 400 _ (by decide +kernel) (by simp [semErr])⟩
  exact Slice.subtask (h := (sliceProblemTree [b!"a", b!"b"] [] none).initTn.get rfl)
    (s := ⟨none, ⟨b!"b", 2, none, none⟩, [⟨b!"o", 2, none, none⟩]⟩) rfl (by decide +kernel)

omit [Env] in
/-- Instance: `sliceFacts` and its parts meet the requirements of `C107_whole` and `C107_parts`. -/
theorem slice_whole : @Parses Env.plain sliceDomain (.domain sliceTree) ∧
    @Parses Env.plain sliceFacts (.problem (sliceFactsTree [sliceAtom b!"p" 1, sliceAtom b!"p" 1])) ∧
    ∀ q, Slice (sliceFactsTree [sliceAtom b!"p" 1, sliceAtom b!"p" 1]) q → ∃ g' q' ord, @Parses Env.plain g' (.problem q') ∧
      rnProblem id q' = rnProblem id q ∧ ∃ ws, @Returns Env.plain ord sliceDomain (some g') (.ok ws) := by
  refine ⟨@parses_tree Env.plain _ 400 _ (by decide +kernel), @parses_treeP Env.plain _ 400 _ (by decide +kernel), fun q hq => ?_⟩
  cases hq with
  | objects =>
    exact ⟨sliceObjects, sliceFactsTree [], HashOrd.id, @parses_treeP Env.plain _ 400 _ (by decide +kernel), rfl, [],
      @returns_run Env.plain _ _ _ 400 _ (by decide +kernel) (by simp)⟩
  | @fact a ha =>
    have ha : a = sliceAtom b!"p" 1 := by simpa [sliceFactsTree, sliceProblemTree] using ha
    subst ha
    exact ⟨sliceFact, sliceFactsTree [sliceAtom b!"p" 1], HashOrd.id, @parses_treeP Env.plain _ 400 _ (by decide +kernel), rfl, [],
      @returns_run Env.plain _ _ _ 400 _ (by decide +kernel) (by simp)⟩
  | goal hf _ => cases hf
  | network hh => cases hh
  | subtask hh _ => cases hh

/-- `sliceProblem` with another subtask and another goal. -/
def sliceMended : Bytes := b!"(define (problem x) (:domain d) (:objects o)
  (:htn :ordered-subtasks (and (a o) (a o)))
  (:init (p o))
  (:goal (p o)))\n"

omit [Env] in
theorem slice_p : FactOk sliceTree (sliceProblemTree ss init gl) (sliceAtom b!"p" l) :=
  ⟨⟨b!"p", 1, [⟨b!"x", 1, none, none⟩]⟩, List.mem_singleton_self _, rfl,
    .cons ⟨none, .here ⟨[], [], rfl, rfl, by simp⟩, .untyped⟩ .nil⟩

omit [Env] in
/-- Instance: two repairs make `sliceProblem` acceptable. -/
theorem slice_mended : ∃ p q, @Parses Env.plain sliceProblem (.problem p) ∧ @Parses Env.plain sliceMended (.problem q) ∧
    RepairsP sliceTree p 2 q ∧ HeaderOkP sliceTree p ∧ ∃ ws, @Returns Env.plain HashOrd.id sliceDomain (some sliceMended) (.ok ws) := by
  have hok : ∀ {ss init gl l}, SubtaskOk sliceTree (sliceProblemTree ss init gl) [] ⟨none, ⟨b!"a", l, none, none⟩, [⟨b!"o", l, none, none⟩]⟩ :=
    ⟨_, .action (List.mem_singleton_self _) rfl, .cons ⟨none, .here ⟨[], [], rfl, rfl, by simp⟩, .untyped⟩ .nil⟩
  refine ⟨sliceProblemTree [b!"a", b!"b"] [sliceAtom b!"p" 3] (some (.and [.atom (sliceAtom b!"p" 4), .atom (sliceAtom b!"q" 4)])),
    sliceProblemTree [b!"a", b!"a"] [sliceAtom b!"p" 3] (some (.atom (sliceAtom b!"p" 4))), @parses_treeP Env.plain _ 400 _ (by decide +kernel),
    @parses_treeP Env.plain _ 400 _ (by decide +kernel), .more (.more .none (.subtask (as := [⟨none, ⟨b!"a", 2, none, none⟩, [⟨b!"o", 2, none, none⟩]⟩])
      (bs := []) rfl rfl ?_ hok)) (.goal (p := sliceProblemTree [b!"a", b!"a"] _ _) ?_ ?_), ⟨?_, ?_, ?_⟩, [], @returns_run Env.plain _ _ _ 400 _ (by decide +kernel) (by simp)⟩
  · rintro ⟨ps, hc, _⟩
    generalize hn : (b!"b" : Name) = n at hc
    have hc' : Callee sliceTree n ps := hc
    clear hc
    cases hc' with
    | action h1 h2 =>
      rw [List.mem_singleton.mp h1, ← hn] at h2
      revert h2
      decide +kernel
    | task _ h1 => cases h1
  · intro h
    obtain ⟨q, h1, h2, _⟩ := h _ rfl (sliceAtom b!"q" 4) (.and (List.mem_cons_of_mem _ (List.mem_cons_self ..)) .atom)
    rw [List.mem_singleton.mp h1] at h2
    revert h2
    decide +kernel
  · intro f hf a ha
    cases hf
    cases ha
    exact slice_p
  · intro s hs t ht
    rw [List.mem_singleton.mp hs] at ht
    cases ht
  · simp [sliceProblemTree]
  · intro h hh x hx
    cases hh
    obtain ⟨y, _, os, ho, _⟩ := Relation.TransGen.tail'_iff.mp hx
    cases ho

end Verif
