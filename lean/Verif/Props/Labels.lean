import Verif.Props.LocalNames
import Verif.Props.MetadataEnds
import Verif.Props.Sequence
import Verif.Proofs.Labels

/-!
C105: labels of subtasks are local, and of orderings only matters what they order.
-/

namespace Verif

open Spec

variable {ord ord' : HashOrd} {d d' d₁ : DomainAST} {p p' p₁ : ProblemAST} {r : HTN → HTN → Prop}

theorem domainOk_finding (hp : Positioned d) : DomainOk d ↔ ¬ ∃ x, FirstFinding (domainChecks d) x := by
  have hm := checkDomain_meets (ord := HashOrd.id) hp
  rw [← checkDomain_ok HashOrd.id d]
  constructor
  · rintro h ⟨x, hx⟩
    rw [(meets_answer hm).2 hx] at h
    cases x <;> cases h
  · intro h
    rcases meets_cases hm with ⟨_, h1⟩ | ⟨x, h1⟩
    · exact h1
    · exact absurd ⟨x, (meets_answer hm).1 h1⟩ h

theorem sameInterface_networks (h : NetworksBy r d d₁) : SameInterface d d₁ := by
  have hc := h.header.callee (by rw [h.same])
  have h1 : CalleeTypes d₁ = CalleeTypes d := by
    funext x ts
    unfold CalleeTypes
    rw [hc]
  refine ⟨fun t ty => ?_, fun x ty => ?_, fun x ts => ?_, fun x ts => by rw [h1]⟩
  · unfold typesOf; rw [h.header.types]
  · unfold constantsOf; rw [h.header.constants]
  · unfold PredicateTypes; rw [h.header.predicates]

section

variable [Env] {f f' g g' : Bytes} {Λ Μ : Nat → Nat → Prop} {md md' : MetaData}

/-- C105: verify accepts a domain whatever its labels and orderings are, if the same orderings have cycles. -/
theorem C105_verdict (hf : Parses f (.domain d)) (h : NetworksBy CyclesKept d d₁) (hf' : Parses f' (.domain d'))
    (hc : Corresponds Λ d₁ d') : (∃ ws, Returns ord f none (.ok ws)) ↔ ∃ ws, Returns ord' f' none (.ok ws) := by
  have hp₁ : Positioned d₁ := (positioned_lines (corresponds_lines hc)).2 (parsed_positioned hf')
  rw [C23_acceptance hf, C23_acceptance hf', domainOk_congr Function.injective_id (corresponds_lines hc).symm,
    domainOk_finding (parsed_positioned hf), domainOk_finding hp₁, h.checks]

/-- C105: and reports the same otherwise. -/
theorem C105_report (hf : Parses f (.domain d)) (h : NetworksBy CyclesKept d d₁) (hf' : Parses f' (.domain d'))
    (hc : Corresponds Λ d₁ d') {r : R (List Warning)} (hr : Returns ord f none r) (hne : ∀ ws, r ≠ .ok ws) (prob : Option Bytes) :
    ∃ r', Returns ord' f' prob r' ∧ SameAnswer id Λ Λ r r' := by
  have hp := parsed_positioned hf
  have hp₁ : Positioned d₁ := (positioned_lines (corresponds_lines hc)).2 (parsed_positioned hf')
  have hm := checkDomain_meets (ord := ord) hp
  obtain ⟨x, hx, rfl⟩ : ∃ x : Finding, FirstFinding (domainChecks d) x ∧ r = x.answer := by
    rcases meets_cases hm with ⟨_, h⟩ | ⟨x, h⟩
    · obtain ⟨ws, hw⟩ := accepts_iff.2 ((checkDomain_ok ord d).1 h)
      exact absurd (hr.det ((returns_ok_none hf).2 hw)) (hne ws)
    · refine ⟨x, (meets_answer hm).1 h, ?_⟩
      cases x with
      | error e => exact hr.det (returns_of_err hf h)
      | crash => exact hr.det (returns_of_panic hf h)
  rw [← h.checks] at hx
  exact answer_corresponds (prob := prob) ((meets_answer (checkDomain_meets (ord := ord') hp₁)).2 hx) hf' hc

omit [Env] in
theorem resequenced_lines (hr : ∀ {a b}, r a b → callsOf b = callsOf a) (h : NetworksBy r d d₁) (hc : Corresponds Λ d₁ d') :
    Resequenced Eq (rnDomain id d) (rnDomain id d') := corresponds_lines hc ▸ h.resequenced hr

/-- C105: the same tasks are warned about, in the same order. -/
theorem C105_warnings (hf : Parses f (.domain d)) (h : NetworksBy CyclesKept d d₁) (hf' : Parses f' (.domain d'))
    (hc : Corresponds Λ d₁ d') {ws ws' : List Warning} (hr : Returns ord f none (.ok ws)) (hr' : Returns ord f' none (.ok ws')) :
    ws'.map (·.symbol) = ws.map (·.symbol) :=
  C84_warnings hf hf' (resequenced_lines (fun hk => hk.calls) h hc) hr hr'

/-- C105: problems cannot tell the domains apart. -/
theorem C105_problems (hf : Parses f (.domain d)) (h : NetworksBy CyclesKept d d₁) (hf' : Parses f' (.domain d'))
    (hc : Corresponds Λ d₁ d') {ws : List Warning} (hr : Returns ord f none (.ok ws)) (g : Bytes) :
    (∀ e, Returns ord f (some g) (.err e) ↔ Returns ord' f' (some g) (.err e)) ∧
    (∀ x, Returns ord f (some g) (.panic x) ↔ Returns ord' f' (some g) (.panic x)) ∧
    ((∃ ws, Returns ord f (some g) (.ok ws)) ↔ ∃ ws, Returns ord' f' (some g) (.ok ws)) := by
  have hok := (C23_acceptance hf).1 ⟨ws, hr⟩
  have hok' := (C23_acceptance hf').1 ((C105_verdict (ord' := ord') hf h hf' hc).1 ⟨ws, hr⟩)
  obtain ⟨h1, h2, h3, _⟩ := C90_same (ord := ord) (ord' := ord') hf hf' hok hok'
    ((sameInterface_networks h).trans (sameInterface_lines (corresponds_lines hc))) g
  exact ⟨h1, h2, h3⟩

omit [Env] in
theorem positionedP_networks (h : NetworksByP CyclesKept p p₁) (hp : PositionedP p) (hc : CorrespondsP Μ p₁ p') (hp' : PositionedP p') :
    PositionedP p₁ := by
  refine ⟨by rw [h.same]; exact hp.objects, fun i hi os ho hn => ?_⟩
  obtain ⟨P, l, l', rfl, rfl, _⟩ := hc
  cases hP : P.initTn with
  | none => simp [mvProblem, hP] at hi
  | some j =>
    have h1 := hp'.ordering (mvInitTn id l' j) (by simp [mvProblem, hP]) os
    have h2 : i = mvInitTn id l j := by
      have : (mvProblem id l P).initTn = some (mvInitTn id l j) := by simp [mvProblem, hP]
      rw [this] at hi
      exact (Option.some.inj hi).symm
    subst h2
    have h3 := h1 (by exact ho) hn
    simpa [mvInitTn, mvHtn] using h3

/-- C105 for initial task networks: what is reported. -/
theorem C105_network_report (hf : Parses f (.domain d)) (hg : Parses g (.problem p)) (h : NetworksByP CyclesKept p p₁)
    (hg' : Parses g' (.problem p')) (hc : CorrespondsP Μ p₁ p') {ws : List Warning} (hd : Returns ord f none (.ok ws))
    {r : R (List Warning)} (hr : Returns ord f (some g) r) : ∃ r', Returns ord f (some g') r' ∧ SameAnswer id Eq Μ r r' := by
  have hac := (returns_ok_none hf).1 hd
  have hok := accepts_iff.1 ⟨ws, hac⟩
  have hp := parsed_positionedP hg
  have hp₁ := positionedP_networks h hp hc (parsed_positionedP hg')
  have hm := verifyProblem_meets (ws := ws) hok hp
  have hm₁ := verifyProblem_meets (ws := ws) hok hp₁
  have hr' := hr.det (returns_of_accepts hf hg hac)
  have h4 := returns_of_accepts hf hg' hac
  have e0 : ws.map (mvWarning id id) = ws := by
    rw [show mvWarning id id = id from rfl, List.map_id]
  have e1 : tableOf ws d = (tableOf ws d).mv id id := by
    have := (accepts_mv (φ := id) (ρ := id) Function.injective_id hac).2
    rwa [mvDomain_id, e0] at this
  have h3 : r = verifyProblem (tableOf ws d) p₁ := by
    rw [hr']
    rcases meets_cases hm with ⟨a, ha⟩ | ⟨x, hx⟩
    · rcases meets_cases hm₁ with ⟨b, hb⟩ | ⟨y, hy⟩
      · rw [ha, hb]
        exact congrArg R.ok ((((verifyProblem_ok hok _).1 ha).2).trans ((verifyProblem_ok hok _).1 hb).2.symm)
      · have := (meets_answer hm₁).1 hy
        rw [h.checks] at this
        rw [(meets_answer hm).2 this, hy]
    · have := (meets_answer hm).1 hx
      rw [← h.checks] at this
      rw [(meets_answer hm₁).2 this, hx]
  obtain ⟨P, m, m', rfl, rfl, hm⟩ := hc
  rw [e1, verifyProblem_mv Function.injective_id] at h3
  rw [e1, verifyProblem_mv Function.injective_id] at h4
  refine ⟨_, h4, ?_⟩
  have h5 := sameAnswer_mv (ρ := id) (Λ := Eq) (Μ := Μ) (φ₁ := id) (φ₂ := id) (fun _ => rfl) hm
    (verifyProblem_timeout (st := tableOf ws d) (p := P))
  rw [h3]
  exact h5

omit [Env] in
theorem problemOk_finding (hd : DomainOk d) (hp : PositionedP p) : ProblemOk d p ↔ ¬ ∃ x, FirstFinding (problemChecks d p) x := by
  have hm := verifyProblem_meets (ws := []) hd hp
  constructor
  · rintro h ⟨x, hx⟩
    have := (verifyProblem_ok (ws := []) hd []).2 ⟨h, rfl⟩
    rw [(meets_answer hm).2 hx] at this
    cases x <;> cases this
  · intro h
    rcases meets_cases hm with ⟨a, h1⟩ | ⟨x, h1⟩
    · exact ((verifyProblem_ok hd _).1 h1).1
    · exact absurd ⟨x, (meets_answer hm).1 h1⟩ h

/-- C105 for initial task networks: the verdict. -/
theorem C105_network (hf : Parses f (.domain d)) (hg : Parses g (.problem p)) (h : NetworksByP CyclesKept p p₁)
    (hg' : Parses g' (.problem p')) (hc : CorrespondsP Μ p₁ p') (ws : List Warning) :
    Returns ord f (some g) (.ok ws) ↔ Returns ord f (some g') (.ok ws) := by
  rw [returns_ok_some hf hg, returns_ok_some hf hg',
    problemOk_congr Function.injective_id (rfl : rnDomain id d = rnDomain id d) (correspondsP_lines hc).symm]
  refine and_congr_right fun hac => ?_
  have hok := accepts_iff.1 ⟨ws, hac⟩
  have hp := parsed_positionedP hg
  rw [problemOk_finding hok hp, problemOk_finding hok (positionedP_networks h hp hc (parsed_positionedP hg')), h.checks]

/-! ### Metadata -/

omit [Env] in
theorem recursion_skeleton (n : Nat) (ns : List Name) : ((TDG.new ord (skeleton d)).bind fun g => g.recursionType ord n ns) =
    (TDG.new ord d).bind fun g => g.recursionType ord n ns := by
  rw [TDG.new_skeleton, R.map_bind]
  simp only [TDG.recursionType_bare]

omit [Env] in
theorem recursion_lines (h : rnDomain id d₁ = rnDomain id d') (n : Nat) (ns : List Name) :
    ((TDG.new ord d').bind fun g => g.recursionType ord n ns) = (TDG.new ord d₁).bind fun g => g.recursionType ord n ns := by
  rw [← recursion_skeleton, ← skeleton_rn, ← h, skeleton_rn, recursion_skeleton]

/-- C105: the metadata of the domains is the same, if there is any, if the orderings order the same subtasks. -/
theorem C105_metadata (hf : Parses f (.domain d)) (h : NetworksBy ContextKept d d₁) (hf' : Parses f' (.domain d'))
    (hc : Corresponds Λ d₁ d') (hm : Metadata ord f md) (hm' : Metadata ord f' md') : md' = md := by
  have hs := resequenced_lines (fun hk => hk.calls) h hc
  have h0 := C84_nullables hf hf' hs hm hm'
  obtain ⟨ns, rt, h1, rfl, N, hN⟩ := hm.parts hf
  obtain ⟨ns', rt', h1', rfl, N', hN'⟩ := hm'.parts hf'
  cases ((nullablesAre_resequenced hs).1 h1').det h1
  have a := hN (max N N') (by omega)
  have b := hN' (max N N') (by omega)
  rw [recursion_lines (corresponds_lines hc)] at b
  obtain ⟨g, hg, a⟩ := R.bind_ok_iff.mp a
  obtain ⟨ms, hg', hal⟩ := h.graph hg
  rw [hg', R.bind_ok] at b
  rw [h0, TDG.recursionType_alike hal a b]

/-- C105: if labels are renamed such that it is kept which label is part of which, there is metadata for both domains or for none,
and it is the same. -/
theorem C105_labels (hf : Parses f (.domain d)) (h : NetworksBy LabelsKept d d₁) (hf' : Parses f' (.domain d'))
    (hc : Corresponds Λ d₁ d') : Metadata ord f md ↔ Metadata ord f' md := by
  have h1 : (∃ md, Metadata ord f md) ↔ ∃ md, Metadata ord f' md := by
    rw [C37_returns_iff hf, C37_returns_iff hf']
    show Searchable d ↔ Searchable d'
    rw [← h.searchable, ← searchable_lines (d := d₁), corresponds_lines hc, searchable_lines]
  have h2 : NetworksBy ContextKept d d₁ := h.mono fun hr => contextKept_rl hr.renamed
  constructor
  · intro hm
    obtain ⟨md', hm'⟩ := h1.1 ⟨md, hm⟩
    cases C105_metadata hf h2 hf' hc hm hm'
    exact hm'
  · intro hm'
    obtain ⟨md', hm⟩ := h1.2 ⟨md, hm'⟩
    cases C105_metadata hf h2 hf' hc hm hm'
    exact hm

omit [Env] in
/-- C105: the requirements are met if the labels of each method are renamed, one name for one name. -/
theorem C105_renamed (h : NetworksBy LabelsRenamed d d₁) : NetworksBy CyclesKept d d₁ ∧ NetworksBy ContextKept d d₁ :=
  ⟨h.mono cyclesKept_rl, h.mono contextKept_rl⟩

omit [Env] in
/-- C105: and if constraints that follow from others are added or removed. -/
theorem C105_closure (h : NetworksBy SameClosure d d₁) : NetworksBy CyclesKept d d₁ ∧ NetworksBy ContextKept d d₁ :=
  ⟨h.mono cyclesKept_closure, h.mono contextKept_closure⟩

end

/-! ### Instances -/

theorem seqDomain_networks (hr : ∀ l, r (seqTotal l) (seqTotal l)) {h k : HTN} (hc : r h k) :
    NetworksBy r (seqDomain h) (seqDomain k) :=
  ⟨rfl, .cons ⟨rfl, hc⟩ (.cons ⟨rfl, hr _⟩ (.cons ⟨rfl, hr _⟩ .nil))⟩

theorem labelsKept_total (l : List Name) : LabelsKept (seqTotal l) (seqTotal l) := by
  refine ⟨id, Function.injective_id, (fun os h => by cases h), ?_⟩
  simp [rlHtn, rlSubtask, rlOrdering, seqTotal, seqCall]

/-- As `seqChain`, with the labels `k`, `j` and `i` in place of `i`, `j` and `k`. -/
def labelsX : Bytes := b!"(define (domain d) (:task t :parameters ()) (:task u :parameters ()) (:task dead :parameters ()) (:method m0 :parameters () :task (t) :subtasks (and (k (go)) (j (t)) (i (u))) :ordering (and (< k j) (< j i))) (:method m1 :parameters () :task (t) :ordered-subtasks (go)) (:method m2 :parameters () :task (u) :ordered-subtasks ()) (:action go :parameters ()))\n"

/-- As `seqChain`, with a constraint that follows from the others. -/
def labelsY : Bytes := b!"(define (domain d) (:task t :parameters ()) (:task u :parameters ()) (:task dead :parameters ()) (:method m0 :parameters () :task (t) :subtasks (and (i (go)) (j (t)) (k (u))) :ordering (and (< i j) (< i k) (< j k))) (:method m1 :parameters () :task (t) :ordered-subtasks (go)) (:method m2 :parameters () :task (u) :ordered-subtasks ()) (:action go :parameters ()))\n"

/-- Four subtasks, three of them ordered. -/
def closurePartial (os : List (Name × Name)) : HTN :=
  ⟨[seqCall (some b!"i") b!"go", seqCall (some b!"j") b!"t", seqCall (some b!"k") b!"u", seqCall (some b!"l") b!"go"], some 1, .partial_ os, none⟩

def closureX : Bytes := b!"(define (domain d) (:task t :parameters ()) (:task u :parameters ()) (:task dead :parameters ()) (:method m0 :parameters () :task (t) :subtasks (and (i (go)) (j (t)) (k (u)) (l (go))) :ordering (and (< i j) (< j k) (< j k))) (:method m1 :parameters () :task (t) :ordered-subtasks (go)) (:method m2 :parameters () :task (u) :ordered-subtasks ()) (:action go :parameters ()))\n"

/-- The same with a constraint that follows from the others in place of one that is repeated. -/
def closureY : Bytes := b!"(define (domain d) (:task t :parameters ()) (:task u :parameters ()) (:task dead :parameters ()) (:method m0 :parameters () :task (t) :subtasks (and (i (go)) (j (t)) (k (u)) (l (go))) :ordering (and (< i j) (< i k) (< j k))) (:method m1 :parameters () :task (t) :ordered-subtasks (go)) (:method m2 :parameters () :task (u) :ordered-subtasks ()) (:action go :parameters ()))\n"

/-- As `seqCyclic`, with the labels `k`, `j` and `i` in place of `i`, `j` and `k`. -/
def labelsCyclic : Bytes := b!"(define (domain d) (:task t :parameters ()) (:task u :parameters ()) (:task dead :parameters ()) (:method m0 :parameters () :task (t) :subtasks (and (k (go)) (j (t)) (i (u))) :ordering (and (< k j) (< j k))) (:method m1 :parameters () :task (t) :ordered-subtasks (go)) (:method m2 :parameters () :task (u) :ordered-subtasks ()) (:action go :parameters ()))\n"

/-- As `seqStartFree`, with other labels. -/
def labelsStart : Bytes := b!"(define (problem x) (:domain d) (:objects ) (:htn :subtasks (and (first (go)) (second (t))) :ordering (< first second)) (:init ))\n"

/-- Instance: `seqChain` and `labelsX` meet the requirements of `C105_labels` and, by `C105_renamed`, of the other theorems on domains. -/
theorem labels_spec : ∃ d d', @Parses Env.plain seqChain (.domain d) ∧ @Parses Env.plain labelsX (.domain d') ∧
    NetworksBy LabelsKept d d' ∧ Corresponds Eq d' d' ∧ d ≠ d' ∧ @Returns Env.plain HashOrd.id labelsX none (.ok [⟨b!"dead", 1⟩]) ∧
    @Metadata Env.plain HashOrd.id labelsX ⟨.growAndShrink [(b!"t", b!"m0"), (b!"t", b!"m0")], [b!"u"], [], 1, 3, 3⟩ := by
  refine ⟨seqDomain (seqPartial [(b!"i", b!"j"), (b!"j", b!"k")]),
    seqDomain (rlHtn (exchange b!"i" b!"k") (seqPartial [(b!"i", b!"j"), (b!"j", b!"k")])),
    @parses_tree Env.plain _ 400 _ (by decide +kernel), @parses_tree Env.plain _ 400 _ (by decide +kernel),
    seqDomain_networks labelsKept_total ⟨_, exchange_injective _ _, ?_, rfl⟩, corresponds_refl _, by decide +kernel,
    @returns_run Env.plain _ _ _ 400 _ (by decide +kernel) (by simp), @metadata_run Env.plain _ _ 400 _ (by decide +kernel)⟩
  intro os ho s hs i hi e he
  cases ho
  simp only [seqPartial, seqCall, List.mem_cons, List.not_mem_nil, or_false] at hs he
  rcases hs with rfl | rfl | rfl <;> cases hi <;> rcases he with rfl | rfl <;> decide +kernel

theorem closure_step {h k : HTN} {os os' : List (Name × Name)} (ho : h.orderings = .partial_ os) (hk : k.orderings = .partial_ os')
    (h1 : ∀ e ∈ os', e ∈ os ∨ ∃ x, (e.1, x) ∈ os ∧ (x, e.2) ∈ os) {a b : Name} (h2 : Relation.TransGen (Before k) a b) :
    Relation.TransGen (Before h) a b := by
  have h3 : ∀ {x y}, Before k x y → Relation.TransGen (Before h) x y := by
    rintro x y ⟨_, e, hm⟩
    cases hk.symm.trans e
    rcases h1 _ hm with h3 | ⟨z, h3, h4⟩
    · exact .single ⟨_, ho, h3⟩
    · exact .tail (.single ⟨_, ho, h3⟩) ⟨_, ho, h4⟩
  induction h2 with
  | single h4 => exact h3 h4
  | tail _ h4 ih => exact ih.trans (h3 h4)

/-- Instance: `closureX` and `closureY` meet the requirements of `C105_closure` and thus of the other theorems on domains. -/
theorem labels_closure_spec : ∃ d d', @Parses Env.plain closureX (.domain d) ∧ @Parses Env.plain closureY (.domain d') ∧
    NetworksBy SameClosure d d' ∧ Corresponds Eq d' d' ∧ d ≠ d' ∧
    @Metadata Env.plain HashOrd.id closureX ⟨.growAndShrink [(b!"t", b!"m0"), (b!"t", b!"m0")], [b!"u"], [], 1, 3, 3⟩ ∧
    @Metadata Env.plain HashOrd.id closureY ⟨.growAndShrink [(b!"t", b!"m0"), (b!"t", b!"m0")], [b!"u"], [], 1, 3, 3⟩ :=
  ⟨seqDomain (closurePartial [(b!"i", b!"j"), (b!"j", b!"k"), (b!"j", b!"k")]),
    seqDomain (closurePartial [(b!"i", b!"j"), (b!"i", b!"k"), (b!"j", b!"k")]),
    @parses_tree Env.plain _ 400 _ (by decide +kernel), @parses_tree Env.plain _ 400 _ (by decide +kernel),
    seqDomain_networks (fun _ => ⟨rfl, .rfl, fun _ _ => .rfl⟩) ⟨rfl, by simp [closurePartial], fun a b =>
      ⟨closure_step rfl rfl (by simp), closure_step rfl rfl (by simp)⟩⟩, corresponds_refl _,
    by decide +kernel, @metadata_run Env.plain _ _ 400 _ (by decide +kernel), @metadata_run Env.plain _ _ 400 _ (by decide +kernel)⟩

/-- C105: whether there is metadata depends on how the order is written.  A constraint that follows from two others is added, verify accepts
both files, and `get_metadata` crashes on the second one. -/
theorem C105_redundant_refuted : ∃ d d', @Parses Env.plain seqChain (.domain d) ∧ @Parses Env.plain labelsY (.domain d') ∧
    NetworksBy SameClosure d d' ∧
    @Returns Env.plain HashOrd.id labelsY none (.ok [⟨b!"dead", 1⟩]) ∧
    @Metadata Env.plain HashOrd.id seqChain ⟨.growAndShrink [(b!"t", b!"m0"), (b!"t", b!"m0")], [b!"u"], [], 1, 3, 3⟩ ∧
    @getMetadata Env.plain HashOrd.id 400 labelsY = .panic .tdgAssert :=
  ⟨seqDomain (seqPartial [(b!"i", b!"j"), (b!"j", b!"k")]),
    seqDomain (seqPartial [(b!"i", b!"j"), (b!"i", b!"k"), (b!"j", b!"k")]),
    @parses_tree Env.plain _ 400 _ (by decide +kernel), @parses_tree Env.plain _ 400 _ (by decide +kernel),
    seqDomain_networks (fun _ => ⟨rfl, .rfl, fun _ _ => .rfl⟩) ⟨rfl, by simp [seqPartial], fun a b =>
      ⟨closure_step rfl rfl (by simp), closure_step rfl rfl (by simp)⟩⟩,
    @returns_run Env.plain _ _ _ 400 _ (by decide +kernel) (by simp),
    @metadata_run Env.plain _ _ 400 _ (by decide +kernel), by decide +kernel⟩

/-- Instance for `C105_report`: both files are rejected. -/
theorem labels_cyclic_spec : ∃ d d', @Parses Env.plain seqCyclic (.domain d) ∧ @Parses Env.plain labelsCyclic (.domain d') ∧
    NetworksBy LabelsRenamed d d' ∧ Corresponds Eq d' d' ∧
    @Returns Env.plain HashOrd.id seqCyclic none (.err (.semantic (.cyclicOrdering 1))) ∧
    @Returns Env.plain HashOrd.id labelsCyclic none (.err (.semantic (.cyclicOrdering 1))) :=
  ⟨seqDomain (seqPartial [(b!"i", b!"j"), (b!"j", b!"i")]),
    seqDomain (rlHtn (exchange b!"i" b!"k") (seqPartial [(b!"i", b!"j"), (b!"j", b!"i")])),
    @parses_tree Env.plain _ 400 _ (by decide +kernel), @parses_tree Env.plain _ 400 _ (by decide +kernel),
    seqDomain_networks (fun l => (labelsKept_total l).renamed) ⟨_, exchange_injective _ _, rfl⟩, corresponds_refl _,
    @returns_run Env.plain _ _ _ 400 _ (by decide +kernel) (by simp), @returns_run Env.plain _ _ _ 400 _ (by decide +kernel) (by simp)⟩

/-- Instance for problems. -/
theorem labels_problem_spec : ∃ d p p', @Parses Env.plain seqChain (.domain d) ∧ @Parses Env.plain seqStartFree (.problem p) ∧
    @Parses Env.plain labelsStart (.problem p') ∧ NetworksByP CyclesKept p p' ∧ CorrespondsP Eq p' p' ∧ p ≠ p' ∧
    @Returns Env.plain HashOrd.id seqChain (some labelsStart) (.ok [⟨b!"dead", 1⟩]) := by
  refine ⟨seqDomain (seqPartial [(b!"i", b!"j"), (b!"j", b!"k")]),
    seqProblem ⟨[seqCall (some b!"i") b!"go", seqCall (some b!"j") b!"t"], some 1, .partial_ [(b!"i", b!"j")], none⟩,
    seqProblem ⟨[seqCall (some b!"first") b!"go", seqCall (some b!"second") b!"t"], some 1, .partial_ [(b!"first", b!"second")], none⟩,
    @parses_tree Env.plain _ 400 _ (by decide +kernel), @parses_treeP Env.plain _ 400 _ (by decide +kernel),
    @parses_treeP Env.plain _ 400 _ (by decide +kernel), ⟨rfl, rfl, ?_⟩, ⟨seqProblem ⟨[seqCall (some b!"first") b!"go", seqCall (some b!"second") b!"t"], some 1, .partial_ [(b!"first", b!"second")], none⟩,
      id, id, rfl, rfl, fun _ => rfl⟩,
    by decide +kernel, @returns_run Env.plain _ _ _ 400 _ (by decide +kernel) (by simp)⟩
  intro a b ha hb
  cases ha
  cases hb
  refine cyclesKept_rl ⟨exchange b!"i" b!"first" ∘ exchange b!"j" b!"second",
    (exchange_injective _ _).comp (exchange_injective _ _), ?_⟩
  decide +kernel

end Verif
