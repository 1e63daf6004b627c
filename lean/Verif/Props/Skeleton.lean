import Verif.Proofs.Skeleton
import Verif.Props.Printing
import Verif.Props.RenamedMeta

/-! C82: metadata and warnings only depend on the names and the task networks. -/

namespace Verif

open Spec

variable [Env] {ord : HashOrd} {f f' : Bytes} {d d' : DomainAST} {md : MetaData} {ts : List Tk}

/-- C82: if two domain files have the same skeleton, `get_metadata` has the same outcome on both: the same metadata, the same
panic, or none at all. -/
theorem C82_outcome (hf : Parses f (.domain d)) (hf' : Parses f' (.domain d')) (h : skeleton d = skeleton d') :
    ∃ N, ∀ ord n, N ≤ n → getMetadata ord n f = getMetadata ord n f' := by
  obtain ⟨M, hM⟩ := hf
  obtain ⟨M', hM'⟩ := hf'
  refine ⟨max M M', fun ord n hn => ?_⟩
  rw [getMetadata_parsed (hM n (by omega)), getMetadata_parsed (hM' n (by omega)), ← metadataOf_skeleton, h, metadataOf_skeleton]

theorem C82_metadata (hf : Parses f (.domain d)) (hf' : Parses f' (.domain d')) (h : skeleton d = skeleton d') :
    Metadata ord f md ↔ Metadata ord f' md := by
  obtain ⟨N, hN⟩ := C82_outcome hf hf' h
  constructor
  · rintro ⟨M, hM⟩
    exact ⟨max N M, fun n hn => by rw [← hN _ n (by omega), hM n (by omega)]⟩
  · rintro ⟨M, hM⟩
    exact ⟨max N M, fun n hn => by rw [hN _ n (by omega), hM n (by omega)]⟩

/-- C82: if both files are accepted, the same tasks are warned about, in the same order. -/
theorem C82_warnings (hf : Parses f (.domain d)) (hf' : Parses f' (.domain d')) (h : skeleton d = skeleton d') {ws ws' : List Warning}
    (hr : Returns ord f none (.ok ws)) (hr' : Returns ord f' none (.ok ws')) : ws.map (·.symbol) = ws'.map (·.symbol) := by
  obtain ⟨N, hN⟩ := accepts_warningsOf ((returns_ok_none hf).mp hr)
  obtain ⟨M, hM⟩ := accepts_warningsOf ((returns_ok_none hf').mp hr')
  have h1 := warningsOf_skeleton (ord := ord) (d := d) (max N M)
  rw [h, warningsOf_skeleton, hN _ (by omega), hM _ (by omega)] at h1
  have h2 := congrArg (List.map Warning.symbol) (R.ok.inj h1)
  simp only [List.map_map] at h2
  exact h2.symm

/-- C82: the skeleton of a domain, written as a file, has the same metadata; if the domain is accepted, so is its skeleton, with
warnings about the same tasks. -/
theorem C82_skeleton_file (hf : Parses f (.domain d)) (hw : Written ts 1 f') (ht : ts.map Prod.fst = domainToks true (skeleton d)) :
    (∀ ord md, Metadata ord f md ↔ Metadata ord f' md) ∧
    ∀ ord ws, Returns ord f none (.ok ws) → ∃ ws', Returns ord f' none (.ok ws') ∧ ws'.map (·.symbol) = ws.map (·.symbol) := by
  obtain ⟨d', h1, h2⟩ := C81_domain skeleton_shape hw ht
  have h3 : skeleton d = skeleton d' := by
    rw [← skeleton_rn (d := d'), h2, skeleton_rn, readDomain_skeleton, skeleton_idem]
  refine ⟨fun ord md => C82_metadata hf h1 h3, fun ord ws hr => ?_⟩
  have h4 : DomainOk (skeleton d) := domainOk_skeleton ((returns_domain_iff hf).mp ⟨ws, hr⟩)
  rw [← readDomain_skeleton] at h4
  obtain ⟨ws', hr'⟩ := (C81_domain_verdict (ord := ord) skeleton_shape hw ht).mpr h4
  exact ⟨ws', hr', C82_warnings h1 hf h3.symm hr' hr⟩

/-- C82: for every accepted domain (with ASCII names) there is an accepted one without types, parameters and formulas that has the same
metadata and warnings about the same tasks. -/
theorem C82_propositional (hf : Parses f (.domain d)) (hu : ∀ t ∈ domainToks true (skeleton d), Utterable t)
    (ha : ∃ ord ws, Returns ord f none (.ok ws)) :
    ∃ f' d', Parses f' (.domain d') ∧ DomainOk d' ∧ typesOf d' = [] ∧ d'.predicates = [] ∧ (∀ t ∈ d'.tasks, t.params = []) ∧
      (∀ a ∈ d'.actions, a.params = [] ∧ a.pre = none ∧ a.eff = none) ∧ (∀ m ∈ d'.methods, m.params = [] ∧ m.pre = none) ∧
      (∀ ord md, Metadata ord f md ↔ Metadata ord f' md) ∧
      ∀ ord ws, Returns ord f none (.ok ws) → ∃ ws', Returns ord f' none (.ok ws') ∧ ws'.map (·.symbol) = ws.map (·.symbol) := by
  obtain ⟨us, f', h1, h2⟩ := written_toks hu 1
  obtain ⟨h5, h6⟩ := C82_skeleton_file hf h2 h1
  obtain ⟨d', h3, h4⟩ := C81_domain skeleton_shape h2 h1
  rw [readDomain_skeleton] at h4
  obtain ⟨ord, ws, hr⟩ := ha
  obtain ⟨ws', hr', _⟩ := h6 ord ws hr
  have e : ∀ {α : Type} (g : DomainAST → α), g (rnDomain id d') = g (rnDomain id (skeleton d)) := fun g => congrArg g h4
  refine ⟨f', d', h3, (returns_domain_iff h3).mp ⟨ws', hr'⟩, ?_, ?_, ?_, ?_, ?_, h5, h6⟩
  · have h7 := e DomainAST.types
    have h8 : d'.types = none := by simpa [rnDomain, skeleton] using h7
    rw [typesOf, h8]
    rfl
  · have := e DomainAST.predicates
    simpa [rnDomain, skeleton] using this
  · intro t ht
    have h7 := congrArg (fun l : List Task => l.map fun t => t.params.length) (e DomainAST.tasks)
    simp only [rnDomain, skeleton, List.map_map] at h7
    have h8 : t.params.length ∈ d'.tasks.map fun t => t.params.length := List.mem_map_of_mem (f := fun t : Task => t.params.length) ht
    have h9 : (d'.tasks.map fun t => t.params.length) = d.tasks.map fun _ => 0 := by
      simpa [Function.comp_def, rnTask] using h7
    rw [h9] at h8
    obtain ⟨_, _, h⟩ := List.mem_map.mp h8
    exact List.length_eq_zero_iff.mp h.symm
  · intro a ha
    have h7 := congrArg (fun l : List Action => l.map fun a => (a.params.length, a.pre.isSome, a.eff.isSome)) (e DomainAST.actions)
    have h8 := List.mem_map_of_mem (f := fun a : Action => (a.params.length, a.pre.isSome, a.eff.isSome)) ha
    have h9 : (d'.actions.map fun a => (a.params.length, a.pre.isSome, a.eff.isSome)) = d.actions.map fun _ => (0, false, false) := by
      simpa [Function.comp_def, rnDomain, skeleton, rnAction] using h7
    rw [h9] at h8
    obtain ⟨_, _, h⟩ := List.mem_map.mp h8
    simp only [Prod.mk.injEq] at h
    exact ⟨List.length_eq_zero_iff.mp h.1.symm, by simpa using h.2.1.symm, by simpa using h.2.2.symm⟩
  · intro a ha
    have h7 := congrArg (fun l : List Method => l.map fun a => (a.params.length, a.pre.isSome)) (e DomainAST.methods)
    have h8 := List.mem_map_of_mem (f := fun a : Method => (a.params.length, a.pre.isSome)) ha
    have h9 : (d'.methods.map fun a => (a.params.length, a.pre.isSome)) = d.methods.map fun _ => (0, false) := by
      simpa [Function.comp_def, rnDomain, skeleton, rnMethod, methodOnly] using h7
    rw [h9] at h8
    obtain ⟨_, _, h⟩ := List.mem_map.mp h8
    simp only [Prod.mk.injEq] at h
    exact ⟨List.length_eq_zero_iff.mp h.1.symm, by simpa using h.2.symm⟩

/-! ### Instance -/

/-- A typed domain with a task that has no primitive decomposition. -/
def richDomain : Bytes := b!"(define (domain rich) (:requirements :typing) (:types a - b) (:constants c - a)
  (:predicates (p ?x - b))
  (:task t :parameters (?x - b)) (:task dead :parameters (?x - a))
  (:method m0 :parameters (?x - b) :task (t ?x) :precondition (not (p ?x))
    :subtasks (and (i (t ?x)) (j (go c))) :ordering (< i j) :constraints (not (= ?x c)))
  (:method m1 :parameters (?x - b) :task (t ?x) :ordered-subtasks (l (go ?x)))
  (:action go :parameters (?x - b) :precondition (p ?x) :effect (and (p c) (not (p ?x)))))\n"

/-- Its skeleton. -/
def richSkeleton : Bytes := b!"(define (domain d) (:requirements) (:predicates) (:functions)
  (:task t :parameters ()) (:task dead :parameters ())
  (:action go :parameters ())
  (:method m0 :parameters () :task (t) :subtasks (and (i (t)) (j (go))) :ordering (and (< i j)))
  (:method m1 :parameters () :task (t) :ordered-subtasks (and (go))))\n"

/-- The subtasks of `m0` are in the other order. -/
def richReversed : Bytes := b!"(define (domain d) (:requirements) (:predicates) (:functions)
  (:task t :parameters ()) (:task dead :parameters ())
  (:action go :parameters ())
  (:method m0 :parameters () :task (t) :subtasks (and (i (t)) (j (go))) :ordering (and (< j i)))
  (:method m1 :parameters () :task (t) :ordered-subtasks (and (go))))\n"

/-- Two trees and the tokens of the second file, checked by computation. -/
def treesCheck (n : Nat) (f g : Bytes) (test : DomainAST → DomainAST → List Tk → Bool) : Bool :=
  match parse n f, parse n g, scan n 1 g with
  | .ok (.domain d), .ok (.domain d'), some ts => test d d' ts
  | _, _, _ => false

theorem trees_of_check {n : Nat} {test : DomainAST → DomainAST → List Tk → Bool} (h : treesCheck n f f' test = true) :
    ∃ d d' ts, Parses f (.domain d) ∧ Parses f' (.domain d') ∧ Written ts 1 f' ∧ test d d' ts = true := by
  unfold treesCheck at h
  split at h
  · rename_i d d' ts h1 h2 h3
    exact ⟨d, d', ts, .of_ok h1, .of_ok h2, scan_written h3, h⟩
  · cases h

omit [Env] in
/-- Instance: `richDomain` meets the hypotheses of `C82_skeleton_file`, `C82_propositional` and, with `richSkeleton`, of
`C82_outcome`, `C82_metadata` and `C82_warnings`. -/
theorem richSkeleton_spec : (∃ d d' ts, @Parses Env.plain richDomain (.domain d) ∧ @Parses Env.plain richSkeleton (.domain d') ∧
      Written ts 1 richSkeleton ∧ ts.map Prod.fst = domainToks true (skeleton d) ∧ skeleton d = skeleton d' ∧
      ∀ t ∈ domainToks true (skeleton d), Utterable t) ∧
    @Returns Env.plain HashOrd.id richDomain none (.ok [⟨b!"dead", 3⟩]) ∧
    @Returns Env.plain HashOrd.id richSkeleton none (.ok [⟨b!"dead", 2⟩]) ∧
    @Metadata Env.plain HashOrd.id richDomain ⟨.growingEmptyPrefix [(b!"t", b!"m0"), (b!"t", b!"m0")], [], [], 1, 2, 2⟩ := by
  refine ⟨?_, @returns_run Env.plain _ _ _ 400 _ (by decide +kernel) (by simp), @returns_run Env.plain _ _ _ 400 _ (by decide +kernel) (by simp),
    @metadata_run Env.plain _ _ 400 _ (by decide +kernel)⟩
  obtain ⟨d, d', ts, h1, h2, h3, h4⟩ := @trees_of_check Env.plain richDomain richSkeleton 400
    (fun d d' ts => decide (ts.map Prod.fst = domainToks true (skeleton d)) && decide (skeleton d = skeleton d') &&
      (domainToks true (skeleton d)).all spellable) (by decide +kernel)
  simp only [Bool.and_eq_true, decide_eq_true_eq, List.all_eq_true] at h4
  exact ⟨d, d', ts, h1, h2, h3, h4.1.1, h4.1.2, fun t ht => spellable_sound (h4.2 t ht)⟩

omit [Env] in
/-- The orderings cannot be left out of the skeleton: the metadata of two domains that only differ in them differ. -/
theorem C82_orderings_needed :
    (∃ d d', @Parses Env.plain richSkeleton (.domain d) ∧ @Parses Env.plain richReversed (.domain d') ∧
      skeleton { d with methods := d.methods.map fun m => { m with tn := { m.tn with orderings := .total } } } =
        skeleton { d' with methods := d'.methods.map fun m => { m with tn := { m.tn with orderings := .total } } }) ∧
    ∃ md, @Metadata Env.plain HashOrd.id richSkeleton md ∧ ¬ @Metadata Env.plain HashOrd.id richReversed md := by
  constructor
  · obtain ⟨d, d', ts, h1, h2, h3, h4⟩ := @trees_of_check Env.plain richSkeleton richReversed 400
      (fun d d' _ => decide (skeleton { d with methods := d.methods.map fun m => { m with tn := { m.tn with orderings := .total } } } =
        skeleton { d' with methods := d'.methods.map fun m => { m with tn := { m.tn with orderings := .total } } })) (by decide +kernel)
    exact ⟨d, d', h1, h2, of_decide_eq_true h4⟩
  · refine ⟨⟨.growingEmptyPrefix [(b!"t", b!"m0"), (b!"t", b!"m0")], [], [], 1, 2, 2⟩, @metadata_run Env.plain _ _ 400 _ (by decide +kernel), ?_⟩
    rintro ⟨N, hN⟩
    obtain ⟨M, hM⟩ := @metadata_run Env.plain HashOrd.id richReversed 400 ⟨.empty [(b!"t", b!"m0"), (b!"t", b!"m0")], [], [], 1, 2, 2⟩
      (by decide +kernel)
    have h1 := hN (max N M) (by omega)
    rw [hM _ (by omega)] at h1
    cases R.ok.inj h1

end Verif
