import Verif.Proofs.RenameGraph
import Verif.Props.Invariance

/-! C72: what the metadata of a domain do not depend on. -/

namespace Verif

open Spec

variable [Env] {ord ord' : HashOrd} {f f' : Bytes} {d : DomainAST} {md : MetaData} {ρ : Name → Name}

theorem getMetadata_parsed {n : Nat} (h : parse n f = .ok (.domain d)) : getMetadata ord n f = metadataOf ord n d := by
  unfold getMetadata
  rw [h]
  rfl

omit [Env] in
theorem keepsLabels_id (h : HTN) : KeepsLabels id h := fun _ _ _ _ _ _ _ _ => .rfl

omit [Env] in
theorem rnMeta_id (md : MetaData) : rnMeta id md = md := by
  have h : ∀ rt, rnRec id rt = rt := by
    intro rt
    cases rt <;> simp [rnRec, rnPair]
  simp [rnMeta, h]

omit [Env] in
theorem rmap_id (x : R MetaData) : x.map (rnMeta id) = x := by
  cases x with
  | ok md => simp only [R.map, R.bind_ok, rnMeta_id]
  | _ => rfl

theorem parses_of_metadata (h : Metadata ord f md) : ∃ d, Parses f (.domain d) := by
  obtain ⟨N, hN⟩ := h
  obtain ⟨a, h1, h2⟩ := R.bind_ok_iff.mp (hN N (Nat.le_refl _))
  cases a with
  | problem p => cases h2
  | domain d => exact ⟨d, .of_ok h1⟩

theorem metadata_rn (hρ : Function.Injective ρ) (h : SameText ρ f f') (hf : Parses f (.domain d))
    (hk : ∀ m ∈ d.methods, KeepsLabels ρ m.tn) : ∃ N, ∀ ord ord', SameOrders ρ ord ord' → ∀ n, N ≤ n →
      getMetadata ord' n f' = (getMetadata ord n f).bind fun md => .ok (rnMeta ρ md) := by
  obtain ⟨a', h1, h2⟩ := (C59_trees hρ h).1 _ hf
  cases a' with
  | problem p => simp [rnAST] at h2
  | domain d' =>
    simp only [rnAST, AST.domain.injEq] at h2
    obtain ⟨M, hM⟩ := hf
    obtain ⟨M', hM'⟩ := h1
    refine ⟨max M M', fun ord ord' ha n hn => ?_⟩
    rw [getMetadata_parsed (hM n (by omega)), getMetadata_parsed (hM' n (by omega)), ← rmap_id (metadataOf ord' n d'),
      ← metadataOf_rn (SameOrders.refl (ord := ord')) injective_id (fun m _ => keepsLabels_id m.tn), h2, metadataOf_rn ha hρ hk]
    rfl

/-- C72: if a domain is laid out differently and its names are renamed, one name to one name, then `get_metadata` has the
same outcome (metadata, panic, or none at all) with the names renamed: every run on one file has a corresponding run on the
other.  Missing: labels of partially ordered subtasks may only be renamed such that it is kept which of them occur inside
which others; without this the statement is false, see `C59_metadata_refuted`. -/
theorem C72_metadata_partial (hρ : Function.Injective ρ) (h : SameText ρ f f') (hf : Parses f (.domain d))
    (hk : ∀ m ∈ d.methods, KeepsLabels ρ m.tn) :
    (∀ ord, ∃ ord' N, ∀ n, N ≤ n → getMetadata ord' n f' = (getMetadata ord n f).bind fun md => .ok (rnMeta ρ md)) ∧
    ∀ ord', ∃ ord N, ∀ n, N ≤ n → getMetadata ord' n f' = (getMetadata ord n f).bind fun md => .ok (rnMeta ρ md) := by
  obtain ⟨N, hN⟩ := metadata_rn hρ h hf hk
  exact ⟨fun ord => ⟨_, N, hN _ _ (.fwd hρ ord)⟩, fun ord' => ⟨_, N, hN _ _ (.bwd ord')⟩⟩

/-- C72: no restriction is needed if the subtasks of all methods are totally ordered (or unlabelled, or not constrained). -/
theorem C72_total_order (hρ : Function.Injective ρ) (h : SameText ρ f f') (hf : Parses f (.domain d))
    (ht : ∀ m ∈ d.methods, m.tn.orderings = .total ∨ m.tn.orderings = .partial_ [] ∨ ∀ s ∈ m.tn.subtasks, s.id = none) :
    (∃ ord, Metadata ord f md) ↔ ∃ ord', Metadata ord' f' (rnMeta ρ md) := by
  have hinj : Function.Injective (rnMeta ρ) := by
    have hc : Function.Injective (List.map (rnPair ρ)) := List.map_injective_iff.mpr (hρ.prodMap hρ)
    have hr : Function.Injective (rnRec ρ) := by
      intro a b hab
      cases a <;> cases b <;> simp only [rnRec, reduceCtorEq, RecType.recursive.injEq, RecType.empty.injEq,
        RecType.growingEmptyPrefix.injEq, RecType.growAndShrink.injEq] at hab <;> first | rfl | rw [hc hab]
    rintro ⟨a1, a2, a3, a4, a5, a6⟩ ⟨b1, b2, b3, b4, b5, b6⟩ hab
    simp only [rnMeta, MetaData.mk.injEq] at hab
    obtain ⟨h1, h2, rfl, rfl, rfl, rfl⟩ := hab
    rw [hr h1, List.map_injective_iff.mpr hρ h2]
  obtain ⟨h1, h2⟩ := C72_metadata_partial hρ h hf fun m hm os ho s hs i hi e he => by
    rcases ht m hm with h | h | h
    · rw [h] at ho; cases ho
    · rw [h] at ho; cases ho; cases he
    · rw [h s hs] at hi; cases hi
  constructor
  · rintro ⟨ord, M, hM⟩
    obtain ⟨ord', N, hN⟩ := h1 ord
    exact ⟨ord', max N M, fun n hn => by rw [hN n (by omega), hM n (by omega)]; rfl⟩
  · rintro ⟨ord', M, hM⟩
    obtain ⟨ord, N, hN⟩ := h2 ord'
    refine ⟨ord, max N M, fun n hn => ?_⟩
    have h3 := hN n (by omega)
    rw [hM n (by omega)] at h3
    obtain ⟨md', h4, h5⟩ := R.bind_ok_iff.mp h3.symm
    rw [h4, hinj (R.ok.inj h5)]

/-- C72: the metadata do not depend on the layout. -/
theorem C72_layout (h : SameText id f f') : Metadata ord f md ↔ Metadata ord f' md := by
  have key : ∀ {f f' : Bytes}, SameText id f f' → Metadata ord f md → Metadata ord f' md := by
    intro f f' h hm
    obtain ⟨d, hd⟩ := parses_of_metadata hm
    obtain ⟨N, hN⟩ := metadata_rn injective_id h hd fun m _ => keepsLabels_id m.tn
    obtain ⟨M, hM⟩ := hm
    exact ⟨max N M, fun n hn => by rw [hN ord ord .refl n (by omega), hM n (by omega), R.bind_ok, rnMeta_id]⟩
  exact ⟨key h, key (h.symm fun _ => rfl)⟩

omit [Env] in
theorem accepts_warningsOf {ws : List Warning} (h : Accepts ord d ws) : ∃ N, ∀ n, N ≤ n → warningsOf ord n d = .ok ws := by
  obtain ⟨N, hN⟩ := h
  refine ⟨N, fun n hn => ?_⟩
  obtain ⟨_, _, h1⟩ := R.bind_ok_iff.mp (hN n hn)
  obtain ⟨g, h2, h1⟩ := R.bind_ok_iff.mp h1
  obtain ⟨ws', h3, h1⟩ := R.bind_ok_iff.mp h1
  have h4 : ws' = ws := congrArg SymbolTable.warnings (R.ok.inj h1)
  rw [← h4]
  exact R.bind_ok_iff.mpr ⟨g, h2, h3⟩

/-- C59: the same tasks are warned about, in the same order. -/
theorem C59_warnings (hρ : Function.Injective ρ) (h : SameText ρ f f') {ws : List Warning} (hr : Returns ord f none (.ok ws)) :
    ∃ ws', Returns ord f' none (.ok ws') ∧ ws'.map (·.symbol) = ws.map fun w => ρ w.symbol := by
  obtain ⟨ws', hr'⟩ := (C59_domain (ord' := ord) hρ h).mp ⟨ws, hr⟩
  refine ⟨ws', hr', ?_⟩
  obtain ⟨d, hd, _⟩ := accepts_domain_iff.mp ⟨ws, hr⟩
  obtain ⟨a', h1, h2⟩ := (C59_trees hρ h).1 _ hd
  cases a' with
  | problem p => simp [rnAST] at h2
  | domain d' =>
    simp only [rnAST, AST.domain.injEq] at h2
    obtain ⟨N, hN⟩ := accepts_warningsOf ((returns_ok_none hd).mp hr)
    obtain ⟨M, hM⟩ := accepts_warningsOf ((returns_ok_none h1).mp hr')
    have h3 := warningsOf_rn (ord := ord) (d := d') injective_id (max N M)
    rw [h2, warningsOf_rn hρ, hN _ (by omega), hM _ (by omega)] at h3
    have h4 := congrArg (List.map Warning.symbol) (R.ok.inj h3)
    simp only [List.map_map] at h4
    exact h4.symm

/-- `shortLabel` with other names and another layout. -/
def renamedLabel : Bytes := b!"; renamed
(define (domain _d)
  (:task _t :parameters ())
  (:action _a :parameters ())
  (:method _m :parameters () :task (_t)
    :tasks (and (_i (_t)) (_j (_a)))
    :order (< _i _j)))
"

/-- Instance: a partially ordered method whose labels may be renamed. -/
example : SameText underscore shortLabel renamedLabel ∧
    (∃ d, @Parses Env.plain shortLabel (.domain d) ∧ d.methods.length = 1 ∧ ∀ m ∈ d.methods, KeepsLabels underscore m.tn) ∧
    @Metadata Env.plain HashOrd.id shortLabel ⟨.growingEmptyPrefix [(b!"t", b!"m"), (b!"t", b!"m")], [], [], 1, 1, 1⟩ ∧
    @Metadata Env.plain HashOrd.id renamedLabel ⟨.growingEmptyPrefix [(b!"_t", b!"_m"), (b!"_t", b!"_m")], [], [], 1, 1, 1⟩ := by
  refine ⟨sameText_of (k := 80) (by decide +kernel), ?_, @metadata_run Env.plain _ _ 80 _ (by decide +kernel),
    @metadata_run Env.plain _ _ 80 _ (by decide +kernel)⟩
  obtain ⟨a, h1, h2⟩ := @parses_holds shortLabel Env.plain 80 (fun a => match a with
    | .domain d => decide (d.methods.length = 1) && d.methods.all fun m =>
        decide (m.tn.orderings = .partial_ [(b!"i", b!"j")] ∧ m.tn.subtasks.filterMap (·.id.map (·.name)) = [b!"i", b!"j"])
    | .problem _ => false) (by decide +kernel)
  cases a with
  | problem p => cases h2
  | domain d =>
    simp only [Bool.and_eq_true, decide_eq_true_eq, List.all_eq_true] at h2
    refine ⟨d, h1, h2.1, fun m hm os ho s hs i hi e he => ?_⟩
    obtain ⟨h3, h4⟩ := h2.2 m hm
    rw [h3] at ho
    cases ho
    rw [List.mem_singleton] at he
    subst he
    have h5 : i.name ∈ m.tn.subtasks.filterMap (·.id.map (·.name)) := List.mem_filterMap.mpr ⟨s, hs, by rw [hi]; rfl⟩
    rw [h4] at h5
    simp only [List.mem_cons, List.not_mem_nil, or_false] at h5
    rcases h5 with h5 | h5 <;> rw [h5] <;> decide

/-- Instance: a totally ordered domain in two layouts. -/
example : SameText id loopDomain (loopDomain ++ b!"; end\n") ∧
    @Metadata Env.plain HashOrd.id (loopDomain ++ b!"; end\n")
      ⟨.growAndShrink [(b!"u", b!"m2"), (b!"t", b!"m1"), (b!"u", b!"m1")], [b!"e"], [], 1, 3, 4⟩ :=
  ⟨sameText_of (k := 120) (by decide +kernel), @metadata_run Env.plain _ _ 120 _ (by decide +kernel)⟩

end Verif
