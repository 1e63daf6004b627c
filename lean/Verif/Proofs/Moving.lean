import Verif.Spec.Moving
import Verif.Spec.Pruning
import Verif.Proofs.GrowthP

/-! Well-formedness when objects become constants. -/

namespace Verif

open Spec

variable {cs : List Symbol} {d d' : DomainAST} {p p' : ProblemAST}

/-- Lookup in scopes the first of which has no repeated name. -/
theorem typeIn_cons {l : List Symbol} {ls : List (List Symbol)} (hl : (l.map (·.name)).Nodup) {x : Name} {ty : Option Name} :
    TypeIn (l :: ls) x ty ↔ (∃ s ∈ l, s.name = x ∧ s.ty = ty) ∨ (∀ s ∈ l, s.name ≠ x) ∧ TypeIn ls x ty := by
  constructor
  · intro h
    cases h with
    | here h => obtain ⟨h1, h2⟩ := firstNamed_name h; exact .inl ⟨_, h1, h2, rfl⟩
    | outer h1 h2 => exact .inr ⟨h1, h2⟩
  · rintro (⟨s, h1, h2, rfl⟩ | ⟨h1, h2⟩)
    · exact .here ((firstNamed_iff hl).mpr ⟨h1, h2⟩)
    · exact .outer h1 h2

/-- Lookup in any two scopes. -/
theorem typeIn_two {l : List Symbol} {ls : List (List Symbol)} {x : Name} {ty : Option Name} :
    TypeIn (l :: ls) x ty ↔ TypeIn [l] x ty ∨ (∀ s ∈ l, s.name ≠ x) ∧ TypeIn ls x ty := by
  constructor
  · intro h
    cases h with
    | here h => exact .inl (.here h)
    | outer h1 h2 => exact .inr ⟨h1, h2⟩
  · rintro (h | ⟨h1, h2⟩)
    · cases h with
      | here h => exact .here h
      | outer _ h => cases h
    · exact .outer h1 h2

/-- The last scope of two gets a part of the first one. -/
theorem typeIn_moved {o o' c c' mid : List Symbol} (hc : c'.Perm (c ++ cs)) (ho : o.Perm (o' ++ cs)) (hcn : (c'.map (·.name)).Nodup)
    (hon : (o.map (·.name)).Nodup) (hm : ∀ v ∈ mid, ∀ k ∈ cs, v.name ≠ k.name) {x : Name} {ty : Option Name} :
    TypeIn [o, mid, c] x ty ↔ TypeIn [o', mid, c'] x ty := by
  have hcs := hcn
  rw [(hc.map _).nodup_iff, List.map_append, List.nodup_append] at hcs
  have hos := hon
  rw [(ho.map _).nodup_iff, List.map_append, List.nodup_append] at hos
  have hn : ∀ z, ¬ TypeIn [] x z := fun z h => nomatch h
  rw [typeIn_cons hon, typeIn_cons hos.1, typeIn_two (l := mid), typeIn_two (l := mid) (ls := [c']), typeIn_cons hcn, typeIn_cons hcs.1]
  simp only [hc.mem_iff, ho.mem_iff, List.mem_append, hn, and_false, or_false]
  constructor
  · rintro (⟨s, h1 | h1, rfl, h3⟩ | ⟨h1, h2 | ⟨h2, s, h3, rfl, h5⟩⟩)
    · exact .inl ⟨s, h1, rfl, h3⟩
    · refine .inr ⟨fun k hk he => ?_, .inr ⟨fun v hv => hm v hv s h1, s, .inr h1, rfl, h3⟩⟩
      exact hos.2.2 _ (List.mem_map_of_mem hk) _ (List.mem_map_of_mem h1) he
    · exact .inr ⟨fun k hk => h1 k (.inl hk), .inl h2⟩
    · exact .inr ⟨fun k hk => h1 k (.inl hk), .inr ⟨h2, s, .inl h3, rfl, h5⟩⟩
  · rintro (⟨s, h1, rfl, h3⟩ | ⟨h1, h2 | ⟨h2, s, h3 | h3, rfl, h5⟩⟩)
    · exact .inl ⟨s, .inl h1, rfl, h3⟩
    · refine .inr ⟨fun k hk => ?_, .inl h2⟩
      rcases hk with hk | hk
      · exact h1 k hk
      · intro he
        obtain ⟨m, hm1, v, hv, hvx⟩ := typeIn_mem h2
        simp only [List.mem_singleton] at hm1
        subst hm1
        exact hm v hv k hk (hvx.trans he.symm)
    · refine .inr ⟨fun k hk => ?_, .inr ⟨h2, s, h3, rfl, h5⟩⟩
      rcases hk with hk | hk
      · exact h1 k hk
      · exact fun he => hcs.2.2 _ (List.mem_map_of_mem h3) _ (List.mem_map_of_mem hk) he.symm
    · exact .inl ⟨s, .inr h3, rfl, h5⟩

theorem typeIn_drop_empty {o c : List Symbol} {x : Name} {ty : Option Name} : TypeIn [o, c] x ty ↔ TypeIn [o, [], c] x ty := by
  rw [typeIn_two, typeIn_two (ls := [[], c]), typeIn_two (l := ([] : List Symbol))]
  constructor
  · rintro (h | ⟨h1, h2⟩)
    · exact .inl h
    · exact .inr ⟨h1, .inr ⟨by simp, h2⟩⟩
  · rintro (h | ⟨h1, h2 | h2⟩)
    · exact .inl h
    · cases h2 with
      | here h => obtain ⟨h, _⟩ := firstNamed_name h; cases h
      | outer _ h => cases h
    · exact .inr ⟨h1, h2.2⟩

theorem argsFit_scopes {types args formals : List Symbol} {ls ls' : List (List Symbol)}
    (h : ∀ v ∈ args, ∀ ty, TypeIn ls v.name ty → TypeIn ls' v.name ty) (hf : ArgsFit types ls args formals) :
    ArgsFit types ls' args formals := by
  induction hf with
  | nil => exact .nil
  | cons h1 _ ih =>
    obtain ⟨ty, h2, h3⟩ := h1
    exact .cons ⟨ty, h _ (by simp) ty h2, h3⟩ (ih fun v hv => h v (by simp [hv]))

section

variable (hm : Moved cs d p d' p')
include hm

theorem Spec.Moved.typesOf : typesOf d' = typesOf d := by rw [hm.domain]; rfl

theorem Spec.Moved.callee {x : Name} {ps : List Symbol} : Callee d' x ps ↔ Callee d x ps := by
  rw [hm.domain]
  constructor <;> (intro h; cases h with
    | action h1 h2 => exact .action h1 h2
    | task h1 h2 h3 => exact .task h1 h2 h3)

/-- The problem stays well-formed in both directions, apart from the checks of objects. -/
theorem problemOk_moved : ProblemOk d p ↔
    ProblemOk d' p' ∧ TypesKnown (typesOf d) cs ∧ (p.objects.map (·.name)).Nodup := by
  have e1 : p'.initState = p.initState := by rw [hm.problem]
  have e2 : p'.initTn = p.initTn := by rw [hm.problem]
  have e3 : p'.goal = p.goal := by rw [hm.problem]
  have e4 : d'.predicates = d.predicates := by rw [hm.domain]
  by_cases hn : (p.objects.map (·.name)).Nodup
  swap
  · exact ⟨fun h => absurd h.objects hn, fun h => absurd h.2.2 hn⟩
  have scope : ∀ {mid : List Symbol}, (∀ v ∈ mid, ∀ k ∈ cs, v.name ≠ k.name) → ∀ {args formals : List Symbol},
      ArgsFit (typesOf d) [p.objects, mid, constantsOf d] args formals ↔
        ArgsFit (typesOf d') [p'.objects, mid, constantsOf d'] args formals := by
    intro mid h args formals
    rw [hm.typesOf]
    exact ⟨argsFit_scopes fun _ _ _ => (typeIn_moved hm.constants hm.objects hm.once hn h).mp,
      argsFit_scopes fun _ _ _ => (typeIn_moved hm.constants hm.objects hm.once hn h).mpr⟩
  have fact : ∀ a, FactOk d p a ↔ FactOk d' p' a := by
    intro a
    have h1 : ∀ {args formals : List Symbol}, ArgsFit (typesOf d) [p.objects, constantsOf d] args formals ↔
        ArgsFit (typesOf d') [p'.objects, constantsOf d'] args formals := by
      intro args formals
      have h2 := scope (mid := []) (by simp) (args := args) (formals := formals)
      constructor
      · exact fun h => argsFit_scopes (fun _ _ _ => typeIn_drop_empty.mpr) (h2.mp (argsFit_scopes (fun _ _ _ => typeIn_drop_empty.mp) h))
      · exact fun h => argsFit_scopes (fun _ _ _ => typeIn_drop_empty.mpr) (h2.mpr (argsFit_scopes (fun _ _ _ => typeIn_drop_empty.mp) h))
    unfold FactOk
    rw [e4]
    simp only [h1]
  have htn : ∀ i, p.initTn = some i → (InitTnOk d p i ↔ InitTnOk d' p' i) := by
    intro i hi
    constructor
    · rintro ⟨h1, h2⟩
      refine ⟨h1, fun s hs => ?_⟩
      obtain ⟨ps, h3, h4⟩ := h2 s hs
      exact ⟨ps, hm.callee.mpr h3, (scope (hm.params i hi)).mp h4⟩
    · rintro ⟨h1, h2⟩
      refine ⟨h1, fun s hs => ?_⟩
      obtain ⟨ps, h3, h4⟩ := h2 s hs
      exact ⟨ps, hm.callee.mp h3, (scope (hm.params i hi)).mpr h4⟩
  constructor
  · intro h
    refine ⟨⟨fun s hs => ?_, ?_, fun a ha => ?_, fun i hi => ?_, fun f hf a ha => ?_⟩, fun s hs => ?_, h.objects⟩
    · rw [hm.typesOf]; exact h.objectTypes s (hm.objects.mem_iff.mpr (by simp [hs]))
    · have := hn
      rw [(hm.objects.map _).nodup_iff, List.map_append, List.nodup_append] at this
      exact this.1
    · exact (fact a).mp (h.init a (e1 ▸ ha))
    · exact (htn i (e2 ▸ hi)).mp (h.htn i (e2 ▸ hi))
    · exact (fact a).mp (h.goal f (e3 ▸ hf) a ha)
    · exact h.objectTypes s (hm.objects.mem_iff.mpr (by simp [hs]))
  · rintro ⟨h, hk, -⟩
    refine ⟨fun s hs => ?_, hn, fun a ha => ?_, fun i hi => ?_, fun f hf a ha => ?_⟩
    · rcases List.mem_append.mp (hm.objects.mem_iff.mp hs) with h1 | h1
      · have := h.objectTypes s h1
        rwa [hm.typesOf] at this
      · exact hk s h1
    · exact (fact a).mpr (h.init a (e1 ▸ ha))
    · exact (htn i hi).mpr (h.htn i (e2 ▸ hi))
    · exact (fact a).mpr (h.goal f (e3 ▸ hf) a ha)

/-- The domain stays well-formed with more constants. -/
theorem domainOk_moved (h : DomainOk d) : DomainOk d' := by
  have e : d' = { d with constants := d'.constants } := hm.domain
  have hx : Extends d d' := by
    refine ⟨?_, fun x hx => hm.constants.mem_iff.mpr (by simp [hx]), ?_, ?_, ?_, ?_, ?_⟩
    · rw [hm.typesOf]; exact fun _ h => h
    all_goals rw [e]
    · exact fun _ h => h
    · exact fun _ h => h
    · exact fun _ h => h
    · exact fun _ h => h
    · exact fun a h1 h2 => absurd h1 h2
  rw [domainOk_extends hx hm.once h]
  rw [e]
  exact ⟨h.requirements, h.types, h.predicates, fun _ h1 h2 => absurd h1 h2, h.tasks, fun _ h1 h2 => absurd h1 h2, h.actionNames,
    fun _ h1 h2 => absurd h1 h2, h.methodNames, fun _ h1 h2 => absurd h1 h2⟩

/-- The domain stays well-formed without constants it does not use. -/
theorem domainOk_moved_back (hu : ∀ c ∈ cs, ¬ UsesName d c.name) (h : DomainOk d') : DomainOk d := by
  have hcs := hm.once
  rw [(hm.constants.map _).nodup_iff, List.map_append, List.nodup_append] at hcs
  have scope : ∀ {params args formals : List Symbol}, (∀ v ∈ args, UsesName d v.name) →
      ArgsFit (typesOf d') [params, constantsOf d'] args formals → ArgsFit (typesOf d) [params, constantsOf d] args formals := by
    intro params args formals hv hf
    rw [hm.typesOf] at hf
    refine argsFit_scopes (fun v hv' ty ht => ?_) hf
    rw [typeIn_two, typeIn_cons hm.once] at ht
    rw [typeIn_two, typeIn_cons hcs.1]
    rcases ht with ht | ⟨h1, ⟨s, h2, h3, h4⟩ | ⟨_, h2⟩⟩
    · exact .inl ht
    · rcases List.mem_append.mp (hm.constants.mem_iff.mp h2) with h5 | h5
      · exact .inr ⟨h1, .inl ⟨s, h5, h3, h4⟩⟩
      · exact absurd (h3 ▸ hv v hv') (hu s h5)
    · cases h2
  have form : ∀ {params : List Symbol} {f : Formula}, FormulaOf d params f → FormulaOk d' params f → FormulaOk d params f := by
    intro params f hf ⟨h1, h2, h3, h4⟩
    refine ⟨h1, hm.typesOf ▸ h2, ?_, fun a ha q hq he => scope (fun v hv => ?_) (h4 a ha q ?_ he)⟩
    · rw [hm.domain] at h3; exact h3
    · exact .atom hf ha.occurs hv
    · rw [hm.domain]; exact hq
  have e : d = { d' with constants := d.constants } := by rw [hm.domain]
  refine ⟨by rw [e]; exact h.requirements, hm.typesOf ▸ h.types, by rw [e]; exact h.predicates, ?_, by rw [e]; exact h.tasks, ?_,
    by rw [e]; exact h.actionNames, fun a ha => ?_, by rw [e]; exact h.methodNames, fun m hmm => ?_⟩
  · rw [← hm.typesOf, e]; exact h.predicateTypes
  · rw [← hm.typesOf, e]; exact h.taskTypes
  · obtain ⟨h1, h2, h3⟩ := h.actions a (by rw [hm.domain]; exact ha)
    exact ⟨h1, fun f hf => form (.pre ha hf) (h2 f hf), fun f hf => form (.eff ha hf) (h3 f hf)⟩
  · obtain ⟨h1, h2, ⟨t, h3, h4, h5⟩, h6, h7⟩ := h.methods m (by rw [hm.domain]; exact hmm)
    refine ⟨h1, fun f hf => form (.method hmm hf) (h2 f hf), ⟨t, ?_, h4, scope (fun v hv => .task hmm hv) h5⟩, fun s hs => ?_, h7⟩
    · rw [hm.domain] at h3; exact h3
    · obtain ⟨ps, h8, h9⟩ := h6 s hs
      exact ⟨ps, hm.callee.mp h8, scope (fun v hv => .subtask hmm hs hv) h9⟩

end

end Verif
