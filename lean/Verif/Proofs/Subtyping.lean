import Verif.Spec.Subtyping
import Verif.Proofs.Args

/-! Well-formedness is kept if types change along the type hierarchy. -/

namespace Verif

open Spec

variable {types : List Symbol} {d d' : DomainAST} {p p' : ProblemAST}

theorem fits_trans {a b c : Option Name} (h1 : Fits types a b) (h2 : Fits types b c) : Fits types a c := by
  cases h1 with
  | untyped => exact h2
  | sub h1 =>
    cases h2 with
    | sub h2 => exact .sub (h1.trans h2)

theorem typeKnown_narrow {s t : Name} (h : Fits types (some s) (some t)) (ht : TypeKnown types t) : TypeKnown types s := by
  cases h with
  | sub h =>
    rcases h.cases_head with rfl | ⟨_, ⟨x, h1, h2, _⟩, _⟩
    · exact ht
    · exact ⟨x, h1, .inl h2⟩

theorem typeKnown_widen {s t : Name} (h : Fits types (some s) (some t)) (hs : TypeKnown types s) : TypeKnown types t := by
  cases h with
  | sub h =>
    rcases h.cases_tail with rfl | ⟨_, _, ⟨x, h1, _, h2⟩⟩
    · exact hs
    · exact ⟨x, h1, .inr h2⟩

theorem typesKnown_narrow {l l' : List Symbol} (h : Narrowed types l l') (hl : TypesKnown types l) : TypesKnown types l' := by
  induction h with
  | nil => exact hl
  | @cons s s' l l' hs _ ih =>
    rintro x hx t ht
    rcases List.mem_cons.mp hx with rfl | hx
    · obtain ⟨_, h2⟩ := hs
      rw [ht] at h2
      cases hst : s.ty with
      | none => rw [hst] at h2; cases h2
      | some u => rw [hst] at h2; exact typeKnown_narrow h2 (hl s (by simp) u hst)
    · exact ih (fun y hy => hl y (by simp [hy])) x hx t ht

theorem typesKnown_widen {l l' : List Symbol} (h : Widened types l l') (hl : TypesKnown types l) : TypesKnown types l' := by
  induction h with
  | nil => exact hl
  | @cons s s' l l' hs _ ih =>
    rintro x hx t ht
    rcases List.mem_cons.mp hx with rfl | hx
    · rw [ht] at hs
      cases hst : s.ty with
      | none => rw [hst] at hs; cases hs
      | some u => rw [hst] at hs; exact typeKnown_widen hs (hl s (by simp) u hst)
    · exact ih (fun y hy => hl y (by simp [hy])) x hx t ht

theorem names_narrow {l l' : List Symbol} (h : Narrowed types l l') : l'.map (·.name) = l.map (·.name) := by
  induction h with
  | nil => rfl
  | cons hs _ ih => simp only [List.map_cons, ih, hs.1]

theorem firstNamed_narrow {l l' : List Symbol} (h : Narrowed types l l') {x : Name} {s : Symbol} (hs : FirstNamed l x s) :
    ∃ s', FirstNamed l' x s' ∧ Fits types s'.ty s.ty := by
  induction h with
  | nil => obtain ⟨pre, post, h1, _⟩ := hs; cases pre <;> cases h1
  | @cons a a' l l' ha hl ih =>
    obtain ⟨pre, post, h1, h2, h3⟩ := hs
    cases pre with
    | nil =>
      cases h1
      exact ⟨a', ⟨[], l', rfl, ha.1.trans h2, by simp⟩, ha.2⟩
    | cons b pre =>
      cases h1
      obtain ⟨s', ⟨pre', post', h4, h5, h6⟩, h7⟩ := ih ⟨pre, post, rfl, h2, fun y hy => h3 y (by simp [hy])⟩
      refine ⟨s', ⟨a' :: pre', post', by rw [h4]; rfl, h5, ?_⟩, h7⟩
      intro y hy
      rcases List.mem_cons.mp hy with rfl | hy
      · rw [ha.1]; exact h3 a (by simp)
      · exact h6 y hy

theorem typeIn_narrow {ls ls' : List (List Symbol)} (h : List.Forall₂ (Narrowed types) ls ls') {x : Name} {ty : Option Name}
    (ht : TypeIn ls x ty) : ∃ ty', TypeIn ls' x ty' ∧ Fits types ty' ty := by
  induction h with
  | nil => cases ht
  | @cons l l' ls ls' hl _ ih =>
    cases ht with
    | here h1 =>
      obtain ⟨s', h2, h3⟩ := firstNamed_narrow hl h1
      exact ⟨_, .here h2, h3⟩
    | outer h1 h2 =>
      obtain ⟨ty', h3, h4⟩ := ih h2
      refine ⟨ty', .outer (fun s hs he => ?_) h3, h4⟩
      have : x ∈ l'.map (·.name) := List.mem_map.mpr ⟨s, hs, he⟩
      rw [names_narrow hl] at this
      obtain ⟨s0, h5, h6⟩ := List.mem_map.mp this
      exact h1 s0 h5 h6

theorem argsFit_retyped {ls ls' : List (List Symbol)} (h : List.Forall₂ (Narrowed types) ls ls') {formals formals' : List Symbol}
    (hw : Widened types formals formals') : ∀ {args : List Symbol}, ArgsFit types ls args formals → ArgsFit types ls' args formals' := by
  induction hw with
  | nil => intro args ha; cases ha; exact .nil
  | @cons f f' fs fs' hf _ ih =>
    intro args ha
    cases ha with
    | cons h1 h2 =>
      obtain ⟨ty, h3, h4⟩ := h1
      obtain ⟨ty', h5, h6⟩ := typeIn_narrow h h3
      exact .cons ⟨ty', h5, fits_trans h6 (fits_trans h4 hf)⟩ (ih h2)

theorem forall₂_left {α β : Type} {r : α → β → Prop} {l : List α} {l' : List β} (h : List.Forall₂ r l l') :
    ∀ a ∈ l, ∃ b ∈ l', r a b := by
  induction h with
  | nil => simp
  | @cons a b l l' hr _ ih =>
    intro x hx
    rcases List.mem_cons.mp hx with rfl | hx
    · exact ⟨b, by simp, hr⟩
    · obtain ⟨y, h1, h2⟩ := ih x hx
      exact ⟨y, by simp [h1], h2⟩

theorem forall₂_right {α β : Type} {r : α → β → Prop} {l : List α} {l' : List β} (h : List.Forall₂ r l l') :
    ∀ b ∈ l', ∃ a ∈ l, r a b := forall₂_left (r := fun b a => r a b) h.flip

theorem forall₂_names {α β : Type} {r : α → α → Prop} {f : α → β} {l l' : List α} (h : List.Forall₂ r l l')
    (hr : ∀ a b, r a b → f b = f a) : l'.map f = l.map f := by
  induction h with
  | nil => rfl
  | cons h _ ih => simp only [List.map_cons, ih, hr _ _ h]

theorem fits_refl (t : Option Name) : Fits types t t := by
  cases t with
  | none => exact .untyped
  | some s => exact .sub .refl

theorem widened_refl (l : List Symbol) : Widened types l l := by
  induction l with
  | nil => exact .nil
  | cons s l ih => exact .cons (fits_refl _) ih

theorem narrowed_refl (l : List Symbol) : Narrowed types l l := by
  induction l with
  | nil => exact .nil
  | cons s l ih => exact .cons ⟨rfl, fits_refl _⟩ ih

theorem callee_retyped (h : Retyped d d') {x : Name} {ps : List Symbol} (hc : Callee d x ps) :
    ∃ ps', Callee d' x ps' ∧ Widened (typesOf d) ps ps' := by
  cases hc with
  | @action a h1 h2 => exact ⟨_, .action (h.actions ▸ h1) h2, widened_refl _⟩
  | @task t h0 h1 h2 =>
    obtain ⟨t', h3, h4, h5⟩ := forall₂_left h.tasks t h1
    exact ⟨_, .task (by rw [h.actions]; exact h0) h3 (h4.trans h2), h5⟩

theorem formulaOk_retyped (h : Retyped d d') {ps ps' : List Symbol} (hp : Narrowed (typesOf d) ps ps') {f : Formula}
    (hf : FormulaOk d ps f) : FormulaOk d' ps' f := by
  refine ⟨hf.noExists, by rw [h.types]; exact typesKnown_narrow hp hf.paramTypes, fun a ha => ?_, fun a ha q' hq' hn => ?_⟩
  · obtain ⟨q, h1, h2, h3⟩ := hf.declared a ha
    obtain ⟨q', h4, h5, h6⟩ := forall₂_left h.predicates q h1
    exact ⟨q', h4, h5.trans h2, h3.trans h6.length_eq⟩
  · obtain ⟨q, h1, h2, h3⟩ := forall₂_right h.predicates q' hq'
    rw [h.types]
    exact argsFit_retyped (.cons hp (.cons h.constants .nil)) h3 (hf.typed a ha q h1 (h2.symm.trans hn))

theorem methodOk_retyped (h : Retyped d d') {m : Method} {ps : List Symbol} (hp : Narrowed (typesOf d) m.params ps)
    (hm : MethodOk d m) : MethodOk d' { m with params := ps } := by
  refine ⟨?_, fun f hf => formulaOk_retyped h hp (hm.pre f hf), ?_, fun s hs => ?_, hm.ordering⟩
  · show (ps.map (·.name)).Nodup
    rw [names_narrow hp]
    exact hm.params
  · obtain ⟨t, h1, h2, h3⟩ := hm.task
    obtain ⟨t', h4, h5, h6⟩ := forall₂_left h.tasks t h1
    rw [h.types]
    exact ⟨t', h4, h5.trans h2, argsFit_retyped (.cons hp (.cons h.constants .nil)) h6 h3⟩
  · obtain ⟨qs, h1, h2⟩ := hm.subtasks s hs
    obtain ⟨qs', h3, h4⟩ := callee_retyped h h1
    rw [h.types]
    exact ⟨qs', h3, argsFit_retyped (.cons hp (.cons h.constants .nil)) h4 h2⟩

/-- Well-formed domains stay well-formed. -/
theorem domainOk_retyped (h : Retyped d d') (hd : DomainOk d) : DomainOk d' where
  requirements := h.requirements ▸ hd.requirements
  types := by rw [h.types]; exact hd.types
  predicates := by rw [forall₂_names h.predicates fun _ _ h => h.1]; exact hd.predicates
  predicateTypes p' hp' := by
    obtain ⟨p, h1, _, h2⟩ := forall₂_right h.predicates p' hp'
    rw [h.types]
    exact typesKnown_widen h2 (hd.predicateTypes p h1)
  tasks := by rw [forall₂_names h.tasks fun _ _ h => h.1]; exact hd.tasks
  taskTypes t' ht' := by
    obtain ⟨t, h1, _, h2⟩ := forall₂_right h.tasks t' ht'
    rw [h.types]
    exact typesKnown_widen h2 (hd.taskTypes t h1)
  actionNames := by rw [h.actions]; exact hd.actionNames
  actions a ha := by
    rw [h.actions] at ha
    exact ⟨(hd.actions a ha).params, fun f hf => formulaOk_retyped h (narrowed_refl _) ((hd.actions a ha).pre f hf),
      fun f hf => formulaOk_retyped h (narrowed_refl _) ((hd.actions a ha).eff f hf)⟩
  methodNames := by
    rw [forall₂_names h.methods fun a b ⟨ps, _, h⟩ => by rw [h]]
    exact hd.methodNames
  methods m' hm' := by
    obtain ⟨m, h1, ps, h2, rfl⟩ := forall₂_right h.methods m' hm'
    exact methodOk_retyped h h2 (hd.methods m h1)

/-- Well-formed problems stay well-formed. -/
theorem problemOk_retyped (h : Retyped d d') (hp : RetypedP d p p') (ho : ProblemOk d p) : ProblemOk d' p' := by
  have fact : ∀ a, FactOk d p a → FactOk d' p' a := by
    rintro a ⟨q, h1, h2, h3⟩
    obtain ⟨q', h4, h5, h6⟩ := forall₂_left h.predicates q h1
    refine ⟨q', h4, h5.trans h2, ?_⟩
    rw [h.types]
    exact argsFit_retyped (.cons hp.objects (.cons h.constants .nil)) h6 h3
  refine ⟨by rw [h.types]; exact typesKnown_narrow hp.objects ho.objectTypes, by rw [names_narrow hp.objects]; exact ho.objects,
    fun a ha => fact a (ho.init a (hp.init ▸ ha)), fun i' hi' => ?_, fun f hf a ha => fact a (ho.goal f (hp.goal ▸ hf) a ha)⟩
  have h1 := hp.htn
  rw [hi'] at h1
  generalize hi : p.initTn = i at h1
  cases h1 with
  | @some i _ h1 =>
    obtain ⟨h2, h3⟩ := h1
    obtain ⟨h4, h5⟩ := ho.htn i hi
    refine ⟨h3 ▸ h4, fun s hs => ?_⟩
    obtain ⟨qs, h6, h7⟩ := h5 s (h3 ▸ hs)
    obtain ⟨qs', h8, h9⟩ := callee_retyped h h6
    rw [h.types]
    exact ⟨qs', h8, argsFit_retyped (.cons hp.objects (.cons h2 (.cons h.constants .nil))) h9 h7⟩

end Verif
