import Verif.Spec.Pruning
import Verif.Proofs.Growth

/-! Well-formedness of domains and problems from which unused declarations were removed. -/

namespace Verif

open Spec

variable {α : Type} {P : α → Prop} {l l' : List α} {d d' : DomainAST} {p p' : ProblemAST}

theorem Spec.Drops.sublist (h : Drops P l l') : l.Sublist l' := by
  induction h with
  | nil => exact .slnil
  | keep _ ih => exact ih.cons_cons _
  | drop _ _ ih => exact ih.cons _

theorem Spec.Drops.mem (h : Drops P l l') {x : α} (hx : x ∈ l') : x ∈ l ∨ P x := by
  induction h with
  | nil => cases hx
  | keep _ ih =>
    rcases List.mem_cons.mp hx with rfl | hx
    · exact .inl (List.mem_cons_self ..)
    · exact (ih hx).imp_left (List.mem_cons_of_mem _)
  | drop h _ ih =>
    rcases List.mem_cons.mp hx with rfl | hx
    · exact .inr h
    · exact ih hx

/-- Dropping symbols with other names does not change which one is the first of a name. -/
theorem Spec.Drops.firstNamed {P : Symbol → Prop} {l l' : List Symbol} (h : Drops P l l') {x : Name} {s : Symbol}
    (hx : ∀ s, P s → s.name ≠ x) (hs : FirstNamed l' x s) : FirstNamed l x s := by
  induction h with
  | nil => exact hs
  | @keep y l l' _ ih =>
    obtain ⟨pre, post, h1, h2, h3⟩ := hs
    cases pre with
    | nil =>
      simp only [List.nil_append, List.cons.injEq] at h1
      exact ⟨[], l, by rw [h1.1]; rfl, h2, by simp⟩
    | cons z pre =>
      simp only [List.cons_append, List.cons.injEq] at h1
      obtain ⟨rfl, h1⟩ := h1
      obtain ⟨pre', post', rfl, _, h4⟩ := ih ⟨pre, post, h1, h2, fun y hy => h3 y (List.mem_cons_of_mem _ hy)⟩
      refine ⟨y :: pre', post', rfl, h2, fun z hz => ?_⟩
      rcases List.mem_cons.mp hz with rfl | hz
      · exact h3 _ (List.mem_cons_self ..)
      · exact h4 z hz
  | @drop y l l' hp _ ih =>
    obtain ⟨pre, post, h1, h2, h3⟩ := hs
    cases pre with
    | nil =>
      simp only [List.nil_append, List.cons.injEq] at h1
      exact absurd (h1.1 ▸ h2) (hx y hp)
    | cons z pre =>
      simp only [List.cons_append, List.cons.injEq] at h1
      exact ih ⟨pre, post, h1.2, h2, fun y hy => h3 y (List.mem_cons_of_mem _ hy)⟩

/-- The scopes without some symbols with other names. -/
inductive Scopes (x : Name) : List (List Symbol) → List (List Symbol) → Prop
  | nil : Scopes x [] []
  | cons {P l l' ls ls'} : Drops P l l' → (∀ s, P s → s.name ≠ x) → Scopes x ls ls' → Scopes x (l :: ls) (l' :: ls')

theorem Drops.refl {P : α → Prop} : ∀ l : List α, Drops P l l
  | [] => .nil
  | _ :: l => .keep (Drops.refl l)

theorem Scopes.typeIn {x : Name} {ls ls' : List (List Symbol)} (h : Scopes x ls ls') {ty : Option Name} (ht : TypeIn ls' x ty) :
    TypeIn ls x ty := by
  induction h with
  | nil => cases ht
  | cons h1 h2 _ ih =>
    cases ht with
    | here h => exact .here (h1.firstNamed h2 h)
    | outer h3 h4 => exact .outer (fun s hs => h3 s (h1.sublist.subset hs)) (ih h4)

/-- The type found in some scopes is that of a symbol in them. -/
theorem typeIn_ty {ls : List (List Symbol)} {x : Name} {ty : Option Name} (h : TypeIn ls x ty) : ∃ l ∈ ls, ∃ s ∈ l, s.ty = ty := by
  induction h with
  | @here l ls x s h => exact ⟨_, List.mem_cons_self .., s, (firstNamed_name h).1, rfl⟩
  | outer _ _ ih =>
    obtain ⟨l, h1, h2⟩ := ih
    exact ⟨l, List.mem_cons_of_mem _ h1, h2⟩

/-- Subtypes of used types stay subtypes. -/
theorem fits_pruned {U : Name → Prop} {t t' : List Symbol} (h : ∀ x ∈ t', U x.name → x ∈ t) (hu : ∀ x ∈ t, ∀ u, x.ty = some u → U u)
    {a b : Option Name} (ha : ∀ x, a = some x → U x) (hf : Fits t' a b) : Fits t a b := by
  cases hf with
  | untyped => exact .untyped
  | @sub s u hs =>
    refine .sub ?_
    have : Relation.ReflTransGen (DirectSub t) s u ∧ U u := by
      induction hs with
      | refl => exact ⟨.refl, ha _ rfl⟩
      | tail _ h2 ih =>
        obtain ⟨x, h3, h4, h5⟩ := h2
        have h6 := h x h3 (h4 ▸ ih.2)
        exact ⟨ih.1.tail ⟨x, h6, h4, h5⟩, hu x h6 _ h5⟩
    exact this.1

section
variable (h : Pruned d d')
include h

theorem pruned_type {x : Symbol} (hx : x ∈ typesOf d') (hu : UsesType d x.name) : x ∈ typesOf d :=
  (h.types.mem hx).resolve_right fun h1 => h1.1 hu

theorem pruned_fits {ls : List (List Symbol)} {x : Name} {a b : Option Name} (ht : TypeIn ls x a)
    (hl : ∀ l ∈ ls, ParamsOf d l ∨ l = constantsOf d) (hf : Fits (typesOf d') a b) : Fits (typesOf d) a b := by
  refine fits_pruned (U := UsesType d) (fun x hx hu => pruned_type h hx hu) (fun x hx u hu => .inl ⟨x, hx, hu⟩) (fun y hy => ?_) hf
  obtain ⟨l, h1, s, h2, h3⟩ := typeIn_ty ht
  rcases hl l h1 with h4 | rfl
  · exact .inr (.inr ⟨l, h4, s, h2, h3.trans hy⟩)
  · exact .inr (.inl ⟨s, h2, h3.trans hy⟩)

theorem pruned_argsFit {params args formals : List Symbol} (hp : ParamsOf d params) (hu : ∀ v ∈ args, UsesName d v.name)
    (hf : ArgsFit (typesOf d') [params, constantsOf d'] args formals) : ArgsFit (typesOf d) [params, constantsOf d] args formals := by
  unfold ArgsFit at hf ⊢
  induction hf with
  | nil => exact .nil
  | @cons v w args formals h1 _ ih =>
    refine .cons ?_ (ih fun v hv => hu v (List.mem_cons_of_mem _ hv))
    obtain ⟨ty, h2, h3⟩ := h1
    have h4 : TypeIn [params, constantsOf d] v.name ty :=
      Scopes.typeIn (.cons (Drops.refl (P := fun _ => False) _) (fun _ hf => hf.elim) (.cons h.constants
        (fun s hs hn => hs (hn ▸ hu v (List.mem_cons_self ..))) .nil)) h2
    refine ⟨ty, h4, pruned_fits h h4 (fun l hl => ?_) h3⟩
    simp only [List.mem_cons, List.not_mem_nil, or_false] at hl
    rcases hl with rfl | rfl
    · exact .inl hp
    · exact .inr rfl

theorem pruned_typesKnown {l : List Symbol} (hp : ParamsOf d l) (hk : TypesKnown (typesOf d') l) : TypesKnown (typesOf d) l := by
  intro s hs t ht
  have hu : UsesType d t := .inr (.inr ⟨l, hp, s, hs, ht⟩)
  obtain ⟨x, h1, h2⟩ := hk s hs t ht
  rcases h.types.mem h1 with h3 | ⟨h3, h4⟩
  · exact ⟨x, h3, h2⟩
  · rcases h2 with rfl | h2
    · exact absurd hu h3
    · exact h4 t h2 hu

theorem pruned_formulaOk {params : List Symbol} {f : Formula} (hf : FormulaOf d params f) (hp : ParamsOf d params)
    (hk : FormulaOk d' params f) : FormulaOk d params f := by
  refine ⟨hk.noExists, pruned_typesKnown h hp hk.paramTypes, fun p ho => ?_, fun p ho q hq hn => ?_⟩
  · obtain ⟨q, h1, h2, h3⟩ := hk.declared p ho
    exact ⟨q, (h.predicates.mem h1).resolve_right fun h4 => h4 ⟨params, f, p, hf, ho, h2.symm⟩, h2, h3⟩
  · exact pruned_argsFit h hp (fun v hv => .atom hf ho.occurs hv) (hk.typed p ho q (h.predicates.sublist.subset hq) hn)

omit h in
theorem callee_pruned {x : Name} {ps : List Symbol} (ha : ∀ a ∈ d'.actions, a.name = x → a ∈ d.actions)
    (hs : ∀ a ∈ d.actions, a ∈ d'.actions) (ht : ∀ t ∈ d'.tasks, t.name = x → t ∈ d.tasks) (hc : Callee d' x ps) : Callee d x ps := by
  cases hc with
  | action h1 h2 => exact .action (ha _ h1 h2) h2
  | task h0 h1 h2 => exact .task (fun a h3 => h0 a (hs a h3)) (ht _ h1 h2) h2

/-- A well-formed domain stays well-formed when unused declarations are removed. -/
theorem domainOk_pruned (hd : DomainOk d') : DomainOk d := by
  refine ⟨hd.requirements.sublist h.requirements, fun x hx => ?_, hd.predicates.sublist (h.predicates.sublist.map _), fun p hp => ?_,
    hd.tasks.sublist (h.tasks.sublist.map _), fun t ht => ?_, hd.actionNames.sublist (h.actions.sublist.map _), fun a ha => ?_,
    hd.methodNames.sublist (h.methods.map _), fun m hm => ?_⟩
  · exact hd.types x (Relation.TransGen.mono (r := DirectSub (typesOf d)) (p := DirectSub (typesOf d'))
      (fun a b ⟨s, h1, h2⟩ => ⟨s, h.types.sublist.subset h1, h2⟩) _ _ hx)
  · exact pruned_typesKnown h (.predicate hp) (hd.predicateTypes p (h.predicates.sublist.subset hp))
  · exact pruned_typesKnown h (.task ht) (hd.taskTypes t (h.tasks.sublist.subset ht))
  · obtain ⟨h1, h2, h3⟩ := hd.actions a (h.actions.sublist.subset ha)
    exact ⟨h1, fun f hf => pruned_formulaOk h (.pre ha hf) (.action ha) (h2 f hf),
      fun f hf => pruned_formulaOk h (.eff ha hf) (.action ha) (h3 f hf)⟩
  · obtain ⟨h1, h2, ⟨t, h3, h4, h5⟩, h6, h7⟩ := hd.methods m (h.methods.subset hm)
    refine ⟨h1, fun f hf => pruned_formulaOk h (.method hm hf) (.method hm) (h2 f hf), ⟨t, ?_, h4, ?_⟩, fun s hs => ?_, h7⟩
    · exact (h.tasks.mem h3).resolve_right fun h8 => h8.2 ⟨m, hm, h4.symm⟩
    · exact pruned_argsFit h (.method hm) (fun v hv => .task hm hv) h5
    · obtain ⟨ps, h8, h9⟩ := h6 s hs
      refine ⟨ps, callee_pruned (fun a ha hn => ?_) (fun a ha => h.actions.sublist.subset ha) (fun t ht hn => ?_) h8,
        pruned_argsFit h (.method hm) (fun v hv => .subtask hm hs hv) h9⟩
      · exact (h.actions.mem ha).resolve_right fun h10 => h10 ⟨m, hm, s, hs, hn.symm⟩
      · exact (h.tasks.mem ht).resolve_right fun h10 => h10.1 ⟨m, hm, s, hs, hn.symm⟩

variable (hu : UnusedBy p d d') (hp : PrunedP p p')
include hu hp

theorem pruned_argsFitP {mid args formals : List Symbol} {ls : List (List Symbol)}
    (hm : ls = [] ∨ ls = [mid] ∧ ∃ h, p.initTn = some h ∧ h.params.getD [] = mid) (hn : ∀ v ∈ args, UsesNameP p v.name)
    (hf : ArgsFit (typesOf d') (p'.objects :: ls ++ [constantsOf d']) args formals) :
    ArgsFit (typesOf d) (p.objects :: ls ++ [constantsOf d]) args formals := by
  unfold ArgsFit at hf ⊢
  induction hf with
  | nil => exact .nil
  | @cons v w args formals h1 _ ih =>
    refine .cons ?_ (ih fun v hv => hn v (List.mem_cons_of_mem _ hv))
    obtain ⟨ty, h2, h3⟩ := h1
    have hv := hn v (List.mem_cons_self ..)
    have hc : Scopes v.name [constantsOf d] [constantsOf d'] := .cons hu.constants (fun s hs hn => hs (hn ▸ hv)) .nil
    have h4 : TypeIn (p.objects :: ls ++ [constantsOf d]) v.name ty := by
      refine Scopes.typeIn (.cons hp.objects (fun s hs hn => hs (hn ▸ hv)) ?_) h2
      rcases hm with rfl | ⟨rfl, _⟩
      · exact hc
      · exact .cons (Drops.refl (P := fun _ => False) _) (fun _ hf => hf.elim) hc
    refine ⟨ty, h4, fits_pruned (U := fun t => UsesType d t ∨ UsesTypeP p t) (fun x hx h5 => ?_)
      (fun x hx u h5 => .inl (.inl ⟨x, hx, h5⟩)) (fun y hy => ?_) h3⟩
    · rcases h5 with h5 | h5
      · exact pruned_type h hx h5
      · exact (hu.types.mem hx).resolve_right fun h6 => h6.1 h5
    · obtain ⟨l, h5, s, h6, h7⟩ := typeIn_ty h4
      rcases List.mem_append.mp h5 with h5 | h5
      · rcases List.mem_cons.mp h5 with rfl | h5
        · exact .inr (.inl ⟨s, h6, h7.trans hy⟩)
        · rcases hm with rfl | ⟨rfl, h8, h9, rfl⟩
          · cases h5
          · rw [List.mem_singleton] at h5
            subst h5
            exact .inr (.inr ⟨h8, h9, s, h6, h7.trans hy⟩)
      · rw [List.mem_singleton] at h5
        subst h5
        exact .inl (.inr (.inl ⟨s, h6, h7.trans hy⟩))

/-- A well-formed problem stays well-formed when facts and unused declarations are removed. -/
theorem problemOk_pruned (hk : ProblemOk d' p') : ProblemOk d p := by
  have fact : ∀ a, AtomP p a → FactOk d' p' a → FactOk d p a := fun a ha ⟨q, h1, h2, h3⟩ =>
    ⟨q, (hu.predicates.mem h1).resolve_right fun h4 => h4 a ha h2.symm, h2,
      pruned_argsFitP h hu hp (mid := []) (ls := []) (.inl rfl) (fun v hv => .inl ⟨a, ha, v, hv, rfl⟩) h3⟩
  refine ⟨fun s hs t ht => ?_, hk.objects.sublist (hp.objects.sublist.map _), fun a ha => fact a (.inl ha) (hk.init a (hp.init a ha)),
    fun i hi => ?_, fun f hf a ha => fact a (.inr ⟨f, hf, ha⟩) ?_⟩
  · have h0 : UsesTypeP p t := .inl ⟨s, hs, ht⟩
    obtain ⟨x, h1, h2⟩ := hk.objectTypes s (hp.objects.sublist.subset hs) t ht
    rcases hu.types.mem h1 with h3 | ⟨h3, h4⟩
    · exact ⟨x, h3, h2⟩
    · rcases h2 with rfl | h2
      · exact absurd h0 h3
      · exact h4 t h2 h0
  · rcases hp.htn with h1 | h1
    · rw [h1] at hi; cases hi
    · obtain ⟨h2, h3⟩ := hk.htn i (h1 ▸ hi)
      refine ⟨h2, fun s hs => ?_⟩
      have hs' : SubtaskP p s := ⟨i, hi, hs⟩
      obtain ⟨ps, h4, h5⟩ := h3 s hs
      refine ⟨ps, callee_pruned (fun a ha hn => ?_) (fun a ha => h.actions.sublist.subset ha) (fun t ht hn => ?_) h4,
        pruned_argsFitP h hu hp (mid := i.params.getD []) (ls := [i.params.getD []]) (.inr ⟨rfl, i, hi, rfl⟩)
          (fun v hv => .inr ⟨s, hs', v, hv, rfl⟩) h5⟩
      · exact (hu.actions.mem ha).resolve_right fun h6 => h6 s hs' hn.symm
      · exact (hu.tasks.mem ht).resolve_right fun h6 => h6 s hs' hn.symm
  · rcases hp.goal with h1 | h1
    · rw [h1] at hf; cases hf
    · exact hk.goal f (h1 ▸ hf) a ha

end

end Verif
