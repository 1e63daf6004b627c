import Verif.Spec.LocalNames
import Verif.Spec.Interface
import Verif.Spec.Faults

/-! Renaming of variables and well-formedness. -/

namespace Verif

open Spec

variable {ρ : Name → Name} {types cs l : List Symbol} {scope : List (List Symbol)}

theorem firstNamed_rv (hρ : Function.Injective ρ) {x : Name} {s : Symbol} :
    FirstNamed (l.map (rvSymbol ρ)) (ρ x) s ↔ ∃ t, FirstNamed l x t ∧ s = rvSymbol ρ t := by
  constructor
  · rintro ⟨pre, post, h1, h2, h3⟩
    obtain ⟨l1, l2, rfl, rfl, h5⟩ := List.map_eq_append_iff.1 h1
    obtain ⟨t, l3, rfl, rfl, rfl⟩ := List.map_eq_cons_iff.1 h5
    refine ⟨t, ⟨l1, l3, rfl, hρ h2, fun y hy h => ?_⟩, rfl⟩
    exact h3 _ (List.mem_map_of_mem hy) (by simp [rvSymbol, h])
  · rintro ⟨t, ⟨pre, post, rfl, rfl, h3⟩, rfl⟩
    refine ⟨pre.map (rvSymbol ρ), post.map (rvSymbol ρ), by simp, rfl, fun y hy h => ?_⟩
    obtain ⟨z, hz, rfl⟩ := List.mem_map.1 hy
    exact h3 z hz (hρ h)

theorem map_kept (h : ∀ s ∈ l, ρ s.name = s.name) : l.map (rvSymbol ρ) = l := by
  rw [List.map_congr_left (g := id), List.map_id]
  intro s hs
  cases s
  simp [rvSymbol, h _ hs]

theorem typeIn_rv (hρ : Function.Injective ρ) {x : Name} {ty : Option Name} :
    TypeIn (scope.map (List.map (rvSymbol ρ))) (ρ x) ty ↔ TypeIn scope x ty := by
  induction scope with
  | nil => constructor <;> (intro h; cases h)
  | cons l ls ih =>
    constructor
    · intro h
      generalize hs : (l :: ls).map (List.map (rvSymbol ρ)) = sc at h
      generalize hy : ρ x = y at h
      cases h with
      | here h =>
        cases hs
        subst hy
        obtain ⟨t, ht, rfl⟩ := (firstNamed_rv hρ).1 h
        exact TypeIn.here (s := t) ht
      | outer h1 h2 =>
        cases hs
        subst hy
        exact .outer (fun s hs h => h1 _ (List.mem_map_of_mem hs) (by simp [rvSymbol, h])) (ih.1 h2)
    · intro h
      cases h with
      | here h => exact TypeIn.here (s := rvSymbol ρ _) ((firstNamed_rv hρ).2 ⟨_, h, rfl⟩)
      | outer h1 h2 =>
        refine .outer (fun s hs h => ?_) (ih.2 h2)
        obtain ⟨t, ht, rfl⟩ := List.mem_map.1 hs
        exact h1 t ht (hρ h)

theorem argsFit_rv (hρ : Function.Injective ρ) : ∀ {args formals formals' : List Symbol},
    formals'.map (·.ty) = formals.map (·.ty) →
    (ArgsFit types (scope.map (List.map (rvSymbol ρ))) (args.map (rvSymbol ρ)) formals' ↔ ArgsFit types scope args formals)
  | [], [], [], _ => by simp [ArgsFit]
  | [], _ :: _, _ :: _, _ => by
    unfold ArgsFit
    constructor <;> (intro h; cases h)
  | _ :: _, [], [], _ => by
    unfold ArgsFit
    constructor <;> (intro h; cases h)
  | _, [], _ :: _, h => by simp at h
  | _, _ :: _, [], h => by simp at h
  | a :: as, f :: fs, f' :: fs', h => by
    simp only [List.map_cons, List.cons.injEq] at h
    have ih := argsFit_rv hρ (args := as) h.2
    unfold ArgsFit at *
    rw [List.map_cons, List.forall₂_cons, List.forall₂_cons, ih]
    unfold ArgFits
    rw [h.1]
    simp only [rvSymbol, typeIn_rv hρ]

/-! ### Formulas -/

theorem mem_rvFormulas : ∀ {fs : List Formula} {g : Formula}, g ∈ rvFormulas ρ fs ↔ ∃ f ∈ fs, g = rvFormula ρ f
  | [], g => by simp [rvFormulas]
  | f :: fs, g => by simp [rvFormulas, mem_rvFormulas (fs := fs)]

theorem occurs_rv {f : Formula} {p : Predicate} (h : Occurs p f) : Occurs (rvPredicate ρ p) (rvFormula ρ f) := by
  induction h with
  | atom => exact .atom
  | not _ ih => exact .not ih
  | and hf _ ih => exact .and (mem_rvFormulas.2 ⟨_, hf, rfl⟩) ih
  | or hf _ ih => exact .or (mem_rvFormulas.2 ⟨_, hf, rfl⟩) ih
  | xor hf _ ih => exact .xor (mem_rvFormulas.2 ⟨_, hf, rfl⟩) ih
  | left hf _ ih => exact .left (mem_rvFormulas.2 ⟨_, hf, rfl⟩) ih
  | right hf _ ih => exact .right (mem_rvFormulas.2 ⟨_, hf, rfl⟩) ih
  | weighted _ ih => exact .weighted ih
  | forall_ _ ih => exact .forall_ ih
  | exists_ _ ih => exact .exists_ ih

theorem occursFree_rv {f : Formula} {p : Predicate} (h : OccursFree p f) : OccursFree (rvPredicate ρ p) (rvFormula ρ f) := by
  induction h with
  | atom => exact .atom
  | not _ ih => exact .not ih
  | and hf _ ih => exact .and (mem_rvFormulas.2 ⟨_, hf, rfl⟩) ih
  | or hf _ ih => exact .or (mem_rvFormulas.2 ⟨_, hf, rfl⟩) ih
  | xor hf _ ih => exact .xor (mem_rvFormulas.2 ⟨_, hf, rfl⟩) ih
  | left hf _ ih => exact .left (mem_rvFormulas.2 ⟨_, hf, rfl⟩) ih
  | right hf _ ih => exact .right (mem_rvFormulas.2 ⟨_, hf, rfl⟩) ih
  | weighted _ ih => exact .weighted ih

theorem hasExists_rv {f : Formula} (h : HasExists f) : HasExists (rvFormula ρ f) := by
  induction h with
  | exists_ => exact .exists_
  | imply => exact .imply
  | not _ ih => exact .not ih
  | and hf _ ih => exact .and (mem_rvFormulas.2 ⟨_, hf, rfl⟩) ih
  | or hf _ ih => exact .or (mem_rvFormulas.2 ⟨_, hf, rfl⟩) ih
  | xor hf _ ih => exact .xor (mem_rvFormulas.2 ⟨_, hf, rfl⟩) ih
  | weighted _ ih => exact .weighted ih
  | forall_ _ ih => exact .forall_ ih

mutual

theorem occurs_of_rv : ∀ {f : Formula} {q : Predicate}, Occurs q (rvFormula ρ f) → ∃ p, Occurs p f ∧ q = rvPredicate ρ p
  | .empty, q, h => by cases h
  | .atom p, q, h => by cases h; exact ⟨p, .atom, rfl⟩
  | .equals _ _, q, h => by cases h
  | .not f, q, h => by
    cases h with
    | not h => obtain ⟨p, h1, h2⟩ := occurs_of_rv h; exact ⟨p, .not h1, h2⟩
  | .weighted w f, q, h => by
    cases h with
    | weighted h => obtain ⟨p, h1, h2⟩ := occurs_of_rv h; exact ⟨p, .weighted h1, h2⟩
  | .forall_ vs f, q, h => by
    cases h with
    | forall_ h => obtain ⟨p, h1, h2⟩ := occurs_of_rv h; exact ⟨p, .forall_ h1, h2⟩
  | .exists_ vs f, q, h => by
    cases h with
    | exists_ h => obtain ⟨p, h1, h2⟩ := occurs_of_rv h; exact ⟨p, .exists_ h1, h2⟩
  | .and fs, q, h => by
    cases h with
    | and hf h => obtain ⟨f, hf, p, h1, h2⟩ := occurs_of_rvs hf h; exact ⟨p, .and hf h1, h2⟩
  | .or fs, q, h => by
    cases h with
    | or hf h => obtain ⟨f, hf, p, h1, h2⟩ := occurs_of_rvs hf h; exact ⟨p, .or hf h1, h2⟩
  | .xor fs, q, h => by
    cases h with
    | xor hf h => obtain ⟨f, hf, p, h1, h2⟩ := occurs_of_rvs hf h; exact ⟨p, .xor hf h1, h2⟩
  | .imply ps qs, q, h => by
    cases h with
    | left hf h => obtain ⟨f, hf, p, h1, h2⟩ := occurs_of_rvs hf h; exact ⟨p, .left hf h1, h2⟩
    | right hf h => obtain ⟨f, hf, p, h1, h2⟩ := occurs_of_rvs hf h; exact ⟨p, .right hf h1, h2⟩

theorem occurs_of_rvs : ∀ {fs : List Formula} {g : Formula} {q : Predicate}, g ∈ rvFormulas ρ fs → Occurs q g →
    ∃ f ∈ fs, ∃ p, Occurs p f ∧ q = rvPredicate ρ p
  | [], g, q, hg, h => by simp [rvFormulas] at hg
  | f :: fs, g, q, hg, h => by
    rw [rvFormulas] at hg
    rcases List.mem_cons.1 hg with rfl | hg
    · obtain ⟨p, h1, h2⟩ := occurs_of_rv h
      exact ⟨f, List.mem_cons_self, p, h1, h2⟩
    · obtain ⟨f', h1, h2⟩ := occurs_of_rvs hg h
      exact ⟨f', List.mem_cons_of_mem _ h1, h2⟩

end

mutual

theorem occursFree_of_rv : ∀ {f : Formula} {q : Predicate}, OccursFree q (rvFormula ρ f) →
    ∃ p, OccursFree p f ∧ q = rvPredicate ρ p
  | .empty, q, h => by cases h
  | .atom p, q, h => by cases h; exact ⟨p, .atom, rfl⟩
  | .equals _ _, q, h => by cases h
  | .not f, q, h => by
    cases h with
    | not h => obtain ⟨p, h1, h2⟩ := occursFree_of_rv h; exact ⟨p, .not h1, h2⟩
  | .weighted w f, q, h => by
    cases h with
    | weighted h => obtain ⟨p, h1, h2⟩ := occursFree_of_rv h; exact ⟨p, .weighted h1, h2⟩
  | .forall_ vs f, q, h => by cases h
  | .exists_ vs f, q, h => by cases h
  | .and fs, q, h => by
    cases h with
    | and hf h => obtain ⟨f, hf, p, h1, h2⟩ := occursFree_of_rvs hf h; exact ⟨p, .and hf h1, h2⟩
  | .or fs, q, h => by
    cases h with
    | or hf h => obtain ⟨f, hf, p, h1, h2⟩ := occursFree_of_rvs hf h; exact ⟨p, .or hf h1, h2⟩
  | .xor fs, q, h => by
    cases h with
    | xor hf h => obtain ⟨f, hf, p, h1, h2⟩ := occursFree_of_rvs hf h; exact ⟨p, .xor hf h1, h2⟩
  | .imply ps qs, q, h => by
    cases h with
    | left hf h => obtain ⟨f, hf, p, h1, h2⟩ := occursFree_of_rvs hf h; exact ⟨p, .left hf h1, h2⟩
    | right hf h => obtain ⟨f, hf, p, h1, h2⟩ := occursFree_of_rvs hf h; exact ⟨p, .right hf h1, h2⟩

theorem occursFree_of_rvs : ∀ {fs : List Formula} {g : Formula} {q : Predicate}, g ∈ rvFormulas ρ fs → OccursFree q g →
    ∃ f ∈ fs, ∃ p, OccursFree p f ∧ q = rvPredicate ρ p
  | [], g, q, hg, h => by simp [rvFormulas] at hg
  | f :: fs, g, q, hg, h => by
    rw [rvFormulas] at hg
    rcases List.mem_cons.1 hg with rfl | hg
    · obtain ⟨p, h1, h2⟩ := occursFree_of_rv h
      exact ⟨f, List.mem_cons_self, p, h1, h2⟩
    · obtain ⟨f', h1, h2⟩ := occursFree_of_rvs hg h
      exact ⟨f', List.mem_cons_of_mem _ h1, h2⟩

end

mutual

theorem hasExists_of_rv : ∀ {f : Formula}, HasExists (rvFormula ρ f) → HasExists f
  | .empty, h => by cases h
  | .atom p, h => by cases h
  | .equals _ _, h => by cases h
  | .not f, h => by cases h with | not h => exact .not (hasExists_of_rv h)
  | .weighted w f, h => by cases h with | weighted h => exact .weighted (hasExists_of_rv h)
  | .forall_ vs f, h => by cases h with | forall_ h => exact .forall_ (hasExists_of_rv h)
  | .exists_ vs f, h => .exists_
  | .and fs, h => by
    cases h with | and hf h => obtain ⟨f, hf, h1⟩ := hasExists_of_rvs hf h; exact .and hf h1
  | .or fs, h => by
    cases h with | or hf h => obtain ⟨f, hf, h1⟩ := hasExists_of_rvs hf h; exact .or hf h1
  | .xor fs, h => by
    cases h with | xor hf h => obtain ⟨f, hf, h1⟩ := hasExists_of_rvs hf h; exact .xor hf h1
  | .imply ps qs, h => .imply

theorem hasExists_of_rvs : ∀ {fs : List Formula} {g : Formula}, g ∈ rvFormulas ρ fs → HasExists g → ∃ f ∈ fs, HasExists f
  | [], g, hg, h => by simp [rvFormulas] at hg
  | f :: fs, g, hg, h => by
    rw [rvFormulas] at hg
    rcases List.mem_cons.1 hg with rfl | hg
    · exact ⟨f, List.mem_cons_self, hasExists_of_rv h⟩
    · obtain ⟨f', h1, h2⟩ := hasExists_of_rvs hg h
      exact ⟨f', List.mem_cons_of_mem _ h1, h2⟩

end

/-! ### Declarations -/

variable {d d' : DomainAST}

theorem typesKnown_types {l' : List Symbol} (h : l'.map (·.ty) = l.map (·.ty)) : TypesKnown types l' ↔ TypesKnown types l := by
  have e : ∀ k : List Symbol, TypesKnown types k ↔ ∀ o ∈ k.map (·.ty), ∀ t, o = some t → TypeKnown types t := by
    intro k
    unfold TypesKnown
    simp only [List.mem_map, forall_exists_index, and_imp, forall_apply_eq_imp_iff₂]
  rw [e, e, h]

theorem map_ty_rv : (l.map (rvSymbol ρ)).map (·.ty) = l.map (·.ty) := by
  simp [rvSymbol, Function.comp_def]

theorem Spec.LocalNames.typesOf (h : LocalNames d d') : Spec.typesOf d' = Spec.typesOf d := by simp [Spec.typesOf, h.types]

theorem Spec.LocalNames.constantsOf (h : LocalNames d d') : Spec.constantsOf d' = Spec.constantsOf d := by
  simp [Spec.constantsOf, h.constants]

theorem Spec.OtherNames.sameTypes {l l' : List Symbol} (h : OtherNames l l') : l'.map (·.ty) = l.map (·.ty) := by
  induction h with
  | nil => rfl
  | cons h _ ih => rw [List.map_cons, List.map_cons, ih, h]

theorem forall₂_imp {α β : Type} {R S : α → β → Prop} (hi : ∀ a b, R a b → S a b) {as : List α} {bs : List β}
    (h : List.Forall₂ R as bs) : List.Forall₂ S as bs := by
  induction h with
  | nil => exact .nil
  | cons h _ ih => exact .cons (hi _ _ h) ih

theorem Spec.LocalNames.preds (h : LocalNames d d') : List.Forall₂ (fun p q : Predicate => q.name = p.name ∧
    q.vars.map (·.ty) = p.vars.map (·.ty)) d.predicates d'.predicates :=
  forall₂_imp (fun _ _ ⟨_, h1, h2⟩ => h2 ▸ ⟨rfl, h1.sameTypes⟩) h.predicates

theorem Spec.LocalNames.taskTypes (h : LocalNames d d') : List.Forall₂ (fun p q : Task => q.name = p.name ∧
    q.params.map (·.ty) = p.params.map (·.ty)) d.tasks d'.tasks :=
  forall₂_imp (fun _ _ ⟨_, h1, h2⟩ => h2 ▸ ⟨rfl, h1.sameTypes⟩) h.tasks

theorem forall₂_image {α β : Type} {R : α → β → Prop} {as : List α} {bs : List β} (h : List.Forall₂ R as bs) :
    ∀ a ∈ as, ∃ b ∈ bs, R a b := by
  induction h with
  | nil => simp
  | cons h _ ih =>
    intro a ha
    rcases List.mem_cons.1 ha with rfl | ha
    · exact ⟨_, List.mem_cons_self, h⟩
    · obtain ⟨b, hb, h⟩ := ih a ha
      exact ⟨b, List.mem_cons_of_mem _ hb, h⟩

theorem forall₂_source {α β : Type} {R : α → β → Prop} {as : List α} {bs : List β} (h : List.Forall₂ R as bs) :
    ∀ b ∈ bs, ∃ a ∈ as, R a b := by
  induction h with
  | nil => simp
  | cons h _ ih =>
    intro b hb
    rcases List.mem_cons.1 hb with rfl | hb
    · exact ⟨_, List.mem_cons_self, h⟩
    · obtain ⟨a, ha, h⟩ := ih b hb
      exact ⟨a, List.mem_cons_of_mem _ ha, h⟩

theorem forall₂_map_eq {α β γ : Type} {R : α → β → Prop} {as : List α} {bs : List β} {g : α → γ} {k : β → γ}
    (h : List.Forall₂ R as bs) (e : ∀ a b, R a b → k b = g a) : bs.map k = as.map g := by
  induction h with
  | nil => rfl
  | cons h _ ih => rw [List.map_cons, List.map_cons, e _ _ h, ih]

theorem formulaOk_rv (h : LocalNames d d') (hρ : NoCapture ρ (constantsOf d)) {params : List Symbol} {f : Formula} :
    FormulaOk d' (params.map (rvSymbol ρ)) (rvFormula ρ f) ↔ FormulaOk d params f := by
  have hsc : [params.map (rvSymbol ρ), constantsOf d] = [params, constantsOf d].map (List.map (rvSymbol ρ)) := by
    simp [map_kept hρ.2]
  constructor
  · rintro ⟨h1, h2, h3, h4⟩
    refine ⟨fun hh => h1 (hasExists_rv hh), ?_, fun p hp => ?_, fun p hp q hq hn => ?_⟩
    · rw [h.typesOf] at h2
      exact (typesKnown_types map_ty_rv).1 h2
    · obtain ⟨q', hq', h5, h6⟩ := h3 _ (occurs_rv hp)
      obtain ⟨q, hq, h7, h8⟩ := forall₂_source h.preds q' hq'
      refine ⟨q, hq, h7.symm.trans h5, ?_⟩
      have := congrArg List.length h8
      simp only [List.length_map] at this
      simpa [rvPredicate, this] using h6
    · obtain ⟨q', hq', h7, h8⟩ := forall₂_image h.preds q hq
      have h5 := h4 _ (occursFree_rv hp) q' hq' (h7.trans hn)
      rw [h.typesOf, h.constantsOf, hsc] at h5
      exact (argsFit_rv hρ.1 h8).1 h5
  · rintro ⟨h1, h2, h3, h4⟩
    refine ⟨fun hh => h1 (hasExists_of_rv hh), ?_, fun p' hp' => ?_, fun p' hp' q' hq' hn => ?_⟩
    · rw [h.typesOf]
      exact (typesKnown_types map_ty_rv).2 h2
    · obtain ⟨p, hp, rfl⟩ := occurs_of_rv hp'
      obtain ⟨q, hq, h5, h6⟩ := h3 _ hp
      obtain ⟨q', hq', h7, h8⟩ := forall₂_image h.preds q hq
      refine ⟨q', hq', h7.trans h5, ?_⟩
      have := congrArg List.length h8
      simp only [List.length_map] at this
      simpa [rvPredicate, this] using h6
    · obtain ⟨p, hp, rfl⟩ := occursFree_of_rv hp'
      obtain ⟨q, hq, h7, h8⟩ := forall₂_source h.preds q' hq'
      have h5 := h4 _ hp q hq (h7.symm.trans hn)
      rw [h.typesOf, h.constantsOf, hsc]
      exact (argsFit_rv hρ.1 h8).2 h5

theorem nodup_rv (hρ : Function.Injective ρ) : ((l.map (rvSymbol ρ)).map (·.name)).Nodup ↔ (l.map (·.name)).Nodup := by
  rw [List.map_map, show ((fun s : Symbol => s.name) ∘ rvSymbol ρ) = ρ ∘ (fun s : Symbol => s.name) from rfl, ← List.map_map]
  unfold List.Nodup
  rw [List.pairwise_map]
  exact ⟨fun h => h.imp fun hn he => hn (congrArg ρ he), fun h => h.imp fun hn he => hn (hρ he)⟩

theorem optFormula_rv (h : LocalNames d d') (hρ : NoCapture ρ (constantsOf d)) {params : List Symbol} {o : Option Formula} :
    (∀ f, o.map (rvFormula ρ) = some f → FormulaOk d' (params.map (rvSymbol ρ)) f) ↔ ∀ f, o = some f → FormulaOk d params f := by
  cases o with
  | none => simp
  | some g => simpa using formulaOk_rv h hρ

theorem actionOk_rv (h : LocalNames d d') (hρ : NoCapture ρ (constantsOf d)) {a : Action} :
    ActionOk d' (rvAction ρ a) ↔ ActionOk d a := by
  constructor
  · rintro ⟨h1, h2, h3⟩
    exact ⟨(nodup_rv hρ.1).1 h1, (optFormula_rv h hρ).1 h2, (optFormula_rv h hρ).1 h3⟩
  · rintro ⟨h1, h2, h3⟩
    exact ⟨(nodup_rv hρ.1).2 h1, (optFormula_rv h hρ).2 h2, (optFormula_rv h hρ).2 h3⟩

theorem callee_local (h : LocalNames d d') {x : Name} {ps : List Symbol} (hc : Callee d x ps) :
    ∃ ps', Callee d' x ps' ∧ ps'.map (·.ty) = ps.map (·.ty) := by
  cases hc with
  | @action a ha hn =>
    obtain ⟨b, hb, ρ, _, rfl⟩ := forall₂_image h.actions a ha
    exact ⟨_, .action hb hn, map_ty_rv⟩
  | @task t hna ht hn =>
    obtain ⟨u, hu, h1, h2⟩ := forall₂_image h.taskTypes t ht
    refine ⟨_, .task (fun b hb => ?_) hu (h1.trans hn), h2⟩
    obtain ⟨a, ha, ρ, _, rfl⟩ := forall₂_source h.actions b hb
    exact hna a ha

theorem callee_of_local (h : LocalNames d d') {x : Name} {ps' : List Symbol} (hc : Callee d' x ps') :
    ∃ ps, Callee d x ps ∧ ps'.map (·.ty) = ps.map (·.ty) := by
  cases hc with
  | @action b hb hn =>
    obtain ⟨a, ha, ρ, _, rfl⟩ := forall₂_source h.actions b hb
    exact ⟨_, .action ha hn, map_ty_rv⟩
  | @task u hna hu hn =>
    obtain ⟨t, ht, h1, h2⟩ := forall₂_source h.taskTypes u hu
    refine ⟨_, .task (fun a ha => ?_) ht (h1.symm.trans hn), h2⟩
    obtain ⟨b, hb, ρ, _, rfl⟩ := forall₂_image h.actions a ha
    exact hna (rvAction ρ a) hb

theorem methodOk_rv (h : LocalNames d d') (hρ : NoCapture ρ (constantsOf d)) {m : Method} :
    MethodOk d' (rvMethod ρ m) ↔ MethodOk d m := by
  have hsc : ∀ params : List Symbol, [params.map (rvSymbol ρ), constantsOf d] =
      [params, constantsOf d].map (List.map (rvSymbol ρ)) := by
    simp [map_kept hρ.2]
  constructor
  · rintro ⟨h1, h2, ⟨u, hu, h3, h4⟩, h5, h6⟩
    obtain ⟨t, ht, h7, h8⟩ := forall₂_source h.taskTypes u hu
    refine ⟨(nodup_rv hρ.1).1 h1, (optFormula_rv h hρ).1 h2, ⟨t, ht, h7.symm.trans h3, ?_⟩, fun s hs => ?_, h6⟩
    · rw [h.typesOf, h.constantsOf, rvMethod, hsc] at h4
      exact (argsFit_rv hρ.1 h8).1 h4
    · obtain ⟨ps', h9, h10⟩ := h5 _ (List.mem_map_of_mem hs)
      obtain ⟨ps, h11, h12⟩ := callee_of_local h h9
      rw [h.typesOf, h.constantsOf, rvMethod, hsc] at h10
      exact ⟨ps, h11, (argsFit_rv hρ.1 h12).1 h10⟩
  · rintro ⟨h1, h2, ⟨t, ht, h3, h4⟩, h5, h6⟩
    obtain ⟨u, hu, h7, h8⟩ := forall₂_image h.taskTypes t ht
    refine ⟨(nodup_rv hρ.1).2 h1, (optFormula_rv h hρ).2 h2, ⟨u, hu, h7.trans h3, ?_⟩, fun s' hs' => ?_, h6⟩
    · rw [h.typesOf, h.constantsOf, rvMethod, hsc]
      exact (argsFit_rv hρ.1 h8).2 h4
    · obtain ⟨s, hs, rfl⟩ := List.mem_map.1 hs'
      obtain ⟨ps, h9, h10⟩ := h5 _ hs
      obtain ⟨ps', h11, h12⟩ := callee_local h h9
      rw [h.typesOf, h.constantsOf, rvMethod, hsc]
      exact ⟨ps', h11, (argsFit_rv hρ.1 h12).2 h10⟩

theorem domainOk_local (h : LocalNames d d') : DomainOk d' ↔ DomainOk d := by
  have e1 : d'.predicates.map (·.name) = d.predicates.map (·.name) := forall₂_map_eq h.preds fun a b h => h.1
  have e2 : d'.tasks.map (·.name) = d.tasks.map (·.name) := forall₂_map_eq h.taskTypes fun a b h => h.1
  have e3 : d'.actions.map (·.name) = d.actions.map (·.name) :=
    forall₂_map_eq h.actions fun a b ⟨ρ, _, h⟩ => by rw [h]; rfl
  have e4 : d'.methods.map (·.name.name) = d.methods.map (·.name.name) :=
    forall₂_map_eq h.methods fun a b ⟨ρ, _, h⟩ => by rw [h]; rfl
  constructor
  · rintro ⟨h1, h2, h3, h4, h5, h6, h7, h8, h9, h10⟩
    rw [h.requirements] at h1
    rw [h.typesOf] at h2 h4 h6
    rw [e1] at h3
    rw [e2] at h5
    rw [e3] at h7
    rw [e4] at h9
    refine ⟨h1, h2, h3, fun p hp => ?_, h5, fun t ht => ?_, h7, fun a ha => ?_, h9, fun m hm => ?_⟩
    · obtain ⟨q, hq, _, h11⟩ := forall₂_image h.preds p hp
      exact (typesKnown_types h11).1 (h4 q hq)
    · obtain ⟨q, hq, _, h11⟩ := forall₂_image h.taskTypes t ht
      exact (typesKnown_types h11).1 (h6 q hq)
    · obtain ⟨b, hb, ρ, hρ, rfl⟩ := forall₂_image h.actions a ha
      exact (actionOk_rv h hρ).1 (h8 _ hb)
    · obtain ⟨b, hb, ρ, hρ, rfl⟩ := forall₂_image h.methods m hm
      exact (methodOk_rv h hρ).1 (h10 _ hb)
  · rintro ⟨h1, h2, h3, h4, h5, h6, h7, h8, h9, h10⟩
    rw [← h.requirements] at h1
    rw [← h.typesOf] at h2 h4 h6
    rw [← e1] at h3
    rw [← e2] at h5
    rw [← e3] at h7
    rw [← e4] at h9
    refine ⟨h1, h2, h3, fun p hp => ?_, h5, fun t ht => ?_, h7, fun a ha => ?_, h9, fun m hm => ?_⟩
    · obtain ⟨q, hq, _, h11⟩ := forall₂_source h.preds p hp
      exact (typesKnown_types h11).2 (h4 q hq)
    · obtain ⟨q, hq, _, h11⟩ := forall₂_source h.taskTypes t ht
      exact (typesKnown_types h11).2 (h6 q hq)
    · obtain ⟨b, hb, ρ, hρ, rfl⟩ := forall₂_source h.actions a ha
      exact (actionOk_rv h hρ).2 (h8 _ hb)
    · obtain ⟨b, hb, ρ, hρ, rfl⟩ := forall₂_source h.methods m hm
      exact (methodOk_rv h hρ).2 (h10 _ hb)

theorem sameInterface_local (h : LocalNames d d') : SameInterface d d' where
  types := by rw [h.typesOf]; simp
  constants := by rw [h.constantsOf]; simp
  predicates x ts := by
    constructor
    · rintro ⟨q, hq, h1, h2⟩
      obtain ⟨q', hq', h3, h4⟩ := forall₂_image h.preds q hq
      exact ⟨q', hq', h3.trans h1, h4.trans h2⟩
    · rintro ⟨q', hq', h1, h2⟩
      obtain ⟨q, hq, h3, h4⟩ := forall₂_source h.preds q' hq'
      exact ⟨q, hq, h3.symm.trans h1, h4.symm.trans h2⟩
  callees x ts := by
    constructor
    · rintro ⟨ps, h1, h2⟩
      obtain ⟨ps', h3, h4⟩ := callee_local h h1
      exact ⟨ps', h3, h4.trans h2⟩
    · rintro ⟨ps', h1, h2⟩
      obtain ⟨ps, h3, h4⟩ := callee_of_local h h1
      exact ⟨ps, h3, h4.symm.trans h2⟩

variable {p p' : ProblemAST}

theorem problemOk_local (h : LocalNamesP d p p') : ProblemOk d p' ↔ ProblemOk d p := by
  obtain ⟨ρ, ⟨hρ, hk⟩, hi⟩ := h.initTn
  have hfact : ∀ a, FactOk d p' a ↔ FactOk d p a := fun a => by unfold FactOk; rw [h.objects]
  have hsc : ∀ ps : List Symbol, [p.objects, ps.map (rvSymbol ρ), constantsOf d] =
      [p.objects, ps, constantsOf d].map (List.map (rvSymbol ρ)) := by
    intro ps
    have h1 := map_kept (ρ := ρ) (l := p.objects) fun s hs => hk s (List.mem_append_left _ hs)
    have h2 := map_kept (ρ := ρ) (l := constantsOf d) fun s hs => hk s (List.mem_append_right _ hs)
    simp [h1, h2]
  have hget : ∀ o : Option (List Symbol), (o.map (List.map (rvSymbol ρ))).getD [] = (o.getD []).map (rvSymbol ρ) := by
    intro o; cases o <;> rfl
  have hhtn : (∀ i, p'.initTn = some i → InitTnOk d p' i) ↔ ∀ i, p.initTn = some i → InitTnOk d p i := by
    rw [hi]
    cases p.initTn with
    | none => simp
    | some i =>
      simp only [Option.map_some, Option.some.injEq, forall_eq']
      constructor
      · rintro ⟨h1, h2⟩
        refine ⟨h1, fun s hs => ?_⟩
        obtain ⟨ps, h3, h4⟩ := h2 _ (List.mem_map_of_mem hs)
        refine ⟨ps, h3, ?_⟩
        rw [h.objects, hget, hsc] at h4
        exact (argsFit_rv hρ rfl).1 h4
      · rintro ⟨h1, h2⟩
        refine ⟨h1, fun s' hs' => ?_⟩
        obtain ⟨s, hs, rfl⟩ := List.mem_map.1 hs'
        obtain ⟨ps, h3, h4⟩ := h2 _ hs
        refine ⟨ps, h3, ?_⟩
        rw [h.objects, hget, hsc]
        exact (argsFit_rv hρ rfl).2 h4
  constructor
  · rintro ⟨h1, h2, h3, h4, h5⟩
    rw [h.objects] at h1 h2
    rw [h.initState] at h3
    rw [h.goal] at h5
    exact ⟨h1, h2, fun a ha => (hfact a).1 (h3 a ha), hhtn.1 h4, fun f hf a ha => (hfact a).1 (h5 f hf a ha)⟩
  · rintro ⟨h1, h2, h3, h4, h5⟩
    rw [← h.objects] at h1 h2
    rw [← h.initState] at h3
    rw [← h.goal] at h5
    exact ⟨h1, h2, fun a ha => (hfact a).2 (h3 a ha), hhtn.2 h4, fun f hf a ha => (hfact a).2 (h5 f hf a ha)⟩

/-! ### Findings -/

/-- A finding with another error. -/
def Spec.Finding.mapError (h : SemErr → SemErr) : Finding → Finding
  | .error e => .error (h e)
  | .crash => .crash

/-- The second check finds what the first check finds, up to names of variables. -/
def Mirrors (H : (SemErr → SemErr) → Prop) (c c' : Check) : Prop := ∃ h, H h ∧ ∀ x', c' x' ↔ ∃ x, c x ∧ x' = x.mapError h

theorem mirrors_passes {H : (SemErr → SemErr) → Prop} {c c' : Check} (h : Mirrors H c c') : Passes c' ↔ Passes c := by
  obtain ⟨h, _, hx⟩ := h
  constructor
  · exact fun hp x hc => hp _ ((hx _).2 ⟨x, hc, rfl⟩)
  · intro hp x' hc
    obtain ⟨x, hc, _⟩ := (hx _).1 hc
    exact hp x hc

theorem firstFinding_mirrors {H : (SemErr → SemErr) → Prop} {cs cs' : List Check} (h : List.Forall₂ (Mirrors H) cs cs') {x : Finding}
    (hx : FirstFinding cs x) : ∃ h, H h ∧ FirstFinding cs' (x.mapError h) := by
  induction h with
  | nil =>
    obtain ⟨pre, c, post, h1, _⟩ := hx
    simp at h1
  | @cons c c' cs cs' hc hcs ih =>
    obtain ⟨pre, k, post, h1, h2, h3⟩ := hx
    cases pre with
    | nil =>
      cases h1
      obtain ⟨h, h4, h5⟩ := hc
      exact ⟨h, h4, [], c', cs', rfl, by simp, (h5 _).2 ⟨x, h3, rfl⟩⟩
    | cons y pre =>
      cases h1
      obtain ⟨h, h4, pre', k', post', h5, h6, h7⟩ := ih ⟨pre, k, post, rfl, fun z hz => h2 z (List.mem_cons_of_mem _ hz), h3⟩
      refine ⟨h, h4, c' :: pre', k', post', by rw [h5]; rfl, fun z hz => ?_, h7⟩
      rcases List.mem_cons.1 hz with rfl | hz
      · exact (mirrors_passes hc).2 (h2 _ List.mem_cons_self)
      · exact h6 z hz

theorem forall₂_append {α β : Type} {R : α → β → Prop} {as as' : List α} {bs bs' : List β} (h : List.Forall₂ R as bs)
    (h' : List.Forall₂ R as' bs') : List.Forall₂ R (as ++ as') (bs ++ bs') := by
  induction h with
  | nil => exact h'
  | cons h _ ih => exact .cons h ih

theorem forall₂_maps {α α' β β' : Type} {S : α → α' → Prop} {R : β → β' → Prop} {g : α → β} {g' : α' → β'} {as : List α}
    {as' : List α'} (h : List.Forall₂ S as as') (hr : ∀ a a', S a a' → R (g a) (g' a')) : List.Forall₂ R (as.map g) (as'.map g') := by
  induction h with
  | nil => exact .nil
  | cons h _ ih => exact .cons (hr _ _ h) ih

theorem forall₂_graph {α α' : Type} (k : α → α') : ∀ as : List α, List.Forall₂ (fun a a' => a' = k a) as (as.map k)
  | [] => .nil
  | _ :: as => .cons rfl (forall₂_graph k as)

theorem forall₂_same {α : Type} {R : α → α → Prop} : ∀ {as : List α}, (∀ a ∈ as, R a a) → List.Forall₂ R as as
  | [], _ => .nil
  | _ :: _, h => .cons (h _ List.mem_cons_self) (forall₂_same fun a ha => h a (List.mem_cons_of_mem _ ha))

theorem forall₂_flatMaps {α α' β β' : Type} {S : α → α' → Prop} {R : β → β' → Prop} {g : α → List β} {g' : α' → List β'}
    {as : List α} {as' : List α'} (h : List.Forall₂ S as as') (hr : ∀ a a', S a a' → List.Forall₂ R (g a) (g' a')) :
    List.Forall₂ R (as.flatMap g) (as'.flatMap g') := by
  induction h with
  | nil => exact .nil
  | cons h _ ih => exact forall₂_append (hr _ _ h) ih

theorem forall₂_forEach {α α' : Type} {S : α → α' → Prop} {R : Check → Check → Prop} {g : List α → α → List Check}
    {g' : List α' → α' → List Check} (hr : ∀ b b' a a', List.Forall₂ S b b' → S a a' → List.Forall₂ R (g b a) (g' b' a')) :
    ∀ {as as' b b'}, List.Forall₂ S b b' → List.Forall₂ S as as' → List.Forall₂ R (forEach g b as) (forEach g' b' as')
  | _, _, _, _, _, .nil => .nil
  | _, _, _, _, hb, .cons h hs =>
    forall₂_append (hr _ _ _ _ hb h) (forall₂_forEach hr (forall₂_append hb (.cons h .nil)) hs)

theorem mapError_id (x : Finding) : x.mapError id = x := by cases x <;> rfl

/-- Renamings of the variables of a declaration. -/
def Renaming (cs : List Symbol) (h : SemErr → SemErr) : Prop := ∃ ρ, NoCapture ρ cs ∧ h = rvError ρ

def RenamingP (cs : List Symbol) (h : SemErr → SemErr) : Prop := ∃ ρ, NoCapture ρ cs ∧ h = rvErrorP ρ

theorem rvError_id : rvError id = id := by
  funext e
  cases e <;> rfl

theorem renaming_id : Renaming cs id := ⟨id, ⟨Function.injective_id, by simp⟩, rvError_id.symm⟩

theorem mirrors_same {H : (SemErr → SemErr) → Prop} (hid : H id) {c c' : Check} (h : ∀ x, c' x ↔ c x) : Mirrors H c c' :=
  ⟨id, hid, fun x' => by simp [mapError_id, h]⟩

theorem mirrors_of {H : (SemErr → SemErr) → Prop} {c c' : Check} {h : SemErr → SemErr} (hh : H h)
    (h1 : ∀ x, c x → c' (x.mapError h)) (h2 : ∀ x', c' x' → ∃ x, c x ∧ x' = x.mapError h) : Mirrors H c c' :=
  ⟨h, hh, fun x' => ⟨h2 x', fun ⟨x, hx, he⟩ => he ▸ h1 x hx⟩⟩

theorem typeUnknown_local (h : LocalNames d d') {s t : Symbol} (hs : t.ty = s.ty ∧ t.tyPos = s.tyPos) :
    typeUnknown d' t = typeUnknown d s := by
  funext x
  unfold typeUnknown
  rw [h.typesOf, hs.1, hs.2]

theorem atomWrong_local (h : LocalNames d d') {a b : Predicate} (h1 : b.name = a.name) (h2 : b.pos = a.pos)
    (h3 : b.vars.length = a.vars.length) : atomWrong d' b = atomWrong d a := by
  funext x
  unfold atomWrong
  rw [h1, h2, h3]
  apply propext
  refine or_congr (and_congr_left fun _ => ?_) ?_
  · constructor
    · intro hn q hq
      obtain ⟨q', hq', e, _⟩ := forall₂_image h.preds q hq
      exact e ▸ hn q' hq'
    · intro hn q' hq'
      obtain ⟨q, hq, e, _⟩ := forall₂_source h.preds q' hq'
      exact e ▸ hn q hq
  · constructor
    · rintro ⟨q', hq', h4, h5, rfl⟩
      obtain ⟨q, hq, e, e'⟩ := forall₂_source h.preds q' hq'
      have e' := congrArg List.length e'
      simp only [List.length_map] at e'
      exact ⟨q, hq, e ▸ h4, e' ▸ h5, by rw [e']⟩
    · rintro ⟨q, hq, h4, h5, rfl⟩
      obtain ⟨q', hq', e, e'⟩ := forall₂_image h.preds q hq
      have e' := congrArg List.length e'
      simp only [List.length_map] at e'
      exact ⟨q', hq', e ▸ h4, e' ▸ h5, by rw [e']⟩

theorem unbound_rv (hρ : Function.Injective ρ) {x : Name} :
    Unbound (scope.map (List.map (rvSymbol ρ))) (ρ x) ↔ Unbound scope x := by
  unfold Unbound
  constructor
  · intro h l hl s hs he
    exact h _ (List.mem_map_of_mem hl) _ (List.mem_map_of_mem hs) (by simp [rvSymbol, he])
  · intro h l' hl' s' hs' he
    obtain ⟨l, hl, rfl⟩ := List.mem_map.1 hl'
    obtain ⟨s, hs, rfl⟩ := List.mem_map.1 hs'
    exact h l hl s hs (hρ he)

theorem notBound_rv (hρ : NoCapture ρ cs) (v : Symbol) :
    Mirrors (Renaming cs) (notBound scope v) (notBound (scope.map (List.map (rvSymbol ρ))) (rvSymbol ρ v)) := by
  refine mirrors_of ⟨ρ, hρ, rfl⟩ ?_ ?_
  · rintro x ⟨h, rfl⟩
    exact ⟨(unbound_rv hρ.1).2 h, rfl⟩
  · rintro x' ⟨h, rfl⟩
    exact ⟨_, ⟨(unbound_rv hρ.1).1 h, rfl⟩, rfl⟩

theorem getElem?_types {l l' : List Symbol} (h : l'.map (·.ty) = l.map (·.ty)) {i : Nat} {f : Symbol} (hf : l[i]? = some f) :
    ∃ f', l'[i]? = some f' ∧ f'.ty = f.ty := by
  have := congrArg (·[i]?) h
  simp only [List.getElem?_map, hf, Option.map_some] at this
  cases hl : l'[i]? with
  | none => rw [hl] at this; cases this
  | some f' => rw [hl] at this; exact ⟨f', rfl, Option.some.inj this⟩

theorem argMisfit_rv (h : LocalNames d d') (hρ : NoCapture ρ cs) {D D' : List Symbol → Prop} {mk : TypeErr → SemErr}
    (hmk : ∀ e, rvError ρ (mk e) = mk { e with var := ρ e.var })
    (h1 : ∀ ps, D ps → ∃ ps', D' ps' ∧ ps'.map (·.ty) = ps.map (·.ty))
    (h2 : ∀ ps', D' ps' → ∃ ps, D ps ∧ ps'.map (·.ty) = ps.map (·.ty)) (v : Symbol) (i : Nat) :
    Mirrors (Renaming cs) (argMisfit d scope D mk v i)
      (argMisfit d' (scope.map (List.map (rvSymbol ρ))) D' mk (rvSymbol ρ v) i) := by
  refine mirrors_of ⟨ρ, hρ, rfl⟩ ?_ ?_
  · rintro x ⟨ps, f, ty, h3, h4, h5, h6, rfl⟩
    obtain ⟨ps', h7, h8⟩ := h1 ps h3
    obtain ⟨f', h9, h10⟩ := getElem?_types h8 h4
    refine ⟨ps', f', ty, h7, h9, (typeIn_rv hρ.1).2 h5, ?_, ?_⟩
    · rwa [h.typesOf, h10]
    · rw [h10]
      exact congrArg _ (hmk _)
  · rintro x' ⟨ps', f', ty, h3, h4, h5, h6, rfl⟩
    obtain ⟨ps, h7, h8⟩ := h2 ps' h3
    obtain ⟨f, h9, h10⟩ := getElem?_types h8.symm h4
    refine ⟨_, ⟨ps, f, ty, h7, h9, (typeIn_rv hρ.1).1 h5, ?_, rfl⟩, ?_⟩
    · rwa [h.typesOf, ← h10] at h6
    · rw [← h10]
      exact congrArg _ (hmk ⟨f.ty, ty, v.name, v.pos⟩).symm

/-- The arguments of an atom or task. -/
theorem forall₂_zipIdx {α α' β β' : Type} {R : β → β' → Prop} {k : α → α'} {g : α → Nat → β} {g' : α' → Nat → β'}
    (h : ∀ a i, R (g a i) (g' (k a) i)) (as : List α) :
    List.Forall₂ R (as.zipIdx.map fun v => g v.1 v.2) ((as.map k).zipIdx.map fun v => g' v.1 v.2) := by
  rw [List.zipIdx_map, List.map_map]
  exact forall₂_maps (forall₂_same (R := Eq) fun _ _ => rfl) fun a a' ha => ha ▸ h a.1 a.2

def rvOccurrence (ρ : Name → Name) : Occurrence → Occurrence
  | .free p => .free (rvPredicate ρ p)
  | .quantified p => .quantified (rvPredicate ρ p)
  | .exists_ => .exists_

mutual

theorem pieces_rv : ∀ (b : Bool) (f : Formula), pieces b (rvFormula ρ f) = (pieces b f).map (rvOccurrence ρ)
  | b, .empty => rfl
  | b, .equals _ _ => rfl
  | b, .atom p => by cases b <;> rfl
  | b, .not f => by rw [rvFormula, pieces, pieces, pieces_rv b f]
  | b, .weighted _ f => by rw [rvFormula, pieces, pieces, pieces_rv b f]
  | b, .forall_ _ f => by rw [rvFormula, pieces, pieces, pieces_rv true f]
  | b, .exists_ _ f => by rw [rvFormula, pieces, pieces, pieces_rv true f]; rfl
  | b, .and fs => by rw [rvFormula, pieces, pieces, piecesAll_rv b fs]
  | b, .or fs => by rw [rvFormula, pieces, pieces, piecesAll_rv b fs]
  | b, .xor fs => by rw [rvFormula, pieces, pieces, piecesAll_rv b fs]
  | b, .imply ps qs => by
    rw [rvFormula, pieces, pieces, piecesAll_rv b ps, piecesAll_rv b qs, List.map_cons, List.map_append]
    rfl

theorem piecesAll_rv : ∀ (b : Bool) (fs : List Formula), piecesAll b (rvFormulas ρ fs) = (piecesAll b fs).map (rvOccurrence ρ)
  | b, [] => rfl
  | b, f :: fs => by rw [rvFormulas, piecesAll, piecesAll, pieces_rv b f, piecesAll_rv b fs, List.map_append]

end

theorem freeAtoms_rv (f : Formula) : freeAtoms (rvFormula ρ f) = (freeAtoms f).map (rvPredicate ρ) := by
  unfold freeAtoms
  rw [pieces_rv, List.filterMap_map, List.map_filterMap]
  congr 1
  funext o
  cases o <;> rfl

theorem formulaChecks_rv (h : LocalNames d d') (hρ : NoCapture ρ (constantsOf d)) (params : List Symbol) (f : Formula) :
    List.Forall₂ (Mirrors (Renaming (constantsOf d))) (formulaChecks d params f)
      (formulaChecks d' (params.map (rvSymbol ρ)) (rvFormula ρ f)) := by
  have hsc : [params.map (rvSymbol ρ), constantsOf d'] = [params, constantsOf d].map (List.map (rvSymbol ρ)) := by
    simp [map_kept hρ.2, h.constantsOf]
  unfold formulaChecks
  rw [pieces_rv, freeAtoms_rv]
  refine forall₂_append (forall₂_append (forall₂_maps (forall₂_graph _ _) ?_) (forall₂_maps (forall₂_graph _ _) ?_))
    (forall₂_flatMaps (forall₂_graph _ _) ?_)
  · rintro o _ rfl
    refine mirrors_same renaming_id fun x => ?_
    cases o with
    | exists_ => rfl
    | free p =>
      show atomWrong d' (rvPredicate ρ p) x ↔ atomWrong d p x
      rw [atomWrong_local h (a := p) (b := rvPredicate ρ p) rfl rfl (by simp [rvPredicate])]
    | quantified p =>
      show atomWrong d' (rvPredicate ρ p) x ↔ atomWrong d p x
      rw [atomWrong_local h (a := p) (b := rvPredicate ρ p) rfl rfl (by simp [rvPredicate])]
  · rintro s _ rfl
    exact mirrors_same renaming_id fun x => by rw [typeUnknown_local h (s := s) (t := rvSymbol ρ s) ⟨rfl, rfl⟩]
  · rintro p _ rfl
    unfold atomArgs
    rw [hsc]
    refine forall₂_append (forall₂_maps (forall₂_graph _ _) ?_) (forall₂_zipIdx (fun v i => ?_) _)
    · rintro v _ rfl
      exact notBound_rv hρ v
    · refine argMisfit_rv h hρ (fun _ => rfl) ?_ ?_ v i
      · rintro ps ⟨q, hq, hn, rfl⟩
        obtain ⟨q', hq', h1, h2⟩ := forall₂_image h.preds q hq
        exact ⟨_, ⟨q', hq', h1.trans hn, rfl⟩, h2⟩
      · rintro ps ⟨q', hq', hn, rfl⟩
        obtain ⟨q, hq, h1, h2⟩ := forall₂_source h.preds q' hq'
        exact ⟨_, ⟨q, hq, h1.symm.trans hn, rfl⟩, h2⟩

theorem optFormulaChecks_rv (h : LocalNames d d') (hρ : NoCapture ρ (constantsOf d)) (params : List Symbol) (f : Option Formula) :
    List.Forall₂ (Mirrors (Renaming (constantsOf d))) (optFormulaChecks d params f)
      (optFormulaChecks d' (params.map (rvSymbol ρ)) (f.map (rvFormula ρ))) := by
  cases f with
  | none => exact .nil
  | some f => exact formulaChecks_rv h hρ params f

theorem paramNames_rv (hρ : NoCapture ρ cs) (params : List Symbol) :
    List.Forall₂ (Mirrors (Renaming cs)) (paramNames params) (paramNames (params.map (rvSymbol ρ))) := by
  refine forall₂_forEach (S := fun s t => t = rvSymbol ρ s) ?_ .nil (forall₂_graph _ _)
  rintro b b' a _ hb rfl
  refine .cons (mirrors_of ⟨ρ, hρ, rfl⟩ ?_ ?_) .nil
  · rintro x ⟨s, hs, hn, rfl⟩
    obtain ⟨_, ht, rfl⟩ := forall₂_image hb s hs
    exact ⟨_, ht, congrArg ρ hn, rfl⟩
  · rintro x' ⟨t, ht, hn, rfl⟩
    obtain ⟨s, hs, rfl⟩ := forall₂_source hb t ht
    exact ⟨_, ⟨s, hs, hρ.1 hn, rfl⟩, rfl⟩

theorem actionChecks_rv (h : LocalNames d d') (hρ : NoCapture ρ (constantsOf d)) (a : Action) :
    List.Forall₂ (Mirrors (Renaming (constantsOf d))) (actionChecks d a) (actionChecks d' (rvAction ρ a)) :=
  forall₂_append (paramNames_rv hρ _) (forall₂_append (optFormulaChecks_rv h hρ _ _) (optFormulaChecks_rv h hρ _ _))

theorem calleeWrong_local (h : LocalNames d d') {s t : Subtask} (h1 : t.task = s.task) (h2 : t.terms.length = s.terms.length) :
    calleeWrong d' t = calleeWrong d s := by
  funext x
  unfold calleeWrong
  rw [h1, h2]
  apply propext
  refine or_congr (and_congr_left fun _ => ?_) ?_
  · constructor
    · intro hn ps hc
      obtain ⟨ps', hc', _⟩ := callee_local h hc
      exact hn _ hc'
    · intro hn ps hc
      obtain ⟨ps', hc', _⟩ := callee_of_local h hc
      exact hn _ hc'
  · constructor
    · rintro ⟨ps', hc, h3, rfl⟩
      obtain ⟨ps, hc, e⟩ := callee_of_local h hc
      have e := congrArg List.length e
      simp only [List.length_map] at e
      exact ⟨ps, hc, e ▸ h3, by rw [e]⟩
    · rintro ⟨ps, hc, h3, rfl⟩
      obtain ⟨ps', hc, e⟩ := callee_local h hc
      have e := congrArg List.length e
      simp only [List.length_map] at e
      exact ⟨ps', hc, e ▸ h3, by rw [e]⟩

theorem methodTaskWrong_local (h : LocalNames d d') {m n : Method} (h1 : n.task = m.task)
    (h2 : n.taskTerms.length = m.taskTerms.length) : methodTaskWrong d' n = methodTaskWrong d m := by
  funext x
  unfold methodTaskWrong
  rw [h1, h2]
  apply propext
  refine or_congr (and_congr_left fun _ => ?_) ?_
  · constructor
    · intro hn q hq
      obtain ⟨q', hq', e, _⟩ := forall₂_image h.taskTypes q hq
      exact e ▸ hn q' hq'
    · intro hn q' hq'
      obtain ⟨q, hq, e, _⟩ := forall₂_source h.taskTypes q' hq'
      exact e ▸ hn q hq
  · constructor
    · rintro ⟨q', hq', h4, h5, rfl⟩
      obtain ⟨q, hq, e, e'⟩ := forall₂_source h.taskTypes q' hq'
      have e' := congrArg List.length e'
      simp only [List.length_map] at e'
      exact ⟨q, hq, e ▸ h4, e' ▸ h5, by rw [e']⟩
    · rintro ⟨q, hq, h4, h5, rfl⟩
      obtain ⟨q', hq', e, e'⟩ := forall₂_image h.taskTypes q hq
      have e' := congrArg List.length e'
      simp only [List.length_map] at e'
      exact ⟨q', hq', e ▸ h4, e' ▸ h5, by rw [e']⟩

theorem methodChecks_rv (h : LocalNames d d') (hρ : NoCapture ρ (constantsOf d)) (m : Method) :
    List.Forall₂ (Mirrors (Renaming (constantsOf d))) (methodChecks d m) (methodChecks d' (rvMethod ρ m)) := by
  have hsc : [(rvMethod ρ m).params, constantsOf d'] = [m.params, constantsOf d].map (List.map (rvSymbol ρ)) := by
    simp [map_kept hρ.2, h.constantsOf, rvMethod]
  unfold methodChecks
  refine forall₂_append (paramNames_rv hρ _) (forall₂_append (optFormulaChecks_rv h hρ _ _) (.cons ?_ (forall₂_append ?_
    (forall₂_append ?_ (forall₂_append ?_ (.cons ?_ .nil))))))
  · exact mirrors_same renaming_id fun x => by rw [methodTaskWrong_local h (m := m) (n := rvMethod ρ m) rfl (by simp [rvMethod])]
  · rw [hsc]
    refine forall₂_maps (forall₂_graph _ _) ?_
    rintro v _ rfl
    exact notBound_rv hρ v
  · rw [hsc]
    refine forall₂_zipIdx (fun v i => ?_) _
    refine argMisfit_rv h hρ (fun _ => rfl) ?_ ?_ v i
    · rintro ps ⟨q, hq, hn, rfl⟩
      obtain ⟨q', hq', h1, h2⟩ := forall₂_image h.taskTypes q hq
      exact ⟨_, ⟨q', hq', h1.trans hn, rfl⟩, h2⟩
    · rintro ps ⟨q', hq', hn, rfl⟩
      obtain ⟨q, hq, h1, h2⟩ := forall₂_source h.taskTypes q' hq'
      exact ⟨_, ⟨q, hq, h1.symm.trans hn, rfl⟩, h2⟩
  · refine forall₂_flatMaps (forall₂_graph _ _) ?_
    rintro s _ rfl
    unfold subtaskChecks
    rw [hsc]
    refine forall₂_append (forall₂_maps (forall₂_graph _ _) ?_) (.cons ?_ (forall₂_zipIdx (fun v i => ?_) _))
    · rintro v _ rfl
      exact notBound_rv hρ v
    · exact mirrors_same renaming_id fun x => by rw [calleeWrong_local h (s := s) (t := rvSubtask ρ s) rfl (by simp [rvSubtask])]
    · exact argMisfit_rv h hρ (fun _ => rfl) (fun _ => callee_local h) (fun _ => callee_of_local h) v i
  · exact mirrors_same renaming_id fun x => Iff.rfl

theorem nameAgain_local {α : Type} {S : α → α → Prop} {mk : DupErr → SemErr} {nl : α → Name × Nat} (hS : ∀ a b, S a b → nl b = nl a)
    {b b' : List α} {a a' : α} (hb : List.Forall₂ S b b') (ha : S a a') : nameAgain mk nl b' a' = nameAgain mk nl b a := by
  funext x
  unfold nameAgain
  rw [hS _ _ ha]
  apply propext
  constructor
  · rintro ⟨c', hc', h1, h2⟩
    obtain ⟨c, hc, h3⟩ := forall₂_source hb c' hc'
    rw [hS _ _ h3] at h1 h2
    exact ⟨c, hc, h1, h2⟩
  · rintro ⟨c, hc, h1, h2⟩
    obtain ⟨c', hc', h3⟩ := forall₂_image hb c hc
    rw [← hS _ _ h3] at h1 h2
    exact ⟨c', hc', h1, h2⟩

theorem otherNames_typeUnknown (h : LocalNames d d') {vs vs' : List Symbol} (hv : OtherNames vs vs') :
    List.Forall₂ (Mirrors (Renaming cs)) (vs.map (typeUnknown d)) (vs'.map (typeUnknown d')) :=
  forall₂_maps hv fun s t ht => mirrors_same renaming_id fun x => by rw [typeUnknown_local h (s := s) (by rw [ht]; exact ⟨rfl, rfl⟩)]

theorem domainChecks_local (h : LocalNames d d') :
    List.Forall₂ (Mirrors (Renaming (constantsOf d))) (domainChecks d) (domainChecks d') := by
  unfold domainChecks
  refine forall₂_append ?_ (.cons ?_ (forall₂_append (forall₂_forEach ?_ .nil h.predicates)
    (forall₂_append (forall₂_forEach ?_ .nil h.tasks) (forall₂_append (forall₂_forEach ?_ .nil h.actions)
    (forall₂_forEach ?_ .nil h.methods)))))
  · rw [h.requirements]
    exact forall₂_same fun c _ => mirrors_same renaming_id fun _ => Iff.rfl
  · exact mirrors_same renaming_id fun x => by unfold typeCycle; rw [h.typesOf]
  · rintro b b' a a' hb ha
    refine .cons (mirrors_same renaming_id fun x => by
      rw [nameAgain_local (fun _ _ ⟨_, _, e⟩ => by rw [e]) hb ha]) ?_
    obtain ⟨vs, hv, rfl⟩ := ha
    exact otherNames_typeUnknown h hv
  · rintro b b' a a' hb ha
    refine .cons (mirrors_same renaming_id fun x => by
      rw [nameAgain_local (fun _ _ ⟨_, _, e⟩ => by rw [e]) hb ha]) ?_
    obtain ⟨vs, hv, rfl⟩ := ha
    exact otherNames_typeUnknown h hv
  · rintro b b' a a' hb ha
    refine .cons (mirrors_same renaming_id fun x => by
      rw [nameAgain_local (fun _ _ ⟨_, _, e⟩ => by rw [e]; rfl) hb ha]) ?_
    obtain ⟨ρ, hρ, rfl⟩ := ha
    exact actionChecks_rv h hρ a
  · rintro b b' a a' hb ha
    refine .cons (mirrors_same renaming_id fun x => by
      rw [nameAgain_local (fun _ _ ⟨_, _, e⟩ => by rw [e]; rfl) hb ha]) ?_
    obtain ⟨ρ, hρ, rfl⟩ := ha
    exact methodChecks_rv h hρ a

/-! ### Problems -/

theorem rvErrorP_id : rvErrorP id = id := by
  funext e
  cases e <;> rfl

theorem renamingP_id : RenamingP cs id := ⟨id, ⟨Function.injective_id, by simp⟩, rvErrorP_id.symm⟩

theorem initArg_rv (hρ : NoCapture ρ (p.objects ++ constantsOf d)) (ho : p'.objects = p.objects) (i : InitTN) (s : Subtask)
    (v : Symbol) (k : Nat) : Mirrors (RenamingP (p.objects ++ constantsOf d)) (initArg d p i s v k)
      (initArg d p' ⟨i.params.map (List.map (rvSymbol ρ)), rvHtn ρ i.tn⟩ (rvSubtask ρ s) (rvSymbol ρ v) k) := by
  have k1 := map_kept (ρ := ρ) (l := p.objects) fun s hs => hρ.2 s (List.mem_append_left _ hs)
  have k2 := map_kept (ρ := ρ) (l := constantsOf d) fun s hs => hρ.2 s (List.mem_append_right _ hs)
  have hget : (i.params.map (List.map (rvSymbol ρ))).getD [] = (i.params.getD []).map (rvSymbol ρ) := by
    cases i.params <;> rfl
  have s1 : [p'.objects, (i.params.map (List.map (rvSymbol ρ))).getD [], constantsOf d] =
      [p.objects, i.params.getD [], constantsOf d].map (List.map (rvSymbol ρ)) := by simp [k1, k2, hget, ho]
  have s2 : [p'.objects, (i.params.map (List.map (rvSymbol ρ))).getD []] =
      [p.objects, i.params.getD []].map (List.map (rvSymbol ρ)) := by simp [k1, hget, ho]
  have s3 : [constantsOf d] = [constantsOf d].map (List.map (rvSymbol ρ)) := by simp [k2]
  refine mirrors_of ⟨ρ, hρ, rfl⟩ ?_ ?_
  · rintro x (⟨h1, rfl⟩ | ⟨ps, f, ty, h1, h2, h3, ⟨h4, rfl⟩ | ⟨h4, h5, rfl⟩⟩)
    · refine .inl ⟨?_, rfl⟩
      rw [s1]
      exact (unbound_rv hρ.1).2 h1
    · refine .inr ⟨ps, f, ty, h1, h2, h3, .inl ⟨?_, rfl⟩⟩
      rw [s2]
      exact (typeIn_rv hρ.1).2 h4
    · refine .inr ⟨ps, f, ty, h1, h2, h3, .inr ⟨?_, ?_, rfl⟩⟩
      · rw [s2]
        exact (unbound_rv hρ.1).2 h4
      · rw [s3]
        exact (typeIn_rv hρ.1).2 h5
  · rintro x (⟨h1, rfl⟩ | ⟨ps, f, ty, h1, h2, h3, ⟨h4, rfl⟩ | ⟨h4, h5, rfl⟩⟩)
    · rw [s1] at h1
      exact ⟨_, .inl ⟨(unbound_rv hρ.1).1 h1, rfl⟩, rfl⟩
    · rw [s2] at h4
      exact ⟨_, .inr ⟨ps, f, ty, h1, h2, h3, .inl ⟨(typeIn_rv hρ.1).1 h4, rfl⟩⟩, rfl⟩
    · rw [s2] at h4
      rw [s3] at h5
      exact ⟨_, .inr ⟨ps, f, ty, h1, h2, h3, .inr ⟨(unbound_rv hρ.1).1 h4, (typeIn_rv hρ.1).1 h5, rfl⟩⟩, rfl⟩

theorem problemChecks_local (h : LocalNamesP d p p') :
    List.Forall₂ (Mirrors (RenamingP (p.objects ++ constantsOf d))) (problemChecks d p) (problemChecks d p') := by
  have same : ∀ cs' : List Check, List.Forall₂ (Mirrors (RenamingP (p.objects ++ constantsOf d))) cs' cs' := fun cs' =>
    forall₂_same fun c _ => mirrors_same renamingP_id fun _ => Iff.rfl
  have hfact : factChecks d p' = factChecks d p := by
    funext a
    unfold factChecks factArg
    rw [h.objects]
  unfold problemChecks
  rw [h.objects, h.initState, hfact]
  refine forall₂_append (same _) (forall₂_append (same _) (forall₂_append (same _) (forall₂_append ?_ ?_)))
  · obtain ⟨ρ, hρ, e⟩ := h.initTn
    rw [e]
    cases p.initTn with
    | none => exact .nil
    | some i =>
      refine .cons (mirrors_same renamingP_id fun _ => Iff.rfl) (forall₂_flatMaps (forall₂_graph _ _) ?_)
      rintro s _ rfl
      refine .cons (mirrors_same renamingP_id fun x => ?_) (forall₂_zipIdx (fun v k => initArg_rv hρ h.objects i s v k) _)
      unfold calleeWrong
      simp [rvSubtask]
  · rw [h.goal]
    cases p.goal with
    | none => exact .nil
    | some f =>
      unfold goalChecks
      rw [hfact]
      exact same _

end Verif
