import Verif.Spec.Renaming
import Mathlib.Data.List.Forall2
import Mathlib.Data.List.Nodup
import Verif.Spec.WellFormed

/-! Well-formedness does not depend on names and lines. -/

namespace Verif

open Spec Relation

variable {ρ : Name → Name}

/-! ### Relations -/

theorem transGen_map {α β : Type} {r : α → α → Prop} {r' : β → β → Prop} {f : α → β} (hf : Function.Injective f)
    (h : ∀ x y, r' x y ↔ ∃ a b, x = f a ∧ y = f b ∧ r a b) {x y : β} :
    TransGen r' x y ↔ ∃ a b, x = f a ∧ y = f b ∧ TransGen r a b := by
  constructor
  · intro ht
    induction ht with
    | single h1 =>
      obtain ⟨a, b, rfl, rfl, h2⟩ := (h _ _).mp h1
      exact ⟨a, b, rfl, rfl, .single h2⟩
    | tail _ h1 ih =>
      obtain ⟨a, b, rfl, rfl, h2⟩ := ih
      obtain ⟨b', c, hb, rfl, h1⟩ := (h _ _).mp h1
      cases hf hb
      exact ⟨a, c, rfl, rfl, h2.tail h1⟩
  · rintro ⟨a, b, rfl, rfl, ht⟩
    exact ht.lift f fun a b hab => (h _ _).mpr ⟨a, b, rfl, rfl, hab⟩

theorem acyclic_map {α β : Type} {r : α → α → Prop} {r' : β → β → Prop} {f : α → β} (hf : Function.Injective f)
    (h : ∀ x y, r' x y ↔ ∃ a b, x = f a ∧ y = f b ∧ r a b) : Acyclic r' ↔ Acyclic r := by
  constructor
  · intro h1 a ha
    exact h1 (f a) ((transGen_map hf h).mpr ⟨a, a, rfl, rfl, ha⟩)
  · intro h1 x hx
    obtain ⟨a, b, rfl, hb, ht⟩ := (transGen_map hf h).mp hx
    cases hf hb
    exact h1 a ht

theorem reflTransGen_map {α β : Type} {r : α → α → Prop} {r' : β → β → Prop} {f : α → β} (hf : Function.Injective f)
    (h : ∀ x y, r' x y ↔ ∃ a b, x = f a ∧ y = f b ∧ r a b) {a b : α} :
    ReflTransGen r' (f a) (f b) ↔ ReflTransGen r a b := by
  rw [reflTransGen_iff_eq_or_transGen, reflTransGen_iff_eq_or_transGen, transGen_map hf h]
  constructor
  · rintro (h1 | ⟨a', b', ha, hb, h1⟩)
    · exact .inl (hf h1)
    · cases hf ha; cases hf hb; exact .inr h1
  · rintro (rfl | h1)
    · exact .inl rfl
    · exact .inr ⟨a, b, rfl, rfl, h1⟩

theorem nodup_map {α : Type} (hρ : Function.Injective ρ) (f : α → α) (k : α → Name) (hk : ∀ x, k (f x) = ρ (k x))
    (l : List α) : ((l.map f).map k).Nodup ↔ (l.map k).Nodup := by
  have : (l.map f).map k = (l.map k).map ρ := by simp [hk]
  rw [this]
  exact ⟨List.Nodup.of_map ρ, List.Nodup.map hρ⟩

/-! ### Formulas -/

theorem rnFormulas_eq (fs : List Formula) : rnFormulas ρ fs = fs.map (rnFormula ρ) := by
  induction fs with
  | nil => simp [rnFormulas]
  | cons f fs ih => simp [rnFormulas, ih]

theorem Spec.Occurs.rn {p : Predicate} {f : Formula} (h : Occurs p f) : Occurs (rnPredicate ρ p) (rnFormula ρ f) := by
  induction h with
  | atom => rw [rnFormula]; exact .atom
  | not _ ih => rw [rnFormula]; exact .not ih
  | and h _ ih => rw [rnFormula, rnFormulas_eq]; exact .and (List.mem_map.mpr ⟨_, h, rfl⟩) ih
  | or h _ ih => rw [rnFormula, rnFormulas_eq]; exact .or (List.mem_map.mpr ⟨_, h, rfl⟩) ih
  | xor h _ ih => rw [rnFormula, rnFormulas_eq]; exact .xor (List.mem_map.mpr ⟨_, h, rfl⟩) ih
  | left h _ ih => rw [rnFormula, rnFormulas_eq]; exact .left (List.mem_map.mpr ⟨_, h, rfl⟩) ih
  | right h _ ih => rw [rnFormula, rnFormulas_eq, rnFormulas_eq]; exact .right (List.mem_map.mpr ⟨_, h, rfl⟩) ih
  | weighted _ ih => rw [rnFormula]; exact .weighted ih
  | forall_ _ ih => rw [rnFormula]; exact .forall_ ih
  | exists_ _ ih => rw [rnFormula]; exact .exists_ ih

theorem Spec.OccursFree.rn {p : Predicate} {f : Formula} (h : OccursFree p f) :
    OccursFree (rnPredicate ρ p) (rnFormula ρ f) := by
  induction h with
  | atom => rw [rnFormula]; exact .atom
  | not _ ih => rw [rnFormula]; exact .not ih
  | and h _ ih => rw [rnFormula, rnFormulas_eq]; exact .and (List.mem_map.mpr ⟨_, h, rfl⟩) ih
  | or h _ ih => rw [rnFormula, rnFormulas_eq]; exact .or (List.mem_map.mpr ⟨_, h, rfl⟩) ih
  | xor h _ ih => rw [rnFormula, rnFormulas_eq]; exact .xor (List.mem_map.mpr ⟨_, h, rfl⟩) ih
  | left h _ ih => rw [rnFormula, rnFormulas_eq]; exact .left (List.mem_map.mpr ⟨_, h, rfl⟩) ih
  | right h _ ih => rw [rnFormula, rnFormulas_eq, rnFormulas_eq]; exact .right (List.mem_map.mpr ⟨_, h, rfl⟩) ih
  | weighted _ ih => rw [rnFormula]; exact .weighted ih

theorem Spec.HasExists.rn {f : Formula} (h : HasExists f) : HasExists (rnFormula ρ f) := by
  induction h with
  | exists_ => rw [rnFormula]; exact .exists_
  | imply => rw [rnFormula]; exact .imply
  | not _ ih => rw [rnFormula]; exact .not ih
  | and h _ ih => rw [rnFormula, rnFormulas_eq]; exact .and (List.mem_map.mpr ⟨_, h, rfl⟩) ih
  | or h _ ih => rw [rnFormula, rnFormulas_eq]; exact .or (List.mem_map.mpr ⟨_, h, rfl⟩) ih
  | xor h _ ih => rw [rnFormula, rnFormulas_eq]; exact .xor (List.mem_map.mpr ⟨_, h, rfl⟩) ih
  | weighted _ ih => rw [rnFormula]; exact .weighted ih
  | forall_ _ ih => rw [rnFormula]; exact .forall_ ih

mutual

theorem occurs_of_rn : ∀ (f : Formula) {p' : Predicate}, Occurs p' (rnFormula ρ f) →
    ∃ p, p' = rnPredicate ρ p ∧ Occurs p f
  | .empty, _, h => by rw [rnFormula] at h; cases h
  | .atom p, _, h => by rw [rnFormula] at h; cases h; exact ⟨p, rfl, .atom⟩
  | .not f, _, h => by
    rw [rnFormula] at h; cases h with
    | not h => obtain ⟨p, rfl, h2⟩ := occurs_of_rn f h; exact ⟨p, rfl, .not h2⟩
  | .and fs, _, h => by
    rw [rnFormula] at h; cases h with
    | and hm h => obtain ⟨p, rfl, f, hf, h2⟩ := occurs_of_rns fs ⟨_, hm, h⟩; exact ⟨p, rfl, .and hf h2⟩
  | .or fs, _, h => by
    rw [rnFormula] at h; cases h with
    | or hm h => obtain ⟨p, rfl, f, hf, h2⟩ := occurs_of_rns fs ⟨_, hm, h⟩; exact ⟨p, rfl, .or hf h2⟩
  | .xor fs, _, h => by
    rw [rnFormula] at h; cases h with
    | xor hm h => obtain ⟨p, rfl, f, hf, h2⟩ := occurs_of_rns fs ⟨_, hm, h⟩; exact ⟨p, rfl, .xor hf h2⟩
  | .imply ps qs, _, h => by
    rw [rnFormula] at h; cases h with
    | left hm h => obtain ⟨p, rfl, f, hf, h2⟩ := occurs_of_rns ps ⟨_, hm, h⟩; exact ⟨p, rfl, .left hf h2⟩
    | right hm h => obtain ⟨p, rfl, f, hf, h2⟩ := occurs_of_rns qs ⟨_, hm, h⟩; exact ⟨p, rfl, .right hf h2⟩
  | .exists_ vs f, _, h => by
    rw [rnFormula] at h; cases h with
    | exists_ h => obtain ⟨p, rfl, h2⟩ := occurs_of_rn f h; exact ⟨p, rfl, .exists_ h2⟩
  | .forall_ vs f, _, h => by
    rw [rnFormula] at h; cases h with
    | forall_ h => obtain ⟨p, rfl, h2⟩ := occurs_of_rn f h; exact ⟨p, rfl, .forall_ h2⟩
  | .weighted w f, _, h => by
    rw [rnFormula] at h; cases h with
    | weighted h => obtain ⟨p, rfl, h2⟩ := occurs_of_rn f h; exact ⟨p, rfl, .weighted h2⟩
  | .equals a b, _, h => by rw [rnFormula] at h; cases h

theorem occurs_of_rns : ∀ (fs : List Formula) {p' : Predicate}, (∃ f' ∈ rnFormulas ρ fs, Occurs p' f') →
    ∃ p, p' = rnPredicate ρ p ∧ ∃ f ∈ fs, Occurs p f
  | [], _, h => by simp [rnFormulas] at h
  | f :: fs, _, h => by
    obtain ⟨f', hm, h⟩ := h
    rw [rnFormulas] at hm
    rcases List.mem_cons.mp hm with rfl | hm
    · obtain ⟨p, rfl, h2⟩ := occurs_of_rn f h
      exact ⟨p, rfl, f, .head _, h2⟩
    · obtain ⟨p, rfl, g, hg, h2⟩ := occurs_of_rns fs ⟨f', hm, h⟩
      exact ⟨p, rfl, g, .tail _ hg, h2⟩

end

mutual

theorem occursFree_of_rn : ∀ (f : Formula) {p' : Predicate}, OccursFree p' (rnFormula ρ f) →
    ∃ p, p' = rnPredicate ρ p ∧ OccursFree p f
  | .empty, _, h => by rw [rnFormula] at h; cases h
  | .atom p, _, h => by rw [rnFormula] at h; cases h; exact ⟨p, rfl, .atom⟩
  | .not f, _, h => by
    rw [rnFormula] at h; cases h with
    | not h => obtain ⟨p, rfl, h2⟩ := occursFree_of_rn f h; exact ⟨p, rfl, .not h2⟩
  | .and fs, _, h => by
    rw [rnFormula] at h; cases h with
    | and hm h => obtain ⟨p, rfl, f, hf, h2⟩ := occursFree_of_rns fs ⟨_, hm, h⟩; exact ⟨p, rfl, .and hf h2⟩
  | .or fs, _, h => by
    rw [rnFormula] at h; cases h with
    | or hm h => obtain ⟨p, rfl, f, hf, h2⟩ := occursFree_of_rns fs ⟨_, hm, h⟩; exact ⟨p, rfl, .or hf h2⟩
  | .xor fs, _, h => by
    rw [rnFormula] at h; cases h with
    | xor hm h => obtain ⟨p, rfl, f, hf, h2⟩ := occursFree_of_rns fs ⟨_, hm, h⟩; exact ⟨p, rfl, .xor hf h2⟩
  | .imply ps qs, _, h => by
    rw [rnFormula] at h; cases h with
    | left hm h => obtain ⟨p, rfl, f, hf, h2⟩ := occursFree_of_rns ps ⟨_, hm, h⟩; exact ⟨p, rfl, .left hf h2⟩
    | right hm h => obtain ⟨p, rfl, f, hf, h2⟩ := occursFree_of_rns qs ⟨_, hm, h⟩; exact ⟨p, rfl, .right hf h2⟩
  | .exists_ vs f, _, h => by rw [rnFormula] at h; cases h
  | .forall_ vs f, _, h => by rw [rnFormula] at h; cases h
  | .weighted w f, _, h => by
    rw [rnFormula] at h; cases h with
    | weighted h => obtain ⟨p, rfl, h2⟩ := occursFree_of_rn f h; exact ⟨p, rfl, .weighted h2⟩
  | .equals a b, _, h => by rw [rnFormula] at h; cases h

theorem occursFree_of_rns : ∀ (fs : List Formula) {p' : Predicate}, (∃ f' ∈ rnFormulas ρ fs, OccursFree p' f') →
    ∃ p, p' = rnPredicate ρ p ∧ ∃ f ∈ fs, OccursFree p f
  | [], _, h => by simp [rnFormulas] at h
  | f :: fs, _, h => by
    obtain ⟨f', hm, h⟩ := h
    rw [rnFormulas] at hm
    rcases List.mem_cons.mp hm with rfl | hm
    · obtain ⟨p, rfl, h2⟩ := occursFree_of_rn f h
      exact ⟨p, rfl, f, .head _, h2⟩
    · obtain ⟨p, rfl, g, hg, h2⟩ := occursFree_of_rns fs ⟨f', hm, h⟩
      exact ⟨p, rfl, g, .tail _ hg, h2⟩

end

mutual

theorem hasExists_of_rn : ∀ (f : Formula), HasExists (rnFormula ρ f) → HasExists f
  | .empty, h => by rw [rnFormula] at h; cases h
  | .atom p, h => by rw [rnFormula] at h; cases h
  | .not f, h => by
    rw [rnFormula] at h; cases h with
    | not h => exact .not (hasExists_of_rn f h)
  | .and fs, h => by
    rw [rnFormula] at h; cases h with
    | and hm h => obtain ⟨f, hf, h2⟩ := hasExists_of_rns fs ⟨_, hm, h⟩; exact .and hf h2
  | .or fs, h => by
    rw [rnFormula] at h; cases h with
    | or hm h => obtain ⟨f, hf, h2⟩ := hasExists_of_rns fs ⟨_, hm, h⟩; exact .or hf h2
  | .xor fs, h => by
    rw [rnFormula] at h; cases h with
    | xor hm h => obtain ⟨f, hf, h2⟩ := hasExists_of_rns fs ⟨_, hm, h⟩; exact .xor hf h2
  | .imply ps qs, _ => .imply
  | .exists_ vs f, _ => .exists_
  | .forall_ vs f, h => by
    rw [rnFormula] at h; cases h with
    | forall_ h => exact .forall_ (hasExists_of_rn f h)
  | .weighted w f, h => by
    rw [rnFormula] at h; cases h with
    | weighted h => exact .weighted (hasExists_of_rn f h)
  | .equals a b, h => by rw [rnFormula] at h; cases h

theorem hasExists_of_rns : ∀ (fs : List Formula), (∃ f' ∈ rnFormulas ρ fs, HasExists f') → ∃ f ∈ fs, HasExists f
  | [], h => by simp [rnFormulas] at h
  | f :: fs, h => by
    obtain ⟨f', hm, h⟩ := h
    rw [rnFormulas] at hm
    rcases List.mem_cons.mp hm with rfl | hm
    · exact ⟨f, .head _, hasExists_of_rn f h⟩
    · obtain ⟨g, hg, h2⟩ := hasExists_of_rns fs ⟨f', hm, h⟩
      exact ⟨g, .tail _ hg, h2⟩

end

/-! ### Types -/

variable (hρ : Function.Injective ρ)
include hρ

omit hρ in
theorem directSub_rn {types : List Symbol} (x y : Name) : DirectSub (types.map (rnSymbol ρ)) x y ↔
    ∃ a b, x = ρ a ∧ y = ρ b ∧ DirectSub types a b := by
  constructor
  · rintro ⟨s', hs, h1, h2⟩
    obtain ⟨s, hm, rfl⟩ := List.mem_map.mp hs
    obtain ⟨t, ht, rfl⟩ := Option.map_eq_some_iff.mp h2
    exact ⟨s.name, t, h1.symm, rfl, s, hm, rfl, ht⟩
  · rintro ⟨a, b, rfl, rfl, s, hs, rfl, h2⟩
    exact ⟨_, List.mem_map.mpr ⟨s, hs, rfl⟩, rfl, by simp [rnSymbol, h2]⟩

theorem typeKnown_rn {types : List Symbol} {t : Name} : TypeKnown (types.map (rnSymbol ρ)) (ρ t) ↔ TypeKnown types t := by
  constructor
  · rintro ⟨s', hs, h1⟩
    obtain ⟨s, hm, rfl⟩ := List.mem_map.mp hs
    refine ⟨s, hm, ?_⟩
    rcases h1 with h1 | h1
    · exact .inl (hρ h1)
    · obtain ⟨t', ht, h2⟩ := Option.map_eq_some_iff.mp h1
      cases hρ h2; exact .inr ht
  · rintro ⟨s, hs, h1⟩
    refine ⟨_, List.mem_map.mpr ⟨s, hs, rfl⟩, ?_⟩
    rcases h1 with rfl | h1
    · exact .inl rfl
    · exact .inr (by simp [rnSymbol, h1])

theorem typesKnown_rn {types l : List Symbol} :
    TypesKnown (types.map (rnSymbol ρ)) (l.map (rnSymbol ρ)) ↔ TypesKnown types l := by
  constructor
  · intro h s hs t ht
    exact (typeKnown_rn hρ).mp (h _ (List.mem_map.mpr ⟨s, hs, rfl⟩) (ρ t) (by simp [rnSymbol, ht]))
  · intro h s' hs t' ht
    obtain ⟨s, hm, rfl⟩ := List.mem_map.mp hs
    obtain ⟨t, he, rfl⟩ := Option.map_eq_some_iff.mp ht
    exact (typeKnown_rn hρ).mpr (h s hm t he)

theorem fits_rn {types : List Symbol} {x y : Option Name} :
    Fits (types.map (rnSymbol ρ)) (x.map ρ) (y.map ρ) ↔ Fits types x y := by
  constructor
  · intro h
    cases x <;> cases y <;> simp only [Option.map_none, Option.map_some] at h
    · exact .untyped
    · cases h
    · cases h
    · cases h with
      | sub h => exact .sub ((reflTransGen_map hρ directSub_rn).mp h)
  · intro h
    cases h with
    | untyped => exact .untyped
    | sub h => exact .sub ((reflTransGen_map hρ directSub_rn).mpr h)

/-! ### Scopes -/

theorem firstNamed_rn {l : List Symbol} {x : Name} {s' : Symbol} : FirstNamed (l.map (rnSymbol ρ)) (ρ x) s' ↔
    ∃ s, s' = rnSymbol ρ s ∧ FirstNamed l x s := by
  constructor
  · rintro ⟨pre', post', h1, h2, h3⟩
    obtain ⟨pre, r, rfl, rfl, h4⟩ := List.map_eq_append_iff.mp h1
    obtain ⟨s, post, rfl, rfl, rfl⟩ := List.map_eq_cons_iff.mp h4
    exact ⟨s, rfl, pre, post, rfl, hρ h2, fun y hy h => h3 _ (List.mem_map.mpr ⟨y, hy, rfl⟩) (congrArg ρ h)⟩
  · rintro ⟨s, rfl, pre, post, rfl, rfl, h3⟩
    refine ⟨pre.map (rnSymbol ρ), post.map (rnSymbol ρ), by simp, rfl, ?_⟩
    intro y' hy h
    obtain ⟨y, hm, rfl⟩ := List.mem_map.mp hy
    exact h3 y hm (hρ h)

theorem unnamed_rn {l : List Symbol} {x : Name} : (∀ s ∈ l.map (rnSymbol ρ), s.name ≠ ρ x) ↔ ∀ s ∈ l, s.name ≠ x := by
  constructor
  · intro h s hs h1
    exact h _ (List.mem_map.mpr ⟨s, hs, rfl⟩) (congrArg ρ h1)
  · intro h s' hs h1
    obtain ⟨s, hm, rfl⟩ := List.mem_map.mp hs
    exact h s hm (hρ h1)

theorem typeIn_rn {scope : List (List Symbol)} {x : Name} {ty' : Option Name} :
    TypeIn (scope.map (List.map (rnSymbol ρ))) (ρ x) ty' ↔ ∃ ty, ty' = ty.map ρ ∧ TypeIn scope x ty := by
  induction scope with
  | nil =>
    constructor
    · intro h; cases h
    · rintro ⟨_, _, h⟩; cases h
  | cons l ls ih =>
    constructor
    · intro h
      cases h with
      | here h =>
        obtain ⟨s, rfl, hf⟩ := (firstNamed_rn hρ).mp h
        exact ⟨s.ty, rfl, .here hf⟩
      | outer h1 h2 =>
        obtain ⟨ty, rfl, h3⟩ := ih.mp h2
        exact ⟨ty, rfl, .outer ((unnamed_rn hρ).mp h1) h3⟩
    · rintro ⟨ty, rfl, h⟩
      cases h with
      | here h => exact .here ((firstNamed_rn hρ).mpr ⟨_, rfl, h⟩)
      | outer h1 h2 => exact .outer ((unnamed_rn hρ).mpr h1) (ih.mpr ⟨ty, rfl, h2⟩)

theorem argsFit_rn {types : List Symbol} {scope : List (List Symbol)} {args formals : List Symbol} :
    ArgsFit (types.map (rnSymbol ρ)) (scope.map (List.map (rnSymbol ρ))) (args.map (rnSymbol ρ)) (formals.map (rnSymbol ρ)) ↔
      ArgsFit types scope args formals := by
  unfold ArgsFit
  rw [List.forall₂_map_left_iff, List.forall₂_map_right_iff]
  refine iff_of_eq (congrArg (fun r => List.Forall₂ r args formals) ?_)
  funext a f
  refine propext ?_
  constructor
  · rintro ⟨ty', h1, h2⟩
    obtain ⟨ty, rfl, h3⟩ := (typeIn_rn hρ).mp h1
    exact ⟨ty, h3, (fits_rn hρ).mp h2⟩
  · rintro ⟨ty, h1, h2⟩
    exact ⟨ty.map ρ, (typeIn_rn hρ).mpr ⟨ty, rfl, h1⟩, (fits_rn hρ).mpr h2⟩

/-! ### Domains -/

omit hρ in
theorem typesOf_rn (d : DomainAST) : typesOf (rnDomain ρ d) = (typesOf d).map (rnSymbol ρ) := by
  cases h : d.types <;> simp [typesOf, rnDomain, h]

omit hρ in
theorem constantsOf_rn (d : DomainAST) : constantsOf (rnDomain ρ d) = (constantsOf d).map (rnSymbol ρ) := by
  cases h : d.constants <;> simp [constantsOf, rnDomain, h]

theorem args_rn {d : DomainAST} {params args formals : List Symbol} :
    ArgsFit (typesOf (rnDomain ρ d)) [params.map (rnSymbol ρ), constantsOf (rnDomain ρ d)] (args.map (rnSymbol ρ))
      (formals.map (rnSymbol ρ)) ↔ ArgsFit (typesOf d) [params, constantsOf d] args formals := by
  rw [typesOf_rn, constantsOf_rn]
  exact argsFit_rn hρ (scope := [params, constantsOf d])

theorem args3_rn {d : DomainAST} {objs params args formals : List Symbol} :
    ArgsFit (typesOf (rnDomain ρ d)) [objs.map (rnSymbol ρ), params.map (rnSymbol ρ), constantsOf (rnDomain ρ d)]
      (args.map (rnSymbol ρ)) (formals.map (rnSymbol ρ)) ↔
      ArgsFit (typesOf d) [objs, params, constantsOf d] args formals := by
  rw [typesOf_rn, constantsOf_rn]
  exact argsFit_rn hρ (scope := [objs, params, constantsOf d])

theorem formulaOk_rn {d : DomainAST} {params : List Symbol} {f : Formula} :
    FormulaOk (rnDomain ρ d) (params.map (rnSymbol ρ)) (rnFormula ρ f) ↔ FormulaOk d params f := by
  constructor
  · intro h
    refine ⟨fun he => h.noExists he.rn, ?_, ?_, ?_⟩
    · have := h.paramTypes
      rw [typesOf_rn] at this
      exact (typesKnown_rn hρ).mp this
    · intro p hp
      obtain ⟨q', hq, h1, h2⟩ := h.declared _ hp.rn
      obtain ⟨q, hm, rfl⟩ := List.mem_map.mp hq
      exact ⟨q, hm, hρ h1, by simpa [rnPredicate] using h2⟩
    · intro p hp q hq h1
      exact (args_rn hρ).mp (h.typed _ hp.rn _ (List.mem_map.mpr ⟨q, hq, rfl⟩) (congrArg ρ h1))
  · intro h
    refine ⟨fun he => h.noExists (hasExists_of_rn f he), ?_, ?_, ?_⟩
    · rw [typesOf_rn]
      exact (typesKnown_rn hρ).mpr h.paramTypes
    · intro p' hp
      obtain ⟨p, rfl, hp2⟩ := occurs_of_rn f hp
      obtain ⟨q, hq, h1, h2⟩ := h.declared p hp2
      exact ⟨_, List.mem_map.mpr ⟨q, hq, rfl⟩, congrArg ρ h1, by simpa [rnPredicate] using h2⟩
    · intro p' hp q' hq h1
      obtain ⟨p, rfl, hp2⟩ := occursFree_of_rn f hp
      obtain ⟨q, hm, rfl⟩ := List.mem_map.mp hq
      exact (args_rn hρ).mpr (h.typed p hp2 q hm (hρ h1))

theorem optFormulaOk_rn {d : DomainAST} {params : List Symbol} {o : Option Formula} :
    (∀ f, o.map (rnFormula ρ) = some f → FormulaOk (rnDomain ρ d) (params.map (rnSymbol ρ)) f) ↔
      ∀ f, o = some f → FormulaOk d params f := by
  cases o with
  | none => simp
  | some f => simp [formulaOk_rn hρ]

omit hρ in
theorem params_nodup_rn (hρ : Function.Injective ρ) (l : List Symbol) :
    ((l.map (rnSymbol ρ)).map (·.name)).Nodup ↔ (l.map (·.name)).Nodup :=
  nodup_map hρ (rnSymbol ρ) (·.name) (fun _ => rfl) l

theorem actionOk_rn {d : DomainAST} {a : Action} : ActionOk (rnDomain ρ d) (rnAction ρ a) ↔ ActionOk d a :=
  ⟨fun h => ⟨(params_nodup_rn hρ _).mp h.params, (optFormulaOk_rn hρ).mp h.pre, (optFormulaOk_rn hρ).mp h.eff⟩,
   fun h => ⟨(params_nodup_rn hρ _).mpr h.params, (optFormulaOk_rn hρ).mpr h.pre, (optFormulaOk_rn hρ).mpr h.eff⟩⟩

theorem callee_rn {d : DomainAST} {x : Name} {ps' : List Symbol} : Callee (rnDomain ρ d) (ρ x) ps' ↔
    ∃ ps, ps' = ps.map (rnSymbol ρ) ∧ Callee d x ps := by
  constructor
  · intro h
    cases h with
    | action h1 h2 =>
      obtain ⟨a, hm, rfl⟩ := List.mem_map.mp h1
      exact ⟨a.params, rfl, .action hm (hρ h2)⟩
    | task h0 h1 h2 =>
      obtain ⟨t, hm, rfl⟩ := List.mem_map.mp h1
      exact ⟨t.params, rfl, .task (fun a ha h => h0 _ (List.mem_map.mpr ⟨a, ha, rfl⟩) (congrArg ρ h)) hm (hρ h2)⟩
  · rintro ⟨ps, rfl, h⟩
    cases h with
    | action h1 h2 => exact .action (a := rnAction ρ _) (List.mem_map.mpr ⟨_, h1, rfl⟩) (congrArg ρ h2)
    | task h0 h1 h2 =>
      refine .task (t := rnTask ρ _) ?_ (List.mem_map.mpr ⟨_, h1, rfl⟩) (congrArg ρ h2)
      intro a' ha h
      obtain ⟨a, hm, rfl⟩ := List.mem_map.mp ha
      exact h0 a hm (hρ h)

theorem before_rn {h : HTN} : Acyclic (Before (rnHtn ρ h)) ↔ Acyclic (Before h) := by
  refine acyclic_map hρ fun x y => ?_
  cases ho : h.orderings with
  | total => simp [Before, rnHtn, rnOrdering, ho]
  | partial_ os =>
    simp only [Before, rnHtn, rnOrdering, ho, Ordering.partial_.injEq, exists_eq_left', List.mem_map, Prod.exists, Prod.map_apply,
      Prod.mk.injEq]
    exact ⟨fun ⟨a, b, h1, h2, h3⟩ => ⟨a, b, h2.symm, h3.symm, h1⟩, fun ⟨a, b, h2, h3, h1⟩ => ⟨a, b, h1, h2.symm, h3.symm⟩⟩

theorem methodOk_rn {d : DomainAST} {m : Method} : MethodOk (rnDomain ρ d) (rnMethod ρ m) ↔ MethodOk d m := by
  constructor
  · intro h
    refine ⟨(params_nodup_rn hρ _).mp h.params, (optFormulaOk_rn hρ).mp h.pre, ?_, ?_, (before_rn hρ).mp h.ordering⟩
    · obtain ⟨t', ht, h1, h2⟩ := h.task
      obtain ⟨t, hm, rfl⟩ := List.mem_map.mp ht
      exact ⟨t, hm, hρ h1, (args_rn hρ).mp h2⟩
    · intro s hs
      obtain ⟨ps', h1, h2⟩ := h.subtasks _ (List.mem_map.mpr ⟨s, hs, rfl⟩)
      obtain ⟨ps, rfl, h3⟩ := (callee_rn hρ (x := s.task.name)).mp h1
      exact ⟨ps, h3, (args_rn hρ).mp h2⟩
  · intro h
    refine ⟨(params_nodup_rn hρ _).mpr h.params, (optFormulaOk_rn hρ).mpr h.pre, ?_, ?_, (before_rn hρ).mpr h.ordering⟩
    · obtain ⟨t, ht, h1, h2⟩ := h.task
      exact ⟨_, List.mem_map.mpr ⟨t, ht, rfl⟩, congrArg ρ h1, (args_rn hρ).mpr h2⟩
    · intro s' hs
      obtain ⟨s, hm, rfl⟩ := List.mem_map.mp hs
      obtain ⟨ps, h1, h2⟩ := h.subtasks s hm
      exact ⟨_, (callee_rn hρ (x := s.task.name)).mpr ⟨ps, rfl, h1⟩, (args_rn hρ).mpr h2⟩

omit hρ in
theorem forall_map_iff {α : Type} {f : α → α} {P Q : α → Prop} {l : List α} (h : ∀ x, P (f x) ↔ Q x) :
    (∀ x ∈ l.map f, P x) ↔ ∀ x ∈ l, Q x := by
  simp [h]

/-- Well-formedness of a domain does not depend on names and lines. -/
theorem domainOk_rn {d : DomainAST} : DomainOk (rnDomain ρ d) ↔ DomainOk d := by
  have hp : (∀ p ∈ (rnDomain ρ d).predicates, TypesKnown (typesOf (rnDomain ρ d)) p.vars) ↔
      ∀ p ∈ d.predicates, TypesKnown (typesOf d) p.vars :=
    forall_map_iff fun p => by rw [typesOf_rn]; exact typesKnown_rn hρ
  have ht : (∀ p ∈ (rnDomain ρ d).tasks, TypesKnown (typesOf (rnDomain ρ d)) p.params) ↔
      ∀ p ∈ d.tasks, TypesKnown (typesOf d) p.params :=
    forall_map_iff fun p => by rw [typesOf_rn]; exact typesKnown_rn hρ
  have ha : (∀ a ∈ (rnDomain ρ d).actions, ActionOk (rnDomain ρ d) a) ↔ ∀ a ∈ d.actions, ActionOk d a :=
    forall_map_iff fun a => actionOk_rn hρ
  have hm : (∀ a ∈ (rnDomain ρ d).methods, MethodOk (rnDomain ρ d) a) ↔ ∀ a ∈ d.methods, MethodOk d a :=
    forall_map_iff fun a => methodOk_rn hρ
  have hy : Acyclic (DirectSub (typesOf (rnDomain ρ d))) ↔ Acyclic (DirectSub (typesOf d)) := by
    rw [typesOf_rn]; exact acyclic_map hρ directSub_rn
  have np : ((rnDomain ρ d).predicates.map (·.name)).Nodup ↔ (d.predicates.map (·.name)).Nodup :=
    nodup_map hρ (rnPredicate ρ) (·.name) (fun _ => rfl) _
  have nt : ((rnDomain ρ d).tasks.map (·.name)).Nodup ↔ (d.tasks.map (·.name)).Nodup :=
    nodup_map hρ (rnTask ρ) (·.name) (fun _ => rfl) _
  have na : ((rnDomain ρ d).actions.map (·.name)).Nodup ↔ (d.actions.map (·.name)).Nodup :=
    nodup_map hρ (rnAction ρ) (·.name) (fun _ => rfl) _
  have nm : ((rnDomain ρ d).methods.map (·.name.name)).Nodup ↔ (d.methods.map (·.name.name)).Nodup :=
    nodup_map hρ (rnMethod ρ) (·.name.name) (fun _ => rfl) _
  exact ⟨fun h => ⟨h.requirements, hy.mp h.types, np.mp h.predicates, hp.mp h.predicateTypes, nt.mp h.tasks,
      ht.mp h.taskTypes, na.mp h.actionNames, ha.mp h.actions, nm.mp h.methodNames, hm.mp h.methods⟩,
    fun h => ⟨h.requirements, hy.mpr h.types, np.mpr h.predicates, hp.mpr h.predicateTypes, nt.mpr h.tasks,
      ht.mpr h.taskTypes, na.mpr h.actionNames, ha.mpr h.actions, nm.mpr h.methodNames, hm.mpr h.methods⟩⟩

/-! ### Problems -/

theorem factOk_rn {d : DomainAST} {p : ProblemAST} {a : Predicate} :
    FactOk (rnDomain ρ d) (rnProblem ρ p) (rnPredicate ρ a) ↔ FactOk d p a := by
  constructor
  · rintro ⟨q', hq, h1, h2⟩
    obtain ⟨q, hm, rfl⟩ := List.mem_map.mp hq
    exact ⟨q, hm, hρ h1, (args_rn hρ).mp h2⟩
  · rintro ⟨q, hq, h1, h2⟩
    exact ⟨_, List.mem_map.mpr ⟨q, hq, rfl⟩, congrArg ρ h1, (args_rn hρ).mpr h2⟩

theorem initTnOk_rn {d : DomainAST} {p : ProblemAST} {h : InitTN} :
    InitTnOk (rnDomain ρ d) (rnProblem ρ p) (rnInitTn ρ h) ↔ InitTnOk d p h := by
  have hps : (rnInitTn ρ h).params.getD [] = (h.params.getD []).map (rnSymbol ρ) := by
    cases hh : h.params <;> simp [rnInitTn, hh]
  constructor
  · intro hk
    refine ⟨(before_rn hρ).mp hk.ordering, fun s hs => ?_⟩
    obtain ⟨ps', h1, h2⟩ := hk.subtasks _ (List.mem_map.mpr ⟨s, hs, rfl⟩)
    obtain ⟨ps, rfl, h3⟩ := (callee_rn hρ (x := s.task.name)).mp h1
    rw [hps] at h2
    exact ⟨ps, h3, (args3_rn hρ).mp h2⟩
  · intro hk
    refine ⟨(before_rn hρ).mpr hk.ordering, fun s' hs => ?_⟩
    obtain ⟨s, hm, rfl⟩ := List.mem_map.mp hs
    obtain ⟨ps, h1, h2⟩ := hk.subtasks s hm
    refine ⟨_, (callee_rn hρ (x := s.task.name)).mpr ⟨ps, rfl, h1⟩, ?_⟩
    rw [hps]
    exact (args3_rn hρ).mpr h2

/-- Well-formedness of a problem does not depend on names and lines. -/
theorem problemOk_rn {d : DomainAST} {p : ProblemAST} : ProblemOk (rnDomain ρ d) (rnProblem ρ p) ↔ ProblemOk d p := by
  have h1 : TypesKnown (typesOf (rnDomain ρ d)) (rnProblem ρ p).objects ↔ TypesKnown (typesOf d) p.objects := by
    rw [typesOf_rn]; exact typesKnown_rn hρ
  have h2 : (∀ a ∈ (rnProblem ρ p).initState, FactOk (rnDomain ρ d) (rnProblem ρ p) a) ↔
      ∀ a ∈ p.initState, FactOk d p a := forall_map_iff fun a => factOk_rn hρ
  have h3 : (∀ h, (rnProblem ρ p).initTn = some h → InitTnOk (rnDomain ρ d) (rnProblem ρ p) h) ↔
      ∀ h, p.initTn = some h → InitTnOk d p h := by
    cases hh : p.initTn with
    | none => simp [rnProblem, hh]
    | some t =>
      have e : (rnProblem ρ p).initTn = some (rnInitTn ρ t) := by simp [rnProblem, hh]
      simp [e, initTnOk_rn hρ]
  have h4 : (∀ f, (rnProblem ρ p).goal = some f → ∀ a, OccursFree a f → FactOk (rnDomain ρ d) (rnProblem ρ p) a) ↔
      ∀ f, p.goal = some f → ∀ a, OccursFree a f → FactOk d p a := by
    cases hh : p.goal with
    | none => simp [rnProblem, hh]
    | some g =>
      have e : (rnProblem ρ p).goal = some (rnFormula ρ g) := by simp [rnProblem, hh]
      constructor
      · rintro h f ⟨⟩ a ha
        exact (factOk_rn hρ).mp (h _ e _ ha.rn)
      · intro h f hf a' ha
        rw [e] at hf
        cases hf
        obtain ⟨a, rfl, ho⟩ := occursFree_of_rn g ha
        exact (factOk_rn hρ).mpr (h g rfl a ho)
  exact ⟨fun h => ⟨h1.mp h.objectTypes, (params_nodup_rn hρ _).mp h.objects, h2.mp h.init, h3.mp h.htn, h4.mp h.goal⟩,
    fun h => ⟨h1.mpr h.objectTypes, (params_nodup_rn hρ _).mpr h.objects, h2.mpr h.init, h3.mpr h.htn, h4.mpr h.goal⟩⟩

end Verif
