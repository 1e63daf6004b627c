import Mathlib.Data.List.Forall2
import Verif.Spec.WellFormed
import Verif.Proofs.Graph
import Verif.Model.ProblemAnalyzer

/-! The type checker and the argument checks, related to the declarative notions of `Spec/WellFormed.lean`. -/

namespace Verif

open Spec

/-! ### Outcomes -/

namespace R
variable {α β : Type}

theorem bind_ok_iff {x : R α} {f : α → R β} {b : β} : R.bind x f = .ok b ↔ ∃ a, x = .ok a ∧ f a = .ok b := by
  cases x <;> simp

theorem bind_err_iff {x : R α} {f : α → R β} {e : PErr} :
    R.bind x f = .err e ↔ x = .err e ∨ ∃ a, x = .ok a ∧ f a = .err e := by
  cases x <;> simp

theorem bind_panic_iff {x : R α} {f : α → R β} {p : Panic} :
    R.bind x f = .panic p ↔ x = .panic p ∨ ∃ a, x = .ok a ∧ f a = .panic p := by
  cases x <;> simp

theorem bind_timeout_iff {x : R α} {f : α → R β} :
    R.bind x f = .timeout ↔ x = .timeout ∨ ∃ a, x = .ok a ∧ f a = .timeout := by
  cases x <;> simp

end R

theorem bindU_ok {β : Type} {x : R Unit} {f : Unit → R β} {b : β} :
    R.bind x f = .ok b ↔ x = .ok () ∧ f () = .ok b := by
  cases x <;> simp

theorem bindU_err {β : Type} {x : R Unit} {f : Unit → R β} {e : PErr} :
    R.bind x f = .err e ↔ x = .err e ∨ (x = .ok () ∧ f () = .err e) := by
  cases x <;> simp

theorem bindU_panic {β : Type} {x : R Unit} {f : Unit → R β} {e : Panic} :
    R.bind x f = .panic e ↔ x = .panic e ∨ (x = .ok () ∧ f () = .panic e) := by
  cases x <;> simp

/-! ### Types -/

theorem typeGraphOf_edges (l : List Symbol) (s t : Name) : (s, t) ∈ (typeGraphOf l).edges ↔ DirectSub l s t := by
  induction l with
  | nil => simp [typeGraphOf, DirectSub]
  | cons x xs ih =>
    have e : DirectSub (x :: xs) s t ↔ (x.name = s ∧ x.ty = some t) ∨ DirectSub xs s t := by
      simp [DirectSub]
    rw [e, ← ih]
    rw [typeGraphOf]
    cases hx : x.ty with
    | none => simp
    | some p => simp [Prod.ext_iff, eq_comm]

theorem typeGraphOf_nodes (l : List Symbol) (t : Name) : t ∈ (typeGraphOf l).nodes ↔ TypeKnown l t := by
  induction l with
  | nil => simp [typeGraphOf, TypeKnown]
  | cons x xs ih =>
    have e : TypeKnown (x :: xs) t ↔ (x.name = t ∨ x.ty = some t) ∨ TypeKnown xs t := by simp [TypeKnown]
    rw [e, ← ih]
    rw [typeGraphOf]
    cases hx : x.ty with
    | none => simp [eq_comm]
    | some p => simp [eq_comm, or_assoc]

theorem new_edges (d : DomainAST) (s t : Name) :
    Edge (TypeGraph.new d.types).edges s t ↔ DirectSub (typesOf d) s t := by
  unfold Edge typesOf
  cases d.types with
  | none => simp [TypeGraph.new, DirectSub]
  | some l => exact typeGraphOf_edges l s t

theorem new_nodes (d : DomainAST) (t : Name) : t ∈ (TypeGraph.new d.types).nodes ↔ TypeKnown (typesOf d) t := by
  unfold typesOf
  cases d.types with
  | none => simp [TypeGraph.new, TypeKnown]
  | some l => exact typeGraphOf_nodes l t

theorem new_edge_rel (d : DomainAST) : Edge (TypeGraph.new d.types).edges = DirectSub (typesOf d) := by
  funext s t; exact propext (new_edges d s t)

theorem verify_ok (d : DomainAST) :
    (TypeGraph.new d.types).verify = .ok () ↔ Acyclic (DirectSub (typesOf d)) := by
  unfold TypeGraph.verify Acyclic
  rw [← new_edge_rel, ← isAcyclic_iff]
  cases isAcyclic (TypeGraph.new d.types).edges <;> simp

theorem verify_err (d : DomainAST) (e : PErr) :
    (TypeGraph.new d.types).verify = .err e ↔ e = .semantic .cyclicType ∧ ¬ Acyclic (DirectSub (typesOf d)) := by
  unfold TypeGraph.verify Acyclic
  rw [← new_edge_rel, ← isAcyclic_iff]
  cases isAcyclic (TypeGraph.new d.types).edges <;> simp [eq_comm]

theorem verify_panic (g : TypeGraph) (p : Panic) : g.verify ≠ .panic p := by
  unfold TypeGraph.verify; split <;> simp

/-- Type compatibility, as computed, is `Fits`. -/
theorem consistent_iff (d : DomainAST) (f e : Option Name) :
    (TypeGraph.new d.types).consistent f e = true ↔ Fits (typesOf d) f e := by
  unfold TypeGraph.consistent
  cases f with
  | none => cases e with
    | none => exact ⟨fun _ => .untyped, fun _ => rfl⟩
    | some t => exact ⟨fun h => by simp at h, fun h => nomatch h⟩
  | some s => cases e with
    | none => exact ⟨fun h => by simp at h, fun h => nomatch h⟩
    | some t =>
      have key : Fits (typesOf d) (some s) (some t) ↔ Relation.ReflTransGen (DirectSub (typesOf d)) s t :=
        ⟨fun h => by cases h; assumption, .sub⟩
      rw [key, ← new_edge_rel, ← hasPath_iff]
      dsimp only
      split
      · rename_i h; subst h
        simp only [true_iff]
        exact (hasPath_iff _ _ _).mpr .refl
      · rfl

theorem checkDecls_ok (d : DomainAST) (l : List Symbol) :
    (TypeGraph.new d.types).checkDecls l = .ok () ↔ TypesKnown (typesOf d) l := by
  induction l with
  | nil => simp [TypeGraph.checkDecls, TypesKnown]
  | cons p ps ih =>
    have e : TypesKnown (typesOf d) (p :: ps) ↔
        (∀ t, p.ty = some t → TypeKnown (typesOf d) t) ∧ TypesKnown (typesOf d) ps := by simp [TypesKnown]
    rw [e, ← ih]
    rw [TypeGraph.checkDecls]
    cases hp : p.ty with
    | none => simp
    | some t =>
      by_cases h : TypeKnown (typesOf d) t
      · simp [(new_nodes d t).mpr h, h]
      · simp only [mt (new_nodes d t).mp h, if_false]
        constructor
        · cases p.tyPos <;> simp
        · rintro ⟨h1, _⟩; exact absurd (h1 t rfl) h

theorem checkDecls_err (d : DomainAST) (l : List Symbol) (e : PErr)
    (h : (TypeGraph.new d.types).checkDecls l = .err e) :
    ∃ s ∈ l, ∃ t pos, s.ty = some t ∧ s.tyPos = some pos ∧ ¬ TypeKnown (typesOf d) t ∧
      e = .semantic (.undefType ⟨t, pos⟩) := by
  induction l with
  | nil => simp [TypeGraph.checkDecls] at h
  | cons p ps ih =>
    unfold TypeGraph.checkDecls at h
    split at h
    · obtain ⟨s, hs, h'⟩ := ih h; exact ⟨s, List.mem_cons_of_mem _ hs, h'⟩
    · rename_i t ht
      split at h
      · obtain ⟨s, hs, h'⟩ := ih h; exact ⟨s, List.mem_cons_of_mem _ hs, h'⟩
      · rename_i hn
        rw [new_nodes] at hn
        split at h
        · rename_i q hq
          simp only [R.err.injEq] at h
          exact ⟨p, List.mem_cons_self .., t, q, ht, hq, hn, h.symm⟩
        · simp at h

/-- Every symbol with a type has the position of the type. -/
def Located (l : List Symbol) : Prop := ∀ s ∈ l, s.ty.isSome → s.tyPos.isSome

theorem checkDecls_panic (g : TypeGraph) (l : List Symbol) (hl : Located l) (p : Panic) :
    g.checkDecls l ≠ .panic p := by
  induction l with
  | nil => simp [TypeGraph.checkDecls]
  | cons s ss ih =>
    have ih' := ih (fun x hx => hl x (List.mem_cons_of_mem _ hx))
    unfold TypeGraph.checkDecls
    split
    · exact ih'
    · rename_i t ht
      split
      · exact ih'
      · have := hl s (List.mem_cons_self ..) (by simp [ht])
        split
        · simp
        · rename_i hn; simp [hn] at this

theorem checkDecls_timeout (g : TypeGraph) (l : List Symbol) : g.checkDecls l ≠ .timeout := by
  induction l with
  | nil => simp [TypeGraph.checkDecls]
  | cons s ss ih =>
    unfold TypeGraph.checkDecls
    split
    · exact ih
    · split
      · exact ih
      · split <;> simp

/-! ### Looking up names -/

theorem findSym_some {l : List Symbol} {x : Name} {s : Symbol} : findSym l x = some s ↔ FirstNamed l x s := by
  unfold findSym
  rw [List.find?_eq_some_iff_append]
  constructor
  · rintro ⟨h1, a, b, rfl, h2⟩
    exact ⟨a, b, rfl, by simpa using h1, fun y hy => by simpa using h2 y hy⟩
  · rintro ⟨a, b, rfl, h1, h2⟩
    exact ⟨by simpa using h1, a, b, rfl, fun y hy => by simpa using h2 y hy⟩

theorem findSym_none {l : List Symbol} {x : Name} : findSym l x = none ↔ ∀ s ∈ l, s.name ≠ x := by
  unfold findSym
  rw [List.find?_eq_none]
  simp

/-- With distinct names the last declaration is the first one. -/
theorem findParam_eq {l : List Symbol} (hl : (l.map (·.name)).Nodup) (x : Name) : findParam l x = findSym l x := by
  unfold findParam findSym
  induction l with
  | nil => rfl
  | cons s ss ih =>
    rw [List.map_cons, List.nodup_cons] at hl
    rw [List.reverse_cons, List.find?_append, ih hl.2]
    by_cases h : s.name = x
    · have hn : ss.find? (fun s => decide (s.name = x)) = none := by
        rw [List.find?_eq_none]
        intro y hy; simp only [decide_eq_true_eq]
        intro hyx
        exact hl.1 (List.mem_map.mpr ⟨y, hy, hyx.trans h.symm⟩)
      rw [hn]; simp [h]
    · rw [List.find?_cons, show decide (s.name = x) = false by simpa using h]
      cases hs : ss.find? (fun s => decide (s.name = x)) <;> simp [h, hs]

/-- First match in a list of scopes. -/
def findScope : List (List Symbol) → Name → Option Symbol
  | [], _ => none
  | l :: ls, x => match findSym l x with
    | some s => some s
    | none => findScope ls x

theorem findScope_type (scope : List (List Symbol)) (x : Name) (ty : Option Name) :
    TypeIn scope x ty ↔ ∃ s, findScope scope x = some s ∧ s.ty = ty := by
  induction scope with
  | nil => constructor
           · intro h; nomatch h
           · rintro ⟨s, h, _⟩; simp [findScope] at h
  | cons l ls ih =>
    unfold findScope
    cases h : findSym l x with
    | some s =>
      simp only [Option.some.injEq, exists_eq_left']
      constructor
      · intro ht
        cases ht with
        | here hf => rw [← findSym_some, h] at hf; cases hf; rfl
        | outer hn _ => rw [← findSym_none, h] at hn; cases hn
      · rintro rfl; exact .here (findSym_some.mp h)
    | none =>
      simp only
      rw [← ih]
      constructor
      · intro ht
        cases ht with
        | here hf => rw [← findSym_some, h] at hf; cases hf
        | outer _ ht => exact ht
      · exact .outer (findSym_none.mp h)

theorem findScope_none (scope : List (List Symbol)) (x : Name) : findScope scope x = none ↔ Unbound scope x := by
  induction scope with
  | nil => simp [findScope, Unbound]
  | cons l ls ih =>
    have e : Unbound (l :: ls) x ↔ (∀ s ∈ l, s.name ≠ x) ∧ Unbound ls x := by simp [Unbound]
    rw [e, ← ih, ← findSym_none]
    rw [findScope]
    cases findSym l x <;> simp

theorem Spec.TypeIn.bound {scope : List (List Symbol)} {x : Name} {ty : Option Name} (h : TypeIn scope x ty) :
    ¬ Unbound scope x := by
  rw [← findScope_none]
  obtain ⟨s, hs, _⟩ := (findScope_type scope x ty).mp h
  simp [hs]

theorem Spec.TypeIn.det {scope : List (List Symbol)} {x : Name} {t u : Option Name} (h : TypeIn scope x t)
    (h' : TypeIn scope x u) : t = u := by
  obtain ⟨s, hs, rfl⟩ := (findScope_type scope x t).mp h
  obtain ⟨s', hs', rfl⟩ := (findScope_type scope x u).mp h'
  rw [hs] at hs'; cases hs'; rfl

end Verif
