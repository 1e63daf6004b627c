import Verif.Spec.GrowthP
import Verif.Proofs.Growth

/-! Well-formedness of problems with additional objects and facts. -/

namespace Verif

open Spec

variable {d : DomainAST} {p p' : ProblemAST}

theorem typeIn_mem {ls : List (List Symbol)} {x : Name} {ty : Option Name} (h : TypeIn ls x ty) : ∃ m ∈ ls, ∃ v ∈ m, v.name = x := by
  induction h with
  | here h => obtain ⟨h1, h2⟩ := firstNamed_name h; exact ⟨_, by simp, _, h1, h2⟩
  | outer _ _ ih => obtain ⟨m, h1, h2⟩ := ih; exact ⟨m, by simp [h1], h2⟩

/-- The first scope grows by names that are in no other scope. -/
theorem typeIn_first {l l' : List Symbol} {ls : List (List Symbol)} (hl : (l'.map (·.name)).Nodup) (hs : ∀ s ∈ l, s ∈ l')
    (hn : ∀ s ∈ l', s ∉ l → ∀ m ∈ ls, ∀ v ∈ m, v.name ≠ s.name) {x : Name} {ty : Option Name} (h : TypeIn (l :: ls) x ty) :
    TypeIn (l' :: ls) x ty := by
  cases h with
  | here h1 =>
    obtain ⟨h2, h3⟩ := firstNamed_name h1
    exact .here ((firstNamed_iff hl).mpr ⟨hs _ h2, h3⟩)
  | outer h1 h2 =>
    refine .outer (fun s hs' he => ?_) h2
    have hsl : s ∉ l := fun h => h1 s h he
    obtain ⟨m, hm, v, hv, hvx⟩ := typeIn_mem h2
    exact hn s hs' hsl m hm v hv (hvx.trans he.symm)

theorem argsFit_first {types l l' : List Symbol} {ls : List (List Symbol)} (hl : (l'.map (·.name)).Nodup) (hs : ∀ s ∈ l, s ∈ l')
    (hn : ∀ s ∈ l', s ∉ l → ∀ m ∈ ls, ∀ v ∈ m, v.name ≠ s.name) {args formals : List Symbol}
    (h : ArgsFit types (l :: ls) args formals) : ArgsFit types (l' :: ls) args formals :=
  List.Forall₂.imp (fun _ _ ⟨ty, h1, h2⟩ => ⟨ty, typeIn_first hl hs hn h1, h2⟩) h

theorem problemOk_extends (he : ExtendsP d p p') (h : ProblemOk d p) : ProblemOk d p' ↔ AdditionsP d p p' := by
  constructor
  · intro h'
    exact ⟨h'.objects, fun o ho _ t ht => h'.objectTypes o ho t ht, fun a ha _ => h'.init a ha⟩
  · intro h'
    have fact : ∀ a, FactOk d p a → FactOk d p' a := fun a ⟨q, h1, h2, h3⟩ =>
      ⟨q, h1, h2, argsFit_first h'.objects he.objects (by simpa using he.constants) h3⟩
    refine ⟨fun o ho t ht => ?_, h'.objects, fun a ha => ?_, fun i hi => ?_, fun f hf a ha => ?_⟩
    · by_cases hm : o ∈ p.objects
      · exact h.objectTypes o hm t ht
      · exact h'.objectTypes o ho hm t ht
    · by_cases hm : a ∈ p.initState
      · exact fact a (h.init a hm)
      · exact h'.init a ha hm
    · rw [he.htn] at hi
      obtain ⟨h1, h2⟩ := h.htn i hi
      refine ⟨h1, fun s hs => ?_⟩
      obtain ⟨ps, h3, h4⟩ := h2 s hs
      refine ⟨ps, h3, argsFit_first h'.objects he.objects (fun o ho hn m hm => ?_) h4⟩
      simp only [List.mem_cons, List.not_mem_nil, or_false] at hm
      rcases hm with rfl | rfl
      · exact he.params o ho hn i hi
      · exact he.constants o ho hn
    · rcases he.goal with h1 | h1
      · rw [h1] at hf; cases hf
      · rw [h1] at hf
        exact fact a (h.goal f hf a ha)

end Verif
