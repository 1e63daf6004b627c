import Mathlib.Logic.Relation
import Verif.Model.Graph

/-! The graph functions compute reachability and acyclicity. -/

namespace Verif

variable {α : Type} [DecidableEq α]

/-- The edge relation of an edge list. -/
def Edge (es : List (α × α)) (a b : α) : Prop := (a, b) ∈ es

theorem reachAux_sound (all : List (α × α)) (a : α) : ∀ (n : Nat) (es : List (α × α)) (v : List α),
    (∀ e ∈ es, e ∈ all) → (∀ x ∈ v, Relation.ReflTransGen (Edge all) a x) →
    ∀ x ∈ reachAux n es v, Relation.ReflTransGen (Edge all) a x := by
  intro n
  induction n with
  | zero => intro es v _ hv x hx; exact hv x hx
  | succ n ih =>
    intro es v he hv x hx
    unfold reachAux at hx
    split at hx
    · exact hv x hx
    · rename_i e hf
      have hmem := List.mem_of_find?_eq_some hf
      have hin : e.1 ∈ v := by simpa using List.find?_some hf
      refine ih (es.erase e) (e.2 :: v) (fun e' h' => he e' (List.mem_of_mem_erase h')) ?_ x hx
      intro y hy
      rcases List.mem_cons.mp hy with rfl | hy
      · exact (hv _ hin).tail (he e hmem)
      · exact hv y hy

theorem reachAux_closed : ∀ (n : Nat) (es : List (α × α)) (v : List α), es.length ≤ n →
    (∀ x ∈ v, x ∈ reachAux n es v) ∧ ∀ e ∈ es, e.1 ∈ reachAux n es v → e.2 ∈ reachAux n es v := by
  intro n
  induction n with
  | zero =>
    intro es v hl
    have : es = [] := List.length_eq_zero_iff.mp (by omega)
    subst this
    exact ⟨fun x h => h, by simp⟩
  | succ n ih =>
    intro es v hl
    unfold reachAux
    split
    · rename_i hf
      refine ⟨fun x h => h, fun e he h1 => ?_⟩
      have := List.find?_eq_none.mp hf e he
      simp [h1] at this
    · rename_i e hf
      have hmem := List.mem_of_find?_eq_some hf
      have hlen := List.length_erase_of_mem hmem
      have hpos : 0 < es.length := List.length_pos_of_mem hmem
      obtain ⟨h1, h2⟩ := ih (es.erase e) (e.2 :: v) (by omega)
      refine ⟨fun x h => h1 x (List.mem_cons_of_mem _ h), fun e' he' hx => ?_⟩
      by_cases hee : e' = e
      · subst hee; exact h1 _ (List.mem_cons_self ..)
      · exact h2 e' ((List.mem_erase_of_ne hee).mpr he') hx

/-- `hasPath` is reachability. -/
theorem hasPath_iff (es : List (α × α)) (a b : α) :
    hasPath es a b = true ↔ Relation.ReflTransGen (Edge es) a b := by
  have hc := reachAux_closed es.length es [a] (Nat.le_refl _)
  unfold hasPath reachFrom
  rw [decide_eq_true_eq]
  constructor
  · exact reachAux_sound es a es.length es [a] (fun _ h => h)
      (by intro x hx; rw [List.mem_singleton.mp hx]) b
  · intro h
    induction h with
    | refl => exact hc.1 a (List.mem_singleton.mpr rfl)
    | tail _ he ih => exact hc.2 _ he ih

/-- `isAcyclic` is the absence of cycles. -/
theorem isAcyclic_iff (es : List (α × α)) :
    isAcyclic es = true ↔ ∀ x, ¬ Relation.TransGen (Edge es) x x := by
  simp only [isAcyclic, List.all_eq_true, Bool.not_eq_true']
  constructor
  · intro h x hx
    obtain ⟨y, hxy, hyx⟩ := Relation.TransGen.head'_iff.mp hx
    have := h (x, y) hxy
    have h2 := (hasPath_iff es y x).mpr hyx
    simp only at this
    rw [this] at h2; cases h2
  · intro h e he
    rw [← Bool.not_eq_true]
    intro hp
    exact h e.1 (Relation.TransGen.head' he ((hasPath_iff es e.2 e.1).mp hp))

end Verif
