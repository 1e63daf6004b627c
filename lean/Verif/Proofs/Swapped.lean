import Verif.Proofs.Reorder

/-! Domains whose methods have at most two subtasks: the iteration orders that matter for the nullable tasks. -/

namespace Verif

open Spec

variable {ord ord' : HashOrd} {d : DomainAST}

/-- The sets of subtasks of the methods `l` are iterated backwards, if they have two elements. -/
def HashOrd.swapped (l : List Nat) : HashOrd where
  order
    | [1, m], 2 => if m ∈ l then [1, 0] else [0, 1]
    | _, n => List.range n
  isPerm s n := by
    split
    · split
      · exact List.Perm.swap 0 1 []
      · exact List.Perm.refl _
    · exact List.Perm.refl _

theorem order_two (ord : HashOrd) (s : Site) : ord.order s 2 = [0, 1] ∨ ord.order s 2 = [1, 0] := by
  have h : (ord.order s 2).Perm [0, 1] := ord.isPerm s 2
  obtain ⟨a, b, h1⟩ := List.length_eq_two.mp h.length_eq
  rw [h1] at h ⊢
  have ha := h.mem_iff.mp (List.mem_cons_self (a := a))
  have hb := h.mem_iff.mp (List.mem_cons_of_mem a (List.mem_singleton_self b))
  have hn := h.nodup_iff.mpr (by decide)
  simp only [List.mem_cons, List.not_mem_nil, or_false] at ha hb
  rcases ha with rfl | rfl <;> rcases hb with rfl | rfl <;> simp_all

theorem order_one (ord : HashOrd) (s : Site) {n : Nat} (h : n < 2) : ord.order s n = List.range n := by
  have h1 := ord.isPerm s n
  match n, h with
  | 0, _ => exact List.perm_nil.mp h1
  | 1, _ => exact List.perm_singleton.mp h1

/-- The nullable tasks only depend on the iteration orders of the sets of subtasks of methods. -/
theorem nullables_agree (hd : DomainOk d)
    (h : ∀ m mm, d.methods[m]? = some mm → ∀ n ≤ mm.tn.subtasks.length, ord'.order [1, m] n = ord.order [1, m] n) {ns ns' : List Name}
    (hn : NullablesAre ord d ns) (hn' : NullablesAre ord' d ns') (x : Name) : x ∈ ns' ↔ x ∈ ns := by
  obtain ⟨g, hg⟩ := (TDG.new_ok_iff (ord := ord)).mpr (Verif.DomainOk.closed hd)
  obtain ⟨g', hg'⟩ := (TDG.new_ok_iff (ord := ord')).mpr (Verif.DomainOk.closed hd)
  have hof := TDG.new_of hg
  have hof' := TDG.new_of hg'
  have hr : TDG.Renumbered g g' (Equiv.refl _) (Equiv.refl _) := by
    refine ⟨by simp [hof.tasks, hof'.tasks], by simp [hof.tasks, hof'.tasks], fun t m => ?_, fun m => ?_⟩
    · simp only [Equiv.refl_apply]
      rw [hof.methodsOf_outline, hof'.methodsOf_outline]
    · obtain ⟨l, h1, h2⟩ := TDG.new_tasksOf hg m
      obtain ⟨l', h1', h2'⟩ := TDG.new_tasksOf hg' m
      have h3 : l' = l := List.map_injective_iff.mpr (Option.some_injective _) (by rw [← h2, ← h2'])
      subst h3
      simp only [Equiv.refl_apply, Equiv.coe_refl, List.map_id]
      rw [h1, h1']
      unfold arrange
      cases hm : d.methods[m]? with
      | none =>
        have : l' = [] := by simpa [hm] using h2.symm
        subst this
        simp
      | some mm =>
        have : l'.length = mm.tn.subtasks.length := by
          have := congrArg List.length h2
          simpa [hm, outline, Verif.keys] using this.symm
        rw [h m mm hm _ (by rw [← this]; exact (List.dedup_sublist l').length_le)]
  obtain ⟨N, hn⟩ := hn
  obtain ⟨N', hn'⟩ := hn'
  have hn := hn (max N N') (by omega)
  have hn' := hn' (max N N') (by omega)
  rw [hg, R.bind_ok, TDG.nullables] at hn
  rw [hg', R.bind_ok, TDG.nullables] at hn'
  obtain ⟨l, h1, h2⟩ := R.bind_ok_iff.mp hn
  obtain ⟨l', h3, h4⟩ := hr.nullables hof.bounded hof'.bounded (compoundsOnce hof hd.tasks) (compoundsOnce hof' hd.tasks) h1
  cases h2
  rw [h3] at hn'
  cases hn'
  exact h4 x

/-- If no method has more than two subtasks, it is enough to know which sets of two are iterated backwards. -/
theorem nullables_swapped (hd : DomainOk d) (h2 : ∀ m ∈ d.methods, m.tn.subtasks.length ≤ 2) (ord : HashOrd) {ns ns' : List Name}
    (hn : NullablesAre ord d ns) (l : List Nat)
    (hl : ∀ m mm, d.methods[m]? = some mm → mm.tn.subtasks.length = 2 → (m ∈ l ↔ ord.order [1, m] 2 = [1, 0]))
    (hn' : NullablesAre (HashOrd.swapped l) d ns') (x : Name) : x ∈ ns' ↔ x ∈ ns := by
  refine nullables_agree hd (fun m mm hm n hle => ?_) hn hn' x
  have hle2 := h2 mm (List.mem_of_getElem? hm)
  by_cases hn2 : n < 2
  · rw [order_one _ _ hn2, order_one _ _ hn2]
  · obtain rfl : n = 2 := by omega
    have := hl m mm hm (by omega)
    show (if m ∈ l then [1, 0] else [0, 1]) = _
    split
    · rename_i h; exact (this.mp h).symm
    · rename_i h
      rcases order_two ord [1, m] with h3 | h3
      · exact h3.symm
      · exact absurd (this.mpr h3) h

end Verif
