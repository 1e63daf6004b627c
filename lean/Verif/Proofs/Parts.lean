import Verif.Spec.Parts
import Verif.Proofs.Outline
import Verif.Proofs.Growth

/-! Well-formedness and decomposition in domains that consist of parts. -/

namespace Verif

open Spec

variable {d e u : DomainAST}

/-! ### Well-formedness -/

theorem domainOk_merged (h : Merged d e u) (hc : ConstantsOnce u) (hd : DomainOk d) (he : DomainOk e) : DomainOk u ↔ Compatible u := by
  constructor
  · exact fun h => ⟨h.requirements, h.types, h.predicates, h.tasks, h.actionNames, h.methodNames⟩
  · rintro ⟨h1, h2, h3, h4, h5, h6⟩
    refine (domainOk_extends h.left.whole hc hd).mpr ⟨h1, h2, h3, fun x hx hn => ?_, h4, fun x hx hn => ?_, h5, fun x hx hn => ?_, h6,
      fun x hx hn => ?_⟩
    · exact typesKnown_mono h.right.whole.types (he.predicateTypes x ((h.predicates x hx).resolve_left hn))
    · exact typesKnown_mono h.right.whole.types (he.taskTypes x ((h.tasks x hx).resolve_left hn))
    · exact actionOk_mono h.right.whole hc h3 (he.actions x ((h.actions x hx).resolve_left hn))
    · exact methodOk_mono h.right.whole hc h3 (he.methods x ((h.methods x hx).resolve_left hn))

/-! ### Decomposition -/

/-- What is used of a part, up to lines. -/
structure Portion (d u : DomainAST) : Prop where
  covered : Covered d u
  back : ∃ ψ : Method → Method, (∀ m, outline (ψ m) = outline m) ∧
    ∀ m ∈ u.methods, m.task.name ∈ d.tasks.map (·.name) → ψ m ∈ d.methods
  action : ∀ x ∈ d.tasks.map (·.name), ActionName u x → ActionName d x
  actions : ∀ x, ActionName d x → ActionName u x
  tasks : ∀ x ∈ d.tasks.map (·.name), x ∈ u.tasks.map (·.name)
  task : ∀ x, ActionName d x → x ∈ u.tasks.map (·.name) → x ∈ d.tasks.map (·.name)
  ok : DomainOk d
  okWhole : DomainOk u

theorem declared_iff {x : Name} : Declared d x ↔ x ∈ d.tasks.map (·.name) ∨ ActionName d x := by simp [Declared]

theorem Spec.DomainOk.method_task (h : DomainOk d) {m : Method} (hm : m ∈ d.methods) : m.task.name ∈ d.tasks.map (·.name) := by
  obtain ⟨t, ht, h1, _⟩ := (h.methods m hm).task
  exact List.mem_map.mpr ⟨t, ht, h1⟩

theorem Spec.DomainOk.sub_declared (h : DomainOk d) {m : Method} (hm : m ∈ d.methods) {s : Subtask} (hs : s ∈ m.tn.subtasks) :
    Declared d s.task.name := by
  obtain ⟨ps, h1, _⟩ := (h.methods m hm).subtasks s hs
  cases h1 with
  | action h1 h2 => exact .inr ⟨_, h1, h2⟩
  | task _ h1 h2 => exact .inl ⟨_, h1, h2⟩

theorem ambiguous_action (h : DomainOk d) {x : Name} (hx : x ∈ d.tasks.map (·.name)) : Ambiguous d x ↔ ActionName d x := by
  have h1 : (d.tasks.map (·.name)).count x = 1 := List.count_eq_one_of_mem h.tasks hx
  have h2 : ActionName d x ↔ 0 < (d.actions.map (·.name)).count x := by rw [List.count_pos_iff]; simp [ActionName]
  unfold Ambiguous
  rw [List.count_append, h1, h2]
  omega

section

variable (h : Portion d u)
include h

theorem Portion.task_of {m : Method} (hm : m ∈ u.methods) (hx : Declared d m.task.name) : m.task.name ∈ d.tasks.map (·.name) := by
  rcases declared_iff.mp hx with h1 | h1
  · exact h1
  · exact h.task _ h1 (h.okWhole.method_task hm)

theorem Portion.hasSub {x y : Name} (hx : Declared d x) (hs : HasSub u x y) : HasSub d x y := by
  obtain ⟨ψ, h1, h2⟩ := h.back
  obtain ⟨m, hm, rfl, hs⟩ := hs
  rw [exists_sub, ← outline_keys (h1 m), ← exists_sub] at hs
  exact ⟨ψ m, h2 m hm (h.task_of hm hx), outline_task (h1 m), hs⟩

omit h in
theorem Spec.DomainOk.hasSub_declared (h : DomainOk d) {x y : Name} (hs : HasSub d x y) : Declared d y := by
  obtain ⟨m, hm, _, s, h1, rfl⟩ := hs
  exact h.sub_declared hm h1

theorem Portion.reach {x y : Name} (hx : Declared d x) (hs : Relation.ReflTransGen (HasSub u) x y) :
    Relation.ReflTransGen (HasSub d) x y ∧ Declared d y := by
  induction hs with
  | refl => exact ⟨.refl, hx⟩
  | tail _ h1 ih =>
    have h2 := h.hasSub ih.2 h1
    exact ⟨ih.1.tail h2, h.ok.hasSub_declared h2⟩

theorem Portion.trans {x y : Name} (hx : Declared d x) (hs : Relation.TransGen (HasSub u) x y) : Relation.TransGen (HasSub d) x y := by
  obtain ⟨z, h1, h2⟩ := Relation.TransGen.head'_iff.mp hs
  have h3 := h.hasSub hx h1
  exact Relation.TransGen.head' h3 (h.reach (h.ok.hasSub_declared h3) h2).1

theorem Portion.actionName {x : Name} (hx : Declared d x) : ActionName u x ↔ ActionName d x := by
  refine ⟨fun h1 => ?_, h.actions x⟩
  rcases declared_iff.mp hx with h2 | h2
  · exact h.action x h2 h1
  · exact h2

theorem Portion.reachesAction {x : Name} (hx : Declared d x) : ReachesAction u x ↔ ReachesAction d x := by
  constructor
  · rintro ⟨a, h1, h2⟩
    obtain ⟨h3, h4⟩ := h.reach hx h2
    obtain ⟨b, h5, h6⟩ := (h.actionName h4).mp ⟨a, h1, rfl⟩
    exact ⟨b, h5, by rw [h6]; exact h3⟩
  · rintro ⟨a, h1, h2⟩
    obtain ⟨b, h5, h6⟩ := h.actions a.name ⟨a, h1, rfl⟩
    exact ⟨b, h5, by rw [h6]; exact h.covered.refl_trans h2⟩

theorem Portion.erasable {x : Name} (hx : Declared d x) : Erasable u x ↔ Erasable d x := by
  constructor
  · intro he
    obtain ⟨ψ, h1, h2⟩ := h.back
    induction he with
    | @mk m hm hna _ ih =>
      have hp := h2 m hm (h.task_of hm hx)
      have hdec : ∀ s ∈ m.tn.subtasks, Declared d s.task.name := by
        rw [forall_sub m.tn (fun x => Declared d x), ← outline_keys (h1 m), ← forall_sub (ψ m).tn fun x => Declared d x]
        exact fun s hs => h.ok.sub_declared hp hs
      rw [← outline_task (h1 m)]
      refine .mk hp ?_ ?_
      · rw [forall_sub (ψ m).tn (fun x => ¬ ActionName d x), outline_keys (h1 m), ← forall_sub m.tn fun x => ¬ ActionName d x]
        exact fun s hs ha => hna s hs (h.actions _ ha)
      · rw [forall_sub (ψ m).tn (fun x => Erasable d x), outline_keys (h1 m), ← forall_sub m.tn fun x => Erasable d x]
        exact fun s hs => ih s hs (hdec s hs)
  · exact h.covered.erasable fun m hm => h.action _ (h.ok.method_task hm)

/-- Tasks of a part of a uniform domain. -/
theorem Portion.uniform (hu : Uniform u) : Uniform d := by
  obtain ⟨φ, h1, h2⟩ := h.covered
  rintro m hm ⟨s, hs, he⟩
  rw [← h.erasable (declared_iff.mpr (.inl (h.ok.method_task hm))), ← outline_task (h1 m)]
  refine hu _ (h2 m hm) ?_
  obtain ⟨s', hs', h3⟩ : ∃ s' ∈ (φ m).tn.subtasks, s'.task.name = s.task.name := by
    rw [exists_sub, outline_keys (h1 m), ← exists_sub]
    exact ⟨s, hs, rfl⟩
  exact ⟨s', hs', by rw [h3]; exact (h.erasable (h.ok.sub_declared hm hs)).mpr he⟩

theorem Portion.uniform_at (hu : Uniform d) {m : Method} (hm : m ∈ u.methods) (hx : Declared d m.task.name)
    (hs : ∃ s ∈ m.tn.subtasks, Erasable u s.task.name) : Erasable u m.task.name := by
  obtain ⟨ψ, h1, h2⟩ := h.back
  obtain ⟨s, hs, he⟩ := hs
  have hp := h2 m hm (h.task_of hm hx)
  obtain ⟨s', hs', h3⟩ : ∃ s' ∈ (ψ m).tn.subtasks, s'.task.name = s.task.name := by
    rw [exists_sub, outline_keys (h1 m), ← exists_sub]
    exact ⟨s, hs, rfl⟩
  rw [h.erasable hx, ← outline_task (h1 m)]
  refine hu _ hp ⟨s', hs', ?_⟩
  rw [← h.erasable (h.ok.sub_declared hp hs'), h3]
  exact he

theorem Portion.ambiguous {x : Name} (hx : x ∈ d.tasks.map (·.name)) : Ambiguous u x ↔ Ambiguous d x := by
  rw [ambiguous_action h.ok hx, ambiguous_action h.okWhole (h.tasks x hx), h.actionName (declared_iff.mpr (.inl hx))]

/-! ### Cycles -/

omit h in
theorem chain_declared {m : Method} (h : Portion d u) : ∀ {c : List Method}, (m :: c).IsChain Links → (∀ n ∈ m :: c, n ∈ u.methods) →
    Declared d m.task.name → ∀ n ∈ m :: c, Declared d n.task.name
  | [], _, _, hd => by simpa using hd
  | n :: c, hc, hm, hd => by
    rw [List.isChain_cons_cons] at hc
    obtain ⟨⟨s, hs, h1⟩, h2⟩ := hc
    have h3 : HasSub u m.task.name n.task.name := ⟨m, hm m (by simp), rfl, s, hs, h1⟩
    have h4 := h.ok.hasSub_declared (h.hasSub hd h3)
    intro k hk
    rcases List.mem_cons.mp hk with rfl | hk
    · exact hd
    · exact chain_declared h h2 (fun k hk => hm k (by simp [List.mem_cons.mp hk])) h4 k hk

theorem Portion.cycle_declared {m : Method} {c : List Method} (hc : Cycle u (m :: c)) (hm : Declared d m.task.name) :
    ∀ n ∈ m :: c, Declared d n.task.name :=
  chain_declared h (List.IsChain.left_of_append hc.links) hc.mem hm

end

theorem classBy_shows {A B C : List Method → Prop} {k : Class} (h : ClassBy d A B C k) (hk : k ≠ .none) :
    ∃ c, Cycle d c ∧ ShowsBy A B C c k := by
  cases k with
  | none => exact absurd rfl hk
  | plain => obtain ⟨c, h1⟩ := h.2; exact ⟨c, h1, trivial⟩
  | growingEmptyPrefix => exact h.2.2
  | empty => exact h.2
  | growAndShrink => exact h

theorem showsBy_rank {A B C : List Method → Prop} {k j : Class} (h : ClassBy d A B C k) {c : List Method} (hc : Cycle d c)
    (hs : ShowsBy A B C c j) : j.rank ≤ k.rank := by
  unfold ClassBy at h
  dsimp only at h
  cases k <;> cases j <;> first | exact Nat.le_of_ble_eq_true rfl | skip
  all_goals exfalso; dsimp only [ShowsBy] at hs; dsimp only at h
  · exact h ⟨c, hc⟩
  · exact h ⟨c, hc⟩
  · exact h ⟨c, hc⟩
  · exact h ⟨c, hc⟩
  · exact h.1 ⟨c, hc, hs⟩
  · exact h.1 ⟨c, hc, hs.1⟩
  · exact h.1 ⟨c, hc, hs.1⟩
  · exact h.2.1 ⟨c, hc, hs⟩
  · exact h.1 ⟨c, hc, hs⟩
  · exact h.1 ⟨c, hc, hs⟩

/-- A cycle through a part is one of the part, with the same class. -/
theorem Portion.shows (h : Portion d u) {null null' : Name → Prop} (hn : ∀ x, Declared d x → (null' x ↔ null x)) {m : Method} {c : List Method}
    (hc : Cycle u (m :: c)) (hm : Declared d m.task.name) {k : Class}
    (hs : ShowsBy (TakenEmptyPrefix u null') TakenEmptySuffix (TakenNullSuffix null') (m :: c) k) :
    ∃ c', Cycle d c' ∧ ShowsBy (TakenEmptyPrefix d null) TakenEmptySuffix (TakenNullSuffix null) c' k := by
  obtain ⟨ψ, h1, h2⟩ := h.back
  have hdec := h.cycle_declared hc hm
  have hmem : ∀ n ∈ m :: c, ψ n ∈ d.methods := fun n hn => h2 n (hc.mem n hn) (h.task_of (hc.mem n hn) (hdec n hn))
  have hcy : Cycle d ((m :: c).map ψ) := by
    refine ⟨by simp, by simpa using hmem, ?_, ?_⟩
    · rw [List.map_map]
      have : (m :: c).map ((fun m : Method => m.task.name) ∘ ψ) = (m :: c).map (·.task.name) :=
        List.map_congr_left fun m _ => outline_task (h1 m)
      rw [this]
      exact hc.nodup
    · rw [← List.map_take, ← List.map_append]
      exact isChain_map_iff (fun a b => (links_outline (h1 a) (h1 b)).symm) _ hc.links
  have hstep : ∀ p ∈ steps (m :: c), p.1 ∈ m :: c := fun p hp => (List.of_mem_zip hp).1
  have hsub : ∀ n ∈ m :: c, ∀ s ∈ n.tn.subtasks, Declared d s.task.name := by
    intro n hn
    rw [forall_sub n.tn (fun x => Declared d x), ← outline_keys (h1 n), ← forall_sub (ψ n).tn fun x => Declared d x]
    exact fun s hs => h.ok.sub_declared (hmem n hn) hs
  have hpre : TakenEmptyPrefix u null' (m :: c) → TakenEmptyPrefix d null ((m :: c).map ψ) := by
    intro hp p hpp
    rw [steps_map] at hpp
    obtain ⟨⟨a, b⟩, hab, rfl⟩ := List.mem_map.mp hpp
    simp only [Prod.map_apply, takenBefore_outline (h1 a) (h1 b)]
    rcases hp _ hab with ⟨n, h3, h4, h5⟩ | h3
    · refine .inl ⟨ψ n, by rw [List.head?_map, h3]; rfl, by rw [outline_task (h1 n)]; exact h4, ?_⟩
      have hn := List.mem_of_mem_head? h3
      rw [outline_task (h1 n), ← h.ambiguous (h.task_of (hc.mem n hn) (hdec n hn))]
      exact h5
    · refine .inr fun y hy => (hn y ?_).mp (h3 y hy)
      have := hsub a (hstep _ hab)
      unfold TakenBefore at hy
      split at hy
      · obtain ⟨s, hs, rfl⟩ := List.mem_map.mp hy
        exact this s ((List.takeWhile_sublist _).subset hs)
      · cases hy
  have hafter : ∀ p ∈ steps (m :: c), ∀ y, TakenAfter p.1 p.2 y → Declared d y := by
    intro p hp y hy
    have := hsub p.1 (hstep _ hp)
    unfold TakenAfter at hy
    split at hy
    · obtain ⟨s, hs, rfl⟩ := hy
      exact this s ((List.dropWhile_sublist _).subset (List.mem_of_mem_tail hs))
    · obtain ⟨_, _, _, _, l, s, l', h6, rfl, _⟩ := hy
      exact this s (by rw [h6]; simp)
  have hnull : TakenNullSuffix null' (m :: c) → TakenNullSuffix null ((m :: c).map ψ) := by
    intro hp
    simp only [TakenNullSuffix, steps_map, List.forall_mem_map, Prod.map_fst, Prod.map_snd]
    intro p hpp y hy
    have h3 := (takenAfter_outline (h1 _) (h1 _) y).mp hy
    exact (hn y (hafter p hpp y h3)).mp (hp p hpp y h3)
  refine ⟨_, hcy, ?_⟩
  cases k with
  | none => exact hs
  | plain => trivial
  | growingEmptyPrefix => exact hpre hs
  | empty => exact ⟨hpre hs.1, (emptySuffix_map h1).mpr hs.2⟩
  | growAndShrink => exact ⟨hpre hs.1, hnull hs.2.1, fun h4 => hs.2.2 ((emptySuffix_map h1).mp h4)⟩

end Verif
