import Mathlib.Logic.Equiv.Basic
import Mathlib.Logic.Equiv.Nat
import Verif.Proofs.Clash
import Verif.Proofs.Outline

/-! Graphs of domains with the same declarations in other orders: the same tasks can be computed to be nullable. -/

namespace Verif

open Spec

namespace TDG

/-- Two graphs that differ by the numbers of the tasks and of the methods and by the orders of other sets than those of the
subtasks of a method. -/
structure Renumbered (g g' : TDG) (σ τ : Equiv.Perm Nat) : Prop where
  tasks : ∀ i, g'.tasks[σ i]? = g.tasks[i]?
  first : ∀ x, taskIndexFirst g'.tasks x = (taskIndexFirst g.tasks x).map σ
  methodsOf : ∀ t m, τ m ∈ g'.methodsOf (σ t) ↔ m ∈ g.methodsOf t
  tasksOf : ∀ m, g'.tasksOf (τ m) = (g.tasksOf m).map σ

/-- The same states of `compute_nullables` up to the numbers of the tasks. -/
structure Like (σ : Equiv.Perm Nat) (s s' : NullState) : Prop where
  nodup : s.nullables.Nodup
  nodup' : s'.nullables.Nodup
  nullables : ∀ x, σ x ∈ s'.nullables ↔ x ∈ s.nullables
  nodupN : s.newNullables.Nodup
  nodupN' : s'.newNullables.Nodup
  new : ∀ x, σ x ∈ s'.newNullables ↔ x ∈ s.newNullables
  keys : (s.unit.map (·.1)).Nodup
  keys' : (s'.unit.map (·.1)).Nodup
  unit : ∀ x l, unitGet s.unit x = some l → ∃ l', unitGet s'.unit (σ x) = some l' ∧ ∀ y, σ y ∈ l' ↔ y ∈ l
  unit' : ∀ x l', unitGet s'.unit (σ x) = some l' → ∃ l, unitGet s.unit x = some l ∧ ∀ y, σ y ∈ l' ↔ y ∈ l
  changedN : s'.changedN = s.changedN
  changedU : s'.changedU = s.changedU

variable {g g' : TDG} {σ τ : Equiv.Perm Nat} {s s' : NullState} {T T' : Nat}

theorem exists_image (σ : Equiv.Perm Nat) {p : Nat → Prop} : (∃ y, p y) ↔ ∃ x, p (σ x) :=
  ⟨fun ⟨y, h⟩ => ⟨σ.symm y, by simpa using h⟩, fun ⟨x, h⟩ => ⟨_, h⟩⟩

theorem length_image {l l' : List Nat} (h : l.Nodup) (h' : l'.Nodup) (hm : ∀ x, σ x ∈ l' ↔ x ∈ l) : l'.length = l.length := by
  have : l'.Perm (l.map σ) := by
    refine (List.perm_ext_iff_of_nodup h' (h.map σ.injective)).mpr fun y => ?_
    obtain ⟨x, rfl⟩ := σ.surjective y
    rw [hm, List.mem_map]
    exact ⟨fun h => ⟨x, h, rfl⟩, fun ⟨z, h1, h2⟩ => σ.injective h2 ▸ h1⟩
  rw [this.length_eq, List.length_map]

theorem unitGet_iff {u : List (Nat × List Nat)} (h : (u.map (·.1)).Nodup) {x : Nat} {l : List Nat} :
    unitGet u x = some l ↔ (x, l) ∈ u := by
  refine ⟨unitGet_some, fun hm => ?_⟩
  induction u with
  | nil => cases hm
  | cons e u ih =>
    rw [List.map_cons, List.nodup_cons] at h
    unfold unitGet
    rw [List.find?_cons]
    rcases List.mem_cons.mp hm with rfl | hm
    · simp
    · have : e.1 ≠ x := fun h1 => h.1 (h1 ▸ List.mem_map.mpr ⟨_, hm, rfl⟩)
      simp only [this, decide_false]
      exact ih h.2 hm

theorem unitGet_step (x : Nat) : unitGet (g.nullStep s).unit x = (unitGet s.unit x).map (g.stepUnit s x) := by
  have : unitGet (g.nullStep s).unit x = (s.unit.find? fun e => e.1 = x).map fun e => g.stepUnit s e.1 e.2 := unitGet_map _ _
  rw [this]
  unfold unitGet
  cases h : s.unit.find? fun e => e.1 = x with
  | none => rfl
  | some e =>
    have := List.find?_some h
    simp only [decide_eq_true_eq] at this
    simp [this]

theorem Like.looks (h : Like σ s s') (x : Nat) : looksNullable s' (σ x) = looksNullable s x := by
  rw [Bool.eq_iff_iff]
  unfold looksNullable
  cases h1 : unitGet s.unit x with
  | none =>
    cases h2 : unitGet s'.unit (σ x) with
    | none => simp
    | some l' => obtain ⟨l, h3, _⟩ := h.unit' _ _ h2; rw [h1] at h3; cases h3
  | some l =>
    obtain ⟨l', h2, h3⟩ := h.unit _ _ h1
    rw [h2]
    simp only [List.any_eq_true, decide_eq_true_eq]
    rw [exists_image σ]
    simp only [h3, h.nullables]

theorem Renumbered.methodsOf_iff (hr : Renumbered g g' σ τ) {t : Nat} {p : Nat → Prop} :
    (∃ m ∈ g'.methodsOf (σ t), p m) ↔ ∃ m ∈ g.methodsOf t, p (τ m) := by
  rw [exists_image τ]
  simp only [hr.methodsOf]

theorem Renumbered.stepNullables (hr : Renumbered g g' σ τ) (hb : g.Bounded T) (hb' : g'.Bounded T') (h : Like σ s s') (x : Nat) :
    σ x ∈ g'.stepNullables s' ↔ x ∈ g.stepNullables s := by
  rw [mem_stepNullables hb, mem_stepNullables hb', h.new, hr.methodsOf_iff]
  simp only [hr.tasksOf, List.mem_map, forall_exists_index, and_imp, forall_apply_eq_imp_iff₂, h.looks]

theorem Renumbered.pick (hr : Renumbered g g' σ τ) (h : Like σ s s') (m : Nat) :
    g'.pick s'.nullables (τ m) = (g.pick s.nullables m).map σ := by
  unfold TDG.pick
  rw [hr.tasksOf, List.find?_map]
  congr 2
  funext x
  simp [h.nullables]

theorem Like.getD (h : Like σ s s') (x y : Nat) : σ y ∈ (unitGet s'.unit (σ x)).getD [] ↔ y ∈ (unitGet s.unit x).getD [] := by
  cases h1 : unitGet s.unit x with
  | none =>
    cases h2 : unitGet s'.unit (σ x) with
    | none => simp
    | some l' => obtain ⟨l, h3, _⟩ := h.unit' _ _ h2; rw [h1] at h3; cases h3
  | some l =>
    obtain ⟨l', h2, h3⟩ := h.unit _ _ h1
    rw [h2]
    exact h3 y

theorem Renumbered.stepUnit (hr : Renumbered g g' σ τ) (h : Like σ s s') {c : Nat} {l l' : List Nat} (hl : ∀ y, σ y ∈ l' ↔ y ∈ l)
    (x : Nat) : σ x ∈ g'.stepUnit s' (σ c) l' ↔ x ∈ g.stepUnit s c l := by
  have : (∃ p ∈ l', σ x ∈ (unitGet s'.unit p).getD []) ↔ ∃ p ∈ l, x ∈ (unitGet s.unit p).getD [] := by
    rw [exists_image σ]
    simp only [hl, h.getD]
  rw [mem_stepUnit, mem_stepUnit, hr.methodsOf_iff, hl, this]
  simp only [hr.pick h, Option.map_eq_some_iff, EmbeddingLike.apply_eq_iff_eq, exists_eq_right]

theorem any_unit {u : List (Nat × List Nat)} (h : (u.map (·.1)).Nodup) {p : Nat → List Nat → Bool} :
    (u.any fun e => p e.1 e.2) = true ↔ ∃ x l, unitGet u x = some l ∧ p x l = true := by
  rw [List.any_eq_true]
  constructor
  · rintro ⟨⟨x, l⟩, h1, h2⟩
    exact ⟨x, l, (unitGet_iff h).mpr h1, h2⟩
  · rintro ⟨x, l, h1, h2⟩
    exact ⟨(x, l), (unitGet_iff h).mp h1, h2⟩

theorem Renumbered.unchanged (hr : Renumbered g g' σ τ) (h : Like σ s s') :
    (s'.unit.any fun e => (g'.stepUnit s' e.1 e.2).all fun x => x ∈ e.2) =
      s.unit.any fun e => (g.stepUnit s e.1 e.2).all fun x => x ∈ e.2 := by
  rw [Bool.eq_iff_iff, any_unit (p := fun x l => (g'.stepUnit s' x l).all fun y => y ∈ l) h.keys',
    any_unit (p := fun x l => (g.stepUnit s x l).all fun y => y ∈ l) h.keys, exists_image σ]
  simp only [List.all_eq_true, decide_eq_true_eq]
  constructor
  · rintro ⟨x, l', h1, h2⟩
    obtain ⟨l, h3, h4⟩ := h.unit' _ _ h1
    exact ⟨x, l, h3, fun y hy => (h4 y).mp (h2 _ ((hr.stepUnit h h4 y).mpr hy))⟩
  · rintro ⟨x, l, h1, h2⟩
    obtain ⟨l', h3, h4⟩ := h.unit _ _ h1
    refine ⟨x, l', h3, fun y hy => ?_⟩
    obtain ⟨y, rfl⟩ := σ.surjective y
    exact (h4 y).mpr (h2 _ ((hr.stepUnit h h4 y).mp hy))

theorem nodup_newNullables (h : s.newNullables.Nodup) : (g.stepNullables s).Nodup := List.Nodup.union _ h

theorem Renumbered.step (hr : Renumbered g g' σ τ) (hb : g.Bounded T) (hb' : g'.Bounded T') (h : Like σ s s') :
    Like σ (g.nullStep s) (g'.nullStep s') := by
  have hs := hr.stepNullables hb hb' h
  have hl : (g'.stepNullables s').length = (g.stepNullables s).length :=
    length_image (nodup_newNullables h.nodupN) (nodup_newNullables h.nodupN') hs
  have hl2 : s'.nullables.length = s.nullables.length := length_image h.nodup h.nodup' h.nullables
  have hk : ∀ (g : TDG) (s : NullState), (g.nullStep s).unit.map (·.1) = s.unit.map (·.1) := fun g s => by
    simp [nullStep]
  refine ⟨?_, ?_, ?_, nodup_newNullables h.nodupN, nodup_newNullables h.nodupN', hs, by rw [hk]; exact h.keys,
    by rw [hk]; exact h.keys', ?_, ?_, ?_, ?_⟩
  · unfold nullStep
    dsimp only
    split
    · exact h.nodup
    · exact List.Nodup.union _ h.nodup
  · unfold nullStep
    dsimp only
    split
    · exact h.nodup'
    · exact List.Nodup.union _ h.nodup'
  · intro x
    unfold nullStep
    dsimp only
    rw [hl, hl2]
    split
    · exact h.nullables x
    · rw [List.mem_union_iff, List.mem_union_iff, hs, h.nullables]
  · intro x l hx
    rw [unitGet_step] at hx
    obtain ⟨l0, h1, rfl⟩ := Option.map_eq_some_iff.mp hx
    obtain ⟨l', h2, h3⟩ := h.unit _ _ h1
    exact ⟨_, by rw [unitGet_step, h2, Option.map_some], hr.stepUnit h h3⟩
  · intro x l hx
    rw [unitGet_step] at hx
    obtain ⟨l0, h1, rfl⟩ := Option.map_eq_some_iff.mp hx
    obtain ⟨l', h2, h3⟩ := h.unit' _ _ h1
    exact ⟨_, by rw [unitGet_step, h2, Option.map_some], hr.stepUnit h h3⟩
  · unfold nullStep
    dsimp only
    rw [hl, hl2, h.changedN]
  · unfold nullStep
    dsimp only
    rw [hr.unchanged h, h.changedU]

theorem Renumbered.loop (hr : Renumbered g g' σ τ) (hb : g.Bounded T) (hb' : g'.Bounded T') :
    ∀ {n : Nat} {s s' : NullState} {l : List Nat}, Like σ s s' → g.nullLoop n s = .ok l →
      ∃ l', g'.nullLoop n s' = .ok l' ∧ ∀ x, σ x ∈ l' ↔ x ∈ l
  | 0, s, s', l, h, hl => by
    unfold nullLoop at hl ⊢
    rw [h.changedN, h.changedU]
    split at hl <;> rename_i hb0 <;> simp only [hb0, if_true, Bool.false_eq_true, if_false]
    · cases hl
    · cases hl
      exact ⟨_, rfl, h.nullables⟩
  | n + 1, s, s', l, h, hl => by
    unfold nullLoop at hl ⊢
    rw [h.changedN, h.changedU]
    split at hl <;> rename_i hb0 <;> simp only [hb0, if_true, Bool.false_eq_true, if_false]
    · exact hr.loop hb hb' (hr.step hb hb' h) hl
    · cases hl
      exact ⟨_, rfl, h.nullables⟩

/-- The compound tasks come first and have different names. -/
def CompoundsOnce (g : TDG) : Prop := ((g.tasks.filter (·.2)).map (·.1)).Nodup

/-- The task of a list with one task. -/
def alone : List Nat → Option Nat
  | [x] => some x
  | _ => none

theorem alone_map (l : List Nat) (x : Nat) : alone (l.map σ) = some (σ x) ↔ alone l = some x := by
  match l with
  | [] => simp [alone]
  | [y] => simp [alone]
  | _ :: _ :: _ => simp [alone]

/-- The entry of a task before the first round. -/
def entry (g : TDG) (t : Nat) : List Nat := ((g.methodsOf t).filterMap fun m => alone (g.tasksOf m)) ∪ [t]

theorem unit0_eq : g.unit0 = (g.tasks.filter (·.2)).filterMap fun t => (taskIndexFirst g.tasks t.1).map fun i => (i, g.entry i) := by
  unfold unit0 entry
  rfl

theorem mem_unit0_iff {e : Nat × List Nat} : e ∈ g.unit0 ↔ ∃ x, (x, true) ∈ g.tasks ∧ taskIndexFirst g.tasks x = some e.1 ∧
    e.2 = g.entry e.1 := by
  rw [unit0_eq]
  simp only [List.mem_filterMap, Option.map_eq_some_iff, List.mem_filter]
  constructor
  · rintro ⟨⟨x, b⟩, ⟨h0, h0'⟩, i, h1, rfl⟩
    simp only at h0'
    exact ⟨x, h0' ▸ h0, h1, rfl⟩
  · rintro ⟨x, h0, h1, h2⟩
    exact ⟨(x, true), ⟨h0, rfl⟩, e.1, h1, by rw [← h2]⟩

theorem nodup_unit0 (h : g.CompoundsOnce) : (g.unit0.map (·.1)).Nodup := by
  have : g.unit0.map (·.1) = ((g.tasks.filter (·.2)).map (·.1)).filterMap (taskIndexFirst g.tasks) := by
    unfold unit0
    rw [List.map_filterMap, List.filterMap_map]
    congr 1
    funext t
    simp only [Function.comp_apply]
    cases taskIndexFirst g.tasks t.1 <;> rfl
  rw [this]
  refine List.Nodup.filterMap (fun x y i hx hy => ?_) h
  have h1 := (taskIndexFirst_some hx).2
  have h2 := (taskIndexFirst_some hy).2
  rw [h1] at h2
  exact Option.some.inj h2

theorem Renumbered.mem_tasks (hr : Renumbered g g' σ τ) (e : Name × Bool) : e ∈ g'.tasks ↔ e ∈ g.tasks := by
  rw [List.mem_iff_getElem?, List.mem_iff_getElem?, exists_image σ]
  simp only [hr.tasks]

theorem Renumbered.init (hr : Renumbered g g' σ τ) (hb : g.Bounded T) (hb' : g'.Bounded T') (hc : g.CompoundsOnce)
    (hc' : g'.CompoundsOnce) : Like σ g.nullInit g'.nullInit := by
  have hk := nodup_unit0 hc
  have hk' := nodup_unit0 hc'
  have hu : ∀ (t x : Nat), σ x ∈ g'.entry (σ t) ↔ x ∈ g.entry t := by
    intro t x
    unfold entry
    rw [List.mem_union_iff, List.mem_union_iff, List.mem_filterMap, List.mem_filterMap, hr.methodsOf_iff]
    simp only [List.mem_singleton, EmbeddingLike.apply_eq_iff_eq, hr.tasksOf]
    simp only [alone_map]
  refine ⟨hb.nodup_keys.filter _, hb'.nodup_keys.filter _, fun x => ?_, List.nodup_nil, List.nodup_nil, by simp, hk, hk', ?_, ?_, rfl, rfl⟩
  · rw [mem_null0 hb, mem_null0 hb', hr.methodsOf_iff]
    simp only [hr.tasksOf, List.map_eq_nil_iff]
  · intro x l hl
    obtain ⟨y, h1, h2, h3⟩ := mem_unit0_iff.mp (unitGet_some hl)
    refine ⟨g'.entry (σ x), (unitGet_iff hk').mpr (mem_unit0_iff.mpr ⟨y, (hr.mem_tasks _).mpr h1, by rw [hr.first, h2]; rfl, rfl⟩), fun z => ?_⟩
    simp only at h3
    rw [h3]
    exact hu x z
  · intro x l hl
    obtain ⟨y, h1, h2, h3⟩ := mem_unit0_iff.mp (unitGet_some hl)
    rw [hr.first, Option.map_eq_some_iff] at h2
    obtain ⟨i, h2, h4⟩ := h2
    cases σ.injective h4
    refine ⟨g.entry x, (unitGet_iff hk).mpr (mem_unit0_iff.mpr ⟨y, (hr.mem_tasks _).mp h1, h2, rfl⟩), fun z => ?_⟩
    simp only at h3
    rw [h3]
    exact hu x z

theorem Renumbered.nullables (hr : Renumbered g g' σ τ) (hb : g.Bounded T) (hb' : g'.Bounded T') (hc : g.CompoundsOnce)
    (hc' : g'.CompoundsOnce) {n : Nat} {l : List Nat} (h : g.nullLoop n g.nullInit = .ok l) :
    ∃ l', g'.nullLoop n g'.nullInit = .ok l' ∧ ∀ x, x ∈ g'.names l' ↔ x ∈ g.names l := by
  obtain ⟨l', h1, h2⟩ := hr.loop hb hb' (hr.init hb hb' hc hc') h
  refine ⟨l', h1, fun x => ?_⟩
  rw [mem_names, mem_names, exists_image σ]
  simp only [TDG.Is, hr.tasks, h2]

end TDG

/-! ### Numbers -/

theorem perm_index {α : Type*} {l l' : List α} (h : l.Perm l') : ∃ σ : Equiv.Perm Nat, ∀ i, l'[σ i]? = l[i]? := by
  induction h with
  | nil => exact ⟨Equiv.refl _, fun _ => rfl⟩
  | cons x _ ih =>
    obtain ⟨σ, h⟩ := ih
    refine ⟨⟨fun | 0 => 0 | i + 1 => σ i + 1, fun | 0 => 0 | i + 1 => σ.symm i + 1, fun i => ?_, fun i => ?_⟩, fun i => ?_⟩
    · cases i <;> simp
    · cases i <;> simp
    · cases i <;> simp [h]
  | swap x y l =>
    refine ⟨Equiv.swap 0 1, fun i => ?_⟩
    match i with
    | 0 => simp
    | 1 => simp
    | i + 2 => rw [Equiv.swap_apply_of_ne_of_ne (by omega) (by omega)]; rfl
  | trans _ _ ih1 ih2 =>
    obtain ⟨σ, h1⟩ := ih1
    obtain ⟨τ, h2⟩ := ih2
    exact ⟨σ.trans τ, fun i => by rw [Equiv.trans_apply, h2, h1]⟩

variable {d d' : DomainAST} {ord ord' : HashOrd}

theorem tdgTasks_nodup (ht : (d.tasks.map (·.name)).Nodup) (ha : (d.actions.map (·.name)).Nodup) : (tdgTasks d).Nodup := by
  unfold tdgTasks
  refine List.nodup_append'.mpr ⟨?_, ?_, ?_⟩
  · exact List.Nodup.of_map (·.1) (by simpa [Function.comp_def] using ht)
  · exact List.Nodup.of_map (·.1) (by simpa [Function.comp_def] using ha)
  · intro x h1 h2
    obtain ⟨t, _, rfl⟩ := List.mem_map.mp h1
    obtain ⟨t, _, h3⟩ := List.mem_map.mp h2
    simp at h3

theorem mem_tdgTasks {x : Name} : (x, true) ∈ tdgTasks d ↔ ∃ t ∈ d.tasks, t.name = x := by
  simp [tdgTasks]

theorem first_iff (hn : (tdgTasks d).Nodup) {x : Name} {i : Nat} : taskIndexFirst (tdgTasks d) x = some i ↔
    (tdgTasks d)[i]? = some (x, true) ∨ (tdgTasks d)[i]? = some (x, false) ∧ (x, true) ∉ tdgTasks d := by
  have key : ∀ {i}, taskIndexFirst (tdgTasks d) x = some i →
      (tdgTasks d)[i]? = some (x, true) ∨ (tdgTasks d)[i]? = some (x, false) ∧ (x, true) ∉ tdgTasks d := by
    intro i h
    obtain ⟨⟨y, b⟩, he, rfl⟩ := Option.map_eq_some_iff.mp (taskIndexFirst_some h).2
    cases b with
    | true => exact .inl he
    | false =>
      refine .inr ⟨he, fun hm => ?_⟩
      obtain ⟨j, hj⟩ := List.mem_iff_getElem?.mp hm
      have h1 := taskIndexFirst_min h (j := j) (by rw [hj]; rfl)
      obtain ⟨t, ht, _⟩ := tdgTasks_compound.mp hj
      obtain ⟨h2, _⟩ := tdgTasks_action.mp he
      have := (List.getElem?_eq_some_iff.mp ht).1
      omega
  have inj : ∀ {i j : Nat} {e}, (tdgTasks d)[i]? = some e → (tdgTasks d)[j]? = some e → i = j := fun hi hj =>
    (List.getElem?_inj (List.getElem?_eq_some_iff.mp hi).1 hn).mp (hi.trans hj.symm)
  refine ⟨key, fun h => ?_⟩
  cases hl : taskIndexFirst (tdgTasks d) x with
  | none =>
    have := taskIndexFirst_none.mp hl
    rcases h with h | ⟨h, _⟩ <;> exact absurd rfl (this _ (List.mem_of_getElem? h))
  | some j =>
    congr 1
    rcases h with h | ⟨h, h0⟩ <;> rcases key hl with h1 | ⟨h1, h2⟩
    · exact inj h1 h
    · exact absurd (List.mem_of_getElem? h) h2
    · exact absurd (List.mem_of_getElem? h1) h0
    · exact inj h1 h

theorem last_iff (hn : (tdgTasks d).Nodup) {x : Name} {i : Nat} : taskIndexLast (tdgTasks d) x = some i ↔
    (tdgTasks d)[i]? = some (x, false) ∨ (tdgTasks d)[i]? = some (x, true) ∧ (x, false) ∉ tdgTasks d := by
  have key : ∀ {i}, taskIndexLast (tdgTasks d) x = some i →
      (tdgTasks d)[i]? = some (x, false) ∨ (tdgTasks d)[i]? = some (x, true) ∧ (x, false) ∉ tdgTasks d := by
    intro i h
    obtain ⟨⟨y, b⟩, he, rfl⟩ := Option.map_eq_some_iff.mp (taskIndexLast_some h).2
    cases b with
    | false => exact .inl he
    | true =>
      refine .inr ⟨he, fun hm => ?_⟩
      obtain ⟨j, hj⟩ := List.mem_iff_getElem?.mp hm
      have h1 := taskIndexLast_max h (j := j) (by rw [hj]; rfl)
      obtain ⟨t, ht, _⟩ := tdgTasks_compound.mp he
      obtain ⟨h2, _⟩ := tdgTasks_action.mp hj
      have := (List.getElem?_eq_some_iff.mp ht).1
      omega
  have inj : ∀ {i j : Nat} {e}, (tdgTasks d)[i]? = some e → (tdgTasks d)[j]? = some e → i = j := fun hi hj =>
    (List.getElem?_inj (List.getElem?_eq_some_iff.mp hi).1 hn).mp (hi.trans hj.symm)
  refine ⟨key, fun h => ?_⟩
  cases hl : taskIndexLast (tdgTasks d) x with
  | none =>
    have := taskIndexLast_none.mp hl
    rcases h with h | ⟨h, _⟩ <;> exact absurd rfl (this _ (List.mem_of_getElem? h))
  | some j =>
    congr 1
    rcases h with h | ⟨h, h0⟩ <;> rcases key hl with h1 | ⟨h1, h2⟩
    · exact inj h1 h
    · exact absurd (List.mem_of_getElem? h) h2
    · exact absurd (List.mem_of_getElem? h1) h0
    · exact inj h1 h

section
variable {σ τ : Equiv.Perm Nat}

theorem mem_of_index (hσ : ∀ i, (tdgTasks d')[σ i]? = (tdgTasks d)[i]?) (e : Name × Bool) : e ∈ tdgTasks d' ↔ e ∈ tdgTasks d := by
  rw [List.mem_iff_getElem?, List.mem_iff_getElem?, TDG.exists_image σ]
  simp only [hσ]

theorem first_image (hn : (tdgTasks d).Nodup) (hn' : (tdgTasks d').Nodup) (hσ : ∀ i, (tdgTasks d')[σ i]? = (tdgTasks d)[i]?) (x : Name) :
    taskIndexFirst (tdgTasks d') x = (taskIndexFirst (tdgTasks d) x).map σ := by
  refine Option.ext fun j => ?_
  obtain ⟨i, rfl⟩ := σ.surjective j
  rw [first_iff hn', hσ, mem_of_index hσ, ← first_iff hn]
  simp

theorem last_image (hn : (tdgTasks d).Nodup) (hn' : (tdgTasks d').Nodup) (hσ : ∀ i, (tdgTasks d')[σ i]? = (tdgTasks d)[i]?) (x : Name) :
    taskIndexLast (tdgTasks d') x = (taskIndexLast (tdgTasks d) x).map σ := by
  refine Option.ext fun j => ?_
  obtain ⟨i, rfl⟩ := σ.surjective j
  rw [last_iff hn', hσ, mem_of_index hσ, ← last_iff hn]
  simp

/-- The order of the subtasks of every method as in the other domain. -/
def HashOrd.moved (ord : HashOrd) (τ : Equiv.Perm Nat) : HashOrd where
  order
    | [1, m], n => ord.order [1, τ.symm m] n
    | s, n => ord.order s n
  isPerm s n := by split <;> exact ord.isPerm _ _

end

theorem TDG.new_tasksOf {g : TDG} (h : TDG.new ord d = .ok g) (m : Nat) : ∃ l : List Nat,
    g.tasksOf m = arrange ord [1, m] l.dedup ∧
    (((d.methods.map outline)[m]?).map fun o => o.2.1.map fun k => taskIndexLast (tdgTasks d) k.2).getD [] = l.map some := by
  unfold TDG.new at h
  simp only [R.bind_ok_iff, R.ok.injEq] at h
  obtain ⟨owner, _, subs, h2, rfl⟩ := h
  have h2 := congrArg (fun l => l[m]?) (methodSubtasks_ok.mp h2)
  simp only [List.getElem?_map] at h2
  unfold TDG.tasksOf
  simp only [List.getElem?_mapIdx, List.getElem?_map]
  cases hs : subs[m]? with
  | none =>
    rw [hs] at h2
    cases hm : d.methods[m]? with
    | none => exact ⟨[], by simp [arrange], by simp⟩
    | some mm => rw [hm] at h2; simp at h2
  | some l =>
    rw [hs] at h2
    cases hm : d.methods[m]? with
    | none => rw [hm] at h2; simp at h2
    | some mm =>
      rw [hm] at h2
      refine ⟨l, by simp, ?_⟩
      simp only [Option.map_some, Option.some.injEq] at h2
      simpa [outline, Verif.keys, Function.comp_def] using h2

theorem TDG.Of.methodsOf_outline {g : TDG} (h : g.Of d) (t m : Nat) : m ∈ g.methodsOf t ↔
    ((d.methods.map outline)[m]?).bind (fun o => taskIndexLast (tdgTasks d) o.1) = some t := by
  rw [h.mem_methodsOf]
  simp [outline, Option.bind_eq_some_iff]

/-- The graphs of two domains with the same declarations: for each iteration order of one there is one of the other. -/
theorem renumbered (hp : (tdgTasks d).Perm (tdgTasks d')) (hm : (d.methods.map outline).Perm (d'.methods.map outline))
    (hn : (tdgTasks d).Nodup) (ord : HashOrd) {g : TDG} (hg : TDG.new ord d = .ok g) :
    ∃ ord' σ τ, ∀ g', TDG.new ord' d' = .ok g' → TDG.Renumbered g g' σ τ := by
  have hn' : (tdgTasks d').Nodup := hp.nodup_iff.mp hn
  obtain ⟨σ, hσ⟩ := perm_index hp
  obtain ⟨τ, hτ⟩ := perm_index hm
  refine ⟨ord.moved τ, σ, τ, fun g' hg' => ?_⟩
  have hof := TDG.new_of hg
  have hof' := TDG.new_of hg'
  refine ⟨by rw [hof.tasks, hof'.tasks]; exact hσ, by rw [hof.tasks, hof'.tasks]; exact first_image hn hn' hσ, fun t m => ?_, fun m => ?_⟩
  · rw [hof.methodsOf_outline, hof'.methodsOf_outline, hτ]
    cases (d.methods.map outline)[m]? with
    | none => simp
    | some o => simp [last_image hn hn' hσ]
  · obtain ⟨l, h1, h2⟩ := TDG.new_tasksOf hg m
    obtain ⟨l', h1', h2'⟩ := TDG.new_tasksOf hg' (τ m)
    have h3 : l' = l.map σ := by
      refine List.map_injective_iff.mpr (Option.some_injective _) ?_
      rw [← h2', hτ, List.map_map]
      have : l.map (some ∘ σ) = (l.map some).map (Option.map σ) := by simp
      rw [this, ← h2]
      cases (d.methods.map outline)[m]? with
      | none => simp
      | some o => simp [last_image hn hn' hσ, Function.comp_def]
    rw [h1, h1', h3, List.dedup_map_of_injective σ.injective]
    unfold arrange
    simp [HashOrd.moved, List.map_filterMap]

theorem compoundsOnce {g : TDG} (h : g.Of d) (hn : (d.tasks.map (·.name)).Nodup) : g.CompoundsOnce := by
  unfold TDG.CompoundsOnce
  rw [h.tasks, tdgTasks, List.filter_append, List.filter_map, List.filter_map]
  simpa [Function.comp_def] using hn

/-- The same sets of nullable tasks can be computed for domains with the same declarations. -/
theorem nullables_reordered (hp : (tdgTasks d).Perm (tdgTasks d')) (hm : (d.methods.map outline).Perm (d'.methods.map outline))
    (hd : DomainOk d) (hd' : DomainOk d') (ord : HashOrd) : ∃ ord', ∀ ns ns', NullablesAre ord d ns → NullablesAre ord' d' ns' →
      ∀ x, x ∈ ns' ↔ x ∈ ns := by
  obtain ⟨g, hg⟩ := TDG.new_ok_iff.mpr (Verif.DomainOk.closed hd)
  obtain ⟨ord', σ, τ, hr⟩ := renumbered hp hm (tdgTasks_nodup hd.tasks hd.actionNames) ord hg
  refine ⟨ord', fun ns ns' h h' => ?_⟩
  obtain ⟨g', hg'⟩ := TDG.new_ok_iff.mpr (Verif.DomainOk.closed hd')
  have hr := hr g' hg'
  have hof := TDG.new_of hg
  have hof' := TDG.new_of hg'
  obtain ⟨N, h⟩ := h
  obtain ⟨N', h'⟩ := h'
  have h := h (max N N') (by omega)
  have h' := h' (max N N') (by omega)
  rw [hg, R.bind_ok, TDG.nullables] at h
  rw [hg', R.bind_ok, TDG.nullables] at h'
  obtain ⟨l, h1, h2⟩ := R.bind_ok_iff.mp h
  obtain ⟨l', h3, h4⟩ := hr.nullables hof.bounded hof'.bounded (compoundsOnce hof hd.tasks) (compoundsOnce hof' hd'.tasks) h1
  cases h2
  rw [h3] at h'
  cases h'
  exact h4

end Verif
