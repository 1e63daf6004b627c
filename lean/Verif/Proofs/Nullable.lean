import Mathlib.Data.List.Perm.Subperm
import Verif.Proofs.Tdg

/-! The computation of nullable tasks: termination, completeness, and a condition for exactness. -/

namespace Verif

open Spec

namespace TDG

variable {g : TDG} {s : NullState} {T : Nat}

/-! ### The invariant -/

/-- What holds of the state of the loop. -/
structure NullInv (g : TDG) (T : Nat) (s : NullState) : Prop where
  nodup : s.nullables.Nodup
  lt : ∀ x ∈ s.nullables, x < T
  has : ∀ x ∈ s.nullables, ∃ m, m ∈ g.methodsOf x
  base : ∀ x ∈ g.null0, x ∈ s.nullables
  nodupNew : s.newNullables.Nodup
  new : ∀ x ∈ s.newNullables, x ∈ s.nullables
  split : ∀ x ∈ s.nullables, x ∈ g.null0 ∨ x ∈ s.newNullables
  nodupU : ∀ e ∈ s.unit, e.2.Nodup
  ltU : ∀ e ∈ s.unit, ∀ x ∈ e.2, x < T
  selfU : ∀ e ∈ s.unit, e.1 ∈ e.2

/-- The graph has only tasks below `T`. -/
structure Bounded (g : TDG) (T : Nat) : Prop where
  keys : g.keys.Perm (List.range T)
  succ : ∀ m x, x ∈ g.tasksOf m → x < T
  owner : ∀ t m, m ∈ g.methodsOf t → t < T
  first : ∀ x i, taskIndexFirst g.tasks x = some i → i < T

theorem Of.bounded {d : DomainAST} (h : g.Of d) : g.Bounded g.tasks.length :=
  ⟨h.keys, fun _ _ hx => h.tasksOf_lt hx, fun _ _ hx => h.methodsOf_lt hx, fun _ _ h => (taskIndexFirst_some h).1⟩

theorem Bounded.mem_keys (hb : g.Bounded T) {x : Nat} : x ∈ g.keys ↔ x < T := by
  rw [hb.keys.mem_iff]; simp

theorem Bounded.nodup_keys (hb : g.Bounded T) : g.keys.Nodup := hb.keys.nodup_iff.mpr List.nodup_range

theorem mem_null0 (hb : g.Bounded T) {x : Nat} : x ∈ g.null0 ↔ ∃ m ∈ g.methodsOf x, g.tasksOf m = [] := by
  unfold null0
  simp only [List.mem_filter, hb.mem_keys, List.any_eq_true, List.isEmpty_iff]
  exact ⟨fun h => h.2, fun ⟨m, h1, h2⟩ => ⟨hb.owner _ _ h1, m, h1, h2⟩⟩

theorem mem_stepNullables (hb : g.Bounded T) {x : Nat} : x ∈ g.stepNullables s ↔
    (∃ m ∈ g.methodsOf x, ∀ y ∈ g.tasksOf m, looksNullable s y = true) ∨ x ∈ s.newNullables := by
  unfold stepNullables
  simp only [List.mem_union_iff, List.mem_filter, hb.mem_keys, List.any_eq_true, List.all_eq_true]
  constructor
  · rintro (⟨_, h⟩ | h)
    · exact .inl h
    · exact .inr h
  · rintro (⟨m, h1, h2⟩ | h)
    · exact .inl ⟨hb.owner _ _ h1, m, h1, h2⟩
    · exact .inr h

theorem nodup_stepNullables (hi : NullInv g T s) : (g.stepNullables s).Nodup :=
  List.Nodup.union _ hi.nodupNew

/-- No nullable task is lost. -/
theorem nullables_sub (hb : g.Bounded T) (hi : NullInv g T s) : ∀ x ∈ s.nullables, x ∈ g.stepNullables s := by
  intro x hx
  rw [mem_stepNullables hb]
  rcases hi.split x hx with h | h
  · obtain ⟨m, h1, h2⟩ := (mem_null0 hb).mp h
    exact .inl ⟨m, h1, by simp [h2]⟩
  · exact .inr h

theorem step_same (hb : g.Bounded T) (hi : NullInv g T s)
    (h : (g.stepNullables s).length = s.nullables.length) : ∀ x, x ∈ g.stepNullables s ↔ x ∈ s.nullables := by
  have hp := (List.Nodup.subperm hi.nodup (nullables_sub hb hi)).perm_of_length_le (by omega)
  exact fun x => (hp.mem_iff).symm

theorem mem_stepUnit {c x : Nat} {prev : List Nat} : x ∈ g.stepUnit s c prev ↔
    (∃ m ∈ g.methodsOf c, g.pick s.nullables m = some x) ∨
    (∃ p ∈ prev, x ∈ (unitGet s.unit p).getD []) ∨ x ∈ prev := by
  unfold stepUnit
  simp only [List.mem_union_iff, List.mem_filterMap, List.mem_flatMap]

theorem unitGet_some {u : List (Nat × List Nat)} {x : Nat} {l : List Nat} (h : unitGet u x = some l) : (x, l) ∈ u := by
  unfold unitGet at h
  obtain ⟨e, h1, rfl⟩ := Option.map_eq_some_iff.mp h
  have := List.find?_some h1
  simp only [decide_eq_true_eq] at this
  subst this
  exact List.mem_of_find?_eq_some h1

theorem pick_some {nulls : List Nat} {m x : Nat} (h : g.pick nulls m = some x) : x ∈ g.tasksOf m ∧ x ∉ nulls := by
  unfold pick at h
  exact ⟨List.mem_of_find?_eq_some h, by simpa using List.find?_some h⟩

theorem nullStep_nullables (hb : g.Bounded T) (hi : NullInv g T s) (x : Nat) :
    x ∈ (g.nullStep s).nullables ↔ x ∈ g.stepNullables s := by
  unfold nullStep
  simp only
  split
  · rename_i h; exact (step_same hb hi h x).symm
  · rw [List.mem_union_iff]
    exact ⟨fun h => h.elim id (nullables_sub hb hi x), .inl⟩

theorem NullInv.step (hb : g.Bounded T) (hi : NullInv g T s) : NullInv g T (g.nullStep s) where
  nodup := by
    unfold nullStep
    simp only
    split
    · exact hi.nodup
    · exact List.Nodup.union _ hi.nodup
  lt := by
    intro x hx
    rw [nullStep_nullables hb hi, mem_stepNullables hb] at hx
    rcases hx with ⟨m, h1, _⟩ | h
    · exact hb.owner _ _ h1
    · exact hi.lt x (hi.new x h)
  has := by
    intro x hx
    rw [nullStep_nullables hb hi, mem_stepNullables hb] at hx
    rcases hx with ⟨m, h1, _⟩ | h
    · exact ⟨m, h1⟩
    · exact hi.has x (hi.new x h)
  base := by
    intro x hx
    rw [nullStep_nullables hb hi]
    exact nullables_sub hb hi x (hi.base x hx)
  nodupNew := nodup_stepNullables hi
  new := by
    intro x hx
    rw [nullStep_nullables hb hi]
    exact hx
  split := by
    intro x hx
    rw [nullStep_nullables hb hi] at hx
    exact .inr hx
  nodupU := by
    intro e he
    simp only [nullStep, List.mem_map] at he
    obtain ⟨e, he, rfl⟩ := he
    exact List.Nodup.union _ (List.Nodup.union _ (hi.nodupU e he))
  ltU := by
    intro e he x hx
    simp only [nullStep, List.mem_map] at he
    obtain ⟨e, he, rfl⟩ := he
    rcases mem_stepUnit.mp hx with ⟨m, _, h2⟩ | ⟨p, _, h2⟩ | h
    · exact hb.succ _ _ (pick_some h2).1
    · cases h3 : unitGet s.unit p with
      | none => simp [h3] at h2
      | some l => rw [h3] at h2; exact hi.ltU _ (unitGet_some h3) x h2
    · exact hi.ltU e he x h
  selfU := by
    intro e he
    simp only [nullStep, List.mem_map] at he
    obtain ⟨e, he, rfl⟩ := he
    exact mem_stepUnit.mpr (.inr (.inr (hi.selfU e he)))

/-- The initial state of the loop. -/
abbrev nullInit (g : TDG) : NullState := ⟨g.null0, [], g.unit0, true, true⟩

theorem mem_unit0 {e : Nat × List Nat} (h : e ∈ g.unit0) : ∃ x, taskIndexFirst g.tasks x = some e.1 ∧
    e.2 = ((g.methodsOf e.1).filterMap fun m => match g.tasksOf m with | [x] => some x | _ => none) ∪ [e.1] := by
  unfold unit0 at h
  simp only [List.mem_filterMap, Option.map_eq_some_iff] at h
  obtain ⟨t, _, i, h1, rfl⟩ := h
  exact ⟨t.1, h1, rfl⟩

theorem NullInv.init (hb : g.Bounded T) : NullInv g T g.nullInit where
  nodup := hb.nodup_keys.filter _
  lt := by
    intro x hx
    obtain ⟨m, h, _⟩ := (mem_null0 hb).mp hx
    exact hb.owner _ _ h
  has := by
    intro x hx
    obtain ⟨m, h, _⟩ := (mem_null0 hb).mp hx
    exact ⟨m, h⟩
  base := fun _ h => h
  nodupNew := List.nodup_nil
  new := by simp
  split := fun _ h => .inl h
  nodupU := by
    intro e he
    obtain ⟨x, _, h2⟩ := mem_unit0 he
    rw [h2]
    exact List.Nodup.union _ (List.nodup_singleton _)
  ltU := by
    intro e he y hy
    obtain ⟨x, h1, h2⟩ := mem_unit0 he
    rw [h2, List.mem_union_iff] at hy
    rcases hy with hy | hy
    · obtain ⟨m, _, h⟩ := List.mem_filterMap.mp hy
      split at h
      · rename_i z hz
        cases h
        exact hb.succ m y (by rw [hz]; simp)
      · cases h
    · rw [List.mem_singleton] at hy
      rw [hy]; exact hb.first _ _ h1
  selfU := by
    intro e he
    obtain ⟨x, _, h2⟩ := mem_unit0 he
    rw [h2]
    simp

/-! ### Termination -/

theorem nullLoop_mono {r : List Nat} : ∀ {n m : Nat} {s : NullState}, n ≤ m →
    g.nullLoop n s = .ok r → g.nullLoop m s = .ok r := by
  intro n
  induction n with
  | zero =>
    intro m s _ h
    unfold nullLoop at h
    split at h
    · cases h
    · rename_i hc
      cases m <;> (unfold nullLoop; rw [if_neg hc]; exact h)
  | succ n ih =>
    intro m s hm h
    obtain ⟨m, rfl⟩ : ∃ k, m = k + 1 := ⟨m - 1, by omega⟩
    rw [nullLoop] at h ⊢
    split
    · rename_i hc; rw [if_pos hc] at h; exact ih (by omega) h
    · rename_i hc; rw [if_neg hc] at h; exact h

/-- How much the unit reachability can still grow. -/
def room (T : Nat) (u : List (Nat × List Nat)) : Nat := (u.map fun e => T - e.2.length).sum

/-- The loop variant. -/
def variant (T : Nat) (s : NullState) : Nat :=
  (if s.changedN then T + 1 - s.nullables.length else 0) + (if s.changedU then room T s.unit + 1 else 0)

theorem nodup_lt_length {l : List Nat} (hn : l.Nodup) (hl : ∀ x ∈ l, x < T) : l.length ≤ T := by
  have := (List.Nodup.subperm hn (l₂ := List.range T) (fun x hx => by simpa using hl x hx)).length_le
  simpa using this

theorem length_lt_of {a b : List Nat} (ha : a.Nodup) (hs : ∀ x ∈ a, x ∈ b) {y : Nat} (hy : y ∈ b) (hn : y ∉ a) :
    a.length < b.length := by
  have := (List.Nodup.subperm (List.nodup_cons.mpr ⟨hn, ha⟩) (l₂ := b) (by
    intro x hx
    rcases List.mem_cons.mp hx with rfl | hx
    · exact hy
    · exact hs x hx)).length_le
  simp only [List.length_cons] at this
  omega

theorem room_lt {f : Nat × List Nat → Nat × List Nat} : ∀ {u : List (Nat × List Nat)}, u ≠ [] →
    (∀ e ∈ u, e.2.length < (f e).2.length ∧ (f e).2.length ≤ T) → room T (u.map f) < room T u := by
  intro u
  induction u with
  | nil => simp
  | cons e u ih =>
    intro _ h
    have h1 := h e (List.mem_cons_self ..)
    unfold room at ih ⊢
    simp only [List.map_cons, List.sum_cons]
    by_cases hu : u = []
    · subst hu; simp; omega
    · have := ih hu (fun e he => h e (List.mem_cons_of_mem _ he))
      omega

theorem variant_step (hb : g.Bounded T) (hi : NullInv g T s) (hu : s.unit ≠ []) (hc : s.changedN || s.changedU) :
    variant T (g.nullStep s) < variant T s := by
  have hn : (if (g.nullStep s).changedN then T + 1 - (g.nullStep s).nullables.length else 0) +
      (if s.changedN then 1 else 0) ≤ (if s.changedN then T + 1 - s.nullables.length else 0) := by
    have hle := nodup_lt_length (hi.step hb).nodup (hi.step hb).lt
    have hle' := nodup_lt_length hi.nodup hi.lt
    cases hcn : s.changedN with
    | false =>
      have : (g.nullStep s).changedN = false := by simp [nullStep, hcn]
      simp [this]
    | true =>
      simp only [if_true]
      by_cases hs : (g.stepNullables s).length = s.nullables.length
      · have : (g.nullStep s).changedN = false := by simp [nullStep, hs]
        simp [this]; omega
      · have h1 : (g.nullStep s).nullables = g.stepNullables s ∪ s.nullables := by simp [nullStep, hs]
        have h2 : s.nullables.length < (g.nullStep s).nullables.length := by
          by_contra hcon
          apply hs
          have hp := List.Nodup.subperm hi.nodup (l₂ := (g.nullStep s).nullables) (by
            intro x hx; rw [h1]; exact List.mem_union_right _ hx)
          have hp := hp.perm_of_length_le (by omega)
          have hp2 := (List.perm_ext_iff_of_nodup (hi.step hb).nodup (nodup_stepNullables hi)).mpr
            (fun x => nullStep_nullables hb hi x)
          rw [← hp2.length_eq, hp.length_eq]
        split <;> omega
  have hun : (if (g.nullStep s).changedU then room T (g.nullStep s).unit + 1 else 0) +
      (if s.changedU then 1 else 0) ≤ (if s.changedU then room T s.unit + 1 else 0) := by
    cases hcu : s.changedU with
    | false =>
      have : (g.nullStep s).changedU = false := by simp [nullStep, hcu]
      simp [this]
    | true =>
      simp only [if_true]
      by_cases hs : (s.unit.any fun e => (g.stepUnit s e.1 e.2).all fun x => x ∈ e.2) = true
      · have : (g.nullStep s).changedU = false := by simp only [nullStep, hs, if_true]
        simp [this]
      · have h1 : (g.nullStep s).changedU = true := by simp only [nullStep, hs]; simp [hcu]
        rw [h1]
        simp only [if_true]
        have := room_lt (T := T) (f := fun e => (e.1, g.stepUnit s e.1 e.2)) hu (by
          intro e he
          constructor
          · simp only [List.any_eq_true, List.all_eq_true, decide_eq_true_eq, not_exists, not_and, not_forall] at hs
            obtain ⟨y, hy, hny⟩ := hs e he
            exact length_lt_of (hi.nodupU e he) (fun x hx => mem_stepUnit.mpr (.inr (.inr hx))) hy hny
          · have he' : (e.1, g.stepUnit s e.1 e.2) ∈ (g.nullStep s).unit := List.mem_map.mpr ⟨e, he, rfl⟩
            exact nodup_lt_length ((hi.step hb).nodupU _ he') ((hi.step hb).ltU _ he'))
        have h2 : (g.nullStep s).unit = s.unit.map fun e => (e.1, g.stepUnit s e.1 e.2) := rfl
        rw [h2]; omega
  unfold variant
  have : (if s.changedN then 1 else 0) + (if s.changedU then 1 else 0) ≥ 1 := by
    rcases Bool.or_eq_true _ _ ▸ hc with h | h <;> simp [h]
  omega

/-- The loop terminates if there is a compound task. -/
theorem nullLoop_term (hb : g.Bounded T) : ∀ {n : Nat} {s : NullState}, NullInv g T s → s.unit ≠ [] →
    variant T s ≤ n → ∃ r, g.nullLoop n s = .ok r := by
  intro n
  induction n with
  | zero =>
    intro s hi hu hv
    unfold nullLoop
    split
    · rename_i hc
      have := variant_step hb hi hu hc
      omega
    · exact ⟨_, rfl⟩
  | succ n ih =>
    intro s hi hu hv
    unfold nullLoop
    split
    · rename_i hc
      have := variant_step hb hi hu hc
      refine ih (hi.step hb) ?_ (by omega)
      simpa [nullStep] using hu
    · exact ⟨_, rfl⟩

/-- Without compound tasks the loop does not terminate. -/
theorem nullLoop_hangs : ∀ {n : Nat} {s : NullState}, s.unit = [] → s.changedU = true → g.nullLoop n s = .timeout := by
  intro n
  induction n with
  | zero => intro s _ hc; unfold nullLoop; simp [hc]
  | succ n ih =>
    intro s hu hc
    unfold nullLoop
    simp only [hc, Bool.or_true, if_true]
    exact ih (by simp [nullStep, hu]) (by simp [nullStep, hu, hc])

/-! ### Completeness -/

/-- Tasks that can be refined into nothing. -/
inductive Vanishes (g : TDG) : Nat → Prop
  | mk {t m} : m ∈ g.methodsOf t → (∀ x ∈ g.tasksOf m, Vanishes g x) → Vanishes g t

/-- Every task with a method is compound and has an entry for its unit reachability. -/
def HasUnits (g : TDG) (u : List (Nat × List Nat)) : Prop := ∀ t m, m ∈ g.methodsOf t → (unitGet u t).isSome

theorem unitGet_map {u : List (Nat × List Nat)} (f : Nat × List Nat → List Nat) (x : Nat) :
    unitGet (u.map fun e => (e.1, f e)) x = (u.find? fun e => e.1 = x).map f := by
  unfold unitGet
  rw [List.find?_map]
  simp [Function.comp_def]

theorem HasUnits.step (hu : HasUnits g s.unit) : HasUnits g (g.nullStep s).unit := by
  intro t m h
  have := hu t m h
  have h2 : (g.nullStep s).unit = s.unit.map fun e => (e.1, g.stepUnit s e.1 e.2) := rfl
  rw [h2, unitGet_map (fun e => g.stepUnit s e.1 e.2)]
  unfold unitGet at this
  simpa using this

theorem looksNullable_of (hi : NullInv g T s) (hu : HasUnits g s.unit) {x : Nat} (hx : x ∈ s.nullables) :
    looksNullable s x = true := by
  obtain ⟨m, hm⟩ := hi.has x hx
  obtain ⟨l, hl⟩ := Option.isSome_iff_exists.mp (hu x m hm)
  unfold looksNullable
  rw [hl]
  simp only [List.any_eq_true, decide_eq_true_eq]
  exact ⟨x, hi.selfU _ (unitGet_some hl), hx⟩

/-- A round that finds nothing new has found everything. -/
theorem step_complete (hb : g.Bounded T) (hi : NullInv g T s) (hu : HasUnits g s.unit)
    (hs : (g.stepNullables s).length = s.nullables.length) {t : Nat} (h : Vanishes g t) : t ∈ s.nullables := by
  induction h with
  | mk h1 _ ih =>
    rw [← step_same hb hi hs, mem_stepNullables hb]
    exact .inl ⟨_, h1, fun y hy => looksNullable_of hi hu (ih y hy)⟩

theorem nullLoop_complete (hb : g.Bounded T) {r : List Nat} : ∀ {n : Nat} {s : NullState}, NullInv g T s →
    HasUnits g s.unit → (s.changedN = false → ∀ t, Vanishes g t → t ∈ s.nullables) →
    g.nullLoop n s = .ok r → ∀ t, Vanishes g t → t ∈ r := by
  intro n
  induction n with
  | zero =>
    intro s hi hu hc h
    unfold nullLoop at h
    split at h
    · cases h
    · rename_i hne
      cases h
      exact hc (by simp at hne; exact hne.1)
  | succ n ih =>
    intro s hi hu hc h
    unfold nullLoop at h
    split at h
    · refine ih (hi.step hb) hu.step ?_ h
      intro hcn t ht
      rw [nullStep_nullables hb hi]
      by_cases hs : (g.stepNullables s).length = s.nullables.length
      · exact nullables_sub hb hi t (step_complete hb hi hu hs ht)
      · have : s.changedN = false := by simpa [nullStep, hs] using hcn
        exact nullables_sub hb hi t (hc this t ht)
    · rename_i hne
      cases h
      exact hc (by simp at hne; exact hne.1)

/-! ### Exactness -/

/-- If a method has a subtask that can vanish, its task can vanish. -/
def Unmixed (g : TDG) : Prop := ∀ t m x, m ∈ g.methodsOf t → x ∈ g.tasksOf m → Vanishes g x → Vanishes g t

/-- The state contains only tasks that can vanish, and unit reachability only leads from these to these. -/
structure Exact (g : TDG) (s : NullState) : Prop where
  nulls : ∀ x ∈ s.nullables, Vanishes g x
  units : ∀ e ∈ s.unit, ∀ x ∈ e.2, Vanishes g x → Vanishes g e.1

theorem Exact.step (hb : g.Bounded T) (hx : Unmixed g) (hi : NullInv g T s) (h : Exact g s) : Exact g (g.nullStep s) where
  nulls := by
    intro x hm
    rw [nullStep_nullables hb hi, mem_stepNullables hb] at hm
    rcases hm with ⟨m, h1, h2⟩ | hm
    · refine .mk h1 fun y hy => ?_
      have := h2 y hy
      unfold looksNullable at this
      split at this
      · rename_i l hl
        simp only [List.any_eq_true, decide_eq_true_eq] at this
        obtain ⟨z, hz, hzn⟩ := this
        exact h.units _ (unitGet_some hl) z hz (h.nulls z hzn)
      · cases this
    · exact h.nulls x (hi.new x hm)
  units := by
    intro e he x hm hv
    simp only [nullStep, List.mem_map] at he
    obtain ⟨e, he, rfl⟩ := he
    rcases mem_stepUnit.mp hm with ⟨m, h1, h2⟩ | ⟨p, h1, h2⟩ | h1
    · exact hx _ m x h1 (pick_some h2).1 hv
    · cases h3 : unitGet s.unit p with
      | none => simp [h3] at h2
      | some l =>
        rw [h3] at h2
        exact h.units e he p h1 (h.units _ (unitGet_some h3) x h2 hv)
    · exact h.units e he x h1 hv

theorem Exact.init (hb : g.Bounded T) (hx : Unmixed g) : Exact g g.nullInit where
  nulls := by
    intro x hm
    obtain ⟨m, h1, h2⟩ := (mem_null0 hb).mp hm
    exact .mk h1 (by simp [h2])
  units := by
    intro e he x hm hv
    obtain ⟨y, _, h2⟩ := mem_unit0 he
    rw [h2, List.mem_union_iff] at hm
    rcases hm with hm | hm
    · obtain ⟨m, h1, h⟩ := List.mem_filterMap.mp hm
      split at h
      · rename_i z hz
        cases h
        exact hx _ m x h1 (by rw [hz]; simp) hv
      · cases h
    · rw [List.mem_singleton] at hm
      rw [← hm]; exact hv

theorem nullLoop_sound (hb : g.Bounded T) (hx : Unmixed g) {r : List Nat} : ∀ {n : Nat} {s : NullState}, NullInv g T s →
    Exact g s → g.nullLoop n s = .ok r → ∀ t ∈ r, Vanishes g t := by
  intro n
  induction n with
  | zero =>
    intro s hi he h
    unfold nullLoop at h
    split at h
    · cases h
    · cases h; exact he.nulls
  | succ n ih =>
    intro s hi he h
    unfold nullLoop at h
    split at h
    · exact ih (hi.step hb) (he.step hb hx hi) h
    · cases h; exact he.nulls

/-! ### Results of the loop in general -/

theorem nullLoop_inv (hb : g.Bounded T) {P : List Nat → Prop} {r : List Nat}
    : ∀ {n : Nat} {s : NullState}, NullInv g T s → (∀ s, NullInv g T s → P s.nullables) →
    g.nullLoop n s = .ok r → P r := by
  intro n
  induction n with
  | zero =>
    intro s hi hP h
    unfold nullLoop at h
    split at h
    · cases h
    · cases h; exact hP s hi
  | succ n ih =>
    intro s hi hP h
    unfold nullLoop at h
    split at h
    · exact ih (hi.step hb) hP h
    · cases h; exact hP s hi

theorem nullLoop_cases : ∀ {n : Nat} {s : NullState}, (∃ r, g.nullLoop n s = .ok r) ∨ g.nullLoop n s = .timeout := by
  intro n
  induction n with
  | zero => intro s; unfold nullLoop; split <;> simp
  | succ n ih => intro s; unfold nullLoop; split <;> simp [ih]

/-- A task computed to be nullable can reach a task that has a method without subtasks. -/
structure Near (g : TDG) (s : NullState) : Prop where
  nulls : ∀ x ∈ s.nullables, ∃ y ∈ g.null0, Relation.ReflTransGen g.Step x y
  units : ∀ e ∈ s.unit, ∀ x ∈ e.2, Relation.ReflTransGen g.Step e.1 x

theorem Near.step (hb : g.Bounded T) (hi : NullInv g T s) (h : Near g s) : Near g (g.nullStep s) where
  nulls := by
    intro x hm
    rw [nullStep_nullables hb hi, mem_stepNullables hb] at hm
    rcases hm with ⟨m, h1, h2⟩ | hm
    · by_cases he : g.tasksOf m = []
      · exact ⟨x, (mem_null0 hb).mpr ⟨m, h1, he⟩, .refl⟩
      · obtain ⟨y, hy⟩ := List.exists_mem_of_ne_nil _ he
        have := h2 y hy
        unfold looksNullable at this
        split at this
        · rename_i l hl
          simp only [List.any_eq_true, decide_eq_true_eq] at this
          obtain ⟨z, hz, hzn⟩ := this
          obtain ⟨w, hw, hzw⟩ := h.nulls z hzn
          exact ⟨w, hw, .head ⟨m, h1, hy⟩ ((h.units _ (unitGet_some hl) z hz).trans hzw)⟩
        · cases this
    · exact h.nulls x (hi.new x hm)
  units := by
    intro e he x hm
    simp only [nullStep, List.mem_map] at he
    obtain ⟨e, he, rfl⟩ := he
    rcases mem_stepUnit.mp hm with ⟨m, h1, h2⟩ | ⟨p, h1, h2⟩ | h1
    · exact .single ⟨m, h1, (pick_some h2).1⟩
    · cases h3 : unitGet s.unit p with
      | none => simp [h3] at h2
      | some l =>
        rw [h3] at h2
        exact (h.units e he p h1).trans (h.units _ (unitGet_some h3) x h2)
    · exact h.units e he x h1

theorem Near.init : Near g g.nullInit where
  nulls := fun x hx => ⟨x, hx, .refl⟩
  units := by
    intro e he x hm
    obtain ⟨y, _, h2⟩ := mem_unit0 he
    rw [h2, List.mem_union_iff] at hm
    rcases hm with hm | hm
    · obtain ⟨m, h1, h⟩ := List.mem_filterMap.mp hm
      split at h
      · rename_i z hz
        cases h
        exact .single ⟨m, h1, by rw [hz]; simp⟩
      · cases h
    · rw [List.mem_singleton] at hm
      rw [hm]

theorem nullLoop_near (hb : g.Bounded T) {r : List Nat} : ∀ {n : Nat} {s : NullState}, NullInv g T s →
    Near g s → g.nullLoop n s = .ok r → ∀ t ∈ r, ∃ y ∈ g.null0, Relation.ReflTransGen g.Step t y := by
  intro n
  induction n with
  | zero =>
    intro s hi he h
    unfold nullLoop at h
    split at h
    · cases h
    · cases h; exact he.nulls
  | succ n ih =>
    intro s hi he h
    unfold nullLoop at h
    split at h
    · exact ih (hi.step hb) (he.step hb hi) h
    · cases h; exact he.nulls

end TDG

end Verif
