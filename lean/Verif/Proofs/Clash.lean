import Verif.Proofs.Order
import Verif.Spec.Clash

/-! Nullable tasks and warnings without the assumption that compound tasks and actions have different names. -/

namespace Verif

open Spec

namespace TDG

variable {g : TDG} {s : NullState} {T : Nat}

/-- The task has an entry for its unit reachability. -/
def HasUnit (g : TDG) (x : Nat) : Prop := (unitGet g.unit0 x).isSome

/-- The entries are those of the initial state. -/
def SameUnits (g : TDG) (s : NullState) : Prop := ∀ x, (unitGet s.unit x).isSome ↔ g.HasUnit x

theorem SameUnits.init : SameUnits g g.nullInit := fun _ => .rfl

theorem SameUnits.step (h : SameUnits g s) : SameUnits g (g.nullStep s) := by
  intro x
  rw [← h x]
  have h2 : (g.nullStep s).unit = s.unit.map fun e => (e.1, g.stepUnit s e.1 e.2) := rfl
  rw [h2, unitGet_map (fun e => g.stepUnit s e.1 e.2)]
  unfold unitGet
  simp

/-- Tasks that are certainly found. -/
inductive Erases (g : TDG) : Nat → Prop
  | mk {t m} : m ∈ g.methodsOf t → (∀ x ∈ g.tasksOf m, g.HasUnit x) → (∀ x ∈ g.tasksOf m, Erases g x) → Erases g t

theorem Erases.complete (hb : g.Bounded T) (hi : NullInv g T s) (hu : SameUnits g s)
    (hs : (g.stepNullables s).length = s.nullables.length) {t : Nat} (h : Erases g t) : t ∈ s.nullables := by
  induction h with
  | mk h1 h2 _ ih =>
    rw [← step_same hb hi hs, mem_stepNullables hb]
    refine .inl ⟨_, h1, fun y hy => ?_⟩
    obtain ⟨l, hl⟩ := Option.isSome_iff_exists.mp ((hu y).mpr (h2 y hy))
    unfold looksNullable
    rw [hl]
    simp only [List.any_eq_true, decide_eq_true_eq]
    exact ⟨y, hi.selfU _ (unitGet_some hl), ih y hy⟩

theorem nullLoop_erases (hb : g.Bounded T) {r : List Nat} : ∀ {n : Nat} {s : NullState}, NullInv g T s →
    SameUnits g s → (s.changedN = false → ∀ t, Erases g t → t ∈ s.nullables) →
    g.nullLoop n s = .ok r → ∀ t, Erases g t → t ∈ r := by
  intro n
  induction n with
  | zero =>
    intro s hi hu hc h
    unfold nullLoop at h
    split at h
    · cases h
    · rename_i hne
      cases h
      exact hc (by simp at hne; exact hne.1)
  | succ n ih =>
    intro s hi hu hc h
    unfold nullLoop at h
    split at h
    · refine ih (hi.step hb) hu.step ?_ h
      intro hcn t ht
      rw [nullStep_nullables hb hi]
      by_cases hs : (g.stepNullables s).length = s.nullables.length
      · exact nullables_sub hb hi t (Erases.complete hb hi hu hs ht)
      · have : s.changedN = false := by simpa [nullStep, hs] using hcn
        exact nullables_sub hb hi t (hc this t ht)
    · rename_i hne
      cases h
      exact hc (by simp at hne; exact hne.1)

/-- Anything that is preserved by the loop holds of its result. -/
theorem nullLoop_keeps {P : NullState → Prop} (hP : ∀ s, P s → P (g.nullStep s)) {r : List Nat} :
    ∀ {n : Nat} {s : NullState}, P s → g.nullLoop n s = .ok r → ∃ s', P s' ∧ r = s'.nullables := by
  intro n
  induction n with
  | zero =>
    intro s hs h
    unfold nullLoop at h
    split at h
    · cases h
    · cases h; exact ⟨s, hs, rfl⟩
  | succ n ih =>
    intro s hs h
    unfold nullLoop at h
    split at h
    · exact ih (hP s hs) h
    · cases h; exact ⟨s, hs, rfl⟩

/-- One step of unit reachability. -/
def Unit (g : TDG) (c y : Nat) : Prop := ∃ m ∈ g.methodsOf c, y ∈ g.tasksOf m ∧ (g.tasksOf m = [y] ∨ y ∉ g.null0)

/-- Steps from tasks that have an entry. -/
def Link (g : TDG) (c y : Nat) : Prop := g.HasUnit c ∧ g.Unit c y

/-- Tasks that are possibly found. -/
inductive Suspects (g : TDG) : Nat → Prop
  | mk {t m} (f : Nat → Nat) : m ∈ g.methodsOf t →
      (∀ x ∈ g.tasksOf m, g.HasUnit x ∧ Relation.ReflTransGen g.Link x (f x)) →
      (∀ x ∈ g.tasksOf m, Suspects g (f x)) → Suspects g t

structure Bound (g : TDG) (s : NullState) : Prop where
  units : SameUnits g s
  nulls : ∀ x ∈ s.nullables, Suspects g x
  links : ∀ e ∈ s.unit, ∀ x ∈ e.2, Relation.ReflTransGen g.Link e.1 x

theorem SameUnits.has {e : Nat × List Nat} (h : SameUnits g s) (he : e ∈ s.unit) : g.HasUnit e.1 := by
  refine (h e.1).mp ?_
  unfold unitGet
  rw [Option.isSome_map, List.find?_isSome]
  exact ⟨e, he, by simp⟩

theorem Bound.step (hb : g.Bounded T) (hi : NullInv g T s) (h : Bound g s) : Bound g (g.nullStep s) where
  units := h.units.step
  nulls := by
    intro x hm
    rw [nullStep_nullables hb hi, mem_stepNullables hb] at hm
    rcases hm with ⟨m, h1, h2⟩ | hm
    · have h3 : ∀ y, ∃ z, y ∈ g.tasksOf m → g.HasUnit y ∧ Relation.ReflTransGen g.Link y z ∧ Suspects g z := by
        intro y
        by_cases hy : y ∈ g.tasksOf m
        · have := h2 y hy
          unfold looksNullable at this
          split at this
          · rename_i l hl
            simp only [List.any_eq_true, decide_eq_true_eq] at this
            obtain ⟨z, hz, hzn⟩ := this
            exact ⟨z, fun _ => ⟨h.units.has (unitGet_some hl), h.links _ (unitGet_some hl) z hz, h.nulls z hzn⟩⟩
          · cases this
        · exact ⟨0, fun h => absurd h hy⟩
      choose f hf using h3
      exact .mk f h1 (fun y hy => ⟨(hf y hy).1, (hf y hy).2.1⟩) fun y hy => (hf y hy).2.2
    · exact h.nulls x (hi.new x hm)
  links := by
    intro e he x hm
    simp only [nullStep, List.mem_map] at he
    obtain ⟨e, he, rfl⟩ := he
    rcases mem_stepUnit.mp hm with ⟨m, h1, h2⟩ | ⟨p, h1, h2⟩ | h1
    · have h3 := pick_some h2
      have h4 : g.HasUnit e.1 := h.units.has he
      exact .single ⟨h4, m, h1, h3.1, .inr fun h0 => h3.2 (hi.base _ h0)⟩
    · cases h3 : unitGet s.unit p with
      | none => simp [h3] at h2
      | some l =>
        rw [h3] at h2
        exact (h.links e he p h1).trans (h.links _ (unitGet_some h3) x h2)
    · exact h.links e he x h1

theorem Bound.init (hb : g.Bounded T) : Bound g g.nullInit where
  units := .init
  nulls := by
    intro x hx
    obtain ⟨m, h1, h2⟩ := (mem_null0 hb).mp hx
    exact .mk id h1 (by simp [h2]) (by simp [h2])
  links := by
    intro e he x hm
    have hk := SameUnits.init.has he
    obtain ⟨y, _, h2⟩ := mem_unit0 he
    rw [h2, List.mem_union_iff] at hm
    rcases hm with hm | hm
    · obtain ⟨m, h1, h⟩ := List.mem_filterMap.mp hm
      split at h
      · rename_i z hz
        cases h
        exact .single ⟨hk, m, h1, by rw [hz]; simp, .inl hz⟩
      · cases h
    · rw [List.mem_singleton] at hm
      rw [hm]

theorem nullLoop_suspects (hb : g.Bounded T) {r : List Nat} {n : Nat} (h : g.nullLoop n g.nullInit = .ok r) :
    ∀ t ∈ r, Suspects g t := by
  obtain ⟨s, hs, rfl⟩ := nullLoop_keeps (P := fun s => NullInv g T s ∧ Bound g s)
    (fun s hs => ⟨hs.1.step hb, hs.2.step hb hs.1⟩) ⟨.init hb, .init hb⟩ h
  exact hs.2.nulls

end TDG

/-! ### Names -/

variable {d : DomainAST} {g : TDG} {ord ord' : HashOrd}

theorem tdgTasks_compound {i : Nat} {x : Name} : (tdgTasks d)[i]? = some (x, true) ↔ ∃ t, d.tasks[i]? = some t ∧ t.name = x := by
  unfold tdgTasks
  rw [List.getElem?_append]
  split
  · simp
  · rename_i h
    rw [List.length_map, Nat.not_lt] at h
    simp [List.getElem?_eq_none h]

theorem tdgTasks_action {i : Nat} {x : Name} : (tdgTasks d)[i]? = some (x, false) ↔
    d.tasks.length ≤ i ∧ ∃ a, d.actions[i - d.tasks.length]? = some a ∧ a.name = x := by
  unfold tdgTasks
  rw [List.getElem?_append]
  split
  · rename_i h
    rw [List.length_map] at h
    simp
    omega
  · rename_i h
    rw [List.length_map, Nat.not_lt] at h
    simp [h]

/-- The last index of a name is that of an action, if there is one. -/
theorem last_action {x : Name} {i : Nat} (h : taskIndexLast (tdgTasks d) x = some i) :
    (tdgTasks d)[i]? = some (x, false) ↔ ActionName d x := by
  constructor
  · intro h1
    obtain ⟨_, a, ha, rfl⟩ := tdgTasks_action.mp h1
    exact ⟨a, List.mem_of_getElem? ha, rfl⟩
  · rintro ⟨a, ha, rfl⟩
    obtain ⟨k, hk⟩ := List.mem_iff_getElem?.mp ha
    have h1 : (tdgTasks d)[d.tasks.length + k]? = some (a.name, false) :=
      tdgTasks_action.mpr ⟨by omega, a, by rw [Nat.add_sub_cancel_left]; exact hk, rfl⟩
    have h2 := taskIndexLast_max h (j := d.tasks.length + k) (by rw [h1]; rfl)
    obtain ⟨e, he, hx⟩ := Option.map_eq_some_iff.mp (taskIndexLast_some h).2
    obtain ⟨y, b⟩ := e
    cases b with
    | false => rw [he]; simp at hx; rw [hx]
    | true =>
      obtain ⟨t, ht, _⟩ := tdgTasks_compound.mp he
      have := (List.getElem?_eq_some_iff.mp ht).1
      omega

theorem TDG.Of.hasUnit_iff (hg : g.Of d) {i : Nat} : g.HasUnit i ↔ ∃ x, taskIndexFirst g.tasks x = some i ∧
    g.tasks[i]? = some (x, true) := by
  unfold TDG.HasUnit unitGet
  rw [Option.isSome_map, List.find?_isSome]
  unfold TDG.unit0
  simp only [List.mem_filterMap, List.mem_filter, Option.map_eq_some_iff, decide_eq_true_eq]
  constructor
  · rintro ⟨_, ⟨e, ⟨he, hb⟩, j, hj, rfl⟩, rfl⟩
    have ht : ∃ t ∈ d.tasks, t.name = e.1 := by
      rw [hg.tasks, tdgTasks] at he
      rcases List.mem_append.mp he with he | he
      · obtain ⟨t, ht, rfl⟩ := List.mem_map.mp he
        exact ⟨t, ht, rfl⟩
      · obtain ⟨t, ht, rfl⟩ := List.mem_map.mp he
        cases hb
    obtain ⟨t, ht, htn⟩ := ht
    obtain ⟨k, h1, h2⟩ := hg.compound ht
    rw [htn, hj] at h1
    cases h1
    exact ⟨t.name, by rw [htn]; exact hj, h2⟩
  · rintro ⟨x, h1, h2⟩
    exact ⟨_, ⟨(x, true), ⟨List.mem_of_getElem? h2, rfl⟩, i, h1, rfl⟩, rfl⟩

/-- Among the last indices, the compound tasks have entries. -/
theorem TDG.Of.hasUnit_last (hg : g.Of d) (hn : (d.tasks.map (·.name)).Nodup) {x : Name} {i : Nat}
    (h : taskIndexLast (tdgTasks d) x = some i) : g.HasUnit i ↔ ¬ ActionName d x := by
  rw [← last_action h, hg.hasUnit_iff]
  obtain ⟨e, he, hx⟩ := Option.map_eq_some_iff.mp (taskIndexLast_some h).2
  constructor
  · rintro ⟨y, _, h1⟩ h2
    rw [hg.tasks, h2] at h1
    cases h1
  · intro hna
    obtain ⟨y, b⟩ := e
    cases b with
    | false => exact absurd (by rw [he]; simp at hx; rw [hx]) hna
    | true =>
      cases hx
      obtain ⟨t, ht, rfl⟩ := tdgTasks_compound.mp he
      obtain ⟨j, h1, h2⟩ := hg.compound (List.mem_of_getElem? ht)
      have hij : j = i := by
        obtain ⟨t', ht', hn'⟩ := tdgTasks_compound.mp (hg.tasks ▸ h2)
        obtain ⟨hj, hj'⟩ := List.getElem?_eq_some_iff.mp ht'
        obtain ⟨hi, hi'⟩ := List.getElem?_eq_some_iff.mp ht
        refine (List.Nodup.getElem_inj_iff hn (hi := by simpa using hj) (hj := by simpa using hi)).mp ?_
        simp [hj', hi', hn']
      subst hij
      exact ⟨t.name, h1, h2⟩

theorem TDG.Of.last_exists {x : Name} (hx : TaskName d x) : ∃ i, taskIndexLast (tdgTasks d) x = some i := by
  cases h : taskIndexLast (tdgTasks d) x with
  | none => exact absurd hx (index_none.mp h)
  | some i => exact ⟨i, rfl⟩

theorem last_inj {x y : Name} {i : Nat} (h : taskIndexLast (tdgTasks d) x = some i) (h' : taskIndexLast (tdgTasks d) y = some i) :
    x = y := by
  have h1 := (taskIndexLast_some h).2
  rw [(taskIndexLast_some h').2] at h1
  simpa using h1.symm

theorem Closed.tasksOf_nil (hc : Verif.Closed d) (hg : g.Of d) {m : Nat} {mm : Method} (hm : d.methods[m]? = some mm) :
    g.tasksOf m = [] ↔ mm.tn.subtasks = [] := by
  rw [List.eq_nil_iff_forall_not_mem, List.eq_nil_iff_forall_not_mem]
  constructor
  · intro h s hs
    obtain ⟨i, hi⟩ := TDG.Of.last_exists ((hc mm (List.mem_of_getElem? hm)).2 s hs)
    exact h i ((hg.mem_tasksOf _ _).mpr ⟨mm, hm, s, hs, hi⟩)
  · intro h i hi
    obtain ⟨mm', hm', s, hs, _⟩ := (hg.mem_tasksOf _ _).mp hi
    rw [hm] at hm'
    cases hm'
    exact h s hs

theorem TDG.Of.erases (hg : g.Of d) (hn : (d.tasks.map (·.name)).Nodup) {x : Name} (h : Erasable d x) :
    ∀ {i}, taskIndexLast (tdgTasks d) x = some i → TDG.Erases g i := by
  induction h with
  | @mk mm h1 h2 h3 ih =>
    intro i hi
    obtain ⟨m, hm⟩ := List.mem_iff_getElem?.mp h1
    refine .mk ((hg.mem_methodsOf _ _).mpr ⟨mm, hm, hi⟩) (fun y hy => ?_) fun y hy => ?_ <;>
      (obtain ⟨mm', h5, s, h6, h7⟩ := (hg.mem_tasksOf _ _).mp hy; rw [hm] at h5; cases h5)
    · exact (hg.hasUnit_last hn h7).mpr (h2 s h6)
    · exact ih s h6 h7

theorem TDG.Of.links (hg : g.Of d) (hc : Verif.Closed d) (hn : (d.tasks.map (·.name)).Nodup) {x : Name} {i j : Nat}
    (hi : taskIndexLast (tdgTasks d) x = some i) (h : Relation.ReflTransGen g.Link i j) :
    ∃ y, taskIndexLast (tdgTasks d) y = some j ∧ Relation.ReflTransGen (Leads d) x y := by
  induction h with
  | refl => exact ⟨x, hi, .refl⟩
  | tail _ h2 ih =>
    obtain ⟨y, h3, h4⟩ := ih
    obtain ⟨hu, m, h5, h6, h7⟩ := h2
    obtain ⟨mm, h8, h9⟩ := (hg.mem_methodsOf _ _).mp h5
    cases last_inj h9 h3
    obtain ⟨mm', h10, s, h11, h12⟩ := (hg.mem_tasksOf _ _).mp h6
    rw [h8] at h10
    cases h10
    refine ⟨s.task.name, h12, h4.tail ⟨(hg.hasUnit_last hn h3).mp hu, mm, List.mem_of_getElem? h8, rfl, ⟨s, h11, rfl⟩, ?_⟩⟩
    rcases h7 with h7 | h7
    · refine .inl fun s' hs' => ?_
      obtain ⟨k, hk⟩ := TDG.Of.last_exists ((hc mm (List.mem_of_getElem? h8)).2 s' hs')
      have : k ∈ g.tasksOf m := (hg.mem_tasksOf _ _).mpr ⟨mm, h8, s', hs', hk⟩
      rw [h7, List.mem_singleton] at this
      subst this
      exact last_inj hk h12
    · refine .inr fun m' hm' hy he => h7 ?_
      obtain ⟨k, hk⟩ := List.mem_iff_getElem?.mp hm'
      refine (TDG.mem_null0 hg.bounded).mpr ⟨k, (hg.mem_methodsOf _ _).mpr ⟨m', hk, ?_⟩, (hc.tasksOf_nil hg hk).mpr he⟩
      rw [hy]
      exact h12

theorem TDG.Of.suspects (hg : g.Of d) (hc : Verif.Closed d) (hn : (d.tasks.map (·.name)).Nodup) {i : Nat}
    (h : TDG.Suspects g i) : ∃ x, taskIndexLast (tdgTasks d) x = some i ∧ Suspected d x := by
  induction h with
  | @mk t m f h1 h2 _ ih =>
    obtain ⟨mm, h3, h4⟩ := (hg.mem_methodsOf _ _).mp h1
    refine ⟨_, h4, ?_⟩
    have h5 : ∀ z, ∃ y, ∀ s ∈ mm.tn.subtasks, s.task.name = z → ¬ ActionName d z ∧
        Relation.ReflTransGen (Leads d) z y ∧ Suspected d y := by
      intro z
      by_cases hz : ∃ s ∈ mm.tn.subtasks, s.task.name = z
      · obtain ⟨s, hs, rfl⟩ := hz
        obtain ⟨k, hk⟩ := TDG.Of.last_exists ((hc mm (List.mem_of_getElem? h3)).2 s hs)
        have hm := (hg.mem_tasksOf _ _).mpr ⟨mm, h3, s, hs, hk⟩
        obtain ⟨h6, h7⟩ := h2 k hm
        obtain ⟨y, h8, h9⟩ := hg.links hc hn hk h7
        obtain ⟨y', h10, h11⟩ := ih k hm
        cases last_inj h8 h10
        exact ⟨y, fun s' hs' he => ⟨(hg.hasUnit_last hn hk).mp h6, h9, h11⟩⟩
      · exact ⟨[], fun s hs he => absurd ⟨s, hs, he⟩ hz⟩
    choose F hF using h5
    exact .mk F (List.mem_of_getElem? h3) (fun s hs => ⟨(hF _ s hs rfl).1, (hF _ s hs rfl).2.1⟩)
      fun s hs => (hF _ s hs rfl).2.2

/-! ### Nullable tasks -/

theorem nullables_erasable (hd : DomainOk d) {ns : List Name} (h : NullablesAre ord d ns) {x : Name}
    (hx : Erasable d x) : x ∈ ns := by
  obtain ⟨g, n, l, hg, hof, hl, rfl⟩ := h.loop
  have hcl := Verif.DomainOk.closed hd
  have htn : TaskName d x := by cases hx with | mk h1 _ _ => exact (hcl _ h1).1
  obtain ⟨i, hi⟩ := TDG.Of.last_exists htn
  refine TDG.mem_names.mpr ⟨i, ?_, by rw [TDG.Is, hof.tasks]; exact (taskIndexLast_some hi).2⟩
  exact TDG.nullLoop_erases hof.bounded (.init hof.bounded) .init (by simp) hl i (hof.erases hd.tasks hx hi)

theorem nullables_suspected (hd : DomainOk d) {ns : List Name} (h : NullablesAre ord d ns) {x : Name}
    (hm : x ∈ ns) : Suspected d x := by
  obtain ⟨g, n, l, hg, hof, hl, rfl⟩ := h.loop
  obtain ⟨i, h1, hi⟩ := TDG.mem_names.mp hm
  obtain ⟨y, hy, hs⟩ := hof.suspects (Verif.DomainOk.closed hd) hd.tasks (TDG.nullLoop_suspects hof.bounded hl i h1)
  have := (taskIndexLast_some hy).2
  rw [TDG.Is, hof.tasks, this] at hi
  cases hi
  exact hs

theorem Spec.Uniform.leads (hu : Uniform d) {x y : Name} (h : Relation.ReflTransGen (Leads d) x y) (hy : Erasable d y) :
    Erasable d x := by
  induction h using Relation.ReflTransGen.head_induction_on with
  | refl => exact hy
  | head h _ ih =>
    obtain ⟨_, m, hm, rfl, ⟨s, hs, rfl⟩, _⟩ := h
    exact hu m hm ⟨s, hs, ih⟩

theorem Spec.Suspected.erasable (hu : Uniform d) {x : Name} (h : Suspected d x) : Erasable d x := by
  induction h with
  | mk f h1 h2 _ ih => exact .mk h1 (fun s hs => (h2 s hs).1) fun s hs => hu.leads (h2 s hs).2 (ih s hs)

theorem nullables_uniform (hd : DomainOk d) (hu : Uniform d) {ns : List Name} (h : NullablesAre ord d ns) {x : Name} :
    x ∈ ns ↔ Erasable d x :=
  ⟨fun hm => (nullables_suspected hd h hm).erasable hu, nullables_erasable hd h⟩

/-- Without actions below it, a nullable task is erasable. -/
theorem Spec.Nullable.erasable {x : Name} (h : Nullable d x) (hr : ∀ y, Relation.TransGen (HasSub d) x y → ¬ ActionName d y) :
    Erasable d x := by
  induction h with
  | @mk m hm _ ih =>
    have h1 : ∀ s ∈ m.tn.subtasks, HasSub d m.task.name s.task.name := fun s hs => ⟨m, hm, rfl, s, hs, rfl⟩
    exact .mk hm (fun s hs => hr _ (.single (h1 s hs))) fun s hs => ih s hs fun y hy => hr y (.head (h1 s hs) hy)

theorem Spec.Erasable.nullable {x : Name} (h : Erasable d x) : Nullable d x := by
  induction h with
  | mk hm _ _ ih => exact .mk hm ih

/-- If no compound task has the name of an action, the erasable tasks are the nullable ones. -/
theorem erasable_iff (hd : DomainOk d) (hc : NoClash d) {x : Name} : Erasable d x ↔ Nullable d x := by
  refine ⟨Spec.Erasable.nullable, fun h => ?_⟩
  induction h with
  | @mk m hm h1 ih =>
    refine .mk hm (fun s hs => ?_) ih
    rintro ⟨a, ha, hn⟩
    have := h1 s hs
    generalize s.task.name = z at this hn
    cases this with
    | @mk m' hm' _ =>
      obtain ⟨t, ht, htn⟩ := Verif.DomainOk.owners hd m' hm'
      exact hc t ht a ha (htn.trans hn.symm)

/-! ### Warnings -/

/-- From the first index of a compound task with the name of an action there are no steps. -/
theorem TDG.Of.first_stuck (hg : g.Of d) {x : Name} {i : Nat} (hi : g.tasks[i]? = some (x, true)) (hx : ActionName d x) (j : Nat) :
    ¬ g.Step i j := by
  rintro ⟨m, hm, _⟩
  obtain ⟨mm, _, h⟩ := (hg.mem_methodsOf _ _).mp hm
  have h1 := (taskIndexLast_some h).2
  rw [hg.tasks] at hi
  rw [hi] at h1
  cases h1
  rw [(last_action h).mpr hx] at hi
  cases hi

theorem TDG.Of.reach_last (hg : g.Of d) (hc : Verif.Closed d) {x y : Name} {i : Nat} (hi : taskIndexLast (tdgTasks d) x = some i)
    (h : Relation.ReflTransGen (HasSub d) x y) :
    ∃ j, taskIndexLast (tdgTasks d) y = some j ∧ Relation.ReflTransGen g.Step i j := by
  induction h with
  | refl => exact ⟨i, hi, .refl⟩
  | tail _ h2 ih =>
    obtain ⟨j, h3, h4⟩ := ih
    obtain ⟨m, hm, rfl, s, hs, rfl⟩ := h2
    obtain ⟨k, hk⟩ := TDG.Of.last_exists ((hc m hm).2 s hs)
    obtain ⟨n, hn⟩ := List.mem_iff_getElem?.mp hm
    exact ⟨k, hk, h4.tail ⟨n, (hg.mem_methodsOf _ _).mpr ⟨m, hn, h3⟩, (hg.mem_tasksOf _ _).mpr ⟨m, hn, s, hs, hk⟩⟩⟩

theorem TDG.Of.step_last (hg : g.Of d) {x : Name} {i j : Nat} (hi : taskIndexLast (tdgTasks d) x = some i)
    (h : Relation.ReflTransGen g.Step i j) :
    ∃ y, taskIndexLast (tdgTasks d) y = some j ∧ Relation.ReflTransGen (HasSub d) x y := by
  induction h with
  | refl => exact ⟨x, hi, .refl⟩
  | tail _ h2 ih =>
    obtain ⟨y, h3, h4⟩ := ih
    obtain ⟨m, h5, h6⟩ := h2
    obtain ⟨mm, h7, h8⟩ := (hg.mem_methodsOf _ _).mp h5
    obtain ⟨mm', h9, s, h10, h11⟩ := (hg.mem_tasksOf _ _).mp h6
    rw [h7] at h9
    cases h9
    cases last_inj h8 h3
    exact ⟨_, h11, h4.tail ⟨mm, List.mem_of_getElem? h7, rfl, s, h10, rfl⟩⟩

/-- The warnings of an accepted domain. -/
theorem warnings_clash (hd : DomainOk d) {ws : List Warning} (h : Accepts ord d ws) :
    (ws.map (·.symbol)).Nodup ∧ ∀ w, w ∈ ws ↔ ∃ t ∈ d.tasks, w = ⟨t.name, t.pos⟩ ∧
      (ActionName d t.name ∨ ¬ ReachesAction d t.name) ∧ ∀ ns, NullablesAre ord d ns → t.name ∉ ns := by
  obtain ⟨g, l, ws', hg, hof, hac, hw⟩ := Verif.DomainOk.accepts hd ord
  cases h.det hac
  refine ⟨hw.once, fun w => ?_⟩
  rw [hw.mem]
  have hcl := Verif.DomainOk.closed hd
  have hns : ∀ t ∈ d.tasks, NullablesAre ord d (g.names l) := fun t ht =>
    ⟨g.enough, fun n hn => by rw [hg, R.bind_ok, TDG.nullables, hw.loop (List.ne_nil_of_mem ht) n hn, R.bind_ok]⟩
  have hkey : ∀ t ∈ d.tasks, ∀ i, taskIndexFirst g.tasks t.name = some i →
      ((∃ j x, Relation.ReflTransGen g.Step i j ∧ g.tasks[j]? = some (x, false)) ↔
        ¬ ActionName d t.name ∧ ReachesAction d t.name) := by
    intro t ht i hi
    obtain ⟨i', hi', hti⟩ := hof.compound ht
    rw [hi] at hi'
    cases hi'
    by_cases ha : ActionName d t.name
    · simp only [ha, not_true, false_and, iff_false]
      rintro ⟨j, x, hij, hj⟩
      rcases Relation.ReflTransGen.cases_head hij with rfl | ⟨k, hk, _⟩
      · rw [hti] at hj
        cases hj
      · exact hof.first_stuck hti ha k hk
    · have hl : taskIndexLast (tdgTasks d) t.name = some i := by
        obtain ⟨k, hk⟩ := TDG.Of.last_exists (d := d) (x := t.name) (.inl ⟨t, ht, rfl⟩)
        obtain ⟨y, h1, h2⟩ := hof.hasUnit_iff.mp ((hof.hasUnit_last hd.tasks hk).mpr ha)
        have h3 := (taskIndexLast_some hk).2
        rw [← hof.tasks, h2] at h3
        cases h3
        rw [hi] at h1
        cases h1
        exact hk
      simp only [ha, not_false_eq_true, true_and]
      constructor
      · rintro ⟨j, x, hij, hj⟩
        obtain ⟨y, hy, hty⟩ := hof.step_last hl hij
        rw [hof.tasks] at hj
        have h1 := (taskIndexLast_some hy).2
        rw [hj] at h1
        cases h1
        obtain ⟨_, a, ha', rfl⟩ := tdgTasks_action.mp hj
        exact ⟨a, List.mem_of_getElem? ha', hty⟩
      · rintro ⟨a, ha', hta⟩
        obtain ⟨j, hj, hij⟩ := hof.reach_last hcl hl hta
        exact ⟨j, a.name, hij, by rw [hof.tasks]; exact (last_action hj).mpr ⟨a, ha', rfl⟩⟩
  constructor
  · rintro ⟨t, ht, rfl, i, hi, hr, hn⟩
    refine ⟨t, ht, rfl, ?_, fun ns h => by rw [h.det (hns t ht)]; exact hn⟩
    rw [hkey t ht i hi] at hr
    tauto
  · rintro ⟨t, ht, rfl, hr, hn⟩
    obtain ⟨i, hi, _⟩ := hof.compound ht
    refine ⟨t, ht, rfl, i, hi, ?_, hn _ (hns t ht)⟩
    rw [hkey t ht i hi]
    tauto

end Verif
