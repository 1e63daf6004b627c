import Mathlib.Logic.Function.Basic
import Verif.Proofs.Cycles
import Verif.Proofs.Kind
import Verif.Proofs.Strike
import Verif.Spec.RenamedMeta

/-! The decomposition graph and the metadata of a renamed domain. -/

namespace Verif

open Spec

variable {ord ord' : HashOrd} {ρ : Name → Name} {g : TDG} {d : DomainAST}

/-- A value under a function. -/
def R.map {α β : Type} (f : α → β) (x : R α) : R β := x.bind fun a => .ok (f a)

theorem R.map_bind {α β γ : Type} {f : α → β} {x : R α} {k : β → R γ} : (x.map f).bind k = x.bind fun a => k (f a) := by
  cases x <;> rfl

theorem R.bind_map {α β γ : Type} {f : β → γ} {x : R α} {k : α → R β} : (x.bind k).map f = x.bind fun a => (k a).map f := by
  cases x <;> rfl

open Classical in
/-- The label that is renamed to `x`. -/
noncomputable def unlabel (ρ : Name → Name) (x : List Nat) : List Nat :=
  if h : ∃ y : Name, (ρ y).map (·.toNat) = x then h.choose.map (·.toNat) else x

theorem toNats_injective : Function.Injective fun x : Name => x.map (·.toNat) :=
  List.map_injective_iff.mpr fun _ _ h => UInt8.toNat_inj.mp h

theorem unlabel_rn (hρ : Function.Injective ρ) (y : Name) : unlabel ρ ((ρ y).map (·.toNat)) = y.map (·.toNat) := by
  have h : ∃ z : Name, (ρ z).map (·.toNat) = (ρ y).map (·.toNat) := ⟨y, rfl⟩
  unfold unlabel
  rw [dif_pos h, hρ (toNats_injective h.choose_spec)]

/-- Two runs iterate all sets alike, except possibly the sets of labels that follow a label. -/
def Alike (ord ord' : HashOrd) : Prop :=
  ∀ (s : Site) (n : Nat), (∀ t m x, s ≠ 5 :: t :: m :: x) → ord'.order s n = ord.order s n

/-- The orders of a run on a domain and of one on the renamed domain: the sets of labels that follow a label are iterated
alike, and so are all other sets. -/
structure SameOrders (ρ : Name → Name) (ord ord' : HashOrd) : Prop where
  plain : Alike ord ord'
  label : ∀ (t m : Nat) (x : Name) (n : Nat),
    ord'.order (5 :: t :: m :: (ρ x).map (·.toNat)) n = ord.order (5 :: t :: m :: x.map (·.toNat)) n

theorem SameOrders.refl : SameOrders id ord ord := ⟨fun _ _ _ => rfl, fun _ _ _ _ => rfl⟩

/-- Orders with another order of the labels that follow a label. -/
def HashOrd.atLabels (ord : HashOrd) (f : List Nat → List Nat) : HashOrd where
  order s n := match s with
    | 5 :: t :: m :: x => ord.order (5 :: t :: m :: f x) n
    | s => ord.order s n
  isPerm s n := by
    split <;> exact ord.isPerm _ _

theorem HashOrd.atLabels_plain {f : List Nat → List Nat} {s : Site} {n : Nat} (h : ∀ t m x, s ≠ 5 :: t :: m :: x) :
    (ord.atLabels f).order s n = ord.order s n := by
  simp only [HashOrd.atLabels]

theorem SameOrders.fwd (hρ : Function.Injective ρ) (ord : HashOrd) : SameOrders ρ ord (ord.atLabels (unlabel ρ)) :=
  ⟨fun _ _ h => HashOrd.atLabels_plain h, fun t m x n => by
    show ord.order (5 :: t :: m :: unlabel ρ ((ρ x).map (·.toNat))) n = _
    rw [unlabel_rn hρ]⟩

/-- The bytes of the renamed label. -/
def relabel (ρ : Name → Name) (x : List Nat) : List Nat := (ρ (x.map UInt8.ofNat)).map (·.toNat)

theorem relabel_toNat (x : Name) : relabel ρ (x.map (·.toNat)) = (ρ x).map (·.toNat) := by
  simp [relabel, Function.comp_def]

theorem SameOrders.bwd (ord' : HashOrd) : SameOrders ρ (ord'.atLabels (relabel ρ)) ord' :=
  ⟨fun _ _ h => (HashOrd.atLabels_plain h).symm, fun t m x n => by
    show _ = ord'.order (5 :: t :: m :: relabel ρ (x.map (·.toNat))) n
    rw [relabel_toNat]⟩

theorem Alike.arrange (h : Alike ord ord') {α : Type} {s : Site} (hs : ∀ t m x, s ≠ 5 :: t :: m :: x) (l : List α) :
    arrange ord' s l = arrange ord s l := by
  unfold Verif.arrange
  rw [h s _ hs]

theorem SameOrders.arrange (h : SameOrders ρ ord ord') {α : Type} {s : Site} (hs : ∀ t m x, s ≠ 5 :: t :: m :: x) (l : List α) :
    arrange ord' s l = arrange ord s l := h.plain.arrange hs l

theorem SameOrders.arrange_label (h : SameOrders ρ ord ord') {α : Type} (t m : Nat) (x : Name) (l : List α) :
    Verif.arrange ord' ([5, t, m] ++ (ρ x).map (·.toNat)) l = Verif.arrange ord ([5, t, m] ++ x.map (·.toNat)) l := by
  unfold Verif.arrange
  have := h.label t m x l.length
  simp only [List.cons_append, List.nil_append]
  rw [this]

/-! ### The graph -/

def rnTasks (ρ : Name → Name) (ts : List (Name × Bool)) : List (Name × Bool) := ts.map (Prod.map ρ id)

def TDG.rn (ρ : Name → Name) (g : TDG) : TDG :=
  { g with tasks := rnTasks ρ g.tasks, methods := g.methods.map (Prod.map ρ (rnHtn ρ)) }

theorem rnTasks_find (hρ : Function.Injective ρ) (ts : List (Name × Bool)) (x : Name) (i : Nat) :
    ((rnTasks ρ ts)[i]?.map (·.1) = some (ρ x)) ↔ (ts[i]?.map (·.1) = some x) := by
  rw [rnTasks, List.getElem?_map]
  cases ts[i]? with
  | none => simp
  | some p => simp [hρ.eq_iff]

theorem taskIndexLast_rn (hρ : Function.Injective ρ) (ts : List (Name × Bool)) (x : Name) :
    taskIndexLast (rnTasks ρ ts) (ρ x) = taskIndexLast ts x := by
  unfold taskIndexLast
  simp only [rnTasks_find hρ]
  rw [rnTasks, List.length_map]

theorem taskIndexFirst_rn (hρ : Function.Injective ρ) (ts : List (Name × Bool)) (x : Name) :
    taskIndexFirst (rnTasks ρ ts) (ρ x) = taskIndexFirst ts x := by
  unfold taskIndexFirst
  simp only [rnTasks_find hρ]
  rw [rnTasks, List.length_map]

theorem tdgTasks_rn : tdgTasks (rnDomain ρ d) = rnTasks ρ (tdgTasks d) := by
  simp [tdgTasks, rnDomain, rnTasks, rnTask, rnAction, Function.comp_def]

theorem methodTasks_rn (hρ : Function.Injective ρ) (ts : List (Name × Bool)) (ms : List Method) :
    methodTasks (rnTasks ρ ts) (ms.map (rnMethod ρ)) = methodTasks ts ms := by
  induction ms with
  | nil => rfl
  | cons m ms ih =>
    have : (rnMethod ρ m).task.name = ρ m.task.name := rfl
    simp only [List.map_cons, methodTasks, this, taskIndexLast_rn hρ, ih]

theorem subtaskIndices_rn (hρ : Function.Injective ρ) (ts : List (Name × Bool)) (ss : List Subtask) :
    subtaskIndices (rnTasks ρ ts) (ss.map (rnSubtask ρ)) = subtaskIndices ts ss := by
  induction ss with
  | nil => rfl
  | cons s ss ih =>
    have : (rnSubtask ρ s).task.name = ρ s.task.name := rfl
    simp only [List.map_cons, subtaskIndices, this, taskIndexLast_rn hρ, ih]

theorem methodSubtasks_rn (hρ : Function.Injective ρ) (ts : List (Name × Bool)) (ms : List Method) :
    methodSubtasks (rnTasks ρ ts) (ms.map (rnMethod ρ)) = methodSubtasks ts ms := by
  induction ms with
  | nil => rfl
  | cons m ms ih =>
    have : (rnMethod ρ m).tn.subtasks = m.tn.subtasks.map (rnSubtask ρ) := rfl
    simp only [List.map_cons, methodSubtasks, this, subtaskIndices_rn hρ, ih]

theorem TDG.new_rn (ha : Alike ord ord') (hρ : Function.Injective ρ) :
    TDG.new ord' (rnDomain ρ d) = (TDG.new ord d).map (TDG.rn ρ) := by
  have hm : (rnDomain ρ d).methods = d.methods.map (rnMethod ρ) := rfl
  unfold TDG.new
  simp only [tdgTasks_rn, hm, methodTasks_rn hρ, methodSubtasks_rn hρ, R.bind_map]
  cases methodTasks (tdgTasks d) d.methods with
  | ok owner =>
    cases methodSubtasks (tdgTasks d) d.methods with
    | ok subs =>
      have hl : (rnTasks ρ (tdgTasks d)).length = (tdgTasks d).length := by rw [rnTasks, List.length_map]
      have a0 : ∀ (t : Nat) (l : List Nat), arrange ord' [0, t] l = arrange ord [0, t] l := fun t l => ha.arrange (by simp) l
      have a1 : ∀ (t : Nat) (l : List Nat), arrange ord' [1, t] l = arrange ord [1, t] l := fun t l => ha.arrange (by simp) l
      have a2 : ∀ (l : List Nat), arrange ord' [2] l = arrange ord [2] l := fun l => ha.arrange (by simp) l
      simp only [R.map, R.bind_ok, TDG.rn, hl, List.map_map, a0, a1, a2]
      rfl
    | _ => rfl
  | _ => rfl

theorem TDG.unit0_rn (hρ : Function.Injective ρ) : (g.rn ρ).unit0 = g.unit0 := by
  unfold TDG.unit0
  have h1 : (g.rn ρ).tasks.filter (·.2) = rnTasks ρ (g.tasks.filter (·.2)) := by
    simp only [TDG.rn, rnTasks, List.filter_map]
    rfl
  rw [h1, rnTasks, List.filterMap_map]
  refine List.filterMap_congr fun t _ => ?_
  have h2 : taskIndexFirst (g.rn ρ).tasks (Prod.map ρ id t).1 = taskIndexFirst g.tasks t.1 := taskIndexFirst_rn hρ _ _
  rw [Function.comp_apply, h2]
  rfl

theorem TDG.nullLoop_rn (n : Nat) (s : NullState) : (g.rn ρ).nullLoop n s = g.nullLoop n s := by
  induction n generalizing s with
  | zero => rfl
  | succ n ih =>
    unfold TDG.nullLoop
    rw [ih]
    rfl

theorem TDG.names_rn (hρ : Function.Injective ρ) (l : List Nat) : (g.rn ρ).names l = (g.names l).map ρ := by
  unfold TDG.names
  rw [← List.dedup_map_of_injective hρ, List.map_filterMap]
  congr 1
  refine List.filterMap_congr fun i _ => ?_
  simp only [TDG.rn, rnTasks, List.getElem?_map, Option.map_map]
  rfl

theorem TDG.nullables_rn (hρ : Function.Injective ρ) (n : Nat) : (g.rn ρ).nullables n = (g.nullables n).map (List.map ρ) := by
  unfold TDG.nullables
  rw [TDG.nullLoop_rn, TDG.unit0_rn hρ, R.bind_map]
  have : (g.rn ρ).null0 = g.null0 := rfl
  rw [this]
  congr 1
  funext l
  rw [TDG.names_rn hρ]
  rfl

theorem nullIndices_rn (hρ : Function.Injective ρ) (l : List Name) : nullIndices (g.rn ρ) (l.map ρ) = nullIndices g l := by
  induction l with
  | nil => rfl
  | cons x xs ih =>
    have h : taskIndexFirst (g.rn ρ).tasks (ρ x) = taskIndexFirst g.tasks x := taskIndexFirst_rn hρ _ _
    simp only [List.map_cons, nullIndices, h, ih]

/-! ### The context of a subtask -/

theorem subIndices_rn (hρ : Function.Injective ρ) (ss : List Subtask) :
    subIndices (g.rn ρ) (ss.map (rnSubtask ρ)) = subIndices g ss := by
  induction ss with
  | nil => rfl
  | cons s ss ih =>
    have h : taskIndexFirst (g.rn ρ).tasks (rnSubtask ρ s).task.name = taskIndexFirst g.tasks s.task.name :=
      taskIndexFirst_rn hρ _ _
    simp only [List.map_cons, subIndices, h, ih]

theorem occurrences_rn (hρ : Function.Injective ρ) (h : HTN) (x : Name) :
    occurrences (rnHtn ρ h) (ρ x) = (occurrences h x).map ρ := by
  unfold occurrences
  rw [← List.dedup_map_of_injective hρ, List.map_filterMap]
  congr 1
  have : (rnHtn ρ h).subtasks = h.subtasks.map (rnSubtask ρ) := rfl
  rw [this, List.filterMap_map]
  refine List.filterMap_congr fun s _ => ?_
  obtain ⟨id, t, ts⟩ := s
  cases id with
  | none => rfl
  | some i =>
    simp only [Function.comp_apply, rnSubtask, rnSymbol, Option.map_some, hρ.eq_iff]
    split <;> rfl

theorem idToTask_rn (hρ : Function.Injective ρ) (h : HTN) (x : Name) :
    idToTask (rnHtn ρ h) (ρ x) = (idToTask h x).map ρ := by
  unfold idToTask
  have : (rnHtn ρ h).subtasks = h.subtasks.map (rnSubtask ρ) := rfl
  rw [this, ← List.map_reverse, List.find?_map, Option.map_map, Option.map_map]
  congr 1
  congr 1
  funext s
  obtain ⟨id, t, ts⟩ := s
  cases id with
  | none => rfl
  | some i => simp [rnSubtask, rnSymbol, hρ.eq_iff]

theorem successors_rn (hρ : Function.Injective ρ) (os : List (Name × Name)) (x : Name) :
    successors (os.map (Prod.map ρ ρ)) (ρ x) = (successors os x).map ρ := by
  unfold successors
  rw [← List.dedup_map_of_injective hρ, List.filter_map, List.map_map, List.map_map]
  congr 1
  have : ((fun e : Name × Name => decide (e.1 = ρ x)) ∘ Prod.map ρ ρ) = fun e => decide (e.1 = x) := by
    funext e
    simp [hρ.eq_iff]
  rw [this]
  rfl

theorem prefixLoop_rn (hρ : Function.Injective ρ) (os : List (Name × Name)) (occ : List Name)
    (hk : ∀ x ∈ occ, ∀ e ∈ os, (ρ x <:+: ρ e.2 ↔ x <:+: e.2)) (n : Nat) (st : List Name) :
    prefixLoop (os.map (Prod.map ρ ρ)) (occ.map ρ) n (st.map ρ) = prefixLoop os occ n st := by
  induction n generalizing st with
  | zero => cases st <;> rfl
  | succ n ih =>
    cases st with
    | nil => rfl
    | cons t st =>
      simp only [List.map_cons, prefixLoop]
      have h1 : ((successors (os.map (Prod.map ρ ρ)) (ρ t)).flatMap fun o => (occ.map ρ).filter fun x => isSubstr x o) =
          ((successors os t).flatMap fun o => occ.filter fun x => isSubstr x o).map ρ := by
        rw [successors_rn hρ, List.flatMap_map, List.map_flatMap]
        refine List.flatMap_congr fun o ho => ?_
        rw [List.filter_map]
        congr 1
        refine List.filter_congr fun x hx => ?_
        rw [Bool.eq_iff_iff, Function.comp_apply, isSubstr_iff, isSubstr_iff]
        exact hk x hx (t, o) (mem_successors.mp ho)
      rw [h1, List.map_map, ← ih]
      congr 1
      rw [List.map_append, List.map_map]
      rfl

theorem suffixLoop_rn (ha : SameOrders ρ ord ord') (hρ : Function.Injective ρ) (t m : Nat) (os : List (Name × Name)) (n : Nat) (st acc : List Name) :
    suffixLoop ord' [5, t, m] (os.map (Prod.map ρ ρ)) n (st.map ρ) (acc.map ρ) =
      (suffixLoop ord [5, t, m] os n st acc).map (List.map ρ) := by
  induction n generalizing st acc with
  | zero => cases st <;> rfl
  | succ n ih =>
    cases st with
    | nil => rfl
    | cons x st =>
      simp only [List.map_cons, suffixLoop]
      rw [ha.arrange_label, successors_rn hρ, arrange_map, ← List.map_reverse, ← List.map_append, ← List.map_append, ih]

theorem idIndices_rn (hρ : Function.Injective ρ) (h : HTN) (l : List Name) :
    idIndices (g.rn ρ) (rnHtn ρ h) (l.map ρ) = idIndices g h l := by
  induction l with
  | nil => rfl
  | cons x xs ih =>
    simp only [List.map_cons, idIndices, idToTask_rn hρ]
    cases idToTask h x with
    | none => rfl
    | some t =>
      have h : taskIndexFirst (g.rn ρ).tasks (ρ t) = taskIndexFirst g.tasks t := taskIndexFirst_rn hρ _ _
      simp only [Option.map_some, h, ih]

/-- The indices of a path are those of tasks and methods. -/
def TDG.InRange (g : TDG) (c : List (Nat × Nat)) : Prop := ∀ p ∈ c, p.1 < g.tasks.length ∧ p.2 < g.methods.length

theorem TDG.taskName_rn {t : Nat} (h : t < g.tasks.length) : (g.rn ρ).taskName t = ρ (g.taskName t) := by
  simp [TDG.taskName, TDG.rn, rnTasks, List.getElem?_eq_getElem h]

theorem TDG.method_rn {m : Nat} (h : m < g.methods.length) :
    (g.rn ρ).method m = (ρ (g.method m).1, rnHtn ρ (g.method m).2) := by
  simp [TDG.method, TDG.rn, List.getElem?_eq_getElem h]
  rfl

theorem findIdx_rn (hρ : Function.Injective ρ) (ss : List Subtask) (x : Name) :
    ((ss.map (rnSubtask ρ)).findIdx? fun s => decide (s.task.name = ρ x)) = ss.findIdx? fun s => decide (s.task.name = x) := by
  rw [List.findIdx?_map]
  congr 1
  funext s
  simp [rnSubtask, rnSymbol, hρ.eq_iff]

theorem mem_occurrences' {h : HTN} {x l : Name} (hl : l ∈ occurrences h x) : ∃ s ∈ h.subtasks, ∃ i, s.id = some i ∧ i.name = l := by
  unfold occurrences at hl
  rw [List.mem_dedup, List.mem_filterMap] at hl
  obtain ⟨s, hs, h1⟩ := hl
  refine ⟨s, hs, ?_⟩
  split at h1
  · rename_i i hi
    split at h1
    · exact ⟨i, hi, Option.some.inj h1⟩
    · cases h1
  · cases h1

theorem TDG.getPrefix_rn (ha : SameOrders ρ ord ord') (hρ : Function.Injective ρ) (hk : ∀ p ∈ g.methods, KeepsLabels ρ p.2) (fuel : Nat) {t m : Nat}
    (ht : t < g.tasks.length) (hm : m < g.methods.length) :
    (g.rn ρ).getPrefix ord' fuel t m = g.getPrefix ord fuel t m := by
  have hk := hk _ (List.getElem_mem hm)
  have he : (g.method m).2 = (g.methods[m]).2 := by simp [TDG.method, List.getElem?_eq_getElem hm]
  rw [← he] at hk
  unfold TDG.getPrefix
  simp only [TDG.taskName_rn ht, TDG.method_rn hm]
  generalize (g.method m).2 = h at hk
  obtain ⟨ss, op, os, cs⟩ := h
  cases os with
  | total =>
    simp only [rnHtn, rnOrdering, findIdx_rn hρ]
    split
    · rw [← List.map_take, subIndices_rn hρ]
    · rfl
  | partial_ os =>
    have h1 : (rnHtn ρ ⟨ss, op, .partial_ os, cs⟩).orderings = .partial_ (os.map (Prod.map ρ ρ)) := rfl
    have h2 : (rnHtn ρ ⟨ss, op, .partial_ os, cs⟩).subtasks.length = ss.length := by simp [rnHtn]
    simp only [h1, h2, List.length_map, occurrences_rn hρ, arrange_map, ← List.map_reverse]
    split
    · rfl
    · rw [prefixLoop_rn hρ]
      · rw [ha.arrange (by simp)]
      · intro x hx e he
        obtain ⟨s, hs, i, hi, rfl⟩ := mem_occurrences' hx
        exact hk os rfl s hs i hi e he

theorem TDG.getSuffix_rn (ha : SameOrders ρ ord ord') (hρ : Function.Injective ρ) (fuel : Nat) {t m : Nat}
    (ht : t < g.tasks.length) (hm : m < g.methods.length) :
    (g.rn ρ).getSuffix ord' fuel t m = g.getSuffix ord fuel t m := by
  unfold TDG.getSuffix
  simp only [TDG.taskName_rn ht, TDG.method_rn hm]
  generalize (g.method m).2 = h
  obtain ⟨ss, op, os, cs⟩ := h
  cases os with
  | total =>
    simp only [rnHtn, rnOrdering, findIdx_rn hρ]
    split
    · rw [← List.map_drop, subIndices_rn hρ]
    · rfl
  | partial_ os =>
    have h1 : (rnHtn ρ ⟨ss, op, .partial_ os, cs⟩).orderings = .partial_ (os.map (Prod.map ρ ρ)) := rfl
    have h2 : (rnHtn ρ ⟨ss, op, .partial_ os, cs⟩).subtasks.length = ss.length := by simp [rnHtn]
    simp only [h1, h2, List.length_map, occurrences_rn hρ, arrange_map, ← List.map_reverse]
    split
    · rfl
    · have h3 := suffixLoop_rn ha hρ t m os fuel (arrange ord [4, t, m] (occurrences ⟨ss, op, .partial_ os, cs⟩ (g.taskName t))).reverse []
      have h4 : arrange ord' [4, t, m] (occurrences ⟨ss, op, .partial_ os, cs⟩ (g.taskName t)) =
        arrange ord [4, t, m] (occurrences ⟨ss, op, .partial_ os, cs⟩ (g.taskName t)) := ha.arrange (by simp) _
      rw [h4]
      rw [List.map_nil] at h3
      rw [h3, R.map_bind]
      congr 1
      funext ids
      exact idIndices_rn hρ _ _

/-! ### The search -/

theorem TDG.cycleInfo_rn (ha : SameOrders ρ ord ord') (hρ : Function.Injective ρ) (hk : ∀ p ∈ g.methods, KeepsLabels ρ p.2) (fuel : Nat) (nulls : List Nat)
    (x : Nat) : ∀ c : List (Nat × Nat), g.InRange c →
    (g.rn ρ).cycleInfo ord' fuel nulls x c = g.cycleInfo ord fuel nulls x c
  | [], _ => rfl
  | [_], _ => rfl
  | (t0, m) :: (t, m') :: rest, h => by
    have h1 := h (t0, m) (.head _)
    have h2 := h (t, m') (.tail _ (.head _))
    have h3 := TDG.cycleInfo_rn ha hρ hk fuel nulls x ((t, m') :: rest) fun p hp => h p (.tail _ hp)
    simp only [TDG.cycleInfo, TDG.getPrefix_rn ha hρ hk fuel h2.1 h1.2, TDG.getSuffix_rn ha hρ fuel h2.1 h1.2, h3]

theorem updateRec_rn (rt : RecType) (eps : Bool) (suffix nulls : List Nat) (c : List (Name × Name)) :
    updateRec (rnRec ρ rt) eps suffix nulls (c.map (rnPair ρ)) = rnRec ρ (updateRec rt eps suffix nulls c) := by
  cases rt <;> simp only [rnRec, updateRec] <;> repeat' split
  all_goals first | rfl | simp_all

theorem TDG.cycleNames_rn {c : List (Nat × Nat)} (h : g.InRange c) : (g.rn ρ).cycleNames c = (g.cycleNames c).map (rnPair ρ) := by
  unfold TDG.cycleNames
  rw [List.map_map]
  refine List.map_congr_left fun p hp => ?_
  rw [TDG.taskName_rn (h p hp).1, TDG.method_rn (h p hp).2]
  rfl

/-- The edges of a graph lead to its tasks and methods. -/
structure TDG.Closed (g : TDG) : Prop where
  methodsOf : ∀ t, ∀ m ∈ g.methodsOf t, t < g.tasks.length ∧ m < g.methods.length
  tasksOf : ∀ m, ∀ t ∈ g.tasksOf m, t < g.tasks.length ∧ m < g.methods.length

theorem cycleFrom_sub {path c : List (Nat × Nat)} {x : Nat} (h : cycleFrom path x = some c) : ∀ p ∈ c, p ∈ path := by
  unfold cycleFrom at h
  split at h
  · cases h
  · cases h
    exact fun p hp => (List.dropWhile_sublist _).subset hp

theorem TDG.expand_rn (ha : SameOrders ρ ord ord') (hρ : Function.Injective ρ) (hk : ∀ p ∈ g.methods, KeepsLabels ρ p.2) (hc : g.Closed) (fuel : Nat)
    (nulls : List Nat) (path : List (Nat × Nat)) (hp : g.InRange path) (m : Nat) (hm : m < g.methods.length) :
    ∀ (xs : List Nat), (∀ x ∈ xs, x < g.tasks.length) → ∀ (st : List (List (Nat × Nat))), (∀ p ∈ st, g.InRange p) → ∀ rt : RecType,
    (g.rn ρ).expand ord' fuel nulls path m xs st (rnRec ρ rt) =
      (g.expand ord fuel nulls path m xs st rt).map (Prod.map id (rnRec ρ)) ∧
    ∀ st' rt', g.expand ord fuel nulls path m xs st rt = .ok (st', rt') → ∀ p ∈ st', g.InRange p
  | [], _, st, hst, rt => ⟨rfl, fun st' rt' h => by cases h; exact hst⟩
  | x :: xs, hxs, st, hst, rt => by
    have hx := hxs x (.head _)
    have hxs := fun y hy => hxs y (.tail _ hy)
    simp only [TDG.expand]
    cases hcy : cycleFrom path x with
    | some c =>
      have hr : g.InRange (c ++ [(x, m)]) := by
        intro p h
        rcases List.mem_append.mp h with h | h
        · exact hp p (cycleFrom_sub hcy p h)
        · rw [List.mem_singleton] at h; subst h; exact ⟨hx, hm⟩
      simp only [TDG.cycleInfo_rn ha hρ hk fuel nulls x _ hr, TDG.cycleNames_rn hr, updateRec_rn]
      cases g.cycleInfo ord fuel nulls x (c ++ [(x, m)]) with
      | ok r => exact TDG.expand_rn ha hρ hk hc fuel nulls path hp m hm xs hxs st hst _
      | _ => exact ⟨rfl, fun _ _ h => by cases h⟩
    | none =>
      refine TDG.expand_rn ha hρ hk hc fuel nulls path hp m hm xs hxs _ (fun p h => ?_) rt
      rcases List.mem_append.mp h with h | h
      · rw [List.mem_reverse, List.mem_map] at h
        obtain ⟨m', hm', rfl⟩ := h
        intro q hq
        rcases List.mem_append.mp hq with hq | hq
        · exact hp q hq
        · rw [List.mem_singleton] at hq; subst hq; exact hc.methodsOf x m' hm'
      · exact hst p h

theorem TDG.recLoop_rn (ha : SameOrders ρ ord ord') (hρ : Function.Injective ρ) (hk : ∀ p ∈ g.methods, KeepsLabels ρ p.2) (hc : g.Closed) (fuel : Nat)
    (nulls : List Nat) (n : Nat) (st : List (List (Nat × Nat))) (hst : ∀ p ∈ st, g.InRange p) (rt : RecType) :
    (g.rn ρ).recLoop ord' fuel nulls n st (rnRec ρ rt) = (g.recLoop ord fuel nulls n st rt).map (rnRec ρ) := by
  induction n generalizing st rt with
  | zero => cases st <;> rfl
  | succ n ih =>
    cases st with
    | nil => rfl
    | cons path st =>
      have hp := hst path (.head _)
      have hst := fun p h => hst p (.tail _ h)
      simp only [TDG.recLoop]
      cases hl : path.getLast? with
      | none => exact ih st hst rt
      | some q =>
        obtain ⟨t, m⟩ := q
        have hq := hp _ (List.mem_of_getLast? hl)
        obtain ⟨h1, h2⟩ := TDG.expand_rn ha hρ hk hc fuel nulls path hp m hq.2 (g.tasksOf m)
          (fun x hx => (hc.tasksOf m x hx).1) st hst rt
        have h3 : (g.rn ρ).tasksOf m = g.tasksOf m := rfl
        simp only [h3]
        rw [h1, R.map_bind, R.bind_map]
        cases he : g.expand ord fuel nulls path m (g.tasksOf m) st rt with
        | ok r => exact ih r.1 (h2 r.1 r.2 he) r.2
        | _ => rfl

theorem TDG.recursionType_rn (ha : SameOrders ρ ord ord') (hρ : Function.Injective ρ) (hk : ∀ p ∈ g.methods, KeepsLabels ρ p.2) (hc : g.Closed) (fuel : Nat)
    (ns : List Name) :
    (g.rn ρ).recursionType ord' fuel (ns.map ρ) = (g.recursionType ord fuel ns).map (rnRec ρ) := by
  unfold TDG.recursionType
  rw [nullIndices_rn hρ, R.bind_map]
  congr 1
  funext nulls
  refine TDG.recLoop_rn ha hρ hk hc fuel nulls fuel _ (fun p hp => ?_) .nonRecursive
  rw [List.mem_reverse, List.mem_flatMap] at hp
  obtain ⟨t, _, hp⟩ := hp
  obtain ⟨m, hm, rfl⟩ := List.mem_map.mp hp
  intro q hq
  rw [List.mem_singleton] at hq; subst hq
  exact hc.methodsOf t m hm

theorem taskIndexLast_lt {ts : List (Name × Bool)} {x : Name} {i : Nat} (h : taskIndexLast ts x = some i) : i < ts.length := by
  have := List.mem_of_find?_eq_some h
  simpa using this

theorem TDG.Of.closed (h : g.Of d) : g.Closed := by
  have hm : ∀ m mm, d.methods[m]? = some mm → m < g.methods.length := fun m mm hm => by
    rw [h.methods, List.length_map]
    exact (List.getElem?_eq_some_iff.mp hm).1
  refine ⟨fun t m hmt => ?_, fun m t hmt => ?_⟩
  · obtain ⟨mm, h1, h2⟩ := (h.mem_methodsOf t m).mp hmt
    rw [← h.tasks] at h2
    exact ⟨taskIndexLast_lt h2, hm m mm h1⟩
  · obtain ⟨mm, h1, s, _, h2⟩ := (h.mem_tasksOf m t).mp hmt
    rw [← h.tasks] at h2
    exact ⟨taskIndexLast_lt h2, hm m mm h1⟩

theorem TDG.bfs_rn (n : Nat) (q v r : List Nat) : (g.rn ρ).bfs n q v r = g.bfs n q v r := by
  induction n generalizing q v r with
  | zero => cases q <;> rfl
  | succ n ih =>
    cases q with
    | nil => rfl
    | cons t q =>
      simp only [TDG.bfs, ih]
      rfl

theorem TDG.reachable_rn (hρ : Function.Injective ρ) (n : Nat) (x : Name) : (g.rn ρ).reachable n (ρ x) =
    (g.reachable n x).map fun r => ⟨r.primitives.map ρ, r.compounds.map ρ, r.nullable⟩ := by
  have h : taskIndexFirst (g.rn ρ).tasks (ρ x) = taskIndexFirst g.tasks x := taskIndexFirst_rn hρ _ _
  unfold TDG.reachable
  rw [h]
  cases taskIndexFirst g.tasks x with
  | none => rfl
  | some i =>
    have h1 : ∀ j : Nat, (g.rn ρ).tasks[j]? = (g.tasks[j]?).map (Prod.map ρ id) := fun j => by
      simp only [TDG.rn, rnTasks, List.getElem?_map]
    have h2 : ∀ j : Nat, ((g.rn ρ).tasks[j]?).map (·.2) = (g.tasks[j]?).map (·.2) := fun j => by
      rw [h1, Option.map_map]
      rfl
    have h3 : (g.rn ρ).tasks.length = g.tasks.length := by simp [TDG.rn, rnTasks]
    have key : ∀ b : R (List Nat), (b.bind fun reach => ((g.rn ρ).nullables n).bind fun nulls =>
        R.ok (ReachableSet.mk ((g.rn ρ).names ((List.range (g.rn ρ).tasks.length).filter fun j =>
            (j ∈ reach) && ((g.rn ρ).tasks[j]?.map (·.2)) == some false))
          ((g.rn ρ).names ((List.range (g.rn ρ).tasks.length).filter fun j =>
            (j ∈ reach) && ((g.rn ρ).tasks[j]?.map (·.2)) == some true)) (ρ x ∈ nulls))) =
        (b.bind fun reach => (g.nullables n).bind fun nulls =>
        R.ok (ReachableSet.mk (g.names ((List.range g.tasks.length).filter fun j =>
            (j ∈ reach) && (g.tasks[j]?.map (·.2)) == some false))
          (g.names ((List.range g.tasks.length).filter fun j =>
            (j ∈ reach) && (g.tasks[j]?.map (·.2)) == some true)) (x ∈ nulls))).map
          fun r => ⟨r.primitives.map ρ, r.compounds.map ρ, r.nullable⟩ := by
      intro b
      rw [TDG.nullables_rn hρ, R.bind_map]
      congr 1
      funext reach
      rw [R.map_bind, R.bind_map]
      congr 1
      funext nulls
      simp only [h2, h3, TDG.names_rn hρ, List.mem_map_of_injective hρ]
      rfl
    have h4 := h1 i
    cases hi : g.tasks[i]? with
    | none =>
      rw [hi] at h4
      simp only [Option.map_none] at h4
      simp only [h4, hi, TDG.bfs_rn]
      exact key _
    | some p =>
      obtain ⟨y, b⟩ := p
      rw [hi] at h4
      simp only [Option.map_some, Prod.map, id] at h4
      cases b with
      | false => simp only [h4, hi]; rfl
      | true =>
        simp only [h4, hi, TDG.bfs_rn]
        exact key _

theorem collectWarnings_rn (hρ : Function.Injective ρ) (n : Nat) (ts : List Task) :
    collectWarnings (g.rn ρ) n (ts.map (rnTask ρ)) = (collectWarnings g n ts).map (List.map fun w => ⟨ρ w.symbol, 0⟩) := by
  induction ts with
  | nil => rfl
  | cons t ts ih =>
    have h : (rnTask ρ t).name = ρ t.name := rfl
    simp only [List.map_cons, collectWarnings, h, TDG.reachable_rn hρ, ih, R.map_bind, R.bind_map]
    congr 1
    funext r
    congr 1
    funext ws
    simp only [List.length_map, R.map, R.bind_ok]
    split <;> rfl

/-- The warnings of a domain, domain_analyzer.rs:201-210. -/
def warningsOf (ord : HashOrd) (fuel : Nat) (d : DomainAST) : R (List Warning) :=
  (TDG.new ord d).bind fun tdg => collectWarnings tdg fuel (arrange ord [10] d.tasks)

theorem warningsOf_rn (hρ : Function.Injective ρ) (n : Nat) :
    warningsOf ord n (rnDomain ρ d) = (warningsOf ord n d).map (List.map fun w => ⟨ρ w.symbol, 0⟩) := by
  unfold warningsOf
  rw [TDG.new_rn (fun _ _ _ => rfl) hρ, R.map_bind, R.bind_map]
  congr 1
  funext g
  rw [← collectWarnings_rn hρ, ← arrange_map]
  rfl

/-- The metadata of a domain, lib.rs:65-75. -/
def metadataOf (ord : HashOrd) (fuel : Nat) (d : DomainAST) : R MetaData :=
  (TDG.new ord d).bind fun tdg =>
  (tdg.nullables fuel).bind fun nulls =>
  (tdg.recursionType ord fuel nulls).bind fun rt =>
    .ok ⟨rt, arrange ord [20] nulls, [], d.actions.length, d.tasks.length, d.methods.length⟩

theorem metadataOf_rn (ha : SameOrders ρ ord ord') (hρ : Function.Injective ρ) (hk : ∀ m ∈ d.methods, KeepsLabels ρ m.tn) (fuel : Nat) :
    metadataOf ord' fuel (rnDomain ρ d) = (metadataOf ord fuel d).map (rnMeta ρ) := by
  unfold metadataOf
  rw [TDG.new_rn ha.plain hρ, R.map_bind, R.bind_map]
  cases hg : TDG.new ord d with
  | ok g =>
    have hof := TDG.new_of hg
    have hk : ∀ p ∈ g.methods, KeepsLabels ρ p.2 := by
      rw [hof.methods]
      intro p hp
      obtain ⟨m, hm, rfl⟩ := List.mem_map.mp hp
      exact hk m hm
    simp only [R.bind_ok]
    rw [TDG.nullables_rn hρ, R.map_bind, R.bind_map]
    congr 1
    funext ns
    rw [TDG.recursionType_rn ha hρ hk hof.closed, R.map_bind, R.bind_map]
    congr 1
    funext rt
    simp only [R.map, R.bind_ok, rnMeta, arrange_map, rnDomain, List.length_map]
    rw [ha.arrange (by simp)]
  | _ => rfl

end Verif
