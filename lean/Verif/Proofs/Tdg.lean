import Verif.Proofs.Budget

/-! The task decomposition graph: construction, and termination of the searches in it. -/

namespace Verif

open Spec

/-! ### Indices of names -/

theorem taskIndexLast_some {tasks : List (Name × Bool)} {x : Name} {i : Nat} (h : taskIndexLast tasks x = some i) :
    i < tasks.length ∧ tasks[i]?.map (·.1) = some x := by
  have h1 := List.mem_of_find?_eq_some h
  have h2 := List.find?_some h
  exact ⟨by simpa using h1, by simpa using h2⟩

theorem taskIndexLast_none {tasks : List (Name × Bool)} {x : Name} :
    taskIndexLast tasks x = none ↔ ∀ e ∈ tasks, e.1 ≠ x := by
  unfold taskIndexLast
  rw [List.find?_eq_none]
  simp only [List.mem_reverse, List.mem_range, decide_eq_true_eq]
  constructor
  · intro h e he hx
    obtain ⟨i, hi, rfl⟩ := List.mem_iff_getElem.mp he
    exact h i hi (by simp [hi, hx])
  · intro h i hi hx
    rw [List.getElem?_eq_getElem hi] at hx
    exact h _ (List.getElem_mem hi) (by simpa using hx)

theorem taskIndexFirst_some {tasks : List (Name × Bool)} {x : Name} {i : Nat} (h : taskIndexFirst tasks x = some i) :
    i < tasks.length ∧ tasks[i]?.map (·.1) = some x := by
  have h1 := List.mem_of_find?_eq_some h
  have h2 := List.find?_some h
  exact ⟨by simpa using h1, by simpa using h2⟩

theorem taskIndexFirst_none {tasks : List (Name × Bool)} {x : Name} :
    taskIndexFirst tasks x = none ↔ ∀ e ∈ tasks, e.1 ≠ x := by
  unfold taskIndexFirst
  rw [List.find?_eq_none]
  simp only [List.mem_range, decide_eq_true_eq]
  constructor
  · intro h e he hx
    obtain ⟨i, hi, rfl⟩ := List.mem_iff_getElem.mp he
    exact h i hi (by simp [hi, hx])
  · intro h i hi hx
    rw [List.getElem?_eq_getElem hi] at hx
    exact h _ (List.getElem_mem hi) (by simpa using hx)

/-- The first occurrence, if names are given by a list with an initial part without repetitions. -/
theorem taskIndexFirst_min {tasks : List (Name × Bool)} {x : Name} {i j : Nat} (h : taskIndexFirst tasks x = some i)
    (hj : tasks[j]?.map (·.1) = some x) : i ≤ j := by
  unfold taskIndexFirst at h
  rw [List.find?_range_eq_some] at h
  by_contra hlt
  exact absurd hj (by simpa using h.2.2 j (by omega))

theorem taskIndexLast_max {tasks : List (Name × Bool)} {x : Name} {i j : Nat} (h : taskIndexLast tasks x = some i)
    (hj : tasks[j]?.map (·.1) = some x) : j ≤ i := by
  unfold taskIndexLast at h
  obtain ⟨as, bs, h1, h2⟩ := (List.find?_eq_some_iff_append.mp h).2
  by_contra hlt
  have hjl : j < tasks.length := by
    by_contra hge
    rw [List.getElem?_eq_none (by omega)] at hj
    cases hj
  have hsort : ((List.range tasks.length).reverse).Pairwise (· > ·) := by
    rw [List.pairwise_reverse]
    exact List.pairwise_lt_range
  have hmem : j ∈ (List.range tasks.length).reverse := by simpa using hjl
  rw [h1] at hmem hsort
  rcases List.mem_append.mp hmem with hm | hm
  · exact absurd hj (by simpa using h2 j hm)
  · rcases List.mem_cons.mp hm with rfl | hm
    · omega
    · have := (List.pairwise_cons.mp (List.pairwise_append.mp hsort).2.1).1 j hm
      omega

/-- Whether names are unique. -/
def UniqueNames (tasks : List (Name × Bool)) : Prop := (tasks.map (·.1)).Nodup

theorem UniqueNames.inj {tasks : List (Name × Bool)} (h : UniqueNames tasks) {x : Name} {i j : Nat}
    (hi : tasks[i]?.map (·.1) = some x) (hj : tasks[j]?.map (·.1) = some x) : i = j := by
  rw [← List.getElem?_map] at hi hj
  obtain ⟨h1, _⟩ := List.getElem?_eq_some_iff.mp hi
  exact (List.getElem?_inj h1 h).mp (hi.trans hj.symm)

theorem taskIndexLast_iff {tasks : List (Name × Bool)} (h : UniqueNames tasks) {x : Name} {i : Nat} :
    taskIndexLast tasks x = some i ↔ tasks[i]?.map (·.1) = some x := by
  constructor
  · exact fun h => (taskIndexLast_some h).2
  · intro hi
    cases hl : taskIndexLast tasks x with
    | none =>
      obtain ⟨e, he, hx⟩ := Option.map_eq_some_iff.mp hi
      exact absurd hx (taskIndexLast_none.mp hl e (List.mem_of_getElem? he))
    | some j => rw [h.inj hi (taskIndexLast_some hl).2]

theorem taskIndexFirst_iff {tasks : List (Name × Bool)} (h : UniqueNames tasks) {x : Name} {i : Nat} :
    taskIndexFirst tasks x = some i ↔ tasks[i]?.map (·.1) = some x := by
  constructor
  · exact fun h => (taskIndexFirst_some h).2
  · intro hi
    cases hl : taskIndexFirst tasks x with
    | none =>
      obtain ⟨e, he, hx⟩ := Option.map_eq_some_iff.mp hi
      exact absurd hx (taskIndexFirst_none.mp hl e (List.mem_of_getElem? he))
    | some j => rw [h.inj hi (taskIndexFirst_some hl).2]

/-! ### Construction -/

theorem methodTasks_ok {tasks : List (Name × Bool)} : ∀ {ms : List Method} {r : List Nat},
    methodTasks tasks ms = .ok r ↔ ms.map (fun m => taskIndexLast tasks m.task.name) = r.map some
  | [], r => by cases r <;> simp [methodTasks]
  | m :: ms, r => by
    rw [methodTasks]
    cases h : taskIndexLast tasks m.task.name with
    | none => cases r <;> simp [h]
    | some i =>
      simp only [R.bind_ok_iff, List.map_cons, h]
      constructor
      · rintro ⟨r', h1, h2⟩
        cases h2
        simp [methodTasks_ok.mp h1]
      · intro h'
        cases r with
        | nil => simp at h'
        | cons j r' =>
          simp only [List.map_cons, List.cons.injEq, Option.some.injEq] at h'
          exact ⟨r', methodTasks_ok.mpr h'.2, by rw [h'.1]⟩

theorem methodTasks_else {tasks : List (Name × Bool)} : ∀ {ms : List Method},
    (∃ r, methodTasks tasks ms = .ok r) ∨
      (methodTasks tasks ms = .panic .tdgTask ∧ ∃ m ∈ ms, taskIndexLast tasks m.task.name = none)
  | [] => .inl ⟨[], rfl⟩
  | m :: ms => by
    rw [methodTasks]
    cases h : taskIndexLast tasks m.task.name with
    | none => exact .inr ⟨rfl, m, List.mem_cons_self .., h⟩
    | some i =>
      rcases methodTasks_else (tasks := tasks) (ms := ms) with ⟨r, hr⟩ | ⟨hr, m', h1, h2⟩
      · exact .inl ⟨i :: r, by simp [hr]⟩
      · exact .inr ⟨by simp [hr], m', List.mem_cons_of_mem _ h1, h2⟩

theorem subtaskIndices_ok {tasks : List (Name × Bool)} : ∀ {ms : List Subtask} {r : List Nat},
    subtaskIndices tasks ms = .ok r ↔ ms.map (fun m => taskIndexLast tasks m.task.name) = r.map some
  | [], r => by cases r <;> simp [subtaskIndices]
  | m :: ms, r => by
    rw [subtaskIndices]
    cases h : taskIndexLast tasks m.task.name with
    | none => cases r <;> simp [h]
    | some i =>
      simp only [R.bind_ok_iff, List.map_cons, h]
      constructor
      · rintro ⟨r', h1, h2⟩
        cases h2
        simp [subtaskIndices_ok.mp h1]
      · intro h'
        cases r with
        | nil => simp at h'
        | cons j r' =>
          simp only [List.map_cons, List.cons.injEq, Option.some.injEq] at h'
          exact ⟨r', subtaskIndices_ok.mpr h'.2, by rw [h'.1]⟩

theorem subtaskIndices_else {tasks : List (Name × Bool)} : ∀ {ms : List Subtask},
    (∃ r, subtaskIndices tasks ms = .ok r) ∨
      (subtaskIndices tasks ms = .panic .tdgSubtask ∧ ∃ m ∈ ms, taskIndexLast tasks m.task.name = none)
  | [] => .inl ⟨[], rfl⟩
  | m :: ms => by
    rw [subtaskIndices]
    cases h : taskIndexLast tasks m.task.name with
    | none => exact .inr ⟨rfl, m, List.mem_cons_self .., h⟩
    | some i =>
      rcases subtaskIndices_else (tasks := tasks) (ms := ms) with ⟨r, hr⟩ | ⟨hr, m', h1, h2⟩
      · exact .inl ⟨i :: r, by simp [hr]⟩
      · exact .inr ⟨by simp [hr], m', List.mem_cons_of_mem _ h1, h2⟩

theorem methodSubtasks_ok {tasks : List (Name × Bool)} : ∀ {ms : List Method} {r : List (List Nat)},
    methodSubtasks tasks ms = .ok r ↔
      ms.map (fun m => m.tn.subtasks.map fun s => taskIndexLast tasks s.task.name) = r.map (fun l => l.map some)
  | [], r => by cases r <;> simp [methodSubtasks]
  | m :: ms, r => by
    rw [methodSubtasks]
    simp only [R.bind_ok_iff, List.map_cons]
    constructor
    · rintro ⟨i, h1, r', h2, h3⟩
      cases h3
      simp [methodSubtasks_ok.mp h2, subtaskIndices_ok.mp h1]
    · intro h'
      cases r with
      | nil => simp at h'
      | cons j r' =>
        simp only [List.map_cons, List.cons.injEq] at h'
        exact ⟨j, subtaskIndices_ok.mpr h'.1, r', methodSubtasks_ok.mpr h'.2, rfl⟩

theorem methodSubtasks_else {tasks : List (Name × Bool)} : ∀ {ms : List Method},
    (∃ r, methodSubtasks tasks ms = .ok r) ∨ (methodSubtasks tasks ms = .panic .tdgSubtask ∧
      ∃ m ∈ ms, ∃ s ∈ m.tn.subtasks, taskIndexLast tasks s.task.name = none)
  | [] => .inl ⟨[], rfl⟩
  | m :: ms => by
    rw [methodSubtasks]
    rcases subtaskIndices_else (tasks := tasks) (ms := m.tn.subtasks) with ⟨i, hi⟩ | ⟨hi, s, h1, h2⟩
    · rcases methodSubtasks_else (tasks := tasks) (ms := ms) with ⟨r, hr⟩ | ⟨hr, m', h1, h2⟩
      · exact .inl ⟨i :: r, by simp [hi, hr]⟩
      · exact .inr ⟨by simp [hi, hr], m', List.mem_cons_of_mem _ h1, h2⟩
    · exact .inr ⟨by simp [hi], m, List.mem_cons_self .., s, h1, h2⟩

/-- The name of a task or action of the domain. -/
def TaskName (d : DomainAST) (x : Name) : Prop := (∃ t ∈ d.tasks, t.name = x) ∨ ∃ a ∈ d.actions, a.name = x

theorem index_none {d : DomainAST} {x : Name} : taskIndexLast (tdgTasks d) x = none ↔ ¬ TaskName d x := by
  rw [taskIndexLast_none]
  unfold tdgTasks TaskName
  constructor
  · rintro h (⟨t, ht, hx⟩ | ⟨t, ht, hx⟩)
    · exact h (t.name, true) (List.mem_append_left _ (List.mem_map.mpr ⟨t, ht, rfl⟩)) hx
    · exact h (t.name, false) (List.mem_append_right _ (List.mem_map.mpr ⟨t, ht, rfl⟩)) hx
  · intro h e he hx
    simp only [List.mem_append, List.mem_map] at he
    rcases he with ⟨t, ht, rfl⟩ | ⟨t, ht, rfl⟩
    · exact h (.inl ⟨t, ht, hx⟩)
    · exact h (.inr ⟨t, ht, hx⟩)

/-- Tasks and subtasks of methods are declared. -/
def Closed (d : DomainAST) : Prop := ∀ m ∈ d.methods, TaskName d m.task.name ∧
  ∀ s ∈ m.tn.subtasks, TaskName d s.task.name

theorem DomainOk.closed {d : DomainAST} (h : DomainOk d) : Verif.Closed d := by
  intro m hm
  obtain ⟨t, ht, he, _⟩ := (h.methods m hm).task
  refine ⟨.inl ⟨t, ht, he⟩, fun s hs => ?_⟩
  obtain ⟨ps, hc, _⟩ := (h.methods m hm).subtasks s hs
  cases hc with
  | action h1 h2 => exact .inr ⟨_, h1, h2⟩
  | task _ h1 h2 => exact .inl ⟨_, h1, h2⟩

theorem TDG.new_ok_iff {ord : HashOrd} {d : DomainAST} : (∃ g, TDG.new ord d = .ok g) ↔ Verif.Closed d := by
  unfold TDG.new
  simp only [R.bind_ok_iff]
  constructor
  · rintro ⟨g, owner, h1, subs, h2, _⟩
    intro m hm
    have h1 := methodTasks_ok.mp h1
    have h2 := methodSubtasks_ok.mp h2
    constructor
    · by_contra hc
      have : none ∈ owner.map some := by
        rw [← h1]; exact List.mem_map.mpr ⟨m, hm, index_none.mpr hc⟩
      simp at this
    · intro s hs
      by_contra hc
      have : (m.tn.subtasks.map fun s => taskIndexLast (tdgTasks d) s.task.name) ∈ subs.map (fun l => l.map some) := by
        rw [← h2]; exact List.mem_map.mpr ⟨m, hm, rfl⟩
      obtain ⟨l, _, hl⟩ := List.mem_map.mp this
      have : none ∈ l.map some := by
        rw [hl]; exact List.mem_map.mpr ⟨s, hs, index_none.mpr hc⟩
      simp at this
  · intro h
    rcases methodTasks_else (tasks := tdgTasks d) (ms := d.methods) with ⟨r, hr⟩ | ⟨_, m, hm, hn⟩
    · rcases methodSubtasks_else (tasks := tdgTasks d) (ms := d.methods) with ⟨r', hr'⟩ | ⟨_, m, hm, s, hs, hn⟩
      · exact ⟨_, r, hr, r', hr', rfl⟩
      · exact absurd ((h m hm).2 s hs) (index_none.mp hn)
    · exact absurd (h m hm).1 (index_none.mp hn)

/-- The graph of a domain, up to the order of its sets. -/
structure TDG.Of (g : TDG) (d : DomainAST) : Prop where
  tasks : g.tasks = tdgTasks d
  methods : g.methods = d.methods.map fun m => (m.name.name, m.tn)
  mem_methodsOf : ∀ t m, m ∈ g.methodsOf t ↔ ∃ mm, d.methods[m]? = some mm ∧
    taskIndexLast (tdgTasks d) mm.task.name = some t
  mem_tasksOf : ∀ m x, x ∈ g.tasksOf m ↔ ∃ mm, d.methods[m]? = some mm ∧
    ∃ s ∈ mm.tn.subtasks, taskIndexLast (tdgTasks d) s.task.name = some x
  nodup_methodsOf : ∀ t, (g.methodsOf t).Nodup
  nodup_tasksOf : ∀ m, (g.tasksOf m).Nodup
  keys : g.keys.Perm (List.range g.tasks.length)

theorem TDG.new_of {ord : HashOrd} {d : DomainAST} {g : TDG} (h : TDG.new ord d = .ok g) : g.Of d := by
  unfold TDG.new at h
  simp only [R.bind_ok_iff, R.ok.injEq] at h
  obtain ⟨owner, h1, subs, h2, rfl⟩ := h
  have h1 := methodTasks_ok.mp h1
  have h2 := methodSubtasks_ok.mp h2
  have ho : ∀ (m t : Nat), owner[m]? = some t ↔ ∃ mm, d.methods[m]? = some mm ∧
      taskIndexLast (tdgTasks d) mm.task.name = some t := by
    intro m t
    have := congrArg (fun l => l[m]?) h1
    simp only [List.getElem?_map] at this
    constructor
    · intro ho
      rw [ho] at this
      simpa [Option.map_eq_some_iff] using this
    · rintro ⟨mm, hm, ht⟩
      rw [hm] at this
      simp only [Option.map_some, ht] at this
      cases hoo : owner[m]? with
      | none => simp [hoo] at this
      | some j => rw [hoo] at this; simp at this; rw [this]
  have hs : ∀ (m : Nat) l, subs[m]? = some l → ∃ mm, d.methods[m]? = some mm ∧
      (mm.tn.subtasks.map fun s => taskIndexLast (tdgTasks d) s.task.name) = l.map some := by
    intro m l hl
    have := congrArg (fun l => l[m]?) h2
    simp only [List.getElem?_map, hl, Option.map_some] at this
    simpa [Option.map_eq_some_iff] using this
  have hs' : ∀ (m : Nat) mm, d.methods[m]? = some mm → ∃ l, subs[m]? = some l := by
    intro m mm hm
    have := congrArg (fun l => l[m]?) h2
    simp only [List.getElem?_map, hm, Option.map_some] at this
    cases hoo : subs[m]? with
    | none => simp [hoo] at this
    | some j => exact ⟨j, rfl⟩
  refine ⟨rfl, rfl, ?_, ?_, ?_, ?_, ?_⟩
  · intro t m
    unfold TDG.methodsOf
    simp only [List.getElem?_map]
    by_cases ht : t < (tdgTasks d).length
    · simp only [List.getElem?_range ht, Option.map_some, Option.getD_some, mem_arrange, List.mem_filter,
        List.mem_range, decide_eq_true_eq]
      rw [← ho]
      constructor
      · exact fun h => h.2
      · intro h; exact ⟨(List.getElem?_eq_some_iff.mp h).1, h⟩
    · have : (List.range (tdgTasks d).length)[t]? = none := by simp; omega
      simp only [this, Option.map_none, Option.getD_none, List.not_mem_nil, false_iff]
      rintro ⟨mm, _, h⟩
      exact ht (taskIndexLast_some h).1
  · intro m x
    unfold TDG.tasksOf
    simp only [List.getElem?_mapIdx]
    constructor
    · intro h
      cases hm : subs[m]? with
      | none => simp [hm] at h
      | some l =>
        rw [hm] at h
        simp only [Option.map_some, Option.getD_some, mem_arrange, List.mem_dedup] at h
        obtain ⟨mm, h1, h2⟩ := hs m l hm
        refine ⟨mm, h1, ?_⟩
        have : some x ∈ l.map some := List.mem_map.mpr ⟨x, h, rfl⟩
        rw [← h2] at this
        simpa using this
    · rintro ⟨mm, hm, s, hs1, hx⟩
      obtain ⟨l, hl⟩ := hs' m mm hm
      obtain ⟨mm', h1, h2⟩ := hs m l hl
      rw [hm] at h1; cases h1
      rw [hl]
      simp only [Option.map_some, Option.getD_some, mem_arrange, List.mem_dedup]
      have : some x ∈ l.map some := by
        rw [← h2]; exact List.mem_map.mpr ⟨s, hs1, hx⟩
      simpa using this
  · intro t
    unfold TDG.methodsOf
    simp only [List.getElem?_map]
    by_cases ht : t < (tdgTasks d).length
    · simp only [List.getElem?_range ht, Option.map_some, Option.getD_some]
      exact ((arrange_perm ord _ _).nodup_iff).mpr (List.nodup_range.filter _)
    · have : (List.range (tdgTasks d).length)[t]? = none := by simp; omega
      simp [this]
  · intro m
    unfold TDG.tasksOf
    simp only [List.getElem?_mapIdx]
    cases hm : subs[m]? with
    | none => simp
    | some l =>
      simp only [Option.map_some, Option.getD_some]
      exact ((arrange_perm ord _ _).nodup_iff).mpr (List.nodup_dedup _)
  · exact arrange_perm ord _ _

theorem TDG.Of.tasksOf_lt {g : TDG} {d : DomainAST} (h : g.Of d) {m x : Nat} (hx : x ∈ g.tasksOf m) :
    x < g.tasks.length := by
  obtain ⟨_, _, _, _, h1⟩ := (h.mem_tasksOf m x).mp hx
  rw [h.tasks]; exact (taskIndexLast_some h1).1

theorem TDG.Of.methodsOf_lt {g : TDG} {d : DomainAST} (h : g.Of d) {t m : Nat} (hx : m ∈ g.methodsOf t) :
    t < g.tasks.length := by
  obtain ⟨_, _, h1⟩ := (h.mem_methodsOf t m).mp hx
  rw [h.tasks]; exact (taskIndexLast_some h1).1

/-! ### Breadth first search -/

/-- `x` is a task of a method of `t`. -/
def TDG.Step (g : TDG) (t x : Nat) : Prop := ∃ m ∈ g.methodsOf t, x ∈ g.tasksOf m

/-- The successors computed by the search. -/
def TDG.succ (g : TDG) (t : Nat) : List Nat := (g.methodsOf t).flatMap g.tasksOf

theorem TDG.mem_succ {g : TDG} {t x : Nat} : x ∈ g.succ t ↔ g.Step t x := by
  simp [TDG.succ, TDG.Step]

theorem TDG.bfs_cons (g : TDG) (n t : Nat) (queue visited reach : List Nat) :
    g.bfs (n + 1) (t :: queue) visited reach =
      if t ∈ visited then g.bfs n queue visited reach
      else g.bfs n (queue ++ g.succ t) (t :: visited) (g.succ t ∪ reach) := by
  rw [TDG.bfs]; rfl

theorem TDG.bfs_mono (g : TDG) {r : List Nat} : ∀ {n m : Nat} {queue visited reach : List Nat}, n ≤ m →
    g.bfs n queue visited reach = .ok r → g.bfs m queue visited reach = .ok r := by
  intro n
  induction n with
  | zero =>
    intro m queue visited reach _ h
    cases queue with
    | nil => cases m <;> simpa [TDG.bfs] using h
    | cons => simp [TDG.bfs] at h
  | succ n ih =>
    intro m queue visited reach hm h
    cases queue with
    | nil => cases m <;> simpa [TDG.bfs] using h
    | cons t queue =>
      obtain ⟨m, rfl⟩ : ∃ k, m = k + 1 := ⟨m - 1, by omega⟩
      rw [TDG.bfs_cons] at h ⊢
      split
      · rename_i hv; rw [if_pos hv] at h; exact ih (by omega) h
      · rename_i hv; rw [if_neg hv] at h; exact ih (by omega) h

/-- Work left for the tasks not yet visited. -/
def TDG.work (g : TDG) (visited : List Nat) (l : List Nat) : Nat :=
  ((l.filter fun t => t ∉ visited).map fun t => (g.succ t).length).sum

theorem TDG.work_cons (g : TDG) {visited : List Nat} {t : Nat} (hv : t ∉ visited) :
    ∀ l : List Nat, l.Nodup → t ∈ l → g.work visited l = g.work (t :: visited) l + (g.succ t).length := by
  intro l
  induction l with
  | nil => simp
  | cons a l ih =>
    intro hn hm
    rw [List.nodup_cons] at hn
    unfold TDG.work at ih ⊢
    by_cases ha : a = t
    · subst ha
      have : l.filter (fun t => t ∉ visited) = l.filter (fun t => t ∉ a :: visited) := by
        apply List.filter_congr
        intro x hx
        have : x ≠ a := by rintro rfl; exact hn.1 hx
        simp [this]
      rw [List.filter_cons_of_pos (by simpa using hv), List.filter_cons_of_neg (by simp), this]
      simp; omega
    · have hm' : t ∈ l := by
        rcases List.mem_cons.mp hm with h | h
        · exact absurd h.symm ha
        · exact h
      have ih := ih hn.2 hm'
      by_cases hav : a ∈ visited
      · rw [List.filter_cons_of_neg (by simpa using hav), List.filter_cons_of_neg (by simp [hav])]; exact ih
      · rw [List.filter_cons_of_pos (by simpa using hav), List.filter_cons_of_pos (by simp [hav, ha])]
        simp only [List.map_cons, List.sum_cons]; omega

/-- The search terminates. -/
theorem TDG.bfs_term (g : TDG) (T : Nat) (hs : ∀ t x, x ∈ g.succ t → x < T) :
    ∀ {n : Nat} {queue visited reach : List Nat}, (∀ t ∈ queue, t < T) →
      queue.length + g.work visited (List.range T) ≤ n → ∃ r, g.bfs n queue visited reach = .ok r := by
  intro n
  induction n with
  | zero =>
    intro queue visited reach hq hn
    cases queue with
    | nil => exact ⟨reach, rfl⟩
    | cons => simp at hn
  | succ n ih =>
    intro queue visited reach hq hn
    cases queue with
    | nil => exact ⟨reach, rfl⟩
    | cons t queue =>
      rw [TDG.bfs_cons]
      simp only [List.length_cons] at hn
      split
      · exact ih (fun x hx => hq x (List.mem_cons_of_mem _ hx)) (by omega)
      · rename_i hv
        have := g.work_cons hv (List.range T) List.nodup_range (by simpa using hq t (List.mem_cons_self ..))
        refine ih ?_ (by simp only [List.length_append]; omega)
        intro x hx
        rcases List.mem_append.mp hx with hx | hx
        · exact hq x (List.mem_cons_of_mem _ hx)
        · exact hs t x hx

/-- The search finds exactly what can be reached. -/
theorem TDG.bfs_spec (g : TDG) (i : Nat) {r : List Nat} : ∀ {n : Nat} {queue visited reach : List Nat},
    g.bfs n queue visited reach = .ok r →
      i ∈ reach → (∀ x ∈ reach, Relation.ReflTransGen g.Step i x) → (∀ t ∈ visited, ∀ x, g.Step t x → x ∈ reach) →
      (∀ x ∈ reach, x ∈ visited ∨ x ∈ queue) → (∀ x ∈ queue, x ∈ reach) →
      ∀ x, x ∈ r ↔ Relation.ReflTransGen g.Step i x := by
  intro n
  induction n with
  | zero =>
    intro queue visited reach h hi hr hv hq hqr
    cases queue with
    | nil =>
      simp only [TDG.bfs, R.ok.injEq] at h
      subst h
      intro x
      refine ⟨hr x, fun h => ?_⟩
      induction h with
      | refl => exact hi
      | tail _ h2 ih =>
        rcases hq _ ih with h | h
        · exact hv _ h _ h2
        · cases h
    | cons => simp [TDG.bfs] at h
  | succ n ihn =>
    intro queue visited reach h hi hr hv hq hqr
    cases queue with
    | nil =>
      simp only [TDG.bfs, R.ok.injEq] at h
      subst h
      intro x
      refine ⟨hr x, fun h => ?_⟩
      induction h with
      | refl => exact hi
      | tail _ h2 ih =>
        rcases hq _ ih with h | h
        · exact hv _ h _ h2
        · cases h
    | cons t queue =>
      rw [TDG.bfs_cons] at h
      split at h
      · rename_i hvis
        refine ihn h hi hr hv ?_ (fun x hx => hqr x (List.mem_cons_of_mem _ hx))
        intro x hx
        rcases hq x hx with h | h
        · exact .inl h
        · rcases List.mem_cons.mp h with rfl | h
          · exact .inl hvis
          · exact .inr h
      · refine ihn h (List.mem_union_right _ hi) ?_ ?_ ?_ ?_
        · intro x hx
          rcases List.mem_union_iff.mp hx with hx | hx
          · exact (hr t (hqr t (List.mem_cons_self ..))).tail (TDG.mem_succ.mp hx)
          · exact hr x hx
        · intro y hy x hs
          rcases List.mem_cons.mp hy with rfl | hy
          · exact List.mem_union_left (TDG.mem_succ.mpr hs) _
          · exact List.mem_union_right _ (hv y hy x hs)
        · intro x hx
          rcases List.mem_union_iff.mp hx with hx | hx
          · exact .inr (List.mem_append_right _ hx)
          · rcases hq x hx with h | h
            · exact .inl (List.mem_cons_of_mem _ h)
            · rcases List.mem_cons.mp h with rfl | h
              · exact .inl (List.mem_cons_self ..)
              · exact .inr (List.mem_append_left _ h)
        · intro x hx
          rcases List.mem_append.mp hx with hx | hx
          · exact List.mem_union_right _ (hqr x (List.mem_cons_of_mem _ hx))
          · exact List.mem_union_left hx _

end Verif
