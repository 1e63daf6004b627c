import Verif.Spec.Decomposition
import Verif.Proofs.Nullable

/-! Acceptance of domains, and the warnings. -/

namespace Verif

open Spec

variable {d : DomainAST} {g : TDG} {ord : HashOrd}

/-- `i` is a task with name `x`. -/
def TDG.Is (g : TDG) (i : Nat) (x : Name) : Prop := g.tasks[i]?.map (·.1) = some x

theorem TDG.Is.det {i : Nat} {x y : Name} (h : g.Is i x) (h' : g.Is i y) : x = y := by
  unfold TDG.Is at h h'; rw [h] at h'; simpa using h'

theorem TDG.Is.lt {i : Nat} {x : Name} (h : g.Is i x) : i < g.tasks.length := by
  obtain ⟨e, he, _⟩ := Option.map_eq_some_iff.mp h
  exact (List.getElem?_eq_some_iff.mp he).1

theorem TDG.Is.of_lt {i : Nat} (h : i < g.tasks.length) : ∃ x, g.Is i x :=
  ⟨g.tasks[i].1, by simp [TDG.Is, h]⟩

theorem TDG.mem_names {l : List Nat} {x : Name} : x ∈ g.names l ↔ ∃ i ∈ l, g.Is i x := by
  unfold TDG.names TDG.Is
  simp

theorem uniqueNames (hok : DomainOk d) (hc : NoClash d) : UniqueNames (tdgTasks d) := by
  unfold UniqueNames tdgTasks
  rw [List.map_append, List.nodup_append]
  refine ⟨by simpa [Function.comp_def] using hok.tasks, by simpa [Function.comp_def] using hok.actionNames, ?_⟩
  intro x hx y hy
  simp only [List.map_map, List.mem_map, Function.comp_apply] at hx hy
  obtain ⟨t, ht, rfl⟩ := hx
  obtain ⟨a, ha, rfl⟩ := hy
  exact hc t ht a ha

/-- The first index of a declared compound task is compound. -/
theorem TDG.Of.compound (hg : g.Of d) {t : Task} (ht : t ∈ d.tasks) :
    ∃ i, taskIndexFirst g.tasks t.name = some i ∧ g.tasks[i]? = some (t.name, true) := by
  obtain ⟨j, hj, he⟩ := List.mem_iff_getElem.mp ht
  have h1 : g.tasks[j]? = some (t.name, true) := by
    rw [hg.tasks, tdgTasks, List.getElem?_append_left (by simpa using hj)]
    simp [hj, he]
  cases hf : taskIndexFirst g.tasks t.name with
  | none => exact absurd rfl (taskIndexFirst_none.mp hf _ (List.mem_of_getElem? h1))
  | some i =>
    have h2 := taskIndexFirst_min hf (j := j) (by simp [h1])
    refine ⟨i, rfl, ?_⟩
    have h3 := (taskIndexFirst_some hf).2
    have hi : i < d.tasks.length := by omega
    rw [hg.tasks, tdgTasks, List.getElem?_append_left (by simpa using hi)] at h3 ⊢
    simp [hi] at h3 ⊢
    exact h3

theorem TDG.Of.unit_ne (hg : g.Of d) (hne : d.tasks ≠ []) : g.unit0 ≠ [] := by
  obtain ⟨t, ht⟩ := List.exists_mem_of_ne_nil _ hne
  obtain ⟨i, h1, h2⟩ := hg.compound ht
  intro h0
  unfold TDG.unit0 at h0
  rw [List.filterMap_eq_nil_iff] at h0
  have := h0 (t.name, true) (by simp [List.mem_of_getElem? h2])
  simp [h1] at this

/-- Fuel that is enough for the searches in the graph. -/
def TDG.enough (g : TDG) : Nat :=
  1 + g.work [] (List.range g.tasks.length) + TDG.variant g.tasks.length g.nullInit

theorem TDG.Of.nullables_term (hg : g.Of d) (hne : d.tasks ≠ []) :
    ∃ l, ∀ n, g.enough ≤ n → g.nullLoop n g.nullInit = .ok l := by
  obtain ⟨l, hl⟩ := TDG.nullLoop_term hg.bounded (n := g.enough) (.init hg.bounded) (hg.unit_ne hne)
    (by unfold TDG.enough; omega)
  exact ⟨l, fun n hn => TDG.nullLoop_mono hn hl⟩

theorem TDG.Of.bfs_term (hg : g.Of d) {i : Nat} (hi : i < g.tasks.length) :
    ∃ r, (∀ n, g.enough ≤ n → g.bfs n [i] [] [i] = .ok r) ∧ ∀ x, x ∈ r ↔ Relation.ReflTransGen g.Step i x := by
  obtain ⟨r, hr⟩ := TDG.bfs_term g g.tasks.length (fun t x hx => by
    obtain ⟨m, _, h⟩ := TDG.mem_succ.mp hx; exact hg.tasksOf_lt h) (n := g.enough) (queue := [i]) (visited := [])
    (reach := [i]) (by simpa using hi) (by unfold TDG.enough; simp)
  refine ⟨r, fun n hn => g.bfs_mono hn hr, ?_⟩
  refine g.bfs_spec i hr (by simp) ?_ (by simp) (by simp) (by simp)
  intro x hx
  rw [List.mem_singleton] at hx
  rw [hx]

/-- Result of the reachability query for a compound task. -/
theorem TDG.Of.reachable (hg : g.Of d) {t : Task} (ht : t ∈ d.tasks) {l : List Nat}
    (hl : ∀ n, g.enough ≤ n → g.nullLoop n g.nullInit = .ok l) :
    ∃ i r, taskIndexFirst g.tasks t.name = some i ∧ (∀ n, g.enough ≤ n → g.reachable n t.name = .ok r) ∧
      (r.primitives.length = 0 ↔ ¬ ∃ j x, Relation.ReflTransGen g.Step i j ∧ g.tasks[j]? = some (x, false)) ∧
      (r.nullable = true ↔ t.name ∈ g.names l) := by
  obtain ⟨i, h1, h2⟩ := hg.compound ht
  obtain ⟨r, hr, hs⟩ := hg.bfs_term (taskIndexFirst_some h1).1
  refine ⟨i, ⟨g.names ((List.range g.tasks.length).filter fun j => (j ∈ r) && (g.tasks[j]?.map (·.2)) == some false),
    g.names ((List.range g.tasks.length).filter fun j => (j ∈ r) && (g.tasks[j]?.map (·.2)) == some true),
    t.name ∈ g.names l⟩, h1, fun n hn => ?_, ?_, ?_⟩
  · unfold TDG.reachable
    simp only [h1, h2, hr n hn, TDG.nullables, hl n hn, R.bind_ok]
  · rw [List.length_eq_zero_iff, List.eq_nil_iff_forall_not_mem]
    simp only [TDG.mem_names, List.mem_filter, List.mem_range, Bool.and_eq_true, decide_eq_true_eq, beq_iff_eq, hs]
    constructor
    · rintro h ⟨j, x, h3, h4⟩
      exact h x ⟨j, ⟨(List.getElem?_eq_some_iff.mp h4).1, h3, by simp [h4]⟩, by simp [TDG.Is, h4]⟩
    · rintro h x ⟨j, ⟨_, h3, h4⟩, h5⟩
      obtain ⟨e, he, hb⟩ := Option.map_eq_some_iff.mp h4
      exact h ⟨j, e.1, h3, by rw [he, ← hb]⟩
  · simp

/-! ### Acceptance -/

theorem collectWarnings_ok {n : Nat} : ∀ {ts : List Task} {ws : List Warning}, collectWarnings g n ts = .ok ws →
    (∀ w, w ∈ ws ↔ ∃ t ∈ ts, w = ⟨t.name, t.pos⟩ ∧
      ∃ r, g.reachable n t.name = .ok r ∧ r.primitives.length = 0 ∧ r.nullable = false) ∧
    (ws.map fun w => (w.symbol, w.pos)).Sublist (ts.map fun t => (t.name, t.pos)) := by
  intro ts
  induction ts with
  | nil => intro ws h; simp only [collectWarnings, R.ok.injEq] at h; subst h; simp
  | cons t ts ih =>
    intro ws h
    rw [collectWarnings] at h
    simp only [R.bind_ok_iff, R.ok.injEq] at h
    obtain ⟨r, h1, ws', h2, h3⟩ := h
    obtain ⟨ih1, ih2⟩ := ih h2
    split at h3
    · rename_i hc
      subst h3
      refine ⟨fun w => ?_, by simpa using ih2⟩
      rw [List.mem_cons, ih1]
      constructor
      · rintro (rfl | ⟨t', h4, h5⟩)
        · exact ⟨t, List.mem_cons_self .., rfl, r, h1, hc⟩
        · exact ⟨t', List.mem_cons_of_mem _ h4, h5⟩
      · rintro ⟨t', h4, h5, h6⟩
        rcases List.mem_cons.mp h4 with rfl | h4
        · exact .inl h5
        · exact .inr ⟨t', h4, h5, h6⟩
    · rename_i hc
      subst h3
      refine ⟨fun w => ?_, ih2.trans (List.sublist_cons_self ..)⟩
      rw [ih1]
      constructor
      · rintro ⟨t', h4, h5⟩; exact ⟨t', List.mem_cons_of_mem _ h4, h5⟩
      · rintro ⟨t', h4, h5, r', h6, h7⟩
        rcases List.mem_cons.mp h4 with rfl | h4
        · rw [h1] at h6; cases h6; exact absurd h7 hc
        · exact ⟨t', h4, h5, r', h6, h7⟩

theorem collectWarnings_term {N : Nat} : ∀ {ts : List Task},
    (∀ t ∈ ts, ∃ r, ∀ n, N ≤ n → g.reachable n t.name = .ok r) → ∃ ws, ∀ n, N ≤ n → collectWarnings g n ts = .ok ws := by
  intro ts
  induction ts with
  | nil => intro _; exact ⟨[], fun _ _ => rfl⟩
  | cons t ts ih =>
    intro h
    obtain ⟨r, hr⟩ := h t (List.mem_cons_self ..)
    obtain ⟨ws, hws⟩ := ih (fun t ht => h t (List.mem_cons_of_mem _ ht))
    exact ⟨_, fun n hn => by rw [collectWarnings, hr n hn, R.bind_ok, hws n hn, R.bind_ok]⟩

/-- The domain is accepted with the given warnings. -/
def Accepts (ord : HashOrd) (d : DomainAST) (ws : List Warning) : Prop :=
  ∃ N, ∀ n, N ≤ n → verifyDomain ord n d = .ok (tableOf ws d)

theorem Accepts.det {ws ws' : List Warning} (h : Accepts ord d ws) (h' : Accepts ord d ws') : ws = ws' := by
  obtain ⟨N, h⟩ := h
  obtain ⟨M, h'⟩ := h'
  have h1 := h (max N M) (by omega)
  have h2 := h' (max N M) (by omega)
  rw [h1] at h2
  simpa using h2

/-- What is known about the warnings of a well-formed domain, in terms of the graph. -/
structure WarningsOf (g : TDG) (l : List Nat) (d : DomainAST) (ws : List Warning) : Prop where
  loop : d.tasks ≠ [] → ∀ n, g.enough ≤ n → g.nullLoop n g.nullInit = .ok l
  mem : ∀ w, w ∈ ws ↔ ∃ t ∈ d.tasks, w = ⟨t.name, t.pos⟩ ∧ ∃ i, taskIndexFirst g.tasks t.name = some i ∧
    (¬ ∃ j x, Relation.ReflTransGen g.Step i j ∧ g.tasks[j]? = some (x, false)) ∧ t.name ∉ g.names l
  once : (ws.map (·.symbol)).Nodup

theorem DomainOk.graph (hok : DomainOk d) (ord : HashOrd) : ∃ g, TDG.new ord d = .ok g ∧ g.Of d := by
  obtain ⟨g, hg⟩ := TDG.new_ok_iff.mpr (Verif.DomainOk.closed hok)
  exact ⟨g, hg, TDG.new_of hg⟩

theorem DomainOk.accepts (hok : DomainOk d) (ord : HashOrd) :
    ∃ g l ws, TDG.new ord d = .ok g ∧ g.Of d ∧ Accepts ord d ws ∧ WarningsOf g l d ws := by
  obtain ⟨g, hg, hof⟩ := Verif.DomainOk.graph hok ord
  obtain ⟨l, hl⟩ : ∃ l, d.tasks ≠ [] → ∀ n, g.enough ≤ n → g.nullLoop n g.nullInit = .ok l := by
    by_cases hne : d.tasks = []
    · exact ⟨[], fun h => absurd hne h⟩
    · obtain ⟨l, hl⟩ := hof.nullables_term hne
      exact ⟨l, fun _ => hl⟩
  have hr : ∀ t ∈ d.tasks, _ := fun t ht => hof.reachable ht (hl (List.ne_nil_of_mem ht))
  obtain ⟨ws, hws⟩ := collectWarnings_term (g := g) (N := g.enough) (ts := arrange ord [10] d.tasks) (by
    intro t ht
    obtain ⟨i, r, _, h, _⟩ := hr t (mem_arrange.mp ht)
    exact ⟨r, h⟩)
  refine ⟨g, l, ws, hg, hof, ⟨g.enough, fun n hn => ?_⟩, hl, ?_, ?_⟩
  · unfold verifyDomain
    rw [(checkDomain_ok ord d).mpr hok, R.bind_ok, hg, R.bind_ok, hws n hn, R.bind_ok]
    rfl
  · intro w
    rw [(collectWarnings_ok (hws _ (Nat.le_refl _))).1]
    constructor
    · rintro ⟨t, ht, hw, r, h1, h2, h3⟩
      obtain ⟨i, r', h4, h5, h6, h7⟩ := hr t (mem_arrange.mp ht)
      rw [h5 _ (Nat.le_refl _)] at h1; cases h1
      refine ⟨t, mem_arrange.mp ht, hw, i, h4, h6.mp h2, ?_⟩
      rw [← h7, h3]; simp
    · rintro ⟨t, ht, hw, i, h1, h2, h3⟩
      obtain ⟨i', r', h4, h5, h6, h7⟩ := hr t ht
      rw [h4] at h1; cases h1
      refine ⟨t, mem_arrange.mpr ht, hw, r', h5 _ (Nat.le_refl _), h6.mpr h2, ?_⟩
      rw [← h7] at h3; simpa using h3
  · have h1 := (collectWarnings_ok (hws _ (Nat.le_refl _))).2
    have h2 := h1.map Prod.fst
    simp only [List.map_map, Function.comp_def] at h2
    refine h2.nodup ?_
    exact ((arrange_perm ord [10] d.tasks).map _).nodup_iff.mpr hok.tasks

/-- A domain is accepted iff it is well-formed. -/
theorem accepts_iff : (∃ ws, Accepts ord d ws) ↔ DomainOk d := by
  constructor
  · rintro ⟨ws, N, h⟩
    have := h N (Nat.le_refl _)
    unfold verifyDomain at this
    obtain ⟨_, h1, _⟩ := R.bind_ok_iff.mp this
    exact (checkDomain_ok ord d).mp h1
  · intro hok
    obtain ⟨_, _, ws, _, _, h, _⟩ := Verif.DomainOk.accepts hok ord
    exact ⟨ws, h⟩

theorem verifyDomain_err {n : Nat} {e : PErr} : verifyDomain ord n d = .err e ↔ checkDomain ord d = .err e := by
  unfold verifyDomain
  cases hc : checkDomain ord d with
  | err e' => simp
  | panic => simp
  | timeout => simp
  | ok =>
    simp only [R.bind_ok, reduceCtorEq, iff_false]
    have hok := (checkDomain_ok ord d).mp hc
    obtain ⟨g, hg, hof⟩ := Verif.DomainOk.graph hok ord
    rw [hg, R.bind_ok]
    intro h
    rcases R.bind_err_iff.mp h with h | ⟨_, _, h⟩
    · have : ∀ ts, collectWarnings g n ts ≠ .err e := by
        intro ts
        induction ts with
        | nil => simp [collectWarnings]
        | cons t ts ih =>
          rw [collectWarnings]
          intro h
          rcases R.bind_err_iff.mp h with h | ⟨r, _, h⟩
          · unfold TDG.reachable at h
            split at h
            · cases h
            · split at h
              · cases h
              · rcases R.bind_err_iff.mp h with h | ⟨r, _, h⟩
                · exact absurd h (by
                    have : ∀ n q v r, g.bfs n q v r ≠ .err e := by
                      intro n
                      induction n with
                      | zero => intro q v r; cases q <;> simp [TDG.bfs]
                      | succ n ih =>
                        intro q v r
                        cases q with
                        | nil => simp [TDG.bfs]
                        | cons t q => rw [TDG.bfs_cons]; split <;> exact ih _ _ _
                    exact this _ _ _ _)
                · rcases R.bind_err_iff.mp h with h | ⟨r, _, h⟩
                  · unfold TDG.nullables at h
                    rcases R.bind_err_iff.mp h with h | ⟨r, _, h⟩
                    · rcases TDG.nullLoop_cases (g := g) (n := n) (s := g.nullInit) with ⟨r, hr⟩ | hr <;>
                        (rw [hr] at h; cases h)
                    · cases h
                  · cases h
          · rcases R.bind_err_iff.mp h with h | ⟨r, _, h⟩
            · exact ih h
            · cases h
      exact this _ h
    · cases h

/-- With enough fuel, the analysis of a domain is the check followed by warnings that never fail. -/
theorem verifyDomain_eventually (ord : HashOrd) (d : DomainAST) :
    (∃ ws, DomainOk d ∧ Accepts ord d ws) ∨
    (∃ e, checkDomain ord d = .err e ∧ ∀ n, verifyDomain ord n d = .err e) ∨
    (∃ x, checkDomain ord d = .panic x ∧ ∀ n, verifyDomain ord n d = .panic x) := by
  cases hc : checkDomain ord d with
  | ok =>
    have hok := (checkDomain_ok ord d).mp hc
    obtain ⟨ws, h⟩ := accepts_iff.mpr hok
    exact .inl ⟨ws, hok, h⟩
  | err e => exact .inr (.inl ⟨e, rfl, fun n => by unfold verifyDomain; rw [hc]; rfl⟩)
  | panic x => exact .inr (.inr ⟨x, rfl, fun n => by unfold verifyDomain; rw [hc]; rfl⟩)
  | timeout => exact absurd hc checkDomain_timeout

/-! ### Names instead of indices -/

variable (hg : g.Of d) (hu : UniqueNames (tdgTasks d))
include hg hu

theorem TDG.Of.index {x : Name} {i : Nat} : taskIndexLast (tdgTasks d) x = some i ↔ g.Is i x := by
  rw [taskIndexLast_iff hu, TDG.Is, hg.tasks]

theorem TDG.Of.index_first {x : Name} {i : Nat} : taskIndexFirst g.tasks x = some i ↔ g.Is i x := by
  rw [hg.tasks, taskIndexFirst_iff hu, TDG.Is, hg.tasks]

theorem TDG.Of.is_inj {x : Name} {i j : Nat} (hi : g.Is i x) (hj : g.Is j x) : i = j := by
  unfold TDG.Is at hi hj
  rw [hg.tasks] at hi hj
  exact hu.inj hi hj

theorem TDG.Of.step_iff {x y : Name} {i j : Nat} (hi : g.Is i x) (hj : g.Is j y) : g.Step i j ↔ HasSub d x y := by
  unfold TDG.Step HasSub
  constructor
  · rintro ⟨m, h1, h2⟩
    obtain ⟨mm, h3, h4⟩ := (hg.mem_methodsOf _ _).mp h1
    obtain ⟨mm', h5, s, h6, h7⟩ := (hg.mem_tasksOf _ _).mp h2
    rw [h3] at h5; cases h5
    exact ⟨mm, List.mem_of_getElem? h3, ((hg.index hu).mp h4).det hi, s, h6, ((hg.index hu).mp h7).det hj⟩
  · rintro ⟨mm, h1, rfl, s, h2, rfl⟩
    obtain ⟨m, hm⟩ := List.mem_iff_getElem?.mp h1
    exact ⟨m, (hg.mem_methodsOf _ _).mpr ⟨mm, hm, (hg.index hu).mpr hi⟩,
      (hg.mem_tasksOf _ _).mpr ⟨mm, hm, s, h2, (hg.index hu).mpr hj⟩⟩

omit hu in
theorem TDG.Of.step_is {i j : Nat} (h : g.Step i j) : (∃ x, g.Is i x) ∧ ∃ y, g.Is j y := by
  obtain ⟨m, h1, h2⟩ := h
  exact ⟨TDG.Is.of_lt (hg.methodsOf_lt h1), TDG.Is.of_lt (hg.tasksOf_lt h2)⟩

theorem TDG.Of.reach_names {x : Name} {i j : Nat} (hi : g.Is i x) (h : Relation.ReflTransGen g.Step i j) :
    ∃ y, g.Is j y ∧ Relation.ReflTransGen (HasSub d) x y := by
  induction h with
  | refl => exact ⟨x, hi, .refl⟩
  | tail _ h2 ih =>
    obtain ⟨y, h3, h4⟩ := ih
    obtain ⟨z, hz⟩ := (hg.step_is h2).2
    exact ⟨z, hz, h4.tail ((hg.step_iff hu h3 hz).mp h2)⟩

theorem TDG.Of.is_exists {x : Name} (hx : TaskName d x) : ∃ i, g.Is i x := by
  cases h : taskIndexLast (tdgTasks d) x with
  | none => exact absurd hx (index_none.mp h)
  | some i => exact ⟨i, (hg.index hu).mp h⟩

theorem TDG.Of.reach_index (hc : Verif.Closed d) {x y : Name} {i : Nat} (hi : g.Is i x)
    (h : Relation.ReflTransGen (HasSub d) x y) : ∃ j, g.Is j y ∧ Relation.ReflTransGen g.Step i j := by
  induction h with
  | refl => exact ⟨i, hi, .refl⟩
  | tail _ h2 ih =>
    obtain ⟨j, h3, h4⟩ := ih
    have h2' := h2
    obtain ⟨m, hm, _, s, hs, rfl⟩ := h2'
    obtain ⟨k, hk⟩ := hg.is_exists hu ((hc m hm).2 s hs)
    exact ⟨k, hk, h4.tail ((hg.step_iff hu h3 hk).mpr h2)⟩

theorem TDG.Of.vanishes_iff (hc : Verif.Closed d) {x : Name} {i : Nat} (hi : g.Is i x) :
    TDG.Vanishes g i ↔ Nullable d x := by
  constructor
  · intro h
    induction h generalizing x with
    | @mk t m h1 h2 ih =>
      obtain ⟨mm, h3, h4⟩ := (hg.mem_methodsOf _ _).mp h1
      cases ((hg.index hu).mp h4).det hi
      refine .mk (List.mem_of_getElem? h3) fun s hs => ?_
      obtain ⟨k, hk⟩ := hg.is_exists hu ((hc mm (List.mem_of_getElem? h3)).2 s hs)
      exact ih k ((hg.mem_tasksOf _ _).mpr ⟨mm, h3, s, hs, (hg.index hu).mpr hk⟩) hk
  · intro h
    induction h generalizing i with
    | @mk mm h1 h2 ih =>
      obtain ⟨m, hm⟩ := List.mem_iff_getElem?.mp h1
      refine .mk ((hg.mem_methodsOf _ _).mpr ⟨mm, hm, (hg.index hu).mpr hi⟩) fun y hy => ?_
      obtain ⟨mm', h5, s, h6, h7⟩ := (hg.mem_tasksOf _ _).mp hy
      rw [hm] at h5; cases h5
      exact ih s h6 ((hg.index hu).mp h7)

theorem TDG.Of.unmixed (hc : Verif.Closed d) (hx : Spec.Unmixed d) : TDG.Unmixed g := by
  intro t m x h1 h2 h3
  obtain ⟨mm, h4, h5⟩ := (hg.mem_methodsOf _ _).mp h1
  obtain ⟨mm', h6, s, h7, h8⟩ := (hg.mem_tasksOf _ _).mp h2
  rw [h4] at h6; cases h6
  have h5 := (hg.index hu).mp h5
  have h8 := (hg.index hu).mp h8
  exact (hg.vanishes_iff hu hc h5).mpr (hx mm (List.mem_of_getElem? h4) ⟨s, h7, (hg.vanishes_iff hu hc h8).mp h3⟩)

/-- Every task with a method has an entry for its unit reachability. -/
theorem TDG.Of.hasUnits (ht : ∀ m ∈ d.methods, ∃ t ∈ d.tasks, t.name = m.task.name) : TDG.HasUnits g g.unit0 := by
  intro i m h
  obtain ⟨mm, h1, h2⟩ := (hg.mem_methodsOf _ _).mp h
  obtain ⟨t, h3, h4⟩ := ht mm (List.mem_of_getElem? h1)
  have h2 := (hg.index hu).mp h2
  obtain ⟨j, h5, h6⟩ := hg.compound h3
  rw [h4] at h5
  cases hg.is_inj hu ((hg.index_first hu).mp h5) h2
  unfold unitGet
  rw [Option.isSome_map, List.find?_isSome]
  refine ⟨(i, ((g.methodsOf i).filterMap fun m => match g.tasksOf m with | [x] => some x | _ => none) ∪ [i]), ?_, by simp⟩
  unfold TDG.unit0
  rw [List.mem_filterMap]
  refine ⟨(t.name, true), by simp [List.mem_of_getElem? h6], ?_⟩
  rw [h4, h5]
  rfl

end Verif
