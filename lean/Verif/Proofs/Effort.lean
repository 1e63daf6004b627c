import Mathlib.Data.List.Permutation
import Mathlib.Data.List.Sublists
import Mathlib.Tactic.Linarith
import Verif.Proofs.Metadata
import Verif.Proofs.Stream
import Verif.Spec.Effort

/-! How many paths the search for cycles visits. -/

namespace Verif

open Spec

namespace TDG

variable {g : TDG} {ord : HashOrd} {fuel : Nat} {nulls : List Nat} {d : DomainAST}

/-! ### At least all paths -/

/-- Every path below the stack takes one iteration. -/
theorem recLoop_visits : ∀ {n : Nat} {stack : List (List (Nat × Nat))} {rt rt' : RecType},
    g.recLoop ord fuel nulls n stack rt = .ok rt' →
    ∃ vis : List (List (Nat × Nat)), vis.length ≤ n ∧ ∀ p ∈ stack, ∀ q, g.Ext p q → q ∈ vis
  | _, [], _, _, _ => ⟨[], Nat.zero_le _, by simp⟩
  | 0, _ :: _, _, _, h => by simp [recLoop] at h
  | n + 1, path :: stack, rt, rt', h => by
    rw [recLoop] at h
    cases hl : path.getLast? with
    | none =>
      simp only [hl] at h
      obtain ⟨vis, h1, h2⟩ := recLoop_visits h
      refine ⟨path :: vis, by simpa using h1, fun p hp q hq => ?_⟩
      rcases List.mem_cons.mp hp with rfl | hp
      · cases hq with
        | refl => exact List.mem_cons_self
        | step h4 => rw [hl] at h4; cases h4
      · exact List.mem_cons_of_mem _ (h2 p hp q hq)
    | some tm =>
      obtain ⟨t, m⟩ := tm
      simp only [hl] at h
      obtain ⟨⟨stack', rt1⟩, h1, h2⟩ := R.bind_ok_iff.mp h
      obtain ⟨_, new, rfl, rfl, _, _, h7⟩ := expand_ok h1
      obtain ⟨vis, h8, h9⟩ := recLoop_visits h2
      refine ⟨path :: vis, by simpa using h8, fun p hp q hq => ?_⟩
      rcases List.mem_cons.mp hp with rfl | hp
      · cases hq with
        | refl => exact List.mem_cons_self
        | @step _ _ t' m1 y m' e1 e2 e3 e4 e5 =>
          rw [hl] at e1; cases e1
          exact List.mem_cons_of_mem _ (h9 _ (List.mem_append_left _ ((h7 _).mpr ⟨y, e2, e3, m', e4, rfl⟩)) q e5)
      · exact List.mem_cons_of_mem _ (h9 p (List.mem_append_right _ hp) q hq)

/-! ### At most all paths -/

theorem Ext.prefix {p q : List (Nat × Nat)} (h : g.Ext p q) : p <+: q := by
  induction h with
  | refl => exact List.prefix_refl _
  | step _ _ _ _ _ ih => exact (List.prefix_append _ _).trans ih

/-- No path is below both. -/
def Apart (g : TDG) (p q : List (Nat × Nat)) : Prop := ∀ r, g.Ext p r → ¬ g.Ext q r

theorem expand_new {path : List (Nat × Nat)} {m : Nat} (hm : ∀ t, (g.methodsOf t).Nodup) : ∀ {xs : List Nat}
    {stack stack' : List (List (Nat × Nat))} {rt rt' : RecType}, xs.Nodup →
    g.expand ord fuel nulls path m xs stack rt = .ok (stack', rt') →
    ∃ new, stack' = new ++ stack ∧ new.Nodup ∧
      ∀ q ∈ new, ∃ x ∈ xs, ∃ m' ∈ g.methodsOf x, q = path ++ [(x, m')]
  | [], stack, stack', rt, rt', _, h => by
    simp only [expand, R.ok.injEq, Prod.mk.injEq] at h
    exact ⟨[], by simp [h.1], by simp, by simp⟩
  | x :: xs, stack, stack', rt, rt', hn, h => by
    obtain ⟨hx, hn⟩ := List.nodup_cons.mp hn
    rw [expand] at h
    cases hc : cycleFrom path x with
    | some c =>
      simp only [hc] at h
      obtain ⟨⟨eps, suf⟩, h1, h2⟩ := R.bind_ok_iff.mp h
      obtain ⟨new, h3, h4, h5⟩ := expand_new hm hn h2
      exact ⟨new, h3, h4, fun q hq => let ⟨y, hy, e⟩ := h5 q hq; ⟨y, List.mem_cons_of_mem _ hy, e⟩⟩
    | none =>
      simp only [hc] at h
      obtain ⟨new, h3, h4, h5⟩ := expand_new hm hn h
      refine ⟨new ++ ((g.methodsOf x).map fun m' => path ++ [(x, m')]).reverse, by simp [h3], ?_, ?_⟩
      · rw [List.nodup_append]
        refine ⟨h4, ?_, ?_⟩
        · rw [List.nodup_reverse]
          exact (hm x).map fun a b hab => by simpa using hab
        · intro q hq q' hq' he
          subst he
          obtain ⟨y, hy, m1, _, e1⟩ := h5 q hq
          simp only [List.mem_reverse, List.mem_map] at hq'
          obtain ⟨m2, _, e2⟩ := hq'
          rw [e1] at e2
          simp at e2
          exact hx (e2.1 ▸ hy)
      · intro q hq
        rcases List.mem_append.mp hq with hq | hq
        · obtain ⟨y, hy, e⟩ := h5 q hq
          exact ⟨y, List.mem_cons_of_mem _ hy, e⟩
        · simp only [List.mem_reverse, List.mem_map] at hq
          obtain ⟨m2, h2, rfl⟩ := hq
          exact ⟨x, List.mem_cons_self, m2, h2, rfl⟩

/-- The search ends after one iteration for every path below the stack. -/
theorem recLoop_enough (hm : ∀ t, (g.methodsOf t).Nodup) (ht : ∀ m, (g.tasksOf m).Nodup)
    (hinfo : ∀ x cyc, g.Found x cyc → ∃ r, g.cycleInfo ord fuel nulls x cyc = .ok r) :
    ∀ {n : Nat} {stack : List (List (Nat × Nat))} {rt : RecType} {all : List (List (Nat × Nat))},
      (∀ p ∈ stack, g.GoodPath p) → stack.Pairwise g.Apart → (∀ p ∈ stack, ∀ q, g.Ext p q → q ∈ all) → all.length ≤ n →
      ∃ rt', g.recLoop ord fuel nulls n stack rt = .ok rt'
  | n, [], rt, _, _, _, _, _ => ⟨rt, by unfold recLoop; rfl⟩
  | 0, p :: stack, rt, all, _, _, ha, hn => by
    have := ha p List.mem_cons_self p (.refl _)
    have := List.length_pos_of_mem this
    omega
  | n + 1, path :: stack, rt, all, hs, hp, ha, hn => by
    have hgp := hs path List.mem_cons_self
    obtain ⟨t0, m0, hm0, hext⟩ := hgp
    have hne : path ≠ [] := by
      rintro rfl
      have := hext.prefix
      simp at this
    obtain ⟨p', ⟨t, m⟩, hp'⟩ : ∃ p' b, path = p' ++ [b] :=
      ⟨path.dropLast, path.getLast hne, (List.dropLast_append_getLast hne).symm⟩
    have hl : path.getLast? = some (t, m) := by rw [hp']; simp
    rw [recLoop, hl]
    obtain ⟨new, rt', h1, _⟩ := expand_term (g := g) (ord := ord) (fuel := fuel) (nulls := nulls) (path := path) (m := m)
      (xs := g.tasksOf m) (stack := stack) (rt := rt)
      (fun x hx c hc => hinfo x _ ⟨t0, m0, path, hm0, hext, t, m, c, hl, hx, hc, rfl⟩)
    simp only [h1, R.bind_ok]
    obtain ⟨_, new', _, h4, _, _, h7⟩ := expand_ok h1
    have hnn : new = new' := List.append_cancel_right h4
    subst hnn
    obtain ⟨new', h4, hnd, h8⟩ := expand_new hm (ht m) h1
    have hnn : new = new' := List.append_cancel_right h4
    subst hnn
    have below : ∀ p ∈ new, ∀ q, g.Ext p q → g.Ext path q := by
      intro p hp q hq
      obtain ⟨x, hx, hc, m', hm', rfl⟩ := (h7 p).mp hp
      exact .step hl hx hc hm' hq
    have longer : ∀ p ∈ new, ∀ q, g.Ext p q → q ≠ path := by
      intro p hpn q hq he
      obtain ⟨x, hx, hc, m', hm', rfl⟩ := (h7 p).mp hpn
      have := hq.prefix.length_le
      rw [he, List.length_append, List.length_singleton] at this
      omega
    obtain ⟨hap, hpw⟩ := List.pairwise_cons.mp hp
    classical
    refine recLoop_enough (all := all.erase path) hm ht hinfo (fun p hp => ?_) ?_ (fun p hp q hq => ?_) ?_
    · rcases List.mem_append.mp hp with hp | hp
      · obtain ⟨x, hx, hc, m', hm', rfl⟩ := (h7 p).mp hp
        exact ⟨t0, m0, hm0, hext.snoc hl hx hc hm'⟩
      · exact hs p (List.mem_cons_of_mem _ hp)
    · rw [List.pairwise_append]
      refine ⟨?_, hpw, fun p hp q hq r hr hr' => hap q hq r (below p hp r hr) hr'⟩
      refine hnd.imp_of_mem fun {p q} hp hq hpq r hr hr' => hpq ?_
      obtain ⟨x, _, m1, _, rfl⟩ := h8 p hp
      obtain ⟨y, _, m2, _, rfl⟩ := h8 q hq
      exact List.prefix_of_prefix_length_le hr.prefix hr'.prefix (by simp) |>.eq_of_length (by simp)
    · rcases List.mem_append.mp hp with hp | hp
      · exact (List.mem_erase_of_ne (longer p hp q hq)).mpr (ha path List.mem_cons_self q (below p hp q hq))
      · refine (List.mem_erase_of_ne ?_).mpr (ha p (List.mem_cons_of_mem _ hp) q hq)
        intro he
        exact hap p hp path (.refl _) (he ▸ hq)
    · rw [List.length_erase_of_mem (ha path List.mem_cons_self path (.refl _))]
      omega

/-! ### Paths and descents -/

/-- The paths that the search starts with. -/
abbrev starts (g : TDG) : List (List (Nat × Nat)) :=
  (g.keys.flatMap fun t => (g.methodsOf t).map fun m => [(t, m)]).reverse

theorem mem_starts (hb : g.Bounded T) {p : List (Nat × Nat)} : p ∈ g.starts ↔ ∃ t m, m ∈ g.methodsOf t ∧ p = [(t, m)] := by
  simp only [starts, List.mem_reverse, List.mem_flatMap, List.mem_map]
  constructor
  · rintro ⟨t, _, m, hm, rfl⟩; exact ⟨t, m, hm, rfl⟩
  · rintro ⟨t, m, hm, rfl⟩
    exact ⟨t, hb.keys.mem_iff.mpr (by simpa using hb.owner t m hm), m, hm, rfl⟩

theorem goodPath_iff {p : List (Nat × Nat)} : g.GoodPath p ↔ Chain g p ∧ (p.map (·.1)).Nodup := by
  constructor
  · rintro ⟨t, m, hm, he⟩
    exact he.chain (.one hm) (by simp)
  · rintro ⟨hc, hn⟩
    cases p with
    | nil => cases hc
    | cons a l =>
      obtain ⟨t, m⟩ := a
      have hm : m ∈ g.methodsOf t := by cases hc <;> assumption
      exact ⟨t, m, hm, Ext.of_chain (p := [(t, m)]) (by simp) hc hn⟩

/-- The task of the method at a position. -/
def ownerOf (d : DomainAST) (m : Nat) : Nat :=
  ((d.methods[m]?).bind fun mm => taskIndexLast (tdgTasks d) mm.task.name).getD 0

theorem Of.owner (hg : g.Of d) {t m : Nat} (h : m ∈ g.methodsOf t) : ownerOf d m = t := by
  obtain ⟨mm, h1, h2⟩ := (hg.mem_methodsOf t m).mp h
  simp [ownerOf, h1, h2]

theorem Chain.path (hg : g.Of d) {p : List (Nat × Nat)} (h : Chain g p) :
    (p.map (·.2)).map (fun m => (ownerOf d m, m)) = p := by
  induction h with
  | one h => simp [hg.owner h]
  | cons h _ _ ih =>
    rw [List.map_cons, List.map_cons, ih, hg.owner h]

theorem taskIndexLast_inj {ts : List (Name × Bool)} {x y : Name} {i : Nat} (h : taskIndexLast ts x = some i)
    (h' : taskIndexLast ts y = some i) : x = y := by
  have h1 := (taskIndexLast_some h).2
  have h2 := (taskIndexLast_some h').2
  rw [h1] at h2
  exact Option.some.inj h2

/-- The search visits exactly the descents. -/
theorem Chain.descent (hg : g.Of d) {p : List (Nat × Nat)} (h : Chain g p) (hn : (p.map (·.1)).Nodup) :
    Descent d (p.map (·.2)) := by
  have key : ∃ ms : List Method, (p.map (·.2)).map (fun i => d.methods[i]?) = ms.map some ∧ ms ≠ [] ∧ ms.IsChain LeadsTo ∧
      (ms.map fun m => taskIndexLast (tdgTasks d) m.task.name) = (p.map (·.1)).map some := by
    clear hn
    induction h with
    | @one t m h =>
      obtain ⟨mm, h1, h2⟩ := (hg.mem_methodsOf t m).mp h
      exact ⟨[mm], by simp [h1], by simp, by simp, by simp [h2]⟩
    | @cons t m t' m' l h hx _ ih =>
      obtain ⟨mm, h1, h2⟩ := (hg.mem_methodsOf t m).mp h
      obtain ⟨mm', h3, s, hs, h4⟩ := (hg.mem_tasksOf m t').mp hx
      rw [h1] at h3; cases h3
      obtain ⟨ms, e1, e2, e3, e4⟩ := ih
      cases ms with
      | nil => exact absurd rfl e2
      | cons a ms =>
        refine ⟨mm :: a :: ms, ?_, by simp, ?_, ?_⟩
        · rw [List.map_cons, List.map_cons, e1, h1]; rfl
        · rw [List.isChain_cons_cons]
          refine ⟨⟨s, hs, ?_⟩, e3⟩
          have : taskIndexLast (tdgTasks d) a.task.name = some t' := by simpa using (List.cons.inj e4).1
          exact taskIndexLast_inj h4 this
        · rw [List.map_cons, e4, h2]; rfl
  obtain ⟨ms, e1, e2, e3, e4⟩ := key
  refine ⟨ms, e1, e2, e3, ?_⟩
  have h1 : ((ms.map (·.task.name)).map (taskIndexLast (tdgTasks d))).Nodup := by
    rw [List.map_map]
    show (ms.map fun m => taskIndexLast (tdgTasks d) m.task.name).Nodup
    rw [e4]
    exact hn.map (Option.some_injective _)
  exact h1.of_map _

theorem descent_chain (hg : g.Of d) (hc : Verif.Closed d) {c : List Nat} (h : Descent d c) :
    Chain g (c.map fun m => (ownerOf d m, m)) ∧ ((c.map fun m => (ownerOf d m, m)).map (·.1)).Nodup := by
  obtain ⟨ms, h1, h2, h3, h4⟩ := h
  have htask : ∀ {i : Nat} {m : Method}, d.methods[i]? = some m →
      taskIndexLast (tdgTasks d) m.task.name = some (ownerOf d i) ∧ i ∈ g.methodsOf (ownerOf d i) := by
    intro i m hi
    obtain ⟨t, ht⟩ : ∃ t, taskIndexLast (tdgTasks d) m.task.name = some t := by
      cases he : taskIndexLast (tdgTasks d) m.task.name with
      | some t => exact ⟨t, rfl⟩
      | none => exact absurd (hc m (List.mem_of_getElem? hi)).1 (index_none.mp he)
    have ho : ownerOf d i = t := by simp [ownerOf, hi, ht]
    rw [ho]
    exact ⟨ht, (hg.mem_methodsOf t i).mpr ⟨m, hi, ht⟩⟩
  constructor
  · clear h4
    induction ms generalizing c with
    | nil => exact absurd rfl h2
    | cons m ms ih =>
      cases c with
      | nil => cases h1
      | cons i c =>
        obtain ⟨e1, e2⟩ := List.cons.inj h1
        cases ms with
        | nil =>
          cases c with
          | nil => exact .one (htask e1).2
          | cons j c => cases e2
        | cons m' ms =>
          cases c with
          | nil => cases e2
          | cons j c =>
            obtain ⟨⟨s, hs, hn⟩, h3⟩ := List.isChain_cons_cons.mp h3
            have := ih e2 (by simp) h3
            refine .cons (htask e1).2 ?_ this
            refine (hg.mem_tasksOf i _).mpr ⟨m, e1, s, hs, ?_⟩
            rw [hn]
            exact (htask (List.cons.inj e2).1).1
  · have : (c.map fun m => (ownerOf d m, m)).map (·.1) = c.map (ownerOf d) := by simp
    rw [this]
    have key : (ms.map (·.task.name)).map (taskIndexLast (tdgTasks d)) = (c.map (ownerOf d)).map some := by
      clear h2 h3 h4
      induction ms generalizing c with
      | nil =>
        cases c with
        | nil => rfl
        | cons i c => cases h1
      | cons m ms ih =>
        cases c with
        | nil => cases h1
        | cons i c =>
          obtain ⟨e1, e2⟩ := List.cons.inj h1
          simp only [List.map_cons]
          rw [(htask e1).1, ih e2 (by simp)]
    have h5 : ((c.map (ownerOf d)).map some).Nodup := by
      rw [← key]
      refine h4.map_on fun x hx y hy he => ?_
      obtain ⟨m, hm, rfl⟩ := List.mem_map.mp hx
      have hmem : some m ∈ c.map fun i => d.methods[i]? := by rw [h1]; exact List.mem_map_of_mem hm
      obtain ⟨i, _, hi⟩ := List.mem_map.mp hmem
      exact taskIndexLast_inj (htask hi).1 (he ▸ (htask hi).1)
    exact h5.of_map _

/-! ### The other searches -/

theorem sum_map_le_of_subperm {α} {l l' : List α} (h : l.Subperm l') (f : α → Nat) : (l.map f).sum ≤ (l'.map f).sum := by
  obtain ⟨l1, h1, h2⟩ := h
  rw [← (h1.map f).sum_nat]
  clear h1
  induction h2 with
  | slnil => exact Nat.le_refl _
  | cons a _ ih => rw [List.map_cons, List.sum_cons]; omega
  | cons_cons a _ ih => rw [List.map_cons, List.sum_cons, List.map_cons, List.sum_cons]; omega

theorem sum_map_le {α} {l : List α} {f f' : α → Nat} (h : ∀ a ∈ l, f a ≤ f' a) : (l.map f).sum ≤ (l.map f').sum := by
  induction l with
  | nil => exact Nat.le_refl _
  | cons a l ih =>
    have h1 := h a List.mem_cons_self
    have h2 := ih fun b hb => h b (List.mem_cons_of_mem _ hb)
    rw [List.map_cons, List.sum_cons, List.map_cons, List.sum_cons]
    omega

theorem Of.tasksOf_length (hg : g.Of d) {m : Nat} {mm : Method} (h : d.methods[m]? = some mm) :
    (g.tasksOf m).length ≤ mm.tn.subtasks.length := by
  have h1 : (g.tasksOf m).Subperm (mm.tn.subtasks.filterMap fun s => taskIndexLast (tdgTasks d) s.task.name) := by
    refine (hg.nodup_tasksOf m).subperm fun x hx => ?_
    obtain ⟨mm', h2, s, hs, h3⟩ := (hg.mem_tasksOf m x).mp hx
    rw [h] at h2; cases h2
    exact List.mem_filterMap.mpr ⟨s, hs, h3⟩
  exact h1.length_le.trans (List.length_filterMap_le _ _)

theorem Of.methods_subperm (hg : g.Of d) : ((List.range g.tasks.length).flatMap g.methodsOf).Subperm
    (List.range d.methods.length) := by
  refine List.Nodup.subperm ?_ fun m hm => ?_
  · rw [List.nodup_flatMap]
    refine ⟨fun t _ => hg.nodup_methodsOf t, ?_⟩
    refine List.nodup_range.imp fun {a b} hab => ?_
    intro m h1 h2
    exact hab ((hg.owner h1).symm.trans (hg.owner h2))
  · obtain ⟨t, _, hm⟩ := List.mem_flatMap.mp hm
    obtain ⟨mm, h1, _⟩ := (hg.mem_methodsOf t m).mp hm
    exact List.mem_range.mpr (List.getElem?_eq_some_iff.mp h1).1

theorem Of.work_le (hg : g.Of d) : g.work [] (List.range g.tasks.length) ≤
    (d.methods.map fun m => m.tn.subtasks.length).sum := by
  unfold TDG.work
  have e : ∀ l : List Nat, (l.map fun t => (g.succ t).length).sum = ((l.flatMap g.methodsOf).map fun m => (g.tasksOf m).length).sum := by
    intro l
    induction l with
    | nil => rfl
    | cons t l ih =>
      rw [List.map_cons, List.sum_cons, ih, List.flatMap_cons, List.map_append, List.sum_append]
      simp [TDG.succ, List.length_flatMap]
  rw [e]
  have hf : ((List.range g.tasks.length).filter fun t => t ∉ ([] : List Nat)) = List.range g.tasks.length := by simp
  rw [hf]
  refine (sum_map_le_of_subperm hg.methods_subperm _).trans ?_
  have h2 : d.methods.map (fun m => m.tn.subtasks.length) =
      (List.range d.methods.length).map fun i => ((d.methods[i]?).map fun m => m.tn.subtasks.length).getD 0 := by
    refine List.ext_getElem (by simp) fun i h1 h2 => ?_
    have h3 : i < d.methods.length := by simpa using h1
    simp [h3]
  rw [h2]
  refine sum_map_le fun m hm => ?_
  have h3 : m < d.methods.length := List.mem_range.mp hm
  have h4 : d.methods[m]? = some d.methods[m] := List.getElem?_eq_getElem h3
  rw [h4]
  exact hg.tasksOf_length h4

/-- The search for nullable tasks and for reachable tasks takes quadratically many iterations. -/
theorem Of.enough_le (hg : g.Of d) : g.enough ≤ (hierarchySize d + 2) ^ 2 := by
  have h1 := hg.work_le
  have h2 : variant g.tasks.length g.nullInit ≤ g.tasks.length + g.tasks.length * g.tasks.length + 2 := by
    have hr : room g.tasks.length g.unit0 ≤ g.tasks.length * g.tasks.length := by
      have h3 : ∀ (T : Nat) (u : List (Nat × List Nat)), room T u ≤ u.length * T := by
        intro T u
        induction u with
        | nil => simp [room]
        | cons e u ih =>
          simp only [room, List.map_cons, List.sum_cons, List.length_cons] at ih ⊢
          rw [Nat.succ_mul]
          omega
      refine (h3 _ _).trans (Nat.mul_le_mul_right _ ?_)
      unfold unit0
      exact (List.length_filterMap_le _ _).trans (List.length_filter_le _ _)
    simp only [variant, if_true]
    omega
  have hT : g.tasks.length = d.tasks.length + d.actions.length := by rw [hg.tasks]; simp [tdgTasks]
  have hS : (d.methods.map fun m => 1 + m.tn.subtasks.length).sum = d.methods.length + (d.methods.map fun m => m.tn.subtasks.length).sum := by
    induction d.methods with
    | nil => rfl
    | cons m l ih => simp only [List.map_cons, List.sum_cons, List.length_cons, ih]; omega
  unfold TDG.enough hierarchySize
  rw [hS, ← hT]
  generalize g.tasks.length = T at *
  generalize (d.methods.map fun m => m.tn.subtasks.length).sum = S at *
  nlinarith [Nat.zero_le S, Nat.zero_le T, Nat.zero_le d.methods.length]

/-! ### The context of a step -/

theorem context_seq {t m : Nat} (hs : Sequential (g.method m).2)
    (hA : ∃ s ∈ (g.method m).2.subtasks, s.task.name = g.taskName t)
    (hB : ∀ s ∈ (g.method m).2.subtasks, ∃ i, taskIndexFirst g.tasks s.task.name = some i) {n : Nat} (hn : 1 ≤ n) :
    (∃ r, g.getPrefix ord n t m = .ok r) ∧ ∃ r, g.getSuffix ord n t m = .ok r := by
  have htot : (g.method m).2.orderings = .total → (∃ r, g.getPrefix ord n t m = .ok r) ∧ ∃ r, g.getSuffix ord n t m = .ok r := by
    intro ho
    unfold getPrefix getSuffix
    simp only [ho]
    cases hf : (g.method m).2.subtasks.findIdx? (fun s => decide (s.task.name = g.taskName t)) with
    | none =>
      rw [List.findIdx?_eq_none_iff] at hf
      obtain ⟨s, hs, he⟩ := hA
      have := hf s hs
      simp [he] at this
    | some i =>
      constructor
      · obtain ⟨r, hr⟩ := map_some_of (l := (g.method m).2.subtasks.take i)
          (f := fun s => taskIndexFirst g.tasks s.task.name) fun s hs => hB s (List.mem_of_mem_take hs)
        exact ⟨r, subIndices_ok.mpr hr⟩
      · obtain ⟨r, hr⟩ := map_some_of (l := (g.method m).2.subtasks.drop (i + 1))
          (f := fun s => taskIndexFirst g.tasks s.task.name) fun s hs => hB s (List.mem_of_mem_drop hs)
        exact ⟨r, subIndices_ok.mpr hr⟩
  rcases hs with h | h | ⟨h1, ho⟩
  · obtain ⟨s, hs, _⟩ := hA
    rw [h] at hs; cases hs
  · exact htot h
  · have hocc : (occurrences (g.method m).2 (g.taskName t)).length ≤ 1 := by
      unfold occurrences
      refine (List.dedup_sublist _).length_le.trans ((List.length_filterMap_le _ _).trans ?_)
      omega
    have hl : ∀ site, ((arrange ord site (occurrences (g.method m).2 (g.taskName t))).reverse).length ≤ 1 := by
      intro site
      rw [List.length_reverse, (arrange_perm ord site _).length_eq]
      exact hocc
    obtain ⟨k, rfl⟩ : ∃ k, n = k + 1 := ⟨n - 1, by omega⟩
    unfold getPrefix getSuffix
    simp only [ho, h1, List.length_nil, Nat.sub_self, ne_eq, not_true_eq_false, if_false]
    constructor
    · have := hl [3, t, m]
      generalize (arrange ord [3, t, m] (occurrences (g.method m).2 (g.taskName t))).reverse = l at this
      match l, this with
      | [], _ => exact ⟨[], by simp [prefixLoop]⟩
      | [a], _ =>
        refine ⟨[], ?_⟩
        simp [prefixLoop, successors]
      | _ :: _ :: _, h => simp at h
    · have := hl [4, t, m]
      generalize (arrange ord [4, t, m] (occurrences (g.method m).2 (g.taskName t))).reverse = l at this
      match l, this with
      | [], _ => exact ⟨[], by simp [suffixLoop, idIndices]⟩
      | [a], _ =>
        refine ⟨[], ?_⟩
        have : ∀ site, arrange ord site (successors [] a) = [] := fun site => by
          have := (arrange_perm ord site (successors [] a)).length_eq
          exact List.length_eq_zero_iff.mp (by rw [this]; rfl)
        simp [suffixLoop, idIndices, this]
      | _ :: _ :: _, h => simp at h

theorem Of.cycleInfo_seq (hg : g.Of d) (hc : Verif.Closed d)
    (hseq : ∀ m ∈ d.methods, ∀ s ∈ m.tn.subtasks, Relation.ReflTransGen (HasSub d) s.task.name m.task.name →
      Sequential m.tn) {n : Nat} (hn : 1 ≤ n) (x : Nat) (cyc : List (Nat × Nat)) (hf : g.Found x cyc) :
    ∃ r, g.cycleInfo ord n nulls x cyc = .ok r := by
  refine cycleInfo_term fun e he => ?_
  obtain ⟨t, m⟩ := e
  obtain ⟨t0, h1, h2, h3⟩ := edge_found_iff.mp ⟨x, cyc, hf, he⟩
  obtain ⟨mm, hr⟩ := hg.methodsOf_iff.mp h1
  obtain ⟨s, hs, hi⟩ := (hg.tasksOf_iff hr).mp h2
  have hmeth : g.method m = (mm.name.name, mm.tn) := by
    unfold TDG.method
    rw [hg.methods, List.getElem?_map, hr.1]; rfl
  have hrt : Relation.ReflTransGen (HasSub d) s.task.name mm.task.name := by
    rcases Relation.reflTransGen_iff_eq_or_transGen.mp h3 with rfl | h3
    · rw [hi.inj hr.2]
    · exact (hg.trans_names hi hr.2 h3).to_reflTransGen
  refine context_seq ?_ ?_ ?_ hn
  · rw [hmeth]; exact hseq mm hr.mem s hs hrt
  · rw [hmeth, hi.taskName hg]; exact ⟨s, hs, rfl⟩
  · rw [hmeth]; exact fun s hs => hg.first_index ((hc mm hr.mem).2 s hs)

/-! ### The number of iterations -/

theorem Of.recursion_visits (hg : g.Of d) (hc : Verif.Closed d) {ns : List Name} {n : Nat} {rt : RecType}
    (h : g.recursionType ord n ns = .ok rt) {l : List (List Nat)} (hn : l.Nodup) (hl : ∀ c ∈ l, Descent d c) :
    l.length ≤ n := by
  unfold recursionType at h
  obtain ⟨nulls, _, h1⟩ := R.bind_ok_iff.mp h
  obtain ⟨vis, h2, h3⟩ := recLoop_visits h1
  have h4 : l ⊆ vis.map fun p => p.map (·.2) := by
    intro c hcl
    obtain ⟨h5, h6⟩ := descent_chain hg hc (hl c hcl)
    obtain ⟨t, m, hm, he⟩ := goodPath_iff.mpr ⟨h5, h6⟩
    refine List.mem_map.mpr ⟨_, h3 [(t, m)] ?_ _ he, by simp [Function.comp_def]⟩
    exact (mem_starts hg.bounded).mpr ⟨t, m, hm, rfl⟩
  have := (hn.subperm h4).length_le
  rw [List.length_map] at this
  omega

theorem starts_apart (hg : g.Of d) : g.starts.Pairwise g.Apart := by
  have hn : g.starts.Nodup := by
    unfold starts
    rw [List.nodup_reverse, List.nodup_flatMap]
    refine ⟨fun t _ => (hg.nodup_methodsOf t).map fun a b h => by simpa using h, ?_⟩
    refine (hg.keys.nodup_iff.mpr List.nodup_range).imp fun {a b} hab => ?_
    intro p h1 h2
    obtain ⟨m1, _, rfl⟩ := List.mem_map.mp h1
    obtain ⟨m2, _, h2⟩ := List.mem_map.mp h2
    simp at h2
    exact hab h2.1.symm
  refine hn.imp_of_mem fun {p q} hp hq hpq r hr hr' => hpq ?_
  obtain ⟨t, m, _, rfl⟩ := (mem_starts hg.bounded).mp hp
  obtain ⟨t', m', _, rfl⟩ := (mem_starts hg.bounded).mp hq
  exact List.prefix_of_prefix_length_le hr.prefix hr'.prefix (by simp) |>.eq_of_length (by simp)

theorem Of.recursion_enough (hg : g.Of d) (hc : Verif.Closed d)
    (hseq : ∀ m ∈ d.methods, ∀ s ∈ m.tn.subtasks, Relation.ReflTransGen (HasSub d) s.task.name m.task.name →
      Sequential m.tn) {ns : List Name} (hns : ∀ x ∈ ns, TaskName d x) {n : Nat} (hn : 1 ≤ n)
    {l : List (List Nat)} (hl : ∀ c, Descent d c → c ∈ l) (hln : l.length ≤ n) :
    ∃ rt, g.recursionType ord n ns = .ok rt := by
  obtain ⟨nulls, hnulls⟩ := map_some_of (l := ns) (f := fun x => taskIndexFirst g.tasks x) fun x hx =>
    hg.first_index (hns x hx)
  unfold recursionType
  rw [nullIndices_ok.mpr hnulls, R.bind_ok]
  refine recLoop_enough (all := l.map fun c => c.map fun m => (ownerOf d m, m)) hg.nodup_methodsOf hg.nodup_tasksOf
    (hg.cycleInfo_seq hc hseq hn) (fun p hp => ?_) (starts_apart hg) (fun p hp q hq => ?_) (by simpa using hln)
  · obtain ⟨t, m, hm, rfl⟩ := (mem_starts hg.bounded).mp hp
    exact ⟨t, m, hm, .refl _⟩
  · obtain ⟨t, m, hm, rfl⟩ := (mem_starts hg.bounded).mp hp
    obtain ⟨h1, h2⟩ := goodPath_iff.mp ⟨t, m, hm, hq⟩
    exact List.mem_map.mpr ⟨_, hl _ (h1.descent hg h2), h1.path hg⟩

end TDG

/-- There are finitely many descents. -/
theorem descents_finite (d : DomainAST) : ∃ l : List (List Nat), l.Nodup ∧ ∀ c, c ∈ l ↔ Descent d c := by
  classical
  let all := ((List.range d.methods.length).sublists.flatMap List.permutations).dedup.filter fun c => Descent d c
  refine ⟨all, (List.nodup_dedup _).filter _, fun c => ?_⟩
  simp only [all, List.mem_filter, List.mem_dedup, List.mem_flatMap, List.mem_sublists, List.mem_permutations,
    decide_eq_true_eq, and_iff_right_iff_imp]
  rintro ⟨ms, h1, _, _, h4⟩
  have hlt : ∀ i ∈ c, i < d.methods.length := by
    intro i hi
    have : d.methods[i]? ∈ ms.map some := by rw [← h1]; exact List.mem_map_of_mem hi
    obtain ⟨m, _, hm⟩ := List.mem_map.mp this
    exact (List.getElem?_eq_some_iff.mp hm.symm).1
  have hnd : c.Nodup := by
    have h5 : (ms.map some).Nodup := (h4.of_map _).map (Option.some_injective _)
    rw [← h1] at h5
    exact h5.of_map _
  obtain ⟨l, h5, h6⟩ := hnd.subperm (l₂ := List.range d.methods.length) fun i hi => List.mem_range.mpr (hlt i hi)
  exact ⟨l, h6, h5.symm⟩

end Verif
