import Mathlib.Data.List.Chain
import Verif.Proofs.Classes

/-! From cycles of the graph to cycles of methods, and the conditions under which the metadata is computed. -/

namespace Verif

open Spec

variable {d : DomainAST} {g : TDG} {ord : HashOrd}

/-! ### Names and indices -/

/-- `i` is the node of the task named `x`. -/
def Ix (d : DomainAST) (x : Name) (i : Nat) : Prop := taskIndexLast (tdgTasks d) x = some i

theorem Ix.det {x : Name} {i j : Nat} (h : Ix d x i) (h' : Ix d x j) : i = j := by
  unfold Ix at h h'; rw [h] at h'; cases h'; rfl

theorem Ix.inj {x y : Name} {i : Nat} (h : Ix d x i) (h' : Ix d y i) : x = y := by
  have h1 := (taskIndexLast_some h).2
  rw [(taskIndexLast_some h').2] at h1
  cases h1; rfl

theorem Ix.of {x : Name} (h : TaskName d x) : ∃ i, Ix d x i := by
  cases hx : taskIndexLast (tdgTasks d) x with
  | none => exact absurd h (index_none.mp hx)
  | some i => exact ⟨i, hx⟩

theorem Ix.taskName (hg : g.Of d) {x : Name} {i : Nat} (h : Ix d x i) : g.taskName i = x := by
  have h1 := (taskIndexLast_some h).2
  unfold TDG.taskName
  rw [hg.tasks]
  obtain ⟨e, he, rfl⟩ := Option.map_eq_some_iff.mp h1
  rw [he]; rfl

/-- A pair of a node and a method index stands for a method. -/
def Rep (d : DomainAST) (e : Nat × Nat) (m : Method) : Prop := d.methods[e.2]? = some m ∧ Ix d m.task.name e.1

theorem Rep.mem {e : Nat × Nat} {m : Method} (h : Rep d e m) : m ∈ d.methods := List.mem_of_getElem? h.1

theorem Rep.method (hg : g.Of d) {e : Nat × Nat} {m : Method} (h : Rep d e m) : g.method e.2 = (m.name.name, m.tn) := by
  unfold TDG.method
  rw [hg.methods, List.getElem?_map, h.1]; rfl

theorem TDG.Of.methodsOf_iff (hg : g.Of d) {t m : Nat} : m ∈ g.methodsOf t ↔ ∃ mm, Rep d (t, m) mm :=
  hg.mem_methodsOf t m

theorem TDG.Of.tasksOf_iff (hg : g.Of d) {e : Nat × Nat} {m : Method} (h : Rep d e m) {x : Nat} :
    x ∈ g.tasksOf e.2 ↔ ∃ s ∈ m.tn.subtasks, Ix d s.task.name x := by
  rw [hg.mem_tasksOf]
  constructor
  · rintro ⟨mm, h1, h2⟩
    rw [h.1] at h1; cases h1; exact h2
  · exact fun h2 => ⟨m, h.1, h2⟩

theorem TDG.Of.links_iff (hg : g.Of d) {e e' : Nat × Nat} {m m' : Method} (h : Rep d e m) (h' : Rep d e' m') :
    e'.1 ∈ g.tasksOf e.2 ↔ Links m m' := by
  rw [hg.tasksOf_iff h]
  constructor
  · rintro ⟨s, hs, hi⟩; exact ⟨s, hs, hi.inj h'.2⟩
  · rintro ⟨s, hs, he⟩; exact ⟨s, hs, he ▸ h'.2⟩

theorem TDG.Of.step_names (hg : g.Of d) {i j : Nat} : g.Step i j ↔ ∃ x y, Ix d x i ∧ Ix d y j ∧ HasSub d x y := by
  constructor
  · rintro ⟨m, h1, h2⟩
    obtain ⟨mm, hr⟩ := hg.methodsOf_iff.mp h1
    obtain ⟨s, hs, hi⟩ := (hg.tasksOf_iff hr).mp h2
    exact ⟨_, _, hr.2, hi, mm, hr.mem, rfl, s, hs, rfl⟩
  · rintro ⟨_, _, hx, hy, mm, hm, rfl, s, hs, rfl⟩
    obtain ⟨m, hm⟩ := List.mem_iff_getElem?.mp hm
    have hr : Rep d (i, m) mm := ⟨hm, hx⟩
    exact ⟨m, hg.methodsOf_iff.mpr ⟨mm, hr⟩, (hg.tasksOf_iff hr).mpr ⟨s, hs, hy⟩⟩

theorem TDG.Of.trans_names (hg : g.Of d) {i j : Nat} {x y : Name} (hx : Ix d x i) (hy : Ix d y j)
    (h : Relation.TransGen g.Step i j) : Relation.TransGen (HasSub d) x y := by
  induction h using Relation.TransGen.head_induction_on generalizing x with
  | single h =>
    obtain ⟨x', y', h1, h2, h3⟩ := hg.step_names.mp h
    cases h1.inj hx; cases h2.inj hy; exact .single h3
  | head h _ ih =>
    obtain ⟨x', y', h1, h2, h3⟩ := hg.step_names.mp h
    cases h1.inj hx
    exact .head h3 (ih h2)

theorem hasSub_ix (hc : Verif.Closed d) {x y : Name} (h : HasSub d x y) : (∃ i, Ix d x i) ∧ ∃ j, Ix d y j := by
  obtain ⟨m, hm, rfl, s, hs, rfl⟩ := h
  exact ⟨Ix.of (hc m hm).1, Ix.of ((hc m hm).2 s hs)⟩

theorem TDG.Of.trans_index (hg : g.Of d) (hc : Verif.Closed d) {i j : Nat} {x y : Name} (hx : Ix d x i) (hy : Ix d y j)
    (h : Relation.TransGen (HasSub d) x y) : Relation.TransGen g.Step i j := by
  induction h using Relation.TransGen.head_induction_on generalizing i with
  | single h => exact .single (hg.step_names.mpr ⟨_, _, hx, hy, h⟩)
  | @head a b h _ ih =>
    obtain ⟨k, hk⟩ := (hasSub_ix hc h).2
    exact .head (hg.step_names.mpr ⟨_, _, hx, hk, h⟩) (ih hk)

/-! ### Cycles of methods -/

theorem chain_rep (hg : g.Of d) {c : List (Nat × Nat)} (h : g.Chain c) :
    ∃ ms, List.Forall₂ (Rep d) c ms ∧ ms.IsChain Links := by
  induction h with
  | one h =>
    obtain ⟨mm, hr⟩ := hg.methodsOf_iff.mp h
    exact ⟨[mm], .cons hr .nil, by simp⟩
  | cons h1 h2 _ ih =>
    obtain ⟨mm, hr⟩ := hg.methodsOf_iff.mp h1
    obtain ⟨ms, hf, hch⟩ := ih
    cases hf with
    | @cons _ m2 _ ms hr2 hf =>
      exact ⟨mm :: m2 :: ms, .cons hr (.cons hr2 hf), List.isChain_cons_cons.mpr ⟨(hg.links_iff hr hr2).mp h2, hch⟩⟩

theorem rep_chain (hg : g.Of d) {c : List (Nat × Nat)} {ms : List Method} (h : List.Forall₂ (Rep d) c ms) (hne : ms ≠ [])
    (hch : ms.IsChain Links) : g.Chain c := by
  induction h with
  | nil => exact absurd rfl hne
  | @cons e m c ms hr hf ih =>
    cases hf with
    | nil => exact .one (hg.methodsOf_iff.mpr ⟨m, hr⟩)
    | @cons e2 m2 c ms hr2 hf =>
      rw [List.isChain_cons_cons] at hch
      exact .cons (hg.methodsOf_iff.mpr ⟨m, hr⟩) ((hg.links_iff hr hr2).mpr hch.1) (ih (by simp) hch.2)

theorem rep_nodup {c : List (Nat × Nat)} {ms : List Method} (h : List.Forall₂ (Rep d) c ms) :
    (c.map (·.1)).Nodup ↔ (ms.map (·.task.name)).Nodup := by
  have hmem : ∀ {c : List (Nat × Nat)} {ms : List Method}, List.Forall₂ (Rep d) c ms → ∀ {e : Nat × Nat} {m : Method},
      Rep d e m → (e.1 ∈ c.map (·.1) ↔ m.task.name ∈ ms.map (·.task.name)) := by
    intro c ms h e m hr
    induction h with
    | nil => simp
    | @cons e' m' c ms hr' _ ih =>
      rw [List.map_cons, List.map_cons, List.mem_cons, List.mem_cons, ih]
      refine or_congr_left ⟨fun h => ?_, fun h => ?_⟩
      · exact hr.2.inj (by rw [h]; exact hr'.2)
      · exact hr.2.det (by rw [h]; exact hr'.2)
  induction h with
  | nil => simp
  | cons hr hf ih =>
    rw [List.map_cons, List.map_cons, List.nodup_cons, List.nodup_cons]
    exact and_congr (not_congr (hmem hf hr)) ih

theorem rep_exists (hc : Verif.Closed d) : ∀ {ms : List Method}, (∀ m ∈ ms, m ∈ d.methods) →
    ∃ c, List.Forall₂ (Rep d) c ms
  | [], _ => ⟨[], .nil⟩
  | m :: ms, h => by
    have hm := h m List.mem_cons_self
    obtain ⟨i, hi⟩ := Ix.of (hc m hm).1
    obtain ⟨k, hk⟩ := List.mem_iff_getElem?.mp hm
    obtain ⟨c, hcc⟩ := rep_exists hc fun m hm => h m (List.mem_cons_of_mem _ hm)
    exact ⟨(i, k) :: c, .cons ⟨hk, hi⟩ hcc⟩

theorem forall₂_last {α β} {R : α → β → Prop} {l : List α} {l' : List β} (h : List.Forall₂ R l l') :
    ∀ a, l.getLast? = some a → ∃ b, l'.getLast? = some b ∧ R a b := by
  induction h with
  | nil => simp
  | @cons a b l l' hr hf ih =>
    intro x hx
    cases hf with
    | nil => simp at hx ⊢; exact hx ▸ hr
    | @cons a2 b2 l l' hr2 hf =>
      rw [List.getLast?_cons_cons] at hx
      rw [List.getLast?_cons_cons]
      exact ih x hx

theorem chain_close {ms : List Method} {m : Method} : (ms ++ [m]).IsChain Links ↔
    ms.IsChain Links ∧ ∀ l, ms.getLast? = some l → Links l m := by
  rw [List.isChain_append]
  simp

/-- Simple cycles of the graph stand for cycles of methods. -/
theorem simpleCycle_rep (hg : g.Of d) {x : Nat} {c : List (Nat × Nat)} (h : g.SimpleCycle x c) :
    ∃ ms, List.Forall₂ (Rep d) c ms ∧ Cycle d ms := by
  obtain ⟨h1, h2, m, l, t, m', rfl, h4, h5⟩ := h
  obtain ⟨ms, hf, hch⟩ := chain_rep hg h1
  refine ⟨ms, hf, ?_, ?_, (rep_nodup hf).mp h2, ?_⟩
  · rintro rfl; cases hf
  · intro m hm
    obtain ⟨n, hn, rfl⟩ := List.mem_iff_getElem.mp hm
    have := List.forall₂_iff_get.mp hf
    exact (this.2 n (by omega) hn).mem
  · obtain ⟨b, hb, hr⟩ := forall₂_last hf _ h4
    cases hf with
    | @cons _ m0 _ ms hr0 hf =>
      rw [List.take_one, List.head?_cons, Option.toList_some, chain_close]
      exact ⟨hch, fun l hl => by rw [hb] at hl; cases hl; exact (hg.links_iff hr hr0).mp h5⟩

theorem rep_simpleCycle (hg : g.Of d) {e : Nat × Nat} {c : List (Nat × Nat)} {ms : List Method}
    (hf : List.Forall₂ (Rep d) (e :: c) ms) (hc : Cycle d ms) : g.SimpleCycle e.1 (e :: c) := by
  have hl := hc.links
  cases hf with
  | @cons _ m0 _ ms hr0 hf =>
    rw [List.take_one, List.head?_cons, Option.toList_some, chain_close] at hl
    have hff : List.Forall₂ (Rep d) (e :: c) (m0 :: ms) := .cons hr0 hf
    refine ⟨rep_chain hg hff (by simp) hl.1, (rep_nodup hff).mpr hc.nodup, ?_⟩
    obtain ⟨⟨t, m⟩, hlast⟩ : ∃ a, (e :: c).getLast? = some a := by
      rw [List.getLast?_eq_some_getLast (by simp)]; exact ⟨_, rfl⟩
    obtain ⟨b, hb, hr⟩ := forall₂_last hff _ hlast
    exact ⟨e.2, c, t, m, rfl, hlast, (hg.links_iff hr hr0).mpr (hl.2 b hb)⟩

/-! ### Edges of cycles -/

/-- The steps of a cycle: a method and the next one. -/
theorem edges_rep {x k : Nat} {m0 : Method} (hx : Ix d m0.task.name x) {c : List (Nat × Nat)} {ms : List Method}
    (hf : List.Forall₂ (Rep d) c ms) :
    List.Forall₂ (fun e p => d.methods[e.2]? = some p.1 ∧ Ix d (Method.task p.2).name e.1)
      (TDG.edges (c ++ [(x, k)])) (ms.zip (ms.tail ++ [m0])) := by
  induction hf with
  | nil => exact .nil
  | @cons e m c ms hr hf ih =>
    obtain ⟨t, i⟩ := e
    cases hf with
    | nil => exact .cons ⟨hr.1, hx⟩ .nil
    | @cons e2 m2 c ms hr2 hf =>
      obtain ⟨t2, i2⟩ := e2
      exact .cons ⟨hr.1, hr2.2⟩ ih

theorem edges_last {x k : Nat} {c : List (Nat × Nat)} {t m : Nat} (h : c.getLast? = some (t, m)) :
    (x, m) ∈ TDG.edges (c ++ [(x, k)]) := by
  induction c with
  | nil => simp at h
  | cons e c ih =>
    obtain ⟨t1, m1⟩ := e
    cases c with
    | nil =>
      simp only [List.getLast?_singleton, Option.some.injEq, Prod.mk.injEq] at h
      obtain ⟨rfl, rfl⟩ := h
      simp [TDG.edges]
    | cons e2 c =>
      obtain ⟨t2, m2⟩ := e2
      rw [List.getLast?_cons_cons] at h
      exact List.mem_cons_of_mem _ (ih h)

theorem edges_chain {x k : Nat} {c : List (Nat × Nat)} (h : g.Chain c) : ∀ {y m l t m'}, c = (y, m) :: l →
    c.getLast? = some (t, m') → x ∈ g.tasksOf m' → ∀ e ∈ TDG.edges (c ++ [(x, k)]), ∃ t0, e.2 ∈ g.methodsOf t0 ∧
      e.1 ∈ g.tasksOf e.2 ∧ Relation.ReflTransGen g.Step e.1 x ∧ Relation.ReflTransGen g.Step y t0 := by
  induction h with
  | one h1 =>
    intro y m l t m' he hl hx e hm
    cases he
    simp only [List.getLast?_singleton, Option.some.injEq, Prod.mk.injEq] at hl
    obtain ⟨rfl, rfl⟩ := hl
    simp only [List.cons_append, List.nil_append, TDG.edges, List.mem_singleton] at hm
    subst hm
    exact ⟨_, h1, hx, .refl, .refl⟩
  | @cons t1 m1 t2 m2 l1 h1 h2 h3 ih =>
    intro y m l t m' he hl hx e hm
    cases he
    have hl' : ((t2, m2) :: l1).getLast? = some (t, m') := by simpa using hl
    rcases List.mem_cons.mp hm with rfl | hm
    · exact ⟨_, h1, h2, (h3.reach rfl hl' hx).to_reflTransGen, .refl⟩
    · obtain ⟨t0, a, b, e1, e2⟩ := ih rfl hl' hx e hm
      exact ⟨t0, a, b, e1, .head ⟨_, h1, h2⟩ e2⟩

/-- An edge lies on some cycle found exactly if its task leads back to the task of its method. -/
theorem TDG.edge_found_iff {t m : Nat} : (∃ x cyc, g.Found x cyc ∧ (t, m) ∈ edges cyc) ↔
    ∃ t0, m ∈ g.methodsOf t0 ∧ t ∈ g.tasksOf m ∧ Relation.ReflTransGen g.Step t t0 := by
  constructor
  · rintro ⟨x, cyc, hf, he⟩
    obtain ⟨c, ⟨h1, _, m0, l, t1, m1, h2, h3, h4⟩, t2, m2, h5, rfl⟩ := TDG.found_iff.mp hf
    obtain ⟨t0, a, b, e1, e2⟩ := edges_chain h1 h2 h3 h4 _ he
    exact ⟨t0, a, b, e1.trans e2⟩
  · rintro ⟨t0, hm, ht, hr⟩
    have key : ∃ c m0 l, g.Chain c ∧ (c.map (·.1)).Nodup ∧ c = (t, m0) :: l ∧ c.getLast? = some (t0, m) := by
      rcases Relation.reflTransGen_iff_eq_or_transGen.mp hr with rfl | hr
      · exact ⟨[(t0, m)], m, [], .one hm, by simp, rfl, rfl⟩
      by_cases htt : t = t0
      · subst htt
        exact ⟨[(t, m)], m, [], .one hm, by simp, rfl, rfl⟩
      obtain ⟨c, m1, l, t', m', h1, h2, rfl, h4, h5⟩ := TDG.chain_of_reach hr
      have hsnoc : ∀ {a : List (Nat × Nat)} {t' m' : Nat}, g.Chain a → a.getLast? = some (t', m') → t0 ∈ g.tasksOf m' →
          (a.map (·.1)).Nodup → t0 ∉ a.map (·.1) → g.Chain (a ++ [(t0, m)]) ∧ ((a ++ [(t0, m)]).map (·.1)).Nodup := by
        intro a t' m' ha hla hta hna hnot
        refine ⟨ha.snoc hla hta hm, ?_⟩
        rw [List.map_append, List.nodup_append]
        refine ⟨hna, by simp, ?_⟩
        intro b hb b' hb'
        simp only [List.map_cons, List.map_nil, List.mem_singleton] at hb'
        subst hb'
        rintro rfl
        exact hnot hb
      by_cases hin : t0 ∈ ((t, m1) :: l).map (·.1)
      · obtain ⟨c', hc'⟩ := Option.ne_none_iff_exists'.mp (fun h => (TDG.cycleFrom_none.mp h) hin)
        obtain ⟨a, m2, l', ha, rfl⟩ := TDG.cycleFrom_some hc'
        rw [ha] at h1 h2
        have hnot : t0 ∉ a.map (·.1) := by
          rw [List.map_append, List.nodup_append] at h2
          exact fun h => h2.2.2 t0 h t0 (by simp) rfl
        cases a with
        | nil => cases ha; exact absurd rfl htt
        | cons e a =>
          cases ha
          -- the part of the chain before `t0`
          have hsplit : ∀ {p q : List (Nat × Nat)} {s n}, g.Chain (p ++ (s, n) :: q) → p ≠ [] →
              g.Chain p ∧ ∃ u v, p.getLast? = some (u, v) ∧ s ∈ g.tasksOf v := by
            intro p
            induction p with
            | nil => intro q s n _ h; exact absurd rfl h
            | cons e p ih =>
              intro q s n h _
              cases p with
              | nil =>
                cases h with
                | cons a b _ => exact ⟨.one a, _, _, rfl, b⟩
              | cons e2 p =>
                cases h with
                | cons a b c =>
                  obtain ⟨i1, u, v, i2, i3⟩ := ih c (by simp)
                  exact ⟨.cons a b i1, u, v, by simpa using i2, i3⟩
          obtain ⟨hca, u, v, hla, hta⟩ := hsplit h1 (by simp)
          have hna : (((t, m1) :: a).map (·.1)).Nodup := by
            rw [List.map_append, List.nodup_append] at h2; exact h2.1
          obtain ⟨h6, h7⟩ := hsnoc hca hla hta hna hnot
          exact ⟨_, m1, a ++ [(t0, m)], h6, h7, rfl, by
            rw [List.getLast?_append, List.getLast?_singleton, Option.some_or]⟩
      · obtain ⟨h6, h7⟩ := hsnoc h1 h4 h5 h2 hin
        exact ⟨_, m1, l ++ [(t0, m)], h6, h7, rfl, by
            rw [List.getLast?_append, List.getLast?_singleton, Option.some_or]⟩
    obtain ⟨c, m0, l, h1, h2, h3, h4⟩ := key
    exact ⟨t, c ++ [(t, m)], TDG.found_iff.mpr ⟨c, ⟨h1, h2, m0, l, t0, m, h3, h4, ht⟩, t0, m, h4, rfl⟩, edges_last h4⟩

/-! ### Termination of the classification -/

theorem uniform_bound {α} {P : α → Nat → Prop} : ∀ {l : List α}, (∀ a ∈ l, ∃ N, ∀ n, N ≤ n → P a n) →
    ∃ N, ∀ n, N ≤ n → ∀ a ∈ l, P a n
  | [], _ => ⟨0, by simp⟩
  | a :: l, h => by
    obtain ⟨N1, h1⟩ := h a List.mem_cons_self
    obtain ⟨N2, h2⟩ := uniform_bound (l := l) fun b hb => h b (List.mem_cons_of_mem _ hb)
    refine ⟨max N1 N2, fun n hn b hb => ?_⟩
    rcases List.mem_cons.mp hb with rfl | hb
    · exact h1 n (by omega)
    · exact h2 n (by omega) b hb

theorem TDG.Of.first_index (hg : g.Of d) {x : Name} (hx : TaskName d x) : ∃ i, taskIndexFirst g.tasks x = some i := by
  cases h : taskIndexFirst g.tasks x with
  | some i => exact ⟨i, rfl⟩
  | none =>
    rw [hg.tasks] at h
    exact absurd hx (index_none.mp (taskIndexLast_none.mpr (taskIndexFirst_none.mp h)))

/-- The recursion class is computed exactly if the context of every subtask that leads back to its method can be. -/
theorem TDG.Of.recursionType_iff (hg : g.Of d) (hc : Verif.Closed d) {ns : List Name} (hns : ∀ x ∈ ns, TaskName d x) :
    (∃ N rt, ∀ n, N ≤ n → g.recursionType ord n ns = .ok rt) ↔
    ∀ m ∈ d.methods, ∀ s ∈ m.tn.subtasks, Relation.ReflTransGen (HasSub d) s.task.name m.task.name →
      Tractable m.tn s.task.name := by
  have hnames : ∀ {t m : Nat}, (∃ t0, m ∈ g.methodsOf t0 ∧ t ∈ g.tasksOf m ∧ Relation.ReflTransGen g.Step t t0) ↔
      ∃ mm ∈ d.methods, ∃ s ∈ mm.tn.subtasks, d.methods[m]? = some mm ∧ Ix d s.task.name t ∧
        Relation.ReflTransGen (HasSub d) s.task.name mm.task.name := by
    intro t m
    constructor
    · rintro ⟨t0, h1, h2, h3⟩
      obtain ⟨mm, hr⟩ := hg.methodsOf_iff.mp h1
      obtain ⟨s, hs, hi⟩ := (hg.tasksOf_iff hr).mp h2
      refine ⟨mm, hr.mem, s, hs, hr.1, hi, ?_⟩
      rcases Relation.reflTransGen_iff_eq_or_transGen.mp h3 with rfl | h3
      · rw [hi.inj hr.2]
      · exact (hg.trans_names hi hr.2 h3).to_reflTransGen
    · rintro ⟨mm, hmm, s, hs, hm, hi, h3⟩
      obtain ⟨t0, ht0⟩ := Ix.of (hc mm hmm).1
      have hr : Rep d (t0, m) mm := ⟨hm, ht0⟩
      refine ⟨t0, hg.methodsOf_iff.mpr ⟨mm, hr⟩, (hg.tasksOf_iff hr).mpr ⟨s, hs, hi⟩, ?_⟩
      rcases Relation.reflTransGen_iff_eq_or_transGen.mp h3 with h3 | h3
      · rw [h3] at ht0; rw [hi.det ht0]
      · exact (hg.trans_index hc hi ht0 h3).to_reflTransGen
  have hmeth : ∀ {m : Nat} {mm : Method}, d.methods[m]? = some mm → g.method m = (mm.name.name, mm.tn) := by
    intro m mm h
    unfold TDG.method
    rw [hg.methods, List.getElem?_map, h]; rfl
  constructor
  · rintro ⟨N, rt, h⟩ mm hmm s hs hr
    obtain ⟨nulls, hs', h1, h2, h3, h4⟩ := recursionType_ok hg.bounded (h N (Nat.le_refl _))
    obtain ⟨m, hm⟩ := List.mem_iff_getElem?.mp hmm
    obtain ⟨t, ht⟩ := Ix.of ((hc mm hmm).2 s hs)
    obtain ⟨x, cyc, hf, he⟩ := TDG.edge_found_iff.mpr (hnames.mpr ⟨mm, hmm, s, hs, hm, ht, hr⟩)
    obtain ⟨hit, hh, rfl, rfl⟩ := h4 x cyc hf
    obtain ⟨⟨_, e1⟩, _, e2⟩ := (cycleInfo_ok (h3 hit hh).1).1 _ he
    have := tractable_of e1 e2
    simpa only [hmeth hm, ht.taskName hg] using this
  · intro h
    obtain ⟨nulls, hnulls⟩ := map_some_of (l := ns) (f := fun x => taskIndexFirst g.tasks x) fun x hx =>
      hg.first_index (hns x hx)
    have hedge : ∀ e : Nat × Nat, (∃ x cyc, g.Found x cyc ∧ e ∈ edges cyc) → ∃ N, ∀ n, N ≤ n →
        (∃ r, g.getPrefix ord n e.1 e.2 = .ok r) ∧ ∃ r, g.getSuffix ord n e.1 e.2 = .ok r := by
      rintro ⟨t, m⟩ he
      obtain ⟨mm, hmm, s, hs, hm, hi, hr⟩ := hnames.mp (TDG.edge_found_iff.mp he)
      refine context_term ?_ ?_ ?_
      · simpa only [hmeth hm, hi.taskName hg] using h mm hmm s hs hr
      · rw [hmeth hm, hi.taskName hg]; exact ⟨s, hs, rfl⟩
      · rw [hmeth hm]; exact fun s hs => hg.first_index ((hc mm hmm).2 s hs)
    obtain ⟨N1, hN1⟩ := uniform_bound (P := fun (e : Nat × Nat) n => (∃ x cyc, g.Found x cyc ∧ e ∈ edges cyc) →
        (∃ r, g.getPrefix ord n e.1 e.2 = .ok r) ∧ ∃ r, g.getSuffix ord n e.1 e.2 = .ok r)
      (l := (List.range g.tasks.length).flatMap fun t => (List.range d.methods.length).map fun m => (t, m)) (by
        intro e _
        by_cases he : ∃ x cyc, g.Found x cyc ∧ e ∈ edges cyc
        · obtain ⟨N, hN⟩ := hedge e he
          exact ⟨N, fun n hn _ => hN n hn⟩
        · exact ⟨0, fun n _ h => absurd h he⟩)
    have hinfo : ∀ n, N1 ≤ n → ∀ x cyc, g.Found x cyc → ∃ r, g.cycleInfo ord n nulls x cyc = .ok r := by
      intro n hn x cyc hf
      refine cycleInfo_term fun e he => ?_
      have hex : ∃ x cyc, g.Found x cyc ∧ e ∈ edges cyc := ⟨x, cyc, hf, he⟩
      refine hN1 n hn e ?_ hex
      obtain ⟨t, m⟩ := e
      obtain ⟨mm, hmm, s, hs, hm, hi, hr⟩ := hnames.mp (TDG.edge_found_iff.mp hex)
      simp only [List.mem_flatMap, List.mem_range, List.mem_map, Prod.mk.injEq]
      refine ⟨t, ?_, m, (List.getElem?_eq_some_iff.mp hm).1, rfl, rfl⟩
      rw [hg.tasks]; exact (taskIndexLast_some hi).1
    let stack := (g.keys.flatMap fun t => (g.methodsOf t).map fun m => [(t, m)]).reverse
    let N := max N1 (load g.branch g.tasks.length stack)
    have hrun : ∃ rt, g.recursionType ord N ns = .ok rt := by
      unfold TDG.recursionType
      rw [nullIndices_ok.mpr hnulls, R.bind_ok]
      refine recLoop_term hg.bounded (hinfo N (Nat.le_max_left _ _)) (fun p hp => ?_) (Nat.le_max_right _ _)
      simp only [List.mem_reverse, List.mem_flatMap, List.mem_map] at hp
      obtain ⟨t, _, m, hm, rfl⟩ := hp
      exact ⟨t, m, hm, .refl _⟩
    obtain ⟨rt, hrt⟩ := hrun
    exact ⟨N, rt, fun n hn => by rw [(recursionType_le g ord hn ns).eq (by rw [hrt]; simp), hrt]⟩

end Verif
