import Mathlib.Data.List.TakeWhile
import Verif.Proofs.Order

/-! The search for cycles in the task decomposition graph. -/

namespace Verif

open Spec

namespace TDG

variable {g : TDG} {ord : HashOrd} {fuel : Nat} {nulls : List Nat}

/-! ### What the search visits -/

/-- The path `q` is visited below the path `p`. -/
inductive Ext (g : TDG) : List (Nat × Nat) → List (Nat × Nat) → Prop
  | refl (p) : Ext g p p
  | step {p q : List (Nat × Nat)} {t m x m' : Nat} : p.getLast? = some (t, m) → x ∈ g.tasksOf m → cycleFrom p x = none →
      m' ∈ g.methodsOf x → Ext g (p ++ [(x, m')]) q → Ext g p q

/-- The path `q` closes the cycle `cyc` at task `x`. -/
def Closes (g : TDG) (q : List (Nat × Nat)) (x : Nat) (cyc : List (Nat × Nat)) : Prop :=
  ∃ t m c, q.getLast? = some (t, m) ∧ x ∈ g.tasksOf m ∧ cycleFrom q x = some c ∧ cyc = c ++ [(x, m)]

/-- A cycle that was found, with its classification. -/
structure Hit where
  x : Nat
  cyc : List (Nat × Nat)
  eps : Bool
  suf : List Nat

/-- The classification is the computed one. -/
def Hit.Ok (g : TDG) (ord : HashOrd) (fuel : Nat) (nulls : List Nat) (h : Hit) : Prop :=
  g.cycleInfo ord fuel nulls h.x h.cyc = .ok (h.eps, h.suf)

/-- The recursion type after some cycles. -/
def applyHits (g : TDG) (nulls : List Nat) (hs : List Hit) (rt : RecType) : RecType :=
  hs.foldl (fun rt h => updateRec rt h.eps h.suf nulls (g.cycleNames h.cyc)) rt

theorem applyHits_append (hs hs' : List Hit) (rt : RecType) :
    g.applyHits nulls (hs ++ hs') rt = g.applyHits nulls hs' (g.applyHits nulls hs rt) := by
  simp [applyHits]

theorem expand_ok {path : List (Nat × Nat)} {m : Nat} : ∀ {xs : List Nat} {stack stack' : List (List (Nat × Nat))}
    {rt rt' : RecType}, g.expand ord fuel nulls path m xs stack rt = .ok (stack', rt') →
    ∃ hs new, rt' = g.applyHits nulls hs rt ∧ stack' = new ++ stack ∧
      (∀ h ∈ hs, h.Ok g ord fuel nulls ∧ h.x ∈ xs ∧ ∃ c, cycleFrom path h.x = some c ∧ h.cyc = c ++ [(h.x, m)]) ∧
      (∀ x ∈ xs, ∀ c, cycleFrom path x = some c → ∃ h ∈ hs, h.x = x ∧ h.cyc = c ++ [(x, m)]) ∧
      (∀ q, q ∈ new ↔ ∃ x ∈ xs, cycleFrom path x = none ∧ ∃ m' ∈ g.methodsOf x, q = path ++ [(x, m')])
  | [], stack, stack', rt, rt', h => by
    simp only [expand, R.ok.injEq, Prod.mk.injEq] at h
    exact ⟨[], [], h.2.symm, by simp [h.1], by simp, by simp, by simp⟩
  | x :: xs, stack, stack', rt, rt', h => by
    rw [expand] at h
    cases hc : cycleFrom path x with
    | some c =>
      simp only [hc] at h
      obtain ⟨⟨eps, suf⟩, h1, h2⟩ := R.bind_ok_iff.mp h
      obtain ⟨hs, new, h3, h4, h5, h6, h7⟩ := expand_ok h2
      refine ⟨⟨x, c ++ [(x, m)], eps, suf⟩ :: hs, new, h3, h4, ?_, ?_, ?_⟩
      · intro h' hm
        rcases List.mem_cons.mp hm with rfl | hm
        · exact ⟨h1, List.mem_cons_self, c, hc, rfl⟩
        · obtain ⟨a, b, e⟩ := h5 h' hm
          exact ⟨a, List.mem_cons_of_mem _ b, e⟩
      · intro y hy c' hc'
        rcases List.mem_cons.mp hy with rfl | hy
        · rw [hc] at hc'; cases hc'
          exact ⟨_, List.mem_cons_self, rfl, rfl⟩
        · obtain ⟨h', a, b⟩ := h6 y hy c' hc'
          exact ⟨h', List.mem_cons_of_mem _ a, b⟩
      · intro q
        rw [h7]
        simp [hc]
    | none =>
      simp only [hc] at h
      obtain ⟨hs, new, h3, h4, h5, h6, h7⟩ := expand_ok h
      refine ⟨hs, new ++ ((g.methodsOf x).map fun m' => path ++ [(x, m')]).reverse, h3, by simp [h4], ?_, ?_, ?_⟩
      · intro h' hm
        obtain ⟨a, b, e⟩ := h5 h' hm
        exact ⟨a, List.mem_cons_of_mem _ b, e⟩
      · intro y hy c' hc'
        rcases List.mem_cons.mp hy with rfl | hy
        · rw [hc] at hc'; cases hc'
        · exact h6 y hy c' hc'
      · intro q
        rw [List.mem_append, h7]
        simp only [List.mem_reverse, List.mem_map, List.mem_cons, exists_eq_or_imp, hc, true_and]
        constructor
        · rintro (h | ⟨m', h1, rfl⟩)
          · exact .inr h
          · exact .inl ⟨m', h1, rfl⟩
        · rintro (⟨m', h1, rfl⟩ | h)
          · exact .inr ⟨m', h1, rfl⟩
          · exact .inl h

/-- The search handles exactly the cycles closed by paths below those on the stack. -/
theorem recLoop_ok : ∀ {n : Nat} {stack : List (List (Nat × Nat))} {rt rt' : RecType},
    g.recLoop ord fuel nulls n stack rt = .ok rt' →
    ∃ hs, rt' = g.applyHits nulls hs rt ∧
      (∀ h ∈ hs, h.Ok g ord fuel nulls ∧ ∃ p ∈ stack, ∃ q, g.Ext p q ∧ g.Closes q h.x h.cyc) ∧
      (∀ p ∈ stack, ∀ q, g.Ext p q → ∀ x cyc, g.Closes q x cyc → ∃ h ∈ hs, h.x = x ∧ h.cyc = cyc)
  | _, [], rt, rt', h => by
    have : rt = rt' := by unfold recLoop at h; cases h; rfl
    exact ⟨[], this.symm, by simp, by simp⟩
  | 0, _ :: _, rt, rt', h => by simp [recLoop] at h
  | n + 1, path :: stack, rt, rt', h => by
    rw [recLoop] at h
    cases hl : path.getLast? with
    | none =>
      simp only [hl] at h
      obtain ⟨hs, h1, h2, h3⟩ := recLoop_ok h
      refine ⟨hs, h1, fun h' hm => ?_, fun p hp q hq x cyc hc => ?_⟩
      · obtain ⟨a, p, hp, e⟩ := h2 h' hm
        exact ⟨a, p, List.mem_cons_of_mem _ hp, e⟩
      · rcases List.mem_cons.mp hp with rfl | hp
        · cases hq with
          | refl => obtain ⟨t, m, c, h4, _⟩ := hc; rw [hl] at h4; cases h4
          | step h4 => rw [hl] at h4; cases h4
        · exact h3 p hp q hq x cyc hc
    | some tm =>
      obtain ⟨t, m⟩ := tm
      simp only [hl] at h
      obtain ⟨⟨stack', rt1⟩, h1, h2⟩ := R.bind_ok_iff.mp h
      obtain ⟨hs1, new, rfl, rfl, h5, h6, h7⟩ := expand_ok h1
      obtain ⟨hs2, h8, h9, h10⟩ := recLoop_ok h2
      refine ⟨hs1 ++ hs2, by rw [applyHits_append, h8], fun h' hm => ?_, fun p hp q hq x cyc hc => ?_⟩
      · rcases List.mem_append.mp hm with hm | hm
        · obtain ⟨a, b, c, e1, e2⟩ := h5 h' hm
          exact ⟨a, path, List.mem_cons_self, path, .refl _, t, m, c, hl, b, e1, e2⟩
        · obtain ⟨a, p, hp, q, hq, hc⟩ := h9 h' hm
          rcases List.mem_append.mp hp with hp | hp
          · obtain ⟨x, b, e, m', hm', rfl⟩ := (h7 p).mp hp
            exact ⟨a, path, List.mem_cons_self, q, .step hl b e hm' hq, hc⟩
          · exact ⟨a, p, List.mem_cons_of_mem _ hp, q, hq, hc⟩
      · rcases List.mem_cons.mp hp with rfl | hp
        · cases hq with
          | refl =>
            obtain ⟨t', m', c, e1, e2, e3, rfl⟩ := hc
            rw [hl] at e1; cases e1
            obtain ⟨h', a, b⟩ := h6 x e2 c e3
            exact ⟨h', List.mem_append_left _ a, b⟩
          | @step _ _ t' m1 y m' e1 e2 e3 e4 e5 =>
            rw [hl] at e1; cases e1
            obtain ⟨h', a, b⟩ := h10 _ (List.mem_append_left _ ((h7 _).mpr ⟨y, e2, e3, m', e4, rfl⟩)) q e5 x cyc hc
            exact ⟨h', List.mem_append_right _ a, b⟩
        · obtain ⟨h', a, b⟩ := h10 p (List.mem_append_right _ hp) q hq x cyc hc
          exact ⟨h', List.mem_append_right _ a, b⟩

/-! ### Cycles -/

/-- A cycle found in the graph. -/
def Found (g : TDG) (x : Nat) (cyc : List (Nat × Nat)) : Prop :=
  ∃ t m q, m ∈ g.methodsOf t ∧ g.Ext [(t, m)] q ∧ g.Closes q x cyc

theorem recursionType_ok (hb : g.Bounded g.tasks.length) {ns : List Name} {rt : RecType}
    (h : g.recursionType ord fuel ns = .ok rt) : ∃ nulls hs, nullIndices g ns = .ok nulls ∧
      rt = g.applyHits nulls hs .nonRecursive ∧ (∀ h ∈ hs, h.Ok g ord fuel nulls ∧ g.Found h.x h.cyc) ∧
      (∀ x cyc, g.Found x cyc → ∃ h ∈ hs, h.x = x ∧ h.cyc = cyc) := by
  unfold recursionType at h
  obtain ⟨nulls, h1, h2⟩ := R.bind_ok_iff.mp h
  obtain ⟨hs, h3, h4, h5⟩ := recLoop_ok h2
  have hstack : ∀ p, p ∈ (g.keys.flatMap fun t => (g.methodsOf t).map fun m => [(t, m)]).reverse ↔
      ∃ t m, m ∈ g.methodsOf t ∧ p = [(t, m)] := by
    intro p
    simp only [List.mem_reverse, List.mem_flatMap, List.mem_map]
    constructor
    · rintro ⟨t, _, m, hm, rfl⟩; exact ⟨t, m, hm, rfl⟩
    · rintro ⟨t, m, hm, rfl⟩; exact ⟨t, hb.mem_keys.mpr (hb.owner t m hm), m, hm, rfl⟩
  refine ⟨nulls, hs, h1, h3, fun h hm => ?_, fun x cyc hf => ?_⟩
  · obtain ⟨a, p, hp, q, hq, hc⟩ := h4 h hm
    obtain ⟨t, m, hm', rfl⟩ := (hstack p).mp hp
    exact ⟨a, t, m, q, hm', hq, hc⟩
  · obtain ⟨t, m, q, hm, hq, hc⟩ := hf
    exact h5 _ ((hstack _).mpr ⟨t, m, hm, rfl⟩) q hq x cyc hc

/-- Each method belongs to its task and contains the next task. -/
inductive Chain (g : TDG) : List (Nat × Nat) → Prop
  | one {t m} : m ∈ g.methodsOf t → Chain g [(t, m)]
  | cons {t m t' m' l} : m ∈ g.methodsOf t → t' ∈ g.tasksOf m → Chain g ((t', m') :: l) → Chain g ((t, m) :: (t', m') :: l)

theorem Chain.snoc {p : List (Nat × Nat)} (h : Chain g p) {t m x m' : Nat} (hl : p.getLast? = some (t, m))
    (hx : x ∈ g.tasksOf m) (hm : m' ∈ g.methodsOf x) : Chain g (p ++ [(x, m')]) := by
  induction h with
  | one h1 =>
    simp only [List.getLast?_singleton, Option.some.injEq, Prod.mk.injEq] at hl
    obtain ⟨rfl, rfl⟩ := hl
    exact .cons h1 hx (.one hm)
  | cons h1 h2 _ ih => exact .cons h1 h2 (ih (by simpa using hl))

theorem Chain.drop {p q : List (Nat × Nat)} (h : Chain g (p ++ q)) (hq : q ≠ []) : Chain g q := by
  induction p with
  | nil => exact h
  | cons a p ih =>
    refine ih ?_
    cases hpq : p ++ q with
    | nil => simp at hpq; exact absurd hpq.2 hq
    | cons b l =>
      rw [List.cons_append, hpq] at h
      cases h with
      | cons _ _ h3 => exact h3

theorem cycleFrom_none {p : List (Nat × Nat)} {x : Nat} : cycleFrom p x = none ↔ x ∉ p.map (·.1) := by
  unfold cycleFrom
  split
  · rename_i h
    rw [List.dropWhile_eq_nil_iff] at h
    simp only [List.mem_map, not_exists, not_and, true_iff]
    intro a ha he
    have := h a ha
    simp [he] at this
  · rename_i h
    simp only [reduceCtorEq, List.mem_map, false_iff, not_not]
    by_contra hc
    refine h ?_
    rw [List.dropWhile_eq_nil_iff]
    intro a ha
    simp only [decide_eq_true_eq]
    exact fun he => hc ⟨a, ha, he⟩

theorem cycleFrom_some {p c : List (Nat × Nat)} {x : Nat} (h : cycleFrom p x = some c) :
    ∃ a m l, p = a ++ c ∧ c = (x, m) :: l := by
  unfold cycleFrom at h
  split at h
  · cases h
  · rename_i l hl
    cases h
    have hp := List.takeWhile_append_dropWhile (p := fun p : Nat × Nat => decide (p.1 ≠ x)) (l := p)
    cases hd : p.dropWhile (fun p => decide (p.1 ≠ x)) with
    | nil => exact absurd hd hl
    | cons b l' =>
      have := List.head_dropWhile_not (fun p : Nat × Nat => decide (p.1 ≠ x)) (l := p) (by rw [hd]; simp)
      simp only [hd, List.head_cons, decide_eq_false_iff_not, not_not] at this
      rw [hd] at hp
      exact ⟨_, b.2, l', hp.symm, by rw [← this]⟩

theorem cycleFrom_self (x m : Nat) (l : List (Nat × Nat)) : cycleFrom ((x, m) :: l) x = some ((x, m) :: l) := by
  simp [cycleFrom]

theorem Ext.chain {p q : List (Nat × Nat)} (h : g.Ext p q) (hp : Chain g p) (hn : (p.map (·.1)).Nodup) :
    Chain g q ∧ (q.map (·.1)).Nodup := by
  induction h with
  | refl => exact ⟨hp, hn⟩
  | step h1 h2 h3 h4 _ ih =>
    refine ih (hp.snoc h1 h2 h4) ?_
    rw [List.map_append, List.nodup_append]
    refine ⟨hn, by simp, ?_⟩
    intro a ha b hb
    simp only [List.map_cons, List.map_nil, List.mem_singleton] at hb
    subst hb
    rintro rfl
    exact (cycleFrom_none.mp h3) ha

theorem Ext.of_chain {p l : List (Nat × Nat)} (hp : p ≠ []) (hc : Chain g (p ++ l)) (hn : ((p ++ l).map (·.1)).Nodup) :
    g.Ext p (p ++ l) := by
  induction l generalizing p with
  | nil => rw [List.append_nil]; exact .refl _
  | cons a l ih =>
    obtain ⟨x, m'⟩ := a
    obtain ⟨p', ⟨t, m⟩, rfl⟩ : ∃ p' b, p = p' ++ [b] := ⟨p.dropLast, p.getLast hp, (List.dropLast_append_getLast hp).symm⟩
    have hd : Chain g ((t, m) :: (x, m') :: l) := by
      have := hc; rw [List.append_assoc] at this
      exact this.drop (by simp)
    cases hd with
    | cons h1 h2 h3 =>
      have hm' : m' ∈ g.methodsOf x := by
        cases h3 with
        | one h => exact h
        | cons h _ _ => exact h
      refine .step (t := t) (m := m) (x := x) (m' := m') (by simp) h2 ?_ hm' ?_
      · rw [cycleFrom_none]
        intro hx
        rw [List.map_append, List.nodup_append] at hn
        exact hn.2.2 x hx x (by simp) rfl
      · have := ih (p := p' ++ [(t, m)] ++ [(x, m')]) (by simp) (by simpa using hc) (by simpa using hn)
        simpa using this

/-- A simple cycle: a chain of different tasks whose last method contains the first task. -/
def SimpleCycle (g : TDG) (x : Nat) (c : List (Nat × Nat)) : Prop :=
  Chain g c ∧ (c.map (·.1)).Nodup ∧ ∃ m l t m', c = (x, m) :: l ∧ c.getLast? = some (t, m') ∧ x ∈ g.tasksOf m'

/-- The cycles found are exactly the simple cycles, started at any of their tasks; the last method is repeated. -/
theorem found_iff {x : Nat} {cyc : List (Nat × Nat)} : g.Found x cyc ↔
    ∃ c, g.SimpleCycle x c ∧ ∃ t m, c.getLast? = some (t, m) ∧ cyc = c ++ [(x, m)] := by
  constructor
  · rintro ⟨t, m, q, hm, hq, t', m', c, h1, h2, h3, rfl⟩
    obtain ⟨h4, h5⟩ := hq.chain (.one hm) (by simp)
    obtain ⟨a, m0, l, rfl, rfl⟩ := cycleFrom_some h3
    have hl : ((x, m0) :: l).getLast? = some (t', m') := by
      rw [List.getLast?_append_of_ne_nil _ (by simp)] at h1; exact h1
    refine ⟨(x, m0) :: l, ⟨h4.drop (by simp), ?_, m0, l, t', m', rfl, hl, h2⟩, t', m', hl, rfl⟩
    rw [List.map_append, List.nodup_append] at h5
    exact h5.2.1
  · rintro ⟨c, ⟨h1, h2, m0, l, t, m, rfl, h4, h5⟩, t', m', h6, rfl⟩
    rw [h4] at h6; cases h6
    have hm0 : m0 ∈ g.methodsOf x := by
      cases h1 with
      | one h => exact h
      | cons h _ _ => exact h
    exact ⟨x, m0, _, hm0, Ext.of_chain (p := [(x, m0)]) (l := l) (by simp) h1 h2, t, m, _, h4, h5, cycleFrom_self .., rfl⟩

theorem Chain.reach {p : List (Nat × Nat)} (h : Chain g p) : ∀ {x m l t m'}, p = (x, m) :: l → p.getLast? = some (t, m') →
    ∀ {y}, y ∈ g.tasksOf m' → Relation.TransGen g.Step x y := by
  induction h with
  | one h1 =>
    intro x m l t m' he hl y hy
    cases he
    simp only [List.getLast?_singleton, Option.some.injEq, Prod.mk.injEq] at hl
    obtain ⟨rfl, rfl⟩ := hl
    exact .single ⟨_, h1, hy⟩
  | cons h1 h2 _ ih =>
    intro x m l t m' he hl y hy
    cases he
    exact .head ⟨_, h1, h2⟩ (ih rfl (by simpa using hl) hy)

/-- Every walk along the graph contains a chain of different tasks. -/
theorem chain_of_reach {x y : Nat} (h : Relation.TransGen g.Step x y) : ∃ c m l t m', g.Chain c ∧ (c.map (·.1)).Nodup ∧
    c = (x, m) :: l ∧ c.getLast? = some (t, m') ∧ y ∈ g.tasksOf m' := by
  induction h using Relation.TransGen.head_induction_on with
  | @single a h =>
    obtain ⟨m, h1, h2⟩ := h
    exact ⟨[(a, m)], m, [], a, m, .one h1, by simp, rfl, rfl, h2⟩
  | @head a b h _ ih =>
    obtain ⟨m, h1, h2⟩ := h
    obtain ⟨c, m0, l, t, m', h3, h4, rfl, h5, h6⟩ := ih
    by_cases ha : a ∈ ((b, m0) :: l).map (·.1)
    · obtain ⟨c', hc'⟩ := Option.ne_none_iff_exists'.mp (fun h => (cycleFrom_none.mp h) ha)
      obtain ⟨p, m1, l', hp, rfl⟩ := cycleFrom_some hc'
      rw [hp] at h3 h4 h5
      refine ⟨_, m1, l', t, m', h3.drop (by simp), ?_, rfl, ?_, h6⟩
      · rw [List.map_append, List.nodup_append] at h4
        exact h4.2.1
      · rw [List.getLast?_append_of_ne_nil _ (by simp)] at h5; exact h5
    · refine ⟨(a, m) :: (b, m0) :: l, m, (b, m0) :: l, t, m', .cons h1 h2 h3, ?_, rfl, by simpa using h5, h6⟩
      rw [List.map_cons, List.nodup_cons]
      exact ⟨ha, h4⟩

theorem exists_found_iff : (∃ x cyc, g.Found x cyc) ↔ ∃ x, Relation.TransGen g.Step x x := by
  constructor
  · rintro ⟨x, cyc, h⟩
    obtain ⟨c, ⟨h1, _, m, l, t, m', h2, h3, h4⟩, _⟩ := found_iff.mp h
    exact ⟨x, h1.reach h2 h3 h4⟩
  · rintro ⟨x, h⟩
    obtain ⟨c, m, l, t, m', h1, h2, h3, h4, h5⟩ := chain_of_reach h
    exact ⟨x, c ++ [(x, m')], found_iff.mpr ⟨c, ⟨h1, h2, m, l, t, m', h3, h4, h5⟩, t, m', h4, rfl⟩⟩

end TDG

end Verif
