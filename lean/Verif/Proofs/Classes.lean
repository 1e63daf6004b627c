import Verif.Proofs.Cycles
import Verif.Spec.Rank

/-! The class of a cycle, the maximum over all cycles, and termination of the search. -/

namespace Verif

open Spec

/-- The class without its cycle. -/
def RecType.cls : RecType → Class
  | .nonRecursive => .none
  | .recursive _ => .plain
  | .growingEmptyPrefix _ => .growingEmptyPrefix
  | .empty _ => .empty
  | .growAndShrink _ => .growAndShrink

/-- The cycle of a class. -/
def RecType.cycle : RecType → Option (List (Name × Name))
  | .nonRecursive => none
  | .recursive c => some c
  | .growingEmptyPrefix c => some c
  | .empty c => some c
  | .growAndShrink c => some c

theorem Spec.Class.rank_inj {a b : Class} (h : a.rank = b.rank) : a = b := by
  cases a <;> cases b <;> simp_all [Class.rank]

namespace TDG

variable {g : TDG} {ord : HashOrd} {fuel : Nat} {nulls : List Nat}

/-- The class of a cycle from its prefix and suffix. -/
def hitClass (eps : Bool) (suf nulls : List Nat) : Class :=
  if eps then if suf.isEmpty then .empty else if suf.all (fun x => x ∈ nulls) then .growAndShrink else .growingEmptyPrefix else .plain

theorem updateRec_cls (rt : RecType) (eps : Bool) (suf nulls : List Nat) (c : List (Name × Name)) :
    (updateRec rt eps suf nulls c).cls.rank = max rt.cls.rank (hitClass eps suf nulls).rank ∧
    (updateRec rt eps suf nulls c = rt ∨
      (updateRec rt eps suf nulls c).cls = hitClass eps suf nulls ∧ (updateRec rt eps suf nulls c).cycle = some c) := by
  unfold updateRec hitClass
  cases eps
  · cases rt <;> simp [RecType.cls, Class.rank, RecType.cycle]
  · by_cases hs : suf.isEmpty
    · cases rt <;> simp [hs, RecType.cls, Class.rank, RecType.cycle]
    · by_cases hn : suf.all (fun x => x ∈ nulls)
      · cases rt <;> simp only [hs, hn, if_true, RecType.cls, Class.rank, RecType.cycle] <;> simp
      · cases rt <;> simp only [hs, hn, if_true, RecType.cls, Class.rank, RecType.cycle] <;> simp

/-- The class of a hit. -/
def Hit.cls (nulls : List Nat) (h : Hit) : Class := hitClass h.eps h.suf nulls

theorem applyHits_cls (hs : List Hit) (rt : RecType) :
    (rt.cls.rank ≤ (g.applyHits nulls hs rt).cls.rank ∧
      ∀ h ∈ hs, (h.cls nulls).rank ≤ (g.applyHits nulls hs rt).cls.rank) ∧
    (g.applyHits nulls hs rt = rt ∨ ∃ h ∈ hs, (g.applyHits nulls hs rt).cls = h.cls nulls ∧
      (g.applyHits nulls hs rt).cycle = some (g.cycleNames h.cyc)) := by
  induction hs generalizing rt with
  | nil => exact ⟨⟨Nat.le_refl _, by simp⟩, .inl rfl⟩
  | cons h hs ih =>
    obtain ⟨⟨h1, h2⟩, h3⟩ := ih (updateRec rt h.eps h.suf nulls (g.cycleNames h.cyc))
    obtain ⟨h4, h5⟩ := updateRec_cls rt h.eps h.suf nulls (g.cycleNames h.cyc)
    have he : g.applyHits nulls (h :: hs) rt =
      g.applyHits nulls hs (updateRec rt h.eps h.suf nulls (g.cycleNames h.cyc)) := rfl
    rw [he]
    refine ⟨⟨by omega, fun h' hm => ?_⟩, ?_⟩
    · rcases List.mem_cons.mp hm with rfl | hm
      · unfold Hit.cls; omega
      · exact h2 h' hm
    · rcases h3 with h3 | ⟨h', hm, h6⟩
      · rw [h3]
        rcases h5 with h5 | h5
        · exact .inl h5
        · exact .inr ⟨h, List.mem_cons_self, h5⟩
      · exact .inr ⟨h', List.mem_cons_of_mem _ hm, h6⟩

theorem hitClass_pos (eps : Bool) (suf nulls : List Nat) : 0 < (hitClass eps suf nulls).rank := by
  unfold hitClass
  split
  · split
    · simp [Class.rank]
    · split <;> simp [Class.rank]
  · simp [Class.rank]

/-- The outcome of the search: no cycle, or the cycle of a hit of the highest class. -/
theorem applyHits_result (hs : List Hit) :
    (hs = [] ∧ g.applyHits nulls hs .nonRecursive = .nonRecursive) ∨
    ∃ h ∈ hs, (g.applyHits nulls hs .nonRecursive).cls = h.cls nulls ∧
      (g.applyHits nulls hs .nonRecursive).cycle = some (g.cycleNames h.cyc) ∧
      ∀ h' ∈ hs, (h'.cls nulls).rank ≤ (h.cls nulls).rank := by
  obtain ⟨⟨_, h1⟩, h2⟩ := applyHits_cls (g := g) (nulls := nulls) hs .nonRecursive
  rcases h2 with h2 | ⟨h, hm, h3, h4⟩
  · left
    cases hs with
    | nil => exact ⟨rfl, rfl⟩
    | cons a l =>
      have := h1 a List.mem_cons_self
      rw [h2] at this
      have := hitClass_pos a.eps a.suf nulls
      simp only [RecType.cls, Class.rank, Hit.cls] at *
      omega
  · right
    exact ⟨h, hm, h3, h4, fun h' hm' => by rw [← h3]; exact h1 h' hm'⟩

/-! ### The loop over a cycle -/

/-- The pairs of a task and the method it is reached by. -/
def edges : List (Nat × Nat) → List (Nat × Nat)
  | (_, m) :: (t, m') :: rest => (t, m) :: edges ((t, m') :: rest)
  | _ => []

/-- The prefix at an edge is empty, starts with `x`, or has only nullable tasks. -/
def EpsEdge (g : TDG) (nulls : List Nat) (x : Nat) (e : Nat × Nat) : Prop :=
  prefixNames (g.method e.2).2 (g.taskName e.1) = [] ∨
  (∃ y l, prefixNames (g.method e.2).2 (g.taskName e.1) = y :: l ∧ taskIndexFirst g.tasks y = some x) ∨
  ∀ y ∈ prefixNames (g.method e.2).2 (g.taskName e.1), ∃ i ∈ nulls, taskIndexFirst g.tasks y = some i

theorem cycleInfo_ok {x : Nat} : ∀ {c : List (Nat × Nat)} {eps : Bool} {suf : List Nat},
    g.cycleInfo ord fuel nulls x c = .ok (eps, suf) →
    (∀ e ∈ edges c, (∃ r, g.getPrefix ord fuel e.1 e.2 = .ok r) ∧ ∃ r, g.getSuffix ord fuel e.1 e.2 = .ok r) ∧
    (eps = true ↔ ∀ e ∈ edges c, g.EpsEdge nulls x e) ∧
    (∀ i, i ∈ suf ↔ ∃ e ∈ edges c, ∃ y, InSuffix (g.method e.2).2 (g.taskName e.1) y ∧ taskIndexFirst g.tasks y = some i)
  | [], eps, suf, h => by
    simp only [cycleInfo, R.ok.injEq, Prod.mk.injEq] at h
    obtain ⟨rfl, rfl⟩ := h
    simp [edges]
  | [_], eps, suf, h => by
    simp only [cycleInfo, R.ok.injEq, Prod.mk.injEq] at h
    obtain ⟨rfl, rfl⟩ := h
    simp [edges]
  | (t0, m) :: (t, m') :: rest, eps, suf, h => by
    rw [cycleInfo] at h
    obtain ⟨pre, h1, h2⟩ := R.bind_ok_iff.mp h
    obtain ⟨s1, h3, h4⟩ := R.bind_ok_iff.mp h2
    obtain ⟨⟨e2, s2⟩, h5, h6⟩ := R.bind_ok_iff.mp h4
    simp only [R.ok.injEq, Prod.mk.injEq] at h6
    obtain ⟨rfl, rfl⟩ := h6
    obtain ⟨i1, i2, i3⟩ := cycleInfo_ok h5
    have hp := (getPrefix_ok h1).1
    have hs := (getSuffix_ok h3).1
    simp only [edges, List.mem_cons, forall_eq_or_imp, exists_eq_or_imp]
    refine ⟨⟨⟨⟨_, h1⟩, _, h3⟩, i1⟩, ?_, ?_⟩
    · rw [Bool.and_eq_true, i2]
      refine and_congr_left fun _ => ?_
      unfold EpsEdge
      have hmem : ∀ y, y ∈ pre ↔ ∃ z ∈ prefixNames (g.method m).2 (g.taskName t), taskIndexFirst g.tasks z = some y :=
        fun y => mem_map_some hp
      have hidx : ∀ z ∈ prefixNames (g.method m).2 (g.taskName t), ∃ y ∈ pre, taskIndexFirst g.tasks z = some y := by
        intro z hz
        have : taskIndexFirst g.tasks z ∈ pre.map some := hp ▸ List.mem_map.mpr ⟨z, hz, rfl⟩
        obtain ⟨y, hy, he⟩ := List.mem_map.mp this
        exact ⟨y, hy, he.symm⟩
      cases pre with
      | nil =>
        have : prefixNames (g.method m).2 (g.taskName t) = [] := by simpa using hp
        simp [this]
      | cons p ps =>
        cases hP : prefixNames (g.method m).2 (g.taskName t) with
        | nil => rw [hP] at hp; simp at hp
        | cons z zs =>
          rw [hP] at hp hidx hmem
          simp only [List.map_cons, List.cons.injEq] at hp
          simp only [Bool.or_eq_true, beq_iff_eq, List.all_eq_true, decide_eq_true_eq]
          constructor
          · rintro (rfl | h)
            · exact .inr (.inl ⟨z, zs, rfl, hp.1⟩)
            · refine .inr (.inr fun y hy => ?_)
              obtain ⟨i, hi, he⟩ := hidx y hy
              exact ⟨i, h i hi, he⟩
          · rintro (h | ⟨y, l, h, he⟩ | h)
            · cases h
            · cases h
              rw [hp.1] at he
              exact .inl (by simpa using he)
            · refine .inr fun i hi => ?_
              obtain ⟨y, hy, he⟩ := (hmem i).mp hi
              obtain ⟨j, hj, he'⟩ := h y hy
              rw [he] at he'; cases he'; exact hj
    · intro i
      rw [List.mem_append, hs, i3]

theorem cycleInfo_term {x : Nat} : ∀ {c : List (Nat × Nat)},
    (∀ e ∈ edges c, (∃ r, g.getPrefix ord fuel e.1 e.2 = .ok r) ∧ ∃ r, g.getSuffix ord fuel e.1 e.2 = .ok r) →
    ∃ r, g.cycleInfo ord fuel nulls x c = .ok r
  | [], _ => ⟨_, rfl⟩
  | [_], _ => ⟨_, rfl⟩
  | (t0, m) :: (t, m') :: rest, h => by
    simp only [edges, List.mem_cons, forall_eq_or_imp] at h
    obtain ⟨⟨⟨r, hr⟩, s, hs⟩, h⟩ := h
    obtain ⟨⟨e2, s2⟩, h2⟩ := cycleInfo_term (x := x) h
    rw [cycleInfo, hr, R.bind_ok, hs, R.bind_ok, h2, R.bind_ok]
    exact ⟨_, rfl⟩

/-! ### Termination of the search -/

/-- A bound for the number of paths that extend a path. -/
def branch (g : TDG) : Nat := (g.toTasks.map fun l => (l.flatMap g.methodsOf).length).sum

theorem le_sum : ∀ {l : List Nat} {a : Nat}, a ∈ l → a ≤ l.sum
  | b :: l, a, h => by
    rw [List.sum_cons]
    rcases List.mem_cons.mp h with rfl | h
    · omega
    · have := le_sum h; omega

theorem sum_const {α} {f : α → Nat} {w : Nat} : ∀ {l : List α}, (∀ a ∈ l, f a = w) → (l.map f).sum = l.length * w
  | [], _ => by simp
  | a :: l, h => by
    rw [List.map_cons, List.sum_cons, sum_const fun b hb => h b (List.mem_cons_of_mem _ hb), h a List.mem_cons_self,
      List.length_cons, Nat.succ_mul, Nat.add_comm]

theorem branch_le (m : Nat) : ((g.tasksOf m).flatMap g.methodsOf).length ≤ g.branch := by
  unfold tasksOf branch
  cases h : g.toTasks[m]? with
  | none => simp
  | some l =>
    exact le_sum (List.mem_map.mpr ⟨l, List.mem_of_getElem? h, rfl⟩)

/-- Work below a path that can still grow by `k` tasks. -/
def weight (b : Nat) : Nat → Nat
  | 0 => 1
  | k + 1 => 1 + b * weight b k

theorem weight_pos (b k : Nat) : 0 < weight b k := by
  cases k with
  | zero => simp [weight]
  | succ => rw [weight]; omega

/-- The work on a stack of paths. -/
def load (b T : Nat) (stack : List (List (Nat × Nat))) : Nat := (stack.map fun p => weight b (T - p.length)).sum

theorem expand_term {path : List (Nat × Nat)} {m : Nat} : ∀ {xs : List Nat} {stack : List (List (Nat × Nat))} {rt : RecType},
    (∀ x ∈ xs, ∀ c, cycleFrom path x = some c → ∃ r, g.cycleInfo ord fuel nulls x (c ++ [(x, m)]) = .ok r) →
    ∃ new rt', g.expand ord fuel nulls path m xs stack rt = .ok (new ++ stack, rt') ∧
      new.length ≤ (xs.flatMap g.methodsOf).length
  | [], stack, rt, _ => ⟨[], rt, by simp [expand]⟩
  | x :: xs, stack, rt, h => by
    rw [expand]
    cases hc : cycleFrom path x with
    | some c =>
      obtain ⟨⟨eps, suf⟩, h1⟩ := h x List.mem_cons_self c hc
      simp only [h1, R.bind_ok]
      obtain ⟨new, rt', h2, h3⟩ := expand_term (stack := stack)
        (rt := updateRec rt eps suf nulls (g.cycleNames (c ++ [(x, m)]))) fun y hy => h y (List.mem_cons_of_mem _ hy)
      exact ⟨new, rt', h2, by simp only [List.flatMap_cons, List.length_append]; omega⟩
    | none =>
      obtain ⟨new, rt', h2, h3⟩ := expand_term
        (stack := ((g.methodsOf x).map fun m' => path ++ [(x, m')]).reverse ++ stack)
        (rt := rt) fun y hy => h y (List.mem_cons_of_mem _ hy)
      refine ⟨new ++ ((g.methodsOf x).map fun m' => path ++ [(x, m')]).reverse, rt', by simpa using h2, ?_⟩
      simp only [List.flatMap_cons, List.length_append, List.length_reverse, List.length_map]
      omega

/-- A path the search can meet. -/
def GoodPath (g : TDG) (p : List (Nat × Nat)) : Prop := ∃ t m, m ∈ g.methodsOf t ∧ g.Ext [(t, m)] p

theorem Ext.snoc {p q : List (Nat × Nat)} (h : g.Ext p q) {t m x m' : Nat} (hl : q.getLast? = some (t, m))
    (hx : x ∈ g.tasksOf m) (hc : cycleFrom q x = none) (hm : m' ∈ g.methodsOf x) : g.Ext p (q ++ [(x, m')]) := by
  induction h with
  | refl => exact .step hl hx hc hm (.refl _)
  | step h1 h2 h3 h4 _ ih => exact .step h1 h2 h3 h4 (ih hl hc)

theorem Chain.lt {T : Nat} (hb : g.Bounded T) {p : List (Nat × Nat)} (h : Chain g p) : ∀ x ∈ p.map (·.1), x < T := by
  induction h with
  | one h => simpa using hb.owner _ _ h
  | cons h _ _ ih =>
    intro x hx
    rw [List.map_cons, List.mem_cons] at hx
    rcases hx with rfl | hx
    · exact hb.owner _ _ h
    · exact ih x hx

theorem GoodPath.facts {T : Nat} (hb : g.Bounded T) {p : List (Nat × Nat)} (h : g.GoodPath p) :
    p ≠ [] ∧ (p.map (·.1)).Nodup ∧ p.length ≤ T := by
  obtain ⟨t, m, hm, he⟩ := h
  obtain ⟨h1, h2⟩ := he.chain (.one hm) (by simp)
  refine ⟨(by rintro rfl; cases h1), h2, ?_⟩
  have := nodup_lt_length h2 (h1.lt hb)
  simpa using this

theorem recLoop_term {T : Nat} (hb : g.Bounded T)
    (hinfo : ∀ x cyc, g.Found x cyc → ∃ r, g.cycleInfo ord fuel nulls x cyc = .ok r) :
    ∀ {n : Nat} {stack : List (List (Nat × Nat))} {rt : RecType}, (∀ p ∈ stack, g.GoodPath p) →
      load g.branch T stack ≤ n → ∃ rt', g.recLoop ord fuel nulls n stack rt = .ok rt'
  | n, [], rt, _, _ => ⟨rt, by unfold recLoop; rfl⟩
  | 0, p :: stack, rt, _, hn => by
    have : 0 < weight g.branch (T - p.length) := weight_pos _ _
    simp only [load, List.map_cons, List.sum_cons] at hn
    omega
  | n + 1, path :: stack, rt, hs, hn => by
    have hgp := hs path List.mem_cons_self
    obtain ⟨hne, hnd, hlen⟩ := hgp.facts hb
    obtain ⟨p', ⟨t, m⟩, hp'⟩ : ∃ p' b, path = p' ++ [b] :=
      ⟨path.dropLast, path.getLast hne, (List.dropLast_append_getLast hne).symm⟩
    have hl : path.getLast? = some (t, m) := by rw [hp']; simp
    rw [recLoop, hl]
    obtain ⟨t0, m0, hm0, hext⟩ := hgp
    obtain ⟨new, rt', h1, h2⟩ := expand_term (g := g) (ord := ord) (fuel := fuel) (nulls := nulls) (path := path) (m := m)
      (xs := g.tasksOf m) (stack := stack) (rt := rt)
      (fun x hx c hc => hinfo x _ ⟨t0, m0, path, hm0, hext, t, m, c, hl, hx, hc, rfl⟩)
    simp only [h1, R.bind_ok]
    obtain ⟨hs1, new', _, h4, _, _, h7⟩ := expand_ok h1
    have hnn : new = new' := List.append_cancel_right h4
    subst hnn
    have hnew : ∀ p ∈ new, g.GoodPath p ∧ p.length = path.length + 1 := by
      intro p hp
      obtain ⟨x, hx, hc, m', hm', rfl⟩ := (h7 p).mp hp
      exact ⟨⟨t0, m0, hm0, hext.snoc hl hx hc hm'⟩, by simp⟩
    refine recLoop_term hb hinfo (fun p hp => ?_) ?_
    · rcases List.mem_append.mp hp with hp | hp
      · exact (hnew p hp).1
      · exact hs p (List.mem_cons_of_mem _ hp)
    · simp only [load, List.map_cons, List.sum_cons, List.map_append, List.sum_append] at hn ⊢
      have hw : (new.map fun p => weight g.branch (T - p.length)).sum < weight g.branch (T - path.length) := by
        cases hne' : new with
        | nil => exact weight_pos _ _
        | cons a l =>
          have ha := hnew a (by rw [hne']; exact List.mem_cons_self)
          have hT : path.length + 1 ≤ T := by
            have := (ha.1.facts hb).2.2
            omega
          rw [← hne']
          rw [sum_const (w := weight g.branch (T - (path.length + 1))) fun p hp => by rw [(hnew p hp).2]]
          obtain ⟨k, hk⟩ : ∃ k, T - path.length = k + 1 := ⟨T - path.length - 1, by omega⟩
          rw [show T - (path.length + 1) = k by omega, hk, weight]
          have := Nat.mul_le_mul_right (weight g.branch k) (h2.trans (branch_le m))
          omega
      omega

end TDG

end Verif
