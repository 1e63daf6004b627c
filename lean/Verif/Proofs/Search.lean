import Verif.Spec.Search
import Verif.Proofs.Metadata
import Verif.Proofs.Accept

/-! How the search for cycles ends when the context of a subtask cannot be computed. -/

namespace Verif

open Spec

variable {d : DomainAST} {g : TDG} {ord : HashOrd} {fuel : Nat} {nulls : List Nat}

/-- The panics of the search. -/
def Crashing (h : HTN) (x : Name) (y : Panic) : Prop := y = .tdgAssert ∧ Miscounted h ∨ y = .tdgId ∧ Unlabelled h x

theorem tractable_cases (h : HTN) (x : Name) : Tractable h x ∨ Looping h x ∨ ∃ y, Crashing h x y := by
  by_contra hc
  push Not at hc
  obtain ⟨h1, h2, h3⟩ := hc
  refine h1 fun os ho => ?_
  have hlen : os.length = h.subtasks.length - 1 := by
    by_contra hl
    exact h3 _ (.inl ⟨rfl, os, ho, hl⟩)
  refine ⟨hlen, fun i j k hi hj hk hin => h2 ⟨os, ho, hlen, .inl ⟨i, j, k, hi, hj, hk, hin⟩⟩, fun i j hi hj => ⟨fun hjj => ?_, ?_⟩⟩
  · exact h2 ⟨os, ho, hlen, .inr ⟨i, j, hi, hj, hjj⟩⟩
  · by_contra hno
    push Not at hno
    exact h3 _ (.inr ⟨rfl, os, ho, hlen, h2, i, j, hi, hj, hno⟩)

theorem not_tractable_of_looping {h : HTN} {x : Name} (hl : Looping h x) : ¬ Tractable h x := by
  intro ht
  obtain ⟨os, ho, _, ⟨i, j, k, h1, h2, h3, h4⟩ | ⟨i, j, h1, h2, h3⟩⟩ := hl
  · exact (ht os ho).2.1 i j k h1 h2 h3 h4
  · exact ((ht os ho).2.2 i j h1 h2).1 h3

theorem not_tractable_of_crashing {h : HTN} {x : Name} {y : Panic} (hl : Crashing h x y) : ¬ Tractable h x := by
  intro ht
  rcases hl with ⟨_, os, ho, hl⟩ | ⟨_, os, ho, _, _, i, j, h1, h2, h3⟩
  · exact hl (ht os ho).1
  · obtain ⟨y, hy⟩ := ((ht os ho).2.2 i j h1 h2).2
    exact h3 y hy

theorem prefixLoop_nopanic {os : List (Name × Name)} {occ : List Name} : ∀ {n : Nat} {stack : List Name},
    prefixLoop os occ n stack = .ok () ∨ prefixLoop os occ n stack = .timeout
  | _, [] => by simp [prefixLoop]
  | 0, _ :: _ => by simp [prefixLoop]
  | n + 1, t :: stack => by rw [prefixLoop]; exact prefixLoop_nopanic

theorem suffixLoop_nopanic {site : Site} {os : List (Name × Name)} : ∀ {n : Nat} {stack acc : List Name},
    (∃ r, suffixLoop ord site os n stack acc = .ok r) ∨ suffixLoop ord site os n stack acc = .timeout
  | _, [], _ => by simp [suffixLoop]
  | 0, _ :: _, _ => by simp [suffixLoop]
  | n + 1, t :: stack, acc => by rw [suffixLoop]; exact suffixLoop_nopanic

theorem idIndices_nopanic {h : HTN} (hB : ∀ s ∈ h.subtasks, ∃ i, taskIndexFirst g.tasks s.task.name = some i) : ∀ {l : List Name},
    (∃ r, idIndices g h l = .ok r) ∨ idIndices g h l = .panic .tdgId
  | [] => by simp [idIndices]
  | i :: l => by
    rw [idIndices]
    cases hi : idToTask h i with
    | none => exact .inr rfl
    | some t =>
      obtain ⟨s, hs, he, _⟩ := idToTask_labels hi
      obtain ⟨k, hk⟩ := hB s hs
      rw [he] at hk
      simp only [hk]
      rcases idIndices_nopanic hB (l := l) with ⟨r, hr⟩ | hr <;> rw [hr]
      · exact .inl ⟨_, rfl⟩
      · exact .inr rfl

theorem subIndices_nopanic {h : HTN} (hB : ∀ s ∈ h.subtasks, ∃ i, taskIndexFirst g.tasks s.task.name = some i) {l : List Subtask}
    (hl : ∀ s ∈ l, s ∈ h.subtasks) : ∃ r, subIndices g l = .ok r := by
  obtain ⟨r, hr⟩ := map_some_of (l := l) (f := fun s => taskIndexFirst g.tasks s.task.name) fun s hs => hB s (hl s hs)
  exact ⟨r, subIndices_ok.mpr hr⟩

namespace TDG

variable {t m : Nat}

/-- What the computation of the context of a subtask can give, by kind of task network. -/
theorem context_cases (hA : ∃ s ∈ (g.method m).2.subtasks, s.task.name = g.taskName t)
    (hB : ∀ s ∈ (g.method m).2.subtasks, ∃ i, taskIndexFirst g.tasks s.task.name = some i) (n : Nat) :
    (∀ y, g.getPrefix ord n t m = .panic y → Crashing (g.method m).2 (g.taskName t) y) ∧
    (∀ y, (∃ r, g.getPrefix ord n t m = .ok r) → g.getSuffix ord n t m = .panic y → Crashing (g.method m).2 (g.taskName t) y) ∧
    (¬ Looping (g.method m).2 (g.taskName t) → ∃ N, ∀ n, N ≤ n → g.getPrefix ord n t m ≠ .timeout ∧ g.getSuffix ord n t m ≠ .timeout) := by
  cases ho : (g.method m).2.orderings with
  | total =>
    obtain ⟨N, hN⟩ := context_term (ord := ord) (g := g) (t := t) (m := m) (fun os h => by rw [ho] at h; cases h) hA hB
    have key : ∀ n n', g.getPrefix ord n t m = g.getPrefix ord n' t m ∧ g.getSuffix ord n t m = g.getSuffix ord n' t m := by
      intro n n'
      unfold getPrefix getSuffix
      simp only [ho, and_self]
    obtain ⟨⟨r, h1⟩, r', h2⟩ := hN N (Nat.le_refl _)
    refine ⟨fun y h => ?_, fun y _ h => ?_, fun _ => ⟨0, fun n _ => ?_⟩⟩
    · rw [(key n N).1, h1] at h; cases h
    · rw [(key n N).2, h2] at h; cases h
    · rw [(key n N).1, (key n N).2, h1, h2]; simp
  | partial_ os =>
    by_cases hlen : os.length = (g.method m).2.subtasks.length - 1
    · refine ⟨fun y h => ?_, fun y hp h => ?_, fun hl => ?_⟩
      · unfold getPrefix at h
        simp only [ho, hlen, ne_eq, not_true_eq_false, if_false] at h
        rcases prefixLoop_nopanic (os := os) (occ := occurrences (g.method m).2 (g.taskName t)) (n := n)
          (stack := (arrange ord [3, t, m] (occurrences (g.method m).2 (g.taskName t))).reverse) with h1 | h1
          <;> rw [h1] at h <;> cases h
      · obtain ⟨r, hp⟩ := hp
        have hp := ((getPrefix_ok hp).2 os ho).2
        unfold getSuffix at h
        simp only [ho, hlen, ne_eq, not_true_eq_false, if_false] at h
        rcases suffixLoop_nopanic (ord := ord) (site := [5, t, m]) (os := os) (n := n)
          (stack := (arrange ord [4, t, m] (occurrences (g.method m).2 (g.taskName t))).reverse) (acc := []) with ⟨ids, h1⟩ | h1
        · rw [h1, R.bind_ok] at h
          rcases idIndices_nopanic hB (l := ids) with ⟨r, h2⟩ | h2
          · rw [h2] at h; cases h
          · rw [h2] at h; cases h
            obtain ⟨h3, h4⟩ := suffixLoop_ok h1
            have hids : ∀ j, j ∈ ids ↔ ∃ i, Labels (g.method m).2 (g.taskName t) i ∧
                Relation.TransGen (Before (g.method m).2) i j := by
              intro j
              rw [h4, before_eq ho]
              simp only [List.not_mem_nil, List.mem_reverse, mem_arrange, mem_occurrences, false_or]
            refine .inr ⟨rfl, os, ho, hlen, ?_, ?_⟩
            · rintro ⟨_, _, _, ⟨i, j, k, a1, a2, a3, a4⟩ | ⟨i, j, a1, a2, a3⟩⟩
              · exact hp i j k a1 a2 a3 a4
              · rw [before_eq ho] at a2 a3
                exact acc_iff.mp (h3 i (by rw [List.mem_reverse, mem_arrange, mem_occurrences]; exact a1)) j a2.to_reflTransGen a3
            · by_contra hno
              push Not at hno
              have : ∀ j ∈ ids, ∃ k, (idToTask (g.method m).2 j).bind (taskIndexFirst g.tasks) = some k := by
                intro j hj
                obtain ⟨i, hi, hij⟩ := (hids j).mp hj
                obtain ⟨y, hy⟩ := idToTask_iff.mpr (hno i j hi hij)
                obtain ⟨s, hs, he, _⟩ := idToTask_labels hy
                obtain ⟨k, hk⟩ := hB s hs
                exact ⟨k, by rw [hy, Option.bind_some, ← he, hk]⟩
              obtain ⟨r, hr⟩ := map_some_of this
              rw [idIndices_ok.mpr hr] at h2
              cases h2
        · rw [h1] at h; cases h
      · have hp : ∀ i ∈ (arrange ord [3, t, m] (occurrences (g.method m).2 (g.taskName t))).reverse,
            prefixHits os (occurrences (g.method m).2 (g.taskName t)) i = [] := by
          intro i hi
          rw [List.mem_reverse, mem_arrange, mem_occurrences] at hi
          rw [List.eq_nil_iff_forall_not_mem]
          intro k hk
          obtain ⟨a, j, b, c⟩ := mem_prefixHits.mp hk
          exact hl ⟨os, ho, hlen, .inl ⟨i, j, k, hi, by rw [before_eq ho]; exact b, mem_occurrences.mp a, c⟩⟩
        obtain ⟨N, hN⟩ := suffixLoop_term (ord := ord) (site := [5, t, m]) (os := os)
          (stack := (arrange ord [4, t, m] (occurrences (g.method m).2 (g.taskName t))).reverse) (by
            intro i hi
            rw [List.mem_reverse, mem_arrange, mem_occurrences] at hi
            refine acc_iff.mpr fun j hj hc => ?_
            rw [← before_eq ho] at hj hc
            rcases Relation.reflTransGen_iff_eq_or_transGen.mp hj with rfl | hj
            · exact hl ⟨os, ho, hlen, .inr ⟨_, _, hi, hc, hc⟩⟩
            · exact hl ⟨os, ho, hlen, .inr ⟨_, _, hi, hj, hc⟩⟩)
        obtain ⟨ids, hids⟩ := hN []
        refine ⟨max N (arrange ord [3, t, m] (occurrences (g.method m).2 (g.taskName t))).reverse.length, fun n hn => ?_⟩
        unfold getPrefix getSuffix
        simp only [ho, hlen, ne_eq, not_true_eq_false, if_false]
        rw [prefixLoop_term ((Nat.le_max_right _ _).trans hn) hp,
          ((suffixLoop_le ord [5, t, m] os) ((Nat.le_max_left _ _).trans hn) _ _).eq (by rw [hids]; simp), hids]
        refine ⟨by simp [R.bind], ?_⟩
        rw [R.bind_ok]
        rcases idIndices_nopanic hB (l := ids) with ⟨r, h2⟩ | h2 <;> rw [h2] <;> simp
    · have h1 : ∀ n, g.getPrefix ord n t m = .panic .tdgAssert := by
        intro n; unfold getPrefix; simp only [ho, ne_eq, hlen, not_false_eq_true, if_true]
      have h2 : ∀ n, g.getSuffix ord n t m = .panic .tdgAssert := by
        intro n; unfold getSuffix; simp only [ho, ne_eq, hlen, not_false_eq_true, if_true]
      refine ⟨fun y h => ?_, fun y ⟨r, hp⟩ _ => ?_, fun _ => ⟨0, fun n _ => ?_⟩⟩
      · rw [h1] at h; cases h; exact .inl ⟨rfl, os, ho, hlen⟩
      · rw [h1] at hp; cases hp
      · rw [h1, h2]; simp

theorem cycleInfo_panic {x : Nat} {y : Panic} : ∀ {c : List (Nat × Nat)}, g.cycleInfo ord fuel nulls x c = .panic y →
    ∃ e ∈ edges c, g.getPrefix ord fuel e.1 e.2 = .panic y ∨
      ((∃ r, g.getPrefix ord fuel e.1 e.2 = .ok r) ∧ g.getSuffix ord fuel e.1 e.2 = .panic y)
  | [], h => by simp [cycleInfo] at h
  | [_], h => by simp [cycleInfo] at h
  | (t0, m) :: (t, m') :: rest, h => by
    rw [cycleInfo] at h
    simp only [edges, List.mem_cons, exists_eq_or_imp]
    cases hp : g.getPrefix ord fuel t m with
    | timeout => rw [hp] at h; cases h
    | err e => rw [hp] at h; cases h
    | panic z => rw [hp] at h; cases h; exact .inl (.inl rfl)
    | ok r =>
      rw [hp, R.bind_ok] at h
      cases hs : g.getSuffix ord fuel t m with
      | timeout => rw [hs] at h; cases h
      | err e => rw [hs] at h; cases h
      | panic z => rw [hs] at h; cases h; exact .inl (.inr ⟨⟨r, rfl⟩, rfl⟩)
      | ok s =>
        rw [hs, R.bind_ok] at h
        cases hc : g.cycleInfo ord fuel nulls x ((t, m') :: rest) with
        | timeout => rw [hc] at h; cases h
        | err e => rw [hc] at h; cases h
        | ok r => rw [hc] at h; cases h
        | panic z => rw [hc] at h; cases h; exact .inr (cycleInfo_panic hc)

theorem cycleInfo_ends {x : Nat} : ∀ {c : List (Nat × Nat)},
    (∀ e ∈ edges c, g.getPrefix ord fuel e.1 e.2 ≠ .timeout ∧ g.getSuffix ord fuel e.1 e.2 ≠ .timeout) →
    g.cycleInfo ord fuel nulls x c ≠ .timeout
  | [], _ => by simp [cycleInfo]
  | [_], _ => by simp [cycleInfo]
  | (t0, m) :: (t, m') :: rest, h => by
    simp only [edges, List.mem_cons, forall_eq_or_imp] at h
    rw [cycleInfo]
    have h2 := cycleInfo_ends (x := x) h.2
    cases hp : g.getPrefix ord fuel t m with
    | timeout => exact absurd hp h.1.1
    | err e => simp [R.bind]
    | panic z => simp [R.bind]
    | ok r =>
      rw [R.bind_ok]
      cases hs : g.getSuffix ord fuel t m with
      | timeout => exact absurd hs h.1.2
      | err e => simp [R.bind]
      | panic z => simp [R.bind]
      | ok s =>
        rw [R.bind_ok]
        cases hc : g.cycleInfo ord fuel nulls x ((t, m') :: rest) with
        | timeout => exact absurd hc h2
        | err e => simp [R.bind]
        | panic z => simp [R.bind]
        | ok r => simp [R.bind]

theorem expand_panic {path : List (Nat × Nat)} {m : Nat} {y : Panic} : ∀ {xs : List Nat} {stack : List (List (Nat × Nat))} {rt : RecType},
    g.expand ord fuel nulls path m xs stack rt = .panic y →
    ∃ x ∈ xs, ∃ c, cycleFrom path x = some c ∧ g.cycleInfo ord fuel nulls x (c ++ [(x, m)]) = .panic y
  | [], stack, rt, h => by simp [expand] at h
  | x :: xs, stack, rt, h => by
    rw [expand] at h
    cases hc : cycleFrom path x with
    | some c =>
      simp only [hc] at h
      cases hi : g.cycleInfo ord fuel nulls x (c ++ [(x, m)]) with
      | timeout => rw [hi] at h; cases h
      | err e => rw [hi] at h; cases h
      | panic z => rw [hi] at h; cases h; exact ⟨x, List.mem_cons_self, c, hc, hi⟩
      | ok r =>
        rw [hi, R.bind_ok] at h
        obtain ⟨x', h1, h2⟩ := expand_panic h
        exact ⟨x', List.mem_cons_of_mem _ h1, h2⟩
    | none =>
      simp only [hc] at h
      obtain ⟨x', h1, h2⟩ := expand_panic h
      exact ⟨x', List.mem_cons_of_mem _ h1, h2⟩

theorem expand_ends {path : List (Nat × Nat)} {m : Nat} : ∀ {xs : List Nat} {stack : List (List (Nat × Nat))} {rt : RecType},
    (∀ x ∈ xs, ∀ c, cycleFrom path x = some c → g.cycleInfo ord fuel nulls x (c ++ [(x, m)]) ≠ .timeout) →
    g.expand ord fuel nulls path m xs stack rt ≠ .timeout
  | [], stack, rt, _ => by simp [expand]
  | x :: xs, stack, rt, h => by
    rw [expand]
    cases hc : cycleFrom path x with
    | some c =>
      have h1 := h x List.mem_cons_self c hc
      simp only
      cases hi : g.cycleInfo ord fuel nulls x (c ++ [(x, m)]) with
      | timeout => exact absurd hi h1
      | err e => simp [R.bind]
      | panic z => simp [R.bind]
      | ok r => rw [R.bind_ok]; exact expand_ends fun y hy => h y (List.mem_cons_of_mem _ hy)
    | none => exact expand_ends fun y hy => h y (List.mem_cons_of_mem _ hy)

theorem recLoop_panic {y : Panic} : ∀ {n : Nat} {stack : List (List (Nat × Nat))} {rt : RecType}, (∀ p ∈ stack, g.GoodPath p) →
    g.recLoop ord fuel nulls n stack rt = .panic y → ∃ x cyc, g.Found x cyc ∧ g.cycleInfo ord fuel nulls x cyc = .panic y
  | _, [], _, _, h => by simp [recLoop] at h
  | 0, _ :: _, _, _, h => by simp [recLoop] at h
  | n + 1, path :: stack, rt, hs, h => by
    rw [recLoop] at h
    cases hl : path.getLast? with
    | none =>
      simp only [hl] at h
      exact recLoop_panic (fun p hp => hs p (List.mem_cons_of_mem _ hp)) h
    | some e =>
      obtain ⟨t, m⟩ := e
      simp only [hl] at h
      obtain ⟨t0, m0, hm0, hext⟩ := hs path List.mem_cons_self
      cases he : g.expand ord fuel nulls path m (g.tasksOf m) stack rt with
      | timeout => rw [he] at h; cases h
      | err e => rw [he] at h; cases h
      | panic z =>
        rw [he] at h; cases h
        obtain ⟨x, hx, c, hc, hi⟩ := expand_panic he
        exact ⟨x, _, ⟨t0, m0, path, hm0, hext, t, m, c, hl, hx, hc, rfl⟩, hi⟩
      | ok r =>
        obtain ⟨stack', rt'⟩ := r
        rw [he, R.bind_ok] at h
        obtain ⟨_, new, _, rfl, _, _, h7⟩ := expand_ok he
        refine recLoop_panic (fun p hp => ?_) h
        rcases List.mem_append.mp hp with hp | hp
        · obtain ⟨x, hx, hc, m', hm', rfl⟩ := (h7 p).mp hp
          exact ⟨t0, m0, hm0, hext.snoc hl hx hc hm'⟩
        · exact hs p (List.mem_cons_of_mem _ hp)

theorem expand_length {path : List (Nat × Nat)} {m : Nat} : ∀ {xs : List Nat} {stack new : List (List (Nat × Nat))} {rt rt' : RecType},
    g.expand ord fuel nulls path m xs stack rt = .ok (new ++ stack, rt') → new.length ≤ (xs.flatMap g.methodsOf).length := by
  intro xs stack new rt rt' h
  obtain ⟨new', rt'', h1, h2⟩ := expand_term (g := g) (ord := ord) (fuel := fuel) (nulls := nulls) (path := path) (m := m) (xs := xs)
    (stack := stack) (rt := rt) (by
      intro x hx c hc
      obtain ⟨hs, _, _, _, h3, h4, _⟩ := expand_ok h
      obtain ⟨hit, hh, rfl, h6⟩ := h4 x hx c hc
      have := (h3 hit hh).1
      unfold Hit.Ok at this
      rw [h6] at this
      exact ⟨_, this⟩)
  rw [h1] at h
  simp only [R.ok.injEq, Prod.mk.injEq] at h
  rw [← List.append_cancel_right h.1]
  exact h2

theorem recLoop_ends {T : Nat} (hb : g.Bounded T) (hinfo : ∀ x cyc, g.Found x cyc → g.cycleInfo ord fuel nulls x cyc ≠ .timeout) :
    ∀ {n : Nat} {stack : List (List (Nat × Nat))} {rt : RecType}, (∀ p ∈ stack, g.GoodPath p) →
      load g.branch T stack ≤ n → g.recLoop ord fuel nulls n stack rt ≠ .timeout
  | n, [], rt, _, _ => by simp [recLoop]
  | 0, p :: stack, rt, _, hn => by
    have : 0 < weight g.branch (T - p.length) := weight_pos _ _
    simp only [load, List.map_cons, List.sum_cons] at hn
    omega
  | n + 1, path :: stack, rt, hs, hn => by
    have hgp := hs path List.mem_cons_self
    obtain ⟨hne, hnd, hlen⟩ := hgp.facts hb
    obtain ⟨p', ⟨t, m⟩, hp'⟩ : ∃ p' b, path = p' ++ [b] :=
      ⟨path.dropLast, path.getLast hne, (List.dropLast_append_getLast hne).symm⟩
    have hl : path.getLast? = some (t, m) := by rw [hp']; simp
    rw [recLoop, hl]
    obtain ⟨t0, m0, hm0, hext⟩ := hgp
    have h0 := expand_ends (g := g) (ord := ord) (fuel := fuel) (nulls := nulls) (path := path) (m := m)
      (xs := g.tasksOf m) (stack := stack) (rt := rt)
      (fun x hx c hc => hinfo x _ ⟨t0, m0, path, hm0, hext, t, m, c, hl, hx, hc, rfl⟩)
    simp only
    cases h1 : g.expand ord fuel nulls path m (g.tasksOf m) stack rt with
    | timeout => exact absurd h1 h0
    | err e => simp [R.bind]
    | panic z => simp [R.bind]
    | ok r =>
      obtain ⟨stack', rt'⟩ := r
      obtain ⟨_, new, _, rfl, _, _, h7⟩ := expand_ok h1
      rw [R.bind_ok]
      have h2 := expand_length h1
      have hnew : ∀ p ∈ new, g.GoodPath p ∧ p.length = path.length + 1 := by
        intro p hp
        obtain ⟨x, hx, hc, m', hm', rfl⟩ := (h7 p).mp hp
        exact ⟨⟨t0, m0, hm0, hext.snoc hl hx hc hm'⟩, by simp⟩
      refine recLoop_ends hb hinfo (fun p hp => ?_) ?_
      · rcases List.mem_append.mp hp with hp | hp
        · exact (hnew p hp).1
        · exact hs p (List.mem_cons_of_mem _ hp)
      · simp only [load, List.map_cons, List.sum_cons, List.map_append, List.sum_append] at hn ⊢
        have hw : (new.map fun p => weight g.branch (T - p.length)).sum < weight g.branch (T - path.length) := by
          cases hne' : new with
          | nil => exact weight_pos _ _
          | cons a l =>
            have ha := hnew a (by rw [hne']; exact List.mem_cons_self)
            have hT : path.length + 1 ≤ T := by
              have := (ha.1.facts hb).2.2
              omega
            rw [← hne']
            rw [sum_const (w := weight g.branch (T - (path.length + 1))) fun p hp => by rw [(hnew p hp).2]]
            obtain ⟨k, hk⟩ : ∃ k, T - path.length = k + 1 := ⟨T - path.length - 1, by omega⟩
            rw [show T - (path.length + 1) = k by omega, hk, weight]
            have := Nat.mul_le_mul_right (weight g.branch k) (h2.trans (branch_le m))
            omega
        omega

/-- The edges of the cycles that the search finds are the subtasks that lead back to their methods. -/
theorem Of.edge_names (hg : g.Of d) {x : Nat} {cyc : List (Nat × Nat)} (hf : g.Found x cyc) {e : Nat × Nat}
    (he : e ∈ edges cyc) : ∃ mm s, Returning d mm s ∧ (g.method e.2).2 = mm.tn ∧ g.taskName e.1 = s.task.name ∧
      e.1 < g.tasks.length ∧ e.2 < d.methods.length := by
  obtain ⟨t0, h1, h2, h3⟩ := edge_found_iff.mp ⟨x, cyc, hf, he⟩
  obtain ⟨mm, hr⟩ := hg.methodsOf_iff.mp h1
  obtain ⟨s, hs, hi⟩ := (hg.tasksOf_iff hr).mp h2
  refine ⟨mm, s, ⟨hr.mem, hs, ?_⟩, by rw [hr.method hg], hi.taskName hg, ?_, (List.getElem?_eq_some_iff.mp hr.1).1⟩
  · rcases Relation.reflTransGen_iff_eq_or_transGen.mp h3 with rfl | h3
    · rw [hi.inj hr.2]
    · exact (hg.trans_names hi hr.2 h3).to_reflTransGen
  · rw [hg.tasks]; exact (taskIndexLast_some hi).1

theorem Of.recursionType_panic (hg : g.Of d) (hc : Verif.Closed d) {ns : List Name} (hns : ∀ x ∈ ns, TaskName d x) {n : Nat} {y : Panic}
    (h : g.recursionType ord n ns = .panic y) : ∃ m s, Returning d m s ∧ Crashing m.tn s.task.name y := by
  obtain ⟨nulls, hnulls⟩ := map_some_of (l := ns) (f := fun x => taskIndexFirst g.tasks x) fun x hx => hg.first_index (hns x hx)
  unfold recursionType at h
  rw [nullIndices_ok.mpr hnulls, R.bind_ok] at h
  obtain ⟨x, cyc, hf, hi⟩ := recLoop_panic (fun p hp => by
    simp only [List.mem_reverse, List.mem_flatMap, List.mem_map] at hp
    obtain ⟨t, _, m, hm, rfl⟩ := hp
    exact ⟨t, m, hm, .refl _⟩) h
  obtain ⟨e, he, hp⟩ := cycleInfo_panic hi
  obtain ⟨mm, s, hr, h1, h2, _, _⟩ := hg.edge_names hf he
  have hcases := context_cases (ord := ord) (g := g) (t := e.1) (m := e.2) (by rw [h1, h2]; exact ⟨s, hr.subtask, rfl⟩)
    (by rw [h1]; exact fun s hs => hg.first_index ((hc mm hr.method).2 s hs)) n
  refine ⟨mm, s, hr, ?_⟩
  rw [← h1, ← h2]
  rcases hp with hp | ⟨hp, hs⟩
  · exact hcases.1 y hp
  · exact hcases.2.1 y hp hs

theorem Of.recursionType_ends (hg : g.Of d) (hc : Verif.Closed d) {ns : List Name} (hns : ∀ x ∈ ns, TaskName d x)
    (hl : ∀ m s, Returning d m s → ¬ Looping m.tn s.task.name) : ∃ n, g.recursionType ord n ns ≠ .timeout := by
  obtain ⟨nulls, hnulls⟩ := map_some_of (l := ns) (f := fun x => taskIndexFirst g.tasks x) fun x hx => hg.first_index (hns x hx)
  obtain ⟨N1, hN1⟩ := uniform_bound (P := fun (e : Nat × Nat) n => (∃ x cyc, g.Found x cyc ∧ e ∈ edges cyc) →
      g.getPrefix ord n e.1 e.2 ≠ .timeout ∧ g.getSuffix ord n e.1 e.2 ≠ .timeout)
    (l := (List.range g.tasks.length).flatMap fun t => (List.range d.methods.length).map fun m => (t, m)) (by
      intro e _
      by_cases he : ∃ x cyc, g.Found x cyc ∧ e ∈ edges cyc
      · obtain ⟨x, cyc, hf, he⟩ := he
        obtain ⟨mm, s, hr, h1, h2, _, _⟩ := hg.edge_names hf he
        obtain ⟨N, hN⟩ := (context_cases (ord := ord) (g := g) (t := e.1) (m := e.2) (by rw [h1, h2]; exact ⟨s, hr.subtask, rfl⟩)
          (by rw [h1]; exact fun s hs => hg.first_index ((hc mm hr.method).2 s hs)) 0).2.2 (by rw [h1, h2]; exact hl mm s hr)
        exact ⟨N, fun n hn _ => hN n hn⟩
      · exact ⟨0, fun n _ h => absurd h he⟩)
  let stack := (g.keys.flatMap fun t => (g.methodsOf t).map fun m => [(t, m)]).reverse
  refine ⟨max N1 (load g.branch g.tasks.length stack), ?_⟩
  unfold recursionType
  rw [nullIndices_ok.mpr hnulls, R.bind_ok]
  refine recLoop_ends hg.bounded (fun x cyc hf => cycleInfo_ends fun e he => ?_) (fun p hp => ?_) (Nat.le_max_right _ _)
  · obtain ⟨_, _, _, _, _, h3, h4⟩ := hg.edge_names hf he
    refine hN1 _ (Nat.le_max_left _ _) e ?_ ⟨x, cyc, hf, he⟩
    simp only [List.mem_flatMap, List.mem_range, List.mem_map]
    exact ⟨e.1, h3, e.2, h4, rfl⟩
  · simp only [List.mem_reverse, List.mem_flatMap, List.mem_map] at hp
    obtain ⟨t, _, m, hm, rfl⟩ := hp
    exact ⟨t, m, hm, .refl _⟩

end TDG

theorem new_panic {ord : HashOrd} (h : ¬ Verif.Closed d) : ∃ y, TDG.new ord d = .panic y ∧ (y = .tdgTask ∨ y = .tdgSubtask) := by
  have h1 : ∀ ms, (∃ r, methodTasks (tdgTasks d) ms = .ok r) ∨ methodTasks (tdgTasks d) ms = .panic .tdgTask := by
    intro ms
    induction ms with
    | nil => exact .inl ⟨_, rfl⟩
    | cons m ms ih =>
      rw [methodTasks]
      split
      · rcases ih with ⟨r, hr⟩ | hr <;> rw [hr]
        · exact .inl ⟨_, rfl⟩
        · exact .inr rfl
      · exact .inr rfl
  have h2 : ∀ ss, (∃ r, subtaskIndices (tdgTasks d) ss = .ok r) ∨ subtaskIndices (tdgTasks d) ss = .panic .tdgSubtask := by
    intro ss
    induction ss with
    | nil => exact .inl ⟨_, rfl⟩
    | cons m ms ih =>
      rw [subtaskIndices]
      split
      · rcases ih with ⟨r, hr⟩ | hr <;> rw [hr]
        · exact .inl ⟨_, rfl⟩
        · exact .inr rfl
      · exact .inr rfl
  have h3 : ∀ ms, (∃ r, methodSubtasks (tdgTasks d) ms = .ok r) ∨ methodSubtasks (tdgTasks d) ms = .panic .tdgSubtask := by
    intro ms
    induction ms with
    | nil => exact .inl ⟨_, rfl⟩
    | cons m ms ih =>
      rw [methodSubtasks]
      rcases h2 m.tn.subtasks with ⟨r, hr⟩ | hr <;> rw [hr]
      · rw [R.bind_ok]
        rcases ih with ⟨r, hr⟩ | hr <;> rw [hr]
        · exact .inl ⟨_, rfl⟩
        · exact .inr rfl
      · exact .inr rfl
  have h4 : ¬ ∃ g, TDG.new ord d = .ok g := fun hg => h (TDG.new_ok_iff.mp hg)
  unfold TDG.new at h4 ⊢
  rcases h1 d.methods with ⟨r, hr⟩ | hr
  · rcases h3 d.methods with ⟨r', hr'⟩ | hr'
    · exact absurd ⟨_, by simp only [hr, hr', R.bind_ok]; rfl⟩ h4
    · exact ⟨_, by simp only [hr, hr', R.bind_ok]; rfl, .inr rfl⟩
  · exact ⟨_, by simp only [hr]; rfl, .inl rfl⟩

end Verif
