import Mathlib.Data.List.NodupEquivFin
import Verif.Proofs.Metadata

/-! The class of a cycle without reference to the run, and the class of the domain as the highest of them. -/

namespace Verif

open Spec

variable {d : DomainAST} {g g' : TDG} {ord ord' : HashOrd}

namespace TDG

/-- The task of node `i` follows on the cycle. -/
def After (g : TDG) (cyc : List (Nat × Nat)) (i : Nat) : Prop :=
  ∃ e ∈ edges cyc, ∃ y, InSuffix (g.method e.2).2 (g.taskName e.1) y ∧ taskIndexFirst g.tasks y = some i

/-- The class of a cycle. -/
inductive Kind (g : TDG) (nulls : List Nat) (x : Nat) (cyc : List (Nat × Nat)) : Class → Prop
  | plain : ¬ (∀ e ∈ edges cyc, g.EpsEdge nulls x e) → Kind g nulls x cyc .plain
  | empty : (∀ e ∈ edges cyc, g.EpsEdge nulls x e) → (∀ i, ¬ g.After cyc i) → Kind g nulls x cyc .empty
  | shrink : (∀ e ∈ edges cyc, g.EpsEdge nulls x e) → (∃ i, g.After cyc i) → (∀ i, g.After cyc i → i ∈ nulls) →
      Kind g nulls x cyc .growAndShrink
  | growing : (∀ e ∈ edges cyc, g.EpsEdge nulls x e) → ¬ (∀ i, g.After cyc i → i ∈ nulls) →
      Kind g nulls x cyc .growingEmptyPrefix

theorem Kind.det {nulls : List Nat} {x : Nat} {cyc : List (Nat × Nat)} {k k' : Class} (h : g.Kind nulls x cyc k)
    (h' : g.Kind nulls x cyc k') : k = k' := by
  cases h <;> cases h' <;> first | rfl | contradiction | skip
  all_goals exfalso
  all_goals grind

theorem Hit.kind {fuel : Nat} {nulls : List Nat} {h : Hit} (ho : h.Ok g ord fuel nulls) :
    g.Kind nulls h.x h.cyc (h.cls nulls) := by
  obtain ⟨_, h2, h3⟩ := cycleInfo_ok ho
  have h3' : ∀ i, i ∈ h.suf ↔ g.After h.cyc i := h3
  unfold Hit.cls hitClass
  by_cases he : h.eps = true
  · rw [if_pos he]
    have he' := h2.mp he
    by_cases hs : h.suf.isEmpty
    · rw [if_pos hs]
      refine .empty he' fun i hi => ?_
      rw [← h3', List.isEmpty_iff.mp hs] at hi
      cases hi
    · rw [if_neg hs]
      have hex : ∃ i, g.After h.cyc i := by
        rw [List.isEmpty_iff] at hs
        obtain ⟨i, hi⟩ := List.exists_mem_of_ne_nil _ hs
        exact ⟨i, (h3' i).mp hi⟩
      by_cases hn : h.suf.all (fun x => x ∈ nulls)
      · rw [if_pos hn]
        refine .shrink he' hex fun i hi => ?_
        have := List.all_eq_true.mp hn i ((h3' i).mpr hi)
        simpa using this
      · rw [if_neg hn]
        refine .growing he' fun hall => hn (List.all_eq_true.mpr fun i hi => ?_)
        simpa using hall i ((h3' i).mp hi)
  · rw [if_neg he]
    exact .plain fun hh => he (h2.mpr hh)

/-- The result: no cycle, or a cycle of the highest class. -/
theorem recursionType_kind (hb : g.Bounded g.tasks.length) {fuel : Nat} {ns : List Name} {rt : RecType}
    (h : g.recursionType ord fuel ns = .ok rt) : ∃ nulls,
      (∀ i, i ∈ nulls ↔ ∃ z ∈ ns, taskIndexFirst g.tasks z = some i) ∧
      ((rt = .nonRecursive ∧ ∀ x cyc, ¬ g.Found x cyc) ∨
       ∃ x cyc, g.Found x cyc ∧ g.Kind nulls x cyc rt.cls ∧ rt.cycle = some (g.cycleNames cyc) ∧
         ∀ x' cyc', g.Found x' cyc' → ∃ k, g.Kind nulls x' cyc' k ∧ k.rank ≤ rt.cls.rank) := by
  obtain ⟨nulls, hs, h1, rfl, h3, h4⟩ := recursionType_ok hb h
  refine ⟨nulls, fun i => mem_map_some (nullIndices_ok.mp h1), ?_⟩
  rcases applyHits_result (g := g) (nulls := nulls) hs with ⟨rfl, h5⟩ | ⟨hit, hm, h5, h6, h7⟩
  · refine .inl ⟨h5, fun x cyc hf => ?_⟩
    obtain ⟨h, hh, _⟩ := h4 x cyc hf
    cases hh
  · refine .inr ⟨hit.x, hit.cyc, (h3 hit hm).2, h5 ▸ Hit.kind (h3 hit hm).1, h6, fun x' cyc' hf => ?_⟩
    obtain ⟨h', hm', rfl, rfl⟩ := h4 x' cyc' hf
    exact ⟨_, Hit.kind (h3 h' hm').1, by rw [h5]; exact h7 h' hm'⟩

/-! ### Two graphs of the same domain -/

theorem Of.methodsOf_same (h : g.Of d) (h' : g'.Of d) {t m : Nat} : m ∈ g.methodsOf t ↔ m ∈ g'.methodsOf t := by
  rw [h.mem_methodsOf, h'.mem_methodsOf]

theorem Of.tasksOf_same (h : g.Of d) (h' : g'.Of d) {t m : Nat} : t ∈ g.tasksOf m ↔ t ∈ g'.tasksOf m := by
  rw [h.mem_tasksOf, h'.mem_tasksOf]

theorem Of.chain_same (h : g.Of d) (h' : g'.Of d) {c : List (Nat × Nat)} (hc : g.Chain c) : g'.Chain c := by
  induction hc with
  | one h1 => exact .one ((h.methodsOf_same h').mp h1)
  | cons h1 h2 _ ih => exact .cons ((h.methodsOf_same h').mp h1) ((h.tasksOf_same h').mp h2) ih

theorem Of.found_same (h : g.Of d) (h' : g'.Of d) {x : Nat} {cyc : List (Nat × Nat)} (hf : g.Found x cyc) : g'.Found x cyc := by
  obtain ⟨c, ⟨h1, h2, m, l, t, m', h3, h4, h5⟩, r⟩ := found_iff.mp hf
  exact found_iff.mpr ⟨c, ⟨h.chain_same h' h1, h2, m, l, t, m', h3, h4, (h.tasksOf_same h').mp h5⟩, r⟩

theorem Of.kind_same (h : g.Of d) (h' : g'.Of d) {nulls nulls' : List Nat} (hn : ∀ i, i ∈ nulls ↔ i ∈ nulls') {x : Nat}
    {cyc : List (Nat × Nat)} {k : Class} (hk : g.Kind nulls x cyc k) : g'.Kind nulls' x cyc k := by
  have ht : g'.tasks = g.tasks := by rw [h.tasks, h'.tasks]
  have hm : g'.methods = g.methods := by rw [h.methods, h'.methods]
  have ha : ∀ i, g'.After cyc i ↔ g.After cyc i := by
    intro i
    simp only [After, method, taskName, ht, hm]
  have he : ∀ e, g'.EpsEdge nulls' x e ↔ g.EpsEdge nulls x e := by
    intro e
    simp only [EpsEdge, method, taskName, ht, hm, hn]
  cases hk with
  | plain h1 => exact .plain (by simpa only [he] using h1)
  | empty h1 h2 => exact .empty (by simpa only [he] using h1) (by simpa only [ha] using h2)
  | shrink h1 h2 h3 => exact .shrink (by simpa only [he] using h1) (by simpa only [ha] using h2) (by simpa only [ha, hn] using h3)
  | growing h1 h2 => exact .growing (by simpa only [he] using h1) (by simpa only [ha, hn] using h2)

/-- The class depends on the set of nullable tasks only. -/
theorem Of.cls_same (h : g.Of d) (h' : g'.Of d) {fuel fuel' : Nat} {ns ns' : List Name} (hns : ∀ x, x ∈ ns ↔ x ∈ ns')
    {rt rt' : RecType} (hr : g.recursionType ord fuel ns = .ok rt) (hr' : g'.recursionType ord' fuel' ns' = .ok rt') :
    rt.cls = rt'.cls := by
  obtain ⟨nulls, hn, h1⟩ := recursionType_kind h.bounded hr
  obtain ⟨nulls', hn', h1'⟩ := recursionType_kind h'.bounded hr'
  have hnn : ∀ i, i ∈ nulls ↔ i ∈ nulls' := by
    intro i
    rw [hn, hn', h.tasks, h'.tasks]
    simp only [hns]
  rcases h1 with ⟨rfl, h2⟩ | ⟨x, cyc, h2, h3, _, h4⟩
  · rcases h1' with ⟨rfl, h2'⟩ | ⟨x', cyc', h2', _⟩
    · rfl
    · exact absurd (h'.found_same h h2') (h2 x' cyc')
  · rcases h1' with ⟨rfl, h2'⟩ | ⟨x', cyc', h2', h3', _, h4'⟩
    · exact absurd (h.found_same h' h2) (h2' x cyc)
    · obtain ⟨k, hk, hle⟩ := h4 x' cyc' (h'.found_same h h2')
      obtain ⟨k', hk', hle'⟩ := h4' x cyc (h.found_same h' h2)
      cases (h.kind_same h' hnn hk).det h3'
      cases (h'.kind_same h (fun i => (hnn i).symm) hk').det h3
      exact Class.rank_inj (by omega)

end TDG

/-! ### The class of a cycle of methods -/

section
variable (hg : g.Of d) (hc : Verif.Closed d)
include hg

/-- A cycle found stands for a cycle of methods. -/
def Stands (d : DomainAST) (x : Nat) (cyc : List (Nat × Nat)) (ms : List Method) : Prop :=
  ∃ c t m, List.Forall₂ (Rep d) c ms ∧ c.getLast? = some (t, m) ∧ cyc = c ++ [(x, m)] ∧
    ∃ m0, ms.head? = some m0 ∧ Ix d m0.task.name x

theorem found_stands {x : Nat} {cyc : List (Nat × Nat)} (hf : g.Found x cyc) : ∃ ms, Cycle d ms ∧ Stands d x cyc ms := by
  obtain ⟨c, hs, t, m, hl, rfl⟩ := TDG.found_iff.mp hf
  obtain ⟨ms, h1, h2⟩ := simpleCycle_rep hg hs
  obtain ⟨_, _, m1, l, _, _, rfl, _⟩ := hs
  refine ⟨ms, h2, _, t, m, h1, hl, rfl, ?_⟩
  cases h1 with
  | cons h _ => exact ⟨_, rfl, h.2⟩

include hc in
theorem stands_found {ms : List Method} (hcy : Cycle d ms) : ∃ x cyc, g.Found x cyc ∧ Stands d x cyc ms := by
  obtain ⟨c, h1⟩ := rep_exists hc hcy.mem
  cases c with
  | nil => cases h1; exact absurd rfl hcy.ne
  | cons e c =>
    have h2 := rep_simpleCycle hg h1 hcy
    obtain ⟨_, _, m1, l, t, m, _, hl, _⟩ := id h2
    refine ⟨e.1, (e :: c) ++ [(e.1, m)], TDG.found_iff.mpr ⟨_, h2, t, m, hl, rfl⟩, e :: c, t, m, h1, hl, rfl, ?_⟩
    cases h1 with
    | cons h _ => exact ⟨_, rfl, h.2⟩

omit hg in
theorem Stands.edges {x : Nat} {cyc : List (Nat × Nat)} {ms : List Method} (h : Stands d x cyc ms) :
    List.Forall₂ (fun e p => d.methods[e.2]? = some p.1 ∧ Ix d (Method.task p.2).name e.1) (TDG.edges cyc) (steps ms) := by
  obtain ⟨c, t, m, h1, _, rfl, m0, h2, h3⟩ := h
  have := edges_rep (k := m) h3 h1
  unfold steps
  rw [List.take_one, h2]
  exact this

omit hg in
theorem forall₂_forall {α β} {R : α → β → Prop} {P : α → Prop} {Q : β → Prop} {l : List α} {l' : List β}
    (h : List.Forall₂ R l l') (hpq : ∀ a b, b ∈ l' → R a b → (P a ↔ Q b)) : (∀ a ∈ l, P a) ↔ ∀ b ∈ l', Q b := by
  induction h with
  | nil => simp
  | cons hr _ ih =>
    rw [List.forall_mem_cons, List.forall_mem_cons, hpq _ _ List.mem_cons_self hr,
      ih fun a b hb => hpq a b (List.mem_cons_of_mem _ hb)]

omit hg in
theorem steps_links {ms : List Method} (h : Cycle d ms) : ∀ p ∈ steps ms, p.1 ∈ d.methods ∧ p.2 ∈ d.methods ∧ Links p.1 p.2 := by
  have key : ∀ (l l' : List Method), (l ++ l').IsChain Links → ∀ p ∈ l.zip (l.tail ++ l'), Links p.1 p.2 := by
    intro l
    induction l with
    | nil => simp
    | cons a l ih =>
      intro l' hch p hp
      cases l with
      | nil =>
        cases l' with
        | nil => simp at hp
        | cons b l' =>
          simp only [List.tail_cons, List.nil_append, List.zip_cons_cons, List.zip_nil_left, List.mem_singleton] at hp
          subst hp
          simpa using (List.isChain_cons_cons.mp hch).1
      | cons b l =>
        simp only [List.cons_append, List.isChain_cons_cons] at hch
        simp only [List.tail_cons, List.cons_append, List.zip_cons_cons, List.mem_cons] at hp
        rcases hp with rfl | hp
        · exact hch.1
        · exact ih l' hch.2 p (by simpa using hp)
  intro p hp
  refine ⟨h.mem _ (List.of_mem_zip hp).1, ?_, key _ _ h.links p hp⟩
  rcases List.mem_append.mp (List.of_mem_zip hp).2 with h' | h'
  · exact h.mem _ (List.mem_of_mem_tail h')
  · exact h.mem _ (List.mem_of_mem_take h')

omit hg in
theorem sequential_context {m m' : Method} (hs : Sequential m.tn) (hl : Links m m') :
    TDG.prefixNames m.tn m'.task.name = (Preceding m m').map (·.task.name) ∧
    ∀ y, TDG.InSuffix m.tn m'.task.name y ↔ ∃ s ∈ Following m m', s.task.name = y := by
  obtain ⟨s, hs1, hs2⟩ := hl
  rcases hs with h | h | ⟨h, ho⟩
  · rw [h] at hs1; cases hs1
  · unfold TDG.prefixNames TDG.InSuffix
    rw [h]
    exact ⟨rfl, fun y => Iff.rfl⟩
  · obtain ⟨s', hs'⟩ := List.length_eq_one_iff.mp h
    rw [hs', List.mem_singleton] at hs1
    subst hs1
    unfold TDG.prefixNames TDG.InSuffix Preceding Following
    rw [ho, hs']
    refine ⟨by simp [hs2], fun y => ?_⟩
    simp only [hs2, ne_eq, not_true_eq_false, decide_false, Bool.false_eq_true, not_false_eq_true,
      List.dropWhile_cons_of_neg, List.tail_cons, List.not_mem_nil, false_and, exists_false, iff_false]
    rintro ⟨i, j, _, ht, _⟩
    obtain ⟨k, hk, _⟩ := Relation.TransGen.head'_iff.mp ht
    simp [Before, ho] at hk

omit hg in
theorem lastLabelled_iff {h : HTN} {j y : Name} : LastLabelled h j y ↔ idToTask h j = some y := by
  unfold idToTask LastLabelled
  rw [Option.map_eq_some_iff]
  constructor
  · rintro ⟨l, s, l', h1, rfl, ⟨z, h2, h3⟩, h4⟩
    refine ⟨s, ?_, rfl⟩
    rw [h1, List.reverse_append, List.reverse_cons, List.append_assoc, List.find?_append, List.find?_eq_none.mpr]
    · simp [h2, h3]
    · intro s' hs'
      have := h4 s' (List.mem_reverse.mp hs')
      cases hid : s'.id with
      | none => simp
      | some z => simpa [hid] using this z hid
  · rintro ⟨s, h1, rfl⟩
    obtain ⟨h2, as, bs, h3, h4⟩ := List.find?_eq_some_iff_append.mp h1
    refine ⟨bs.reverse, s, as.reverse, ?_, rfl, ?_, ?_⟩
    · rw [← List.reverse_reverse h.subtasks, h3]; simp
    · cases hid : s.id with
      | none => rw [hid] at h2; simp at h2
      | some z => rw [hid] at h2; exact ⟨z, rfl, by simpa using h2⟩
    · intro s' hs' z hz
      have := h4 s' (List.mem_reverse.mp hs')
      simpa [hz] using this

omit hg in
theorem taken_context (m m' : Method) : TDG.prefixNames m.tn m'.task.name = TakenBefore m m' ∧
    ∀ y, TDG.InSuffix m.tn m'.task.name y ↔ TakenAfter m m' y := by
  unfold TDG.prefixNames TDG.InSuffix TakenBefore TakenAfter
  cases m.tn.orderings with
  | total => exact ⟨rfl, fun y => Iff.rfl⟩
  | partial_ os => exact ⟨rfl, fun y => by simp only [lastLabelled_iff]⟩

omit hg in
theorem takenAfter_mem {m m' : Method} {y : Name} (h : TakenAfter m m' y) : ∃ s ∈ m.tn.subtasks, s.task.name = y := by
  unfold TakenAfter at h
  cases ho : m.tn.orderings with
  | total =>
    rw [ho] at h
    obtain ⟨s, hs, rfl⟩ := h
    exact ⟨s, (List.dropWhile_suffix _).subset (List.mem_of_mem_tail hs), rfl⟩
  | partial_ os =>
    rw [ho] at h
    obtain ⟨_, _, _, _, l, s, l', h1, rfl, _⟩ := h
    exact ⟨s, by rw [h1]; simp, rfl⟩

theorem first_last_name {x y : Name} {i : Nat} (h : taskIndexFirst g.tasks y = some i) (h' : Ix d x i) : y = x := by
  have h1 := (taskIndexFirst_some h).2
  have h2 := (taskIndexLast_some h').2
  rw [hg.tasks] at h1
  exact Option.some.inj (h1.symm.trans h2)

omit hg in
theorem ambiguous_iff {x : Name} : Ambiguous d x ↔ ∃ i j : Nat, i < j ∧ (tdgTasks d)[i]?.map (·.1) = some x ∧
    (tdgTasks d)[j]?.map (·.1) = some x := by
  have : (tdgTasks d).map (·.1) = d.tasks.map (·.name) ++ d.actions.map (·.name) := by
    simp [tdgTasks, Function.comp_def]
  unfold Ambiguous
  rw [← this, ← List.replicate_sublist_iff, List.replicate_succ, List.replicate_one, ← List.duplicate_iff_sublist, List.duplicate_iff_exists_distinct_get]
  simp only [← List.getElem?_map, List.getElem?_eq_some_iff]
  constructor
  · rintro ⟨i, j, hij, h1, h2⟩
    exact ⟨i, j, hij, ⟨i.2, h1.symm⟩, j.2, h2.symm⟩
  · rintro ⟨i, j, hij, ⟨hi, h1⟩, hj, h2⟩
    exact ⟨⟨i, hi⟩, ⟨j, hj⟩, hij, h1.symm, h2.symm⟩

theorem first_last {x : Name} {i : Nat} (h : taskIndexFirst g.tasks x = some i) (h' : Ix d x i) : ¬ Ambiguous d x := by
  rw [ambiguous_iff]
  rintro ⟨j, k, hjk, h1, h2⟩
  have h3 := taskIndexFirst_min h (j := j) (by rw [hg.tasks]; exact h1)
  have h4 := taskIndexLast_max h' h2
  omega

theorem first_of_last {x : Name} {i : Nat} (h : ¬ Ambiguous d x) (h' : Ix d x i) : taskIndexFirst g.tasks x = some i := by
  have h1 := (taskIndexLast_some h').2
  rw [hg.tasks]
  cases hf : taskIndexFirst (tdgTasks d) x with
  | none =>
    obtain ⟨e, he, hx⟩ := Option.map_eq_some_iff.mp h1
    exact absurd hx (taskIndexFirst_none.mp hf e (List.mem_of_getElem? he))
  | some j =>
    have h2 := taskIndexFirst_min hf h1
    rcases Nat.eq_or_lt_of_le h2 with rfl | h3
    · rfl
    · exact absurd (ambiguous_iff.mpr ⟨j, i, h3, (taskIndexFirst_some hf).2, h1⟩) h

include hc in
/-- The three questions about a cycle. -/
theorem Stands.questions {x : Nat} {cyc : List (Nat × Nat)} {ms : List Method} (h : Stands d x cyc ms) (hcy : Cycle d ms)
    {null : Name → Prop} {nulls : List Nat} (hn : ∀ y i, taskIndexFirst g.tasks y = some i → (i ∈ nulls ↔ null y)) :
    ((∀ e ∈ TDG.edges cyc, g.EpsEdge nulls x e) ↔ TakenEmptyPrefix d null ms) ∧
    ((∀ i, ¬ g.After cyc i) ↔ TakenEmptySuffix ms) ∧ ((∀ i, g.After cyc i → i ∈ nulls) ↔ TakenNullSuffix null ms) := by
  have hmeth : ∀ {e : Nat × Nat} {p : Method × Method}, d.methods[e.2]? = some p.1 ∧ Ix d p.2.task.name e.1 →
      g.method e.2 = (p.1.name.name, p.1.tn) ∧ g.taskName e.1 = p.2.task.name := by
    rintro e p ⟨h1, h2⟩
    refine ⟨?_, h2.taskName hg⟩
    unfold TDG.method
    rw [hg.methods, List.getElem?_map, h1]; rfl
  have hafter : ∀ {p : Method × Method}, p ∈ steps ms → ∀ y, TakenAfter p.1 p.2 y → ∃ i, taskIndexFirst g.tasks y = some i := by
    intro p hp y hy
    obtain ⟨s, hs, rfl⟩ := takenAfter_mem hy
    exact hg.first_index ((hc _ (steps_links hcy p hp).1).2 s hs)
  obtain ⟨_, _, _, _, _, _, m0, hm0, hx⟩ := id h
  refine ⟨forall₂_forall h.edges fun e p hp hr => ?_, ?_, ?_⟩
  · obtain ⟨h1, h2⟩ := hmeth hr
    obtain ⟨hm1, _, hl⟩ := steps_links hcy p hp
    unfold TDG.EpsEdge
    rw [h1, h2, (taken_context _ _).1]
    have hin : ∀ y ∈ TakenBefore p.1 p.2, ∃ i, taskIndexFirst g.tasks y = some i := by
      intro y hy
      unfold TakenBefore at hy
      cases ho : p.1.tn.orderings with
      | total =>
        rw [ho] at hy
        obtain ⟨s, hs, rfl⟩ := List.mem_map.mp hy
        exact hg.first_index ((hc _ hm1).2 s ((List.takeWhile_prefix _).subset hs))
      | partial_ os => rw [ho] at hy; cases hy
    constructor
    · rintro (h3 | ⟨y, l, h3, h4⟩ | h3)
      · exact .inr (by simp [h3])
      · refine .inl ⟨m0, hm0, ?_⟩
        rw [h3, List.head?_cons, first_last_name hg h4 hx]
        exact ⟨rfl, first_last hg (first_last_name hg h4 hx ▸ h4) hx⟩
      · refine .inr fun y hy => ?_
        obtain ⟨i, hi, h4⟩ := h3 y hy
        exact (hn _ _ h4).mp hi
    · rintro (⟨m, h4, h5, h6⟩ | h3)
      · rw [hm0] at h4; cases h4
        obtain ⟨l, hl⟩ := List.head?_eq_some_iff.mp h5
        exact .inr (.inl ⟨_, l, hl, first_of_last hg h6 hx⟩)
      · refine .inr (.inr fun y hy => ?_)
        obtain ⟨i, hi⟩ := hin y hy
        exact ⟨i, (hn _ _ hi).mpr (h3 y hy), hi⟩
  · have : (∀ i, ¬ g.After cyc i) ↔ ∀ e ∈ TDG.edges cyc, ∀ i, ¬ ∃ y, TDG.InSuffix (g.method e.2).2 (g.taskName e.1) y ∧
        taskIndexFirst g.tasks y = some i :=
      ⟨fun h e he i h' => h i ⟨e, he, h'⟩, fun h i ⟨e, he, h'⟩ => h e he i h'⟩
    rw [this]
    refine forall₂_forall h.edges fun e p hp hr => ?_
    obtain ⟨h1, h2⟩ := hmeth hr
    rw [h1, h2]
    simp only [(taken_context _ _).2]
    constructor
    · intro h3 y hy
      obtain ⟨i, hi⟩ := hafter hp y hy
      exact h3 i ⟨y, hy, hi⟩
    · rintro h3 i ⟨y, hy, _⟩
      exact h3 y hy
  · have : (∀ i, g.After cyc i → i ∈ nulls) ↔ ∀ e ∈ TDG.edges cyc, ∀ i, (∃ y, TDG.InSuffix (g.method e.2).2 (g.taskName e.1) y ∧
        taskIndexFirst g.tasks y = some i) → i ∈ nulls :=
      ⟨fun h e he i h' => h i ⟨e, he, h'⟩, fun h i ⟨e, he, h'⟩ => h e he i h'⟩
    rw [this]
    refine forall₂_forall h.edges fun e p hp hr => ?_
    obtain ⟨h1, h2⟩ := hmeth hr
    rw [h1, h2]
    simp only [(taken_context _ _).2]
    constructor
    · intro h3 y hy
      obtain ⟨i, hi⟩ := hafter hp y hy
      exact (hn _ _ hi).mp (h3 i ⟨y, hy, hi⟩)
    · rintro h3 i ⟨y, hy, hi⟩
      exact (hn _ _ hi).mpr (h3 y hy)

include hc in
theorem TDG.Of.class_by {fuel : Nat} {ns : List Name} {rt : RecType} (h : g.recursionType ord fuel ns = .ok rt) :
    ClassBy d (TakenEmptyPrefix d (· ∈ ns)) TakenEmptySuffix (TakenNullSuffix (· ∈ ns)) rt.cls ∧
    ∀ l, rt.cycle = some l → ∃ x cyc ms, l = g.cycleNames cyc ∧ Stands d x cyc ms ∧ Cycle d ms ∧
      ShowsBy (TakenEmptyPrefix d (· ∈ ns)) TakenEmptySuffix (TakenNullSuffix (· ∈ ns)) ms rt.cls := by
  obtain ⟨nulls, hn, h1⟩ := TDG.recursionType_kind hg.bounded h
  have hn' : ∀ y i, taskIndexFirst g.tasks y = some i → (i ∈ nulls ↔ y ∈ ns) := by
    intro y i hi
    rw [hn]
    constructor
    · rintro ⟨z, hz, hzi⟩
      have := Option.some.inj ((taskIndexFirst_some hzi).2.symm.trans (taskIndexFirst_some hi).2)
      rw [← this]; exact hz
    · exact fun hy => ⟨y, hy, hi⟩
  rcases h1 with ⟨rfl, h2⟩ | ⟨x, cyc, h2, h3, hcyc, h4⟩
  · refine ⟨?_, fun l hl => by cases hl⟩
    rintro ⟨c, hcy⟩
    obtain ⟨x, cyc, hf, _⟩ := stands_found hg hc hcy
    exact h2 x cyc hf
  · obtain ⟨ms, hcy, hst⟩ := found_stands hg h2
    obtain ⟨q1, q2, q3⟩ := hst.questions hg hc hcy hn'
    have hmax : ∀ c, Cycle d c → (TakenEmptyPrefix d (· ∈ ns) c → 2 ≤ rt.cls.rank) ∧
        (TakenEmptyPrefix d (· ∈ ns) c → TakenEmptySuffix c → 3 ≤ rt.cls.rank) ∧
        (TakenEmptyPrefix d (· ∈ ns) c → TakenNullSuffix (· ∈ ns) c → ¬ TakenEmptySuffix c → 4 ≤ rt.cls.rank) := by
      intro c hcy'
      obtain ⟨x', cyc', hf', hst'⟩ := stands_found hg hc hcy'
      obtain ⟨p1, p2, p3⟩ := hst'.questions hg hc hcy' hn'
      obtain ⟨k, hk, hle⟩ := h4 x' cyc' hf'
      rw [← p1, ← p2, ← p3]
      cases hk with
      | plain a => exact ⟨fun b => absurd b a, fun b => absurd b a, fun b => absurd b a⟩
      | empty a b => replace hle : 3 ≤ rt.cls.rank := hle; exact ⟨fun _ => by omega, fun _ _ => hle, fun _ _ h => absurd b h⟩
      | shrink a b c =>
        replace hle : 4 ≤ rt.cls.rank := hle; exact ⟨fun _ => by omega, fun _ _ => by omega, fun _ _ _ => hle⟩
      | growing a b =>
        simp only [Class.rank] at hle
        exact ⟨fun _ => hle, fun _ h => absurd (fun i hi => absurd hi (h i)) b, fun _ h => absurd h b⟩
    refine and_comm.mp ⟨fun l hl => ⟨x, cyc, ms, ?_, hst, hcy, ?_⟩, ?_⟩
    · rw [hcyc] at hl; cases hl; rfl
    · cases h5 : rt.cls <;> rw [h5] at h3 <;> cases h3 <;> simp only [ShowsBy]
      · exact q1.mp ‹_›
      · exact ⟨q1.mp ‹_›, q2.mp ‹_›⟩
      · rename_i a b c
        exact ⟨q1.mp ‹_›, q3.mp ‹_›, fun h => by obtain ⟨i, hi⟩ := b; exact (q2.mpr h) i hi⟩
    generalize hcls : rt.cls = k at *
    unfold ClassBy
    cases h3 with
    | plain a =>
      refine ⟨?_, ms, hcy⟩
      rintro ⟨c, h5, h6⟩
      have := (hmax c h5).1 h6
      simp [Class.rank] at this
    | empty a b =>
      refine ⟨?_, ms, hcy, q1.mp a, q2.mp b⟩
      rintro ⟨c, h5, h6, h7, h8⟩
      have := (hmax c h5).2.2 h6 h7 h8
      simp [Class.rank] at this
    | shrink a b c =>
      exact ⟨ms, hcy, q1.mp a, q3.mp c, fun h => by obtain ⟨i, hi⟩ := b; exact (q2.mpr h) i hi⟩
    | growing a b =>
      refine ⟨?_, ?_, ms, hcy, q1.mp a⟩
      · rintro ⟨c, h5, h6, h7, h8⟩
        have := (hmax c h5).2.2 h6 h7 h8
        simp [Class.rank] at this
      · rintro ⟨c, h5, h6, h7⟩
        have := (hmax c h5).2.1 h6 h7
        simp [Class.rank] at this

omit hg in
theorem taken_sequential {m m' : Method} (hs : Sequential m.tn) (hl : Links m m') :
    TakenBefore m m' = (Preceding m m').map (·.task.name) ∧
    ∀ y, TakenAfter m m' y ↔ ∃ s ∈ Following m m', s.task.name = y := by
  rw [← (taken_context m m').1]
  simp only [← (taken_context m m').2]
  exact sequential_context hs hl

omit hg in
/-- On sequential methods, what is taken to be the context is the context. -/
theorem taken_seq (hu : ∀ x, ¬ Ambiguous d x) (hseq : ∀ m ∈ d.methods, Sequential m.tn) {c : List Method} (hcy : Cycle d c) :
    (TakenEmptyPrefix d (Nullable d) c ↔ LooselyNullBefore d c) ∧ (TakenEmptySuffix c ↔ NoneAfter c) ∧
    (TakenNullSuffix (Nullable d) c ↔ NullAfter d c) := by
  have hs := fun p hp => taken_sequential (hseq _ (steps_links hcy p hp).1) (steps_links hcy p hp).2.2
  refine ⟨forall₂_congr fun p hp => ?_, forall₂_congr fun p hp => ?_, forall₂_congr fun p hp => ?_⟩
  · rw [(hs p hp).1]
    refine or_congr ?_ (by simp)
    cases Preceding p.1 p.2 with
    | nil => simp
    | cons s l =>
      constructor
      · rintro ⟨m, h1, h2, _⟩
        exact ⟨s, l, m, rfl, h1, by simpa using h2⟩
      · rintro ⟨s', l', m, h1, h2, h3⟩
        cases h1
        exact ⟨m, h2, by simpa using h3, hu _⟩
  · simp only [(hs p hp).2]
    rw [List.eq_nil_iff_forall_not_mem]
    exact ⟨fun h s hm => h _ ⟨s, hm, rfl⟩, fun h y ⟨s, hm, _⟩ => h s hm⟩
  · simp only [(hs p hp).2]
    exact ⟨fun h s hm => h _ ⟨s, hm, rfl⟩, fun h y ⟨s, hm, he⟩ => he ▸ h s hm⟩

omit hg in
theorem classBy_congr {E E' N N' A A' : List Method → Prop} (hE : ∀ c, Cycle d c → (E c ↔ E' c))
    (hN : ∀ c, Cycle d c → (N c ↔ N' c)) (hA : ∀ c, Cycle d c → (A c ↔ A' c)) (k : Class) :
    ClassBy d E N A k ↔ ClassBy d E' N' A' k := by
  have e1 : (∃ c, Cycle d c ∧ E c ∧ A c ∧ ¬ N c) ↔ ∃ c, Cycle d c ∧ E' c ∧ A' c ∧ ¬ N' c :=
    exists_congr fun c => and_congr_right fun hc => by rw [hE c hc, hN c hc, hA c hc]
  have e2 : (∃ c, Cycle d c ∧ E c ∧ N c) ↔ ∃ c, Cycle d c ∧ E' c ∧ N' c :=
    exists_congr fun c => and_congr_right fun hc => by rw [hE c hc, hN c hc]
  have e3 : (∃ c, Cycle d c ∧ E c) ↔ ∃ c, Cycle d c ∧ E' c :=
    exists_congr fun c => and_congr_right fun hc => by rw [hE c hc]
  unfold ClassBy
  simp only [e1, e2, e3]

include hc in
theorem TDG.Of.class_is (hu : ∀ x, ¬ Ambiguous d x) (hseq : ∀ m ∈ d.methods, Sequential m.tn) {fuel : Nat} {ns : List Name}
    (hns : ∀ x, x ∈ ns ↔ Nullable d x) {rt : RecType} (h : g.recursionType ord fuel ns = .ok rt) :
    ClassIs d (LooselyNullBefore d) rt.cls ∧ ∀ l, rt.cycle = some l → ∃ x cyc ms, l = g.cycleNames cyc ∧ Stands d x cyc ms ∧
      Cycle d ms ∧ Shows d (LooselyNullBefore d) ms rt.cls := by
  obtain ⟨h1, h2⟩ := hg.class_by hc h
  have hns' : (fun x => x ∈ ns) = Nullable d := funext fun x => propext (hns x)
  rw [hns'] at h1 h2
  refine ⟨(classBy_congr (fun c hc => (taken_seq hu hseq hc).1) (fun c hc => (taken_seq hu hseq hc).2.1)
    (fun c hc => (taken_seq hu hseq hc).2.2) _).mp h1, fun l hl => ?_⟩
  obtain ⟨x, cyc, ms, h3, h4, h5, h6⟩ := h2 l hl
  obtain ⟨e1, e2, e3⟩ := taken_seq hu hseq h5
  refine ⟨x, cyc, ms, h3, h4, h5, ?_⟩
  unfold Shows
  generalize rt.cls = k at h6
  cases k <;> simp only [ShowsBy, e1, e2, e3] at h6 ⊢ <;> exact h6

end

/-- The classes exclude each other. -/
theorem classIs_unique {E : List Method → Prop} {k k' : Class} (h : ClassIs d E k) (h' : ClassIs d E k') : k = k' := by
  cases k <;> cases k' <;> first | rfl | (simp only [ClassIs, ClassBy] at h h'; exfalso; grind)

end Verif
