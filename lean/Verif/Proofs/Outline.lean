import Mathlib.Data.List.Chain
import Verif.Spec.Rank
import Verif.Spec.Clash
import Verif.Spec.Growth
import Verif.Proofs.Renaming

/-!
Decomposition depends only on the outlines of the methods: the names of their tasks, the labels and names of their
subtasks, and the ordering constraints.
-/

namespace Verif

open Spec

/-- The labels and names of the subtasks. -/
def keys (h : HTN) : List (Option Name × Name) := h.subtasks.map fun s => (s.id.map (·.name), s.task.name)

/-- What matters of a method for decomposition. -/
def outline (m : Method) : Name × List (Option Name × Name) × Ordering := (m.task.name, keys m.tn, m.tn.orderings)

theorem outline_rn (m : Method) : outline (rnMethod id m) = outline m := by
  have h : (rnHtn id m.tn).orderings = m.tn.orderings := by
    simp only [rnHtn]
    cases m.tn.orderings <;> simp [rnOrdering]
  simp only [outline, keys, rnMethod, h]
  simp [rnHtn, rnSubtask, rnSymbol, Function.comp_def]

variable {d d' : DomainAST} {m m' n n' : Method}

theorem outline_task (h : outline m = outline m') : m.task.name = m'.task.name := congrArg Prod.fst h

theorem outline_keys (h : outline m = outline m') : keys m.tn = keys m'.tn := congrArg (·.2.1) h

theorem outline_orderings (h : outline m = outline m') : m.tn.orderings = m'.tn.orderings := congrArg (·.2.2) h

theorem exists_sub (h : HTN) (y : Name) : (∃ s ∈ h.subtasks, s.task.name = y) ↔ ∃ k ∈ keys h, k.2 = y := by
  simp [keys]

theorem forall_sub (h : HTN) (q : Name → Prop) : (∀ s ∈ h.subtasks, q s.task.name) ↔ ∀ k ∈ keys h, q k.2 := by
  simp [keys]

theorem labels_keys (h : HTN) (x i : Name) : Labels h x i ↔ (some i, x) ∈ keys h := by
  simp only [Labels, keys, List.mem_map, Prod.mk.injEq, Option.map_eq_some_iff]
  exact ⟨fun ⟨s, h1, h2, h3⟩ => ⟨s, h1, h3, h2⟩, fun ⟨s, h1, h3, h2⟩ => ⟨s, h1, h2, h3⟩⟩

theorem lastLabelled_keys (h : HTN) (j y : Name) : LastLabelled h j y ↔
    ∃ l l', keys h = l ++ (some j, y) :: l' ∧ ∀ k ∈ l', k.1 ≠ some j := by
  constructor
  · rintro ⟨l, s, l', h1, h2, ⟨z, h3, h4⟩, h5⟩
    refine ⟨_, _, by rw [keys, h1, List.map_append, List.map_cons, h2, h3, Option.map_some, h4], ?_⟩
    rintro k hk he
    obtain ⟨s', h6, rfl⟩ := List.mem_map.mp hk
    obtain ⟨z', h7, h8⟩ := Option.map_eq_some_iff.mp he
    exact h5 s' h6 z' h7 h8
  · rintro ⟨l, l', h1, h2⟩
    obtain ⟨a, b, h3, rfl, h4⟩ := List.map_eq_append_iff.mp h1
    obtain ⟨s, b, rfl, h5, rfl⟩ := List.map_eq_cons_iff.mp h4
    simp only [Prod.mk.injEq, Option.map_eq_some_iff] at h5
    exact ⟨a, s, b, h3, h5.2, h5.1, fun s' hs' z hz he => h2 _ (List.mem_map_of_mem hs') (by simp [hz, he])⟩

theorem links_outline (h : outline m = outline m') (hn : outline n = outline n') : Links m n ↔ Links m' n' := by
  unfold Links
  rw [exists_sub, exists_sub, outline_keys h, outline_task hn]

theorem preceding_names (m n : Method) : (Preceding m n).map (·.task.name) =
    ((keys m.tn).map (·.2)).takeWhile fun x => x ≠ n.task.name := by
  simp only [Preceding, keys, List.map_map, List.takeWhile_map]
  rfl

theorem following_names (m n : Method) : (Following m n).map (·.task.name) =
    (((keys m.tn).map (·.2)).dropWhile fun x => x ≠ n.task.name).tail := by
  simp only [Following, keys, List.map_map, List.dropWhile_map, List.map_tail]
  rfl

theorem takenBefore_outline (h : outline m = outline m') (hn : outline n = outline n') : TakenBefore m n = TakenBefore m' n' := by
  unfold TakenBefore
  rw [outline_orderings h, preceding_names, preceding_names, outline_keys h, outline_task hn]

theorem before_outline (h : outline m = outline m') : Before m.tn = Before m'.tn := by
  unfold Before
  rw [outline_orderings h]

theorem takenAfter_outline (h : outline m = outline m') (hn : outline n = outline n') (y : Name) :
    TakenAfter m n y ↔ TakenAfter m' n' y := by
  have h1 : (∃ s ∈ Following m n, s.task.name = y) ↔ ∃ s ∈ Following m' n', s.task.name = y := by
    rw [← List.mem_map, ← List.mem_map, following_names, following_names, outline_keys h, outline_task hn]
  unfold TakenAfter
  rw [outline_orderings h]
  cases m'.tn.orderings with
  | total => exact h1
  | partial_ os => simp only [labels_keys, lastLabelled_keys, outline_keys h, outline_task hn, before_outline h]

theorem tractable_outline (h : outline m = outline m') (x : Name) : Tractable m.tn x ↔ Tractable m'.tn x := by
  have h1 : m.tn.subtasks.length = m'.tn.subtasks.length := by
    have := congrArg List.length (outline_keys h)
    simpa only [keys, List.length_map] using this
  unfold Tractable
  simp only [outline_orderings h, h1, labels_keys, outline_keys h, before_outline h]

/-- Every method of `d` has one with the same outline in `d'`. -/
def Covered (d d' : DomainAST) : Prop := ∃ φ : Method → Method, (∀ m, outline (φ m) = outline m) ∧ ∀ m ∈ d.methods, φ m ∈ d'.methods

theorem covered_of_sub (h : ∀ m ∈ (rnDomain id d).methods, m ∈ (rnDomain id d').methods) : Covered d d' := by
  have h1 : ∀ m, ∃ m', outline m' = outline m ∧ (m ∈ d.methods → m' ∈ d'.methods) := by
    intro m
    by_cases hm : m ∈ d.methods
    · obtain ⟨m', h2, h3⟩ := List.mem_map.mp (h _ (List.mem_map_of_mem hm))
      exact ⟨m', by rw [← outline_rn m', h3, outline_rn], fun _ => h2⟩
    · exact ⟨m, rfl, fun h => absurd h hm⟩
  choose φ h2 h3 using h1
  exact ⟨φ, h2, h3⟩

theorem Covered.hasSub (h : Covered d d') {x y : Name} (hs : HasSub d x y) : HasSub d' x y := by
  obtain ⟨φ, h1, h2⟩ := h
  obtain ⟨m, hm, rfl, hs⟩ := hs
  rw [exists_sub, ← outline_keys (h1 m), ← exists_sub] at hs
  exact ⟨φ m, h2 m hm, outline_task (h1 m), hs⟩

theorem Covered.trans (h : Covered d d') {x y : Name} (hs : Relation.TransGen (HasSub d) x y) : Relation.TransGen (HasSub d') x y :=
  Relation.TransGen.mono (fun _ _ => h.hasSub) _ _ hs

theorem Covered.refl_trans (h : Covered d d') {x y : Name} (hs : Relation.ReflTransGen (HasSub d) x y) :
    Relation.ReflTransGen (HasSub d') x y := Relation.ReflTransGen.mono (fun _ _ => h.hasSub) _ _ hs

theorem Covered.erasable (h : Covered d d') (ha : ∀ m ∈ d.methods, ActionName d' m.task.name → ActionName d m.task.name)
    {x : Name} (he : Erasable d x) : Erasable d' x := by
  obtain ⟨φ, h1, h2⟩ := h
  induction he with
  | @mk m hm hna hs ih =>
    rw [← outline_task (h1 m)]
    refine .mk (h2 m hm) ?_ ?_
    · rw [forall_sub (φ m).tn (fun x => ¬ ActionName d' x), outline_keys (h1 m), ← forall_sub m.tn fun x => ¬ ActionName d' x]
      intro s hs' hact
      obtain ⟨m2, hm2, _, _, h3⟩ : ∃ m2 ∈ d.methods, True ∧ True ∧ m2.task.name = s.task.name := by
        have := hs s hs'
        generalize s.task.name = y at this
        cases this with
        | @mk m2 hm2 _ _ => exact ⟨m2, hm2, trivial, trivial, rfl⟩
      rw [← h3] at hact
      exact hna s hs' (by rw [← h3]; exact ha m2 hm2 hact)
    · rw [forall_sub (φ m).tn (fun x => Erasable d' x), outline_keys (h1 m), ← forall_sub m.tn fun x => Erasable d' x]
      exact ih

theorem steps_map (φ : Method → Method) (c : List Method) : steps (c.map φ) = (steps c).map (Prod.map φ φ) := by
  simp only [steps, ← List.map_tail, ← List.map_take, ← List.map_append, List.zip_map]

theorem isChain_map_iff {α β : Type} {r : α → α → Prop} {s : β → β → Prop} {φ : α → β} (h : ∀ a b, r a b ↔ s (φ a) (φ b)) (l : List α) :
    l.IsChain r → (l.map φ).IsChain s := fun hl => by
  rw [List.isChain_map]
  exact hl.imp fun _ _ => (h _ _).mp

theorem cycle_map {φ : Method → Method} (h1 : ∀ m, outline (φ m) = outline m) (h2 : ∀ m ∈ d.methods, φ m ∈ d'.methods)
    {c : List Method} (h : Cycle d c) : Cycle d' (c.map φ) where
  ne := by simpa using h.ne
  mem := by
    simp only [List.mem_map]
    rintro _ ⟨m, hm, rfl⟩
    exact h2 m (h.mem m hm)
  nodup := by
    rw [List.map_map]
    have : c.map ((fun m : Method => m.task.name) ∘ φ) = c.map (·.task.name) := List.map_congr_left fun m _ => outline_task (h1 m)
    rw [this]
    exact h.nodup
  links := by
    rw [← List.map_take, ← List.map_append]
    exact isChain_map_iff (fun a b => (links_outline (h1 a) (h1 b)).symm) _ h.links

theorem emptyPrefix_map {φ : Method → Method} (h1 : ∀ m, outline (φ m) = outline m) {null null' : Name → Prop}
    (hn : ∀ x, null x → null' x) {c : List Method}
    (ha : ∀ m ∈ c, Ambiguous d' m.task.name → Ambiguous d m.task.name) (h : TakenEmptyPrefix d null c) :
    TakenEmptyPrefix d' null' (c.map φ) := by
  intro p hp
  rw [steps_map] at hp
  obtain ⟨⟨a, b⟩, hab, rfl⟩ := List.mem_map.mp hp
  simp only [Prod.map_apply, takenBefore_outline (h1 a) (h1 b)]
  rcases h _ hab with ⟨m, h3, h4, h5⟩ | h3
  · refine .inl ⟨φ m, by simp [h3], by rw [outline_task (h1 m)]; exact h4, ?_⟩
    rw [outline_task (h1 m)]
    exact fun h6 => h5 (ha m (List.mem_of_mem_head? h3) h6)
  · exact .inr fun y hy => hn y (h3 y hy)

theorem emptySuffix_map {φ : Method → Method} (h1 : ∀ m, outline (φ m) = outline m) {c : List Method} :
    TakenEmptySuffix (c.map φ) ↔ TakenEmptySuffix c := by
  simp only [TakenEmptySuffix, steps_map, List.forall_mem_map, Prod.map_fst, Prod.map_snd]
  exact forall₂_congr fun p _ => forall_congr' fun y => not_congr (takenAfter_outline (h1 _) (h1 _) y)

theorem nullSuffix_map {φ : Method → Method} (h1 : ∀ m, outline (φ m) = outline m) {null null' : Name → Prop}
    (hn : ∀ x, null x → null' x) {c : List Method} (h : TakenNullSuffix null c) : TakenNullSuffix null' (c.map φ) := by
  simp only [TakenNullSuffix, steps_map, List.forall_mem_map, Prod.map_fst, Prod.map_snd]
  exact fun p hp y hy => hn y (h p hp y ((takenAfter_outline (h1 _) (h1 _) y).mp hy))

theorem classBy_rank {A A' B B' C C' : List Method → Prop} {k k' : Class} (h : ClassBy d A B C k) (h' : ClassBy d' A' B' C' k')
    (hc : ∀ c, Cycle d c → ∃ c', Cycle d' c' ∧ (A c → A' c') ∧ (B c ↔ B' c') ∧ (C c → C' c')) : k.rank ≤ k'.rank := by
  have e1 : (∃ c, Cycle d c) → ∃ c, Cycle d' c := fun ⟨c, h1⟩ => let ⟨c', h2, _⟩ := hc c h1; ⟨c', h2⟩
  have e2 : (∃ c, Cycle d c ∧ A c) → ∃ c, Cycle d' c ∧ A' c :=
    fun ⟨c, h1, ha⟩ => let ⟨c', h2, h3, _⟩ := hc c h1; ⟨c', h2, h3 ha⟩
  have e3 : (∃ c, Cycle d c ∧ A c ∧ B c) → ∃ c, Cycle d' c ∧ A' c ∧ B' c :=
    fun ⟨c, h1, ha, hb⟩ => let ⟨c', h2, h3, h4, _⟩ := hc c h1; ⟨c', h2, h3 ha, h4.mp hb⟩
  have e4 : (∃ c, Cycle d c ∧ A c ∧ C c ∧ ¬ B c) → ∃ c, Cycle d' c ∧ A' c ∧ C' c ∧ ¬ B' c :=
    fun ⟨c, h1, ha, hcc, hb⟩ => let ⟨c', h2, h3, h4, h5⟩ := hc c h1; ⟨c', h2, h3 ha, h5 hcc, fun h => hb (h4.mpr h)⟩
  have g2 : (∃ c, Cycle d c ∧ A c ∧ B c) → ∃ c, Cycle d c ∧ A c := fun ⟨c, h1, h2, _⟩ => ⟨c, h1, h2⟩
  have g3 : (∃ c, Cycle d c ∧ A c ∧ C c ∧ ¬ B c) → ∃ c, Cycle d c ∧ A c := fun ⟨c, h1, h2, _⟩ => ⟨c, h1, h2⟩
  have g4 : (∃ c, Cycle d c ∧ A c) → ∃ c, Cycle d c := fun ⟨c, h1, _⟩ => ⟨c, h1⟩
  unfold ClassBy at h h'
  dsimp only at h h'
  generalize (∃ c, Cycle d c ∧ A c ∧ C c ∧ ¬ B c) = p4 at *
  generalize (∃ c, Cycle d c ∧ A c ∧ B c) = p3 at *
  generalize (∃ c, Cycle d c ∧ A c) = p2 at *
  generalize (∃ c, Cycle d c) = p1 at *
  generalize (∃ c, Cycle d' c ∧ A' c ∧ C' c ∧ ¬ B' c) = q4 at *
  generalize (∃ c, Cycle d' c ∧ A' c ∧ B' c) = q3 at *
  generalize (∃ c, Cycle d' c ∧ A' c) = q2 at *
  generalize (∃ c, Cycle d' c) = q1 at *
  clear hc
  cases k <;> cases k' <;> first | exact Nat.le_of_ble_eq_true rfl | (exfalso; dsimp only at h h'; tauto)

theorem Covered.rank (h : Covered d d') (ha : ∀ m ∈ d.methods, Ambiguous d' m.task.name → Ambiguous d m.task.name)
    {null null' : Name → Prop} (hn : ∀ x, null x → null' x) {k k' : Class}
    (hk : ClassBy d (TakenEmptyPrefix d null) TakenEmptySuffix (TakenNullSuffix null) k)
    (hk' : ClassBy d' (TakenEmptyPrefix d' null') TakenEmptySuffix (TakenNullSuffix null') k') : k.rank ≤ k'.rank := by
  obtain ⟨φ, h1, h2⟩ := h
  exact classBy_rank hk hk' fun c hc => ⟨c.map φ, cycle_map h1 h2 hc,
    emptyPrefix_map h1 hn fun m hm => ha m (hc.mem m hm), (emptySuffix_map h1).symm, nullSuffix_map h1 hn⟩

theorem rank_injective : Function.Injective Class.rank := by
  intro a b h
  cases a <;> cases b <;> simp [Class.rank] at h ⊢

end Verif
