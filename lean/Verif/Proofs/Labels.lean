import Verif.Proofs.Kind
import Verif.Proofs.LocalNames
import Verif.Proofs.Repair
import Verif.Proofs.Sequence
import Verif.Spec.Labels

/-! Other labels of subtasks and other orderings. -/

namespace Verif

open Spec

variable {ord : HashOrd} {d d' : DomainAST} {p p' : ProblemAST} {h k : HTN} {ρ : Name → Name} {r : HTN → HTN → Prop}

/-! ### Renaming labels -/

theorem before_rl {a b : Name} : Before (rlHtn ρ h) a b ↔ ∃ x y, a = ρ x ∧ b = ρ y ∧ Before h x y := by
  unfold Before rlHtn rlOrdering
  cases h.orderings with
  | total => simp
  | partial_ os =>
    simp only [Ordering.partial_.injEq, exists_eq_left', List.mem_map, Prod.exists, Prod.map, Prod.mk.injEq]
    constructor
    · rintro ⟨x, y, h1, rfl, rfl⟩; exact ⟨x, y, rfl, rfl, h1⟩
    · rintro ⟨x, y, rfl, rfl, h1⟩; exact ⟨x, y, h1, rfl, rfl⟩

theorem transGen_rl (hρ : Function.Injective ρ) {a b : Name} :
    Relation.TransGen (Before (rlHtn ρ h)) a b ↔ ∃ x y, a = ρ x ∧ b = ρ y ∧ Relation.TransGen (Before h) x y := by
  constructor
  · intro hab
    induction hab with
    | single h1 =>
      obtain ⟨x, y, rfl, rfl, h2⟩ := before_rl.1 h1
      exact ⟨x, y, rfl, rfl, .single h2⟩
    | tail _ h1 ih =>
      obtain ⟨x, y, rfl, rfl, h2⟩ := ih
      obtain ⟨y', z, h3, rfl, h4⟩ := before_rl.1 h1
      cases hρ h3
      exact ⟨x, z, rfl, rfl, h2.tail h4⟩
  · rintro ⟨x, y, rfl, rfl, hxy⟩
    exact hxy.lift ρ fun a b hab => before_rl.2 ⟨a, b, rfl, rfl, hab⟩

theorem labels_rl {x i : Name} : Labels (rlHtn ρ h) x i ↔ ∃ j, i = ρ j ∧ Labels h x j := by
  unfold Labels rlHtn
  constructor
  · rintro ⟨s', hs', h1, y', h2, rfl⟩
    obtain ⟨s, hs, rfl⟩ := List.mem_map.1 hs'
    obtain ⟨y, h3, rfl⟩ := Option.map_eq_some_iff.1 (show s.id.map (rvSymbol ρ) = some y' from h2)
    exact ⟨y.name, rfl, s, hs, h1, y, h3, rfl⟩
  · rintro ⟨_, rfl, s, hs, h1, y, h2, rfl⟩
    exact ⟨_, List.mem_map_of_mem hs, h1, rvSymbol ρ y, by simp [rlSubtask, h2], rfl⟩

theorem idToTask_rl (hρ : Function.Injective ρ) (x : Name) : idToTask (rlHtn ρ h) (ρ x) = idToTask h x := by
  unfold idToTask
  have : (rlHtn ρ h).subtasks = h.subtasks.map (rlSubtask ρ) := rfl
  rw [this, ← List.map_reverse, List.find?_map, Option.map_map]
  refine congrArg (Option.map _) (congrArg (List.find? · _) (funext fun s => ?_))
  obtain ⟨i, t, l⟩ := s
  cases i with
  | none => rfl
  | some i => simp [rlSubtask, rvSymbol, hρ.eq_iff]

theorem callsOf_rl : callsOf (rlHtn ρ h) = callsOf h := by
  simp [callsOf, rlHtn, rlSubtask, Function.comp_def]

theorem acyclic_rl (hρ : Function.Injective ρ) : Acyclic (Before (rlHtn ρ h)) ↔ Acyclic (Before h) := by
  constructor
  · exact fun h1 x hx => h1 (ρ x) ((transGen_rl hρ).2 ⟨x, x, rfl, rfl, hx⟩)
  · intro h1 x hx
    obtain ⟨y, z, rfl, h2, h3⟩ := (transGen_rl hρ).1 hx
    cases hρ h2
    exact h1 y h3

theorem orderedAfter_iff {x y : Name} : OrderedAfter h x y ↔
    ∃ i j, Labels h x i ∧ Relation.TransGen (Before h) i j ∧ idToTask h j = some y := by
  unfold OrderedAfter
  simp only [lastLabelled_iff]

theorem cyclesKept_rl (hr : LabelsRenamed h k) : CyclesKept h k := by
  obtain ⟨ρ, hρ, rfl⟩ := hr
  exact ⟨callsOf_rl, acyclic_rl hρ, fun _ => rfl⟩

theorem contextKept_rl (hr : LabelsRenamed h k) : ContextKept h k := by
  obtain ⟨ρ, hρ, rfl⟩ := hr
  refine ⟨callsOf_rl, ?_, fun x y => ?_⟩
  · unfold rlHtn rlOrdering
    cases h.orderings <;> simp
  · rw [orderedAfter_iff, orderedAfter_iff]
    constructor
    · rintro ⟨_, _, h1, h2, h3⟩
      obtain ⟨i, rfl, h4⟩ := labels_rl.1 h1
      obtain ⟨i', j, e, rfl, h5⟩ := (transGen_rl hρ).1 h2
      cases hρ e
      exact ⟨i, j, h4, h5, by rwa [idToTask_rl hρ] at h3⟩
    · rintro ⟨i, j, h1, h2, h3⟩
      exact ⟨ρ i, ρ j, labels_rl.2 ⟨i, rfl, h1⟩, (transGen_rl hρ).2 ⟨i, j, rfl, rfl, h2⟩, by rwa [idToTask_rl hρ]⟩

theorem tractable_rl (hρ : Function.Injective ρ) (hk : KeepsLabels ρ h) {x : Name} : Tractable (rlHtn ρ h) x ↔ Tractable h x := by
  cases ho : h.orderings with
  | total =>
    have h1 : (rlHtn ρ h).orderings = .total := by simp [rlHtn, rlOrdering, ho]
    constructor <;> intro _ os h2
    · rw [ho] at h2; cases h2
    · rw [h1] at h2; cases h2
  | partial_ os =>
    have h1 : (rlHtn ρ h).orderings = .partial_ (os.map (Prod.map ρ ρ)) := by simp [rlHtn, rlOrdering, ho]
    have h2 : (rlHtn ρ h).subtasks.length = h.subtasks.length := by simp [rlHtn]
    have hinf : ∀ {i j k : Name}, Before h i j → Labels h x k → (ρ k <:+: ρ j ↔ k <:+: j) := by
      rintro i j k ⟨os', h3, h4⟩ ⟨s, hs, _, y, hy, rfl⟩
      exact hk os' h3 s hs y hy _ h4
    unfold Tractable
    rw [ho, h1]
    simp only [Ordering.partial_.injEq, forall_eq', List.length_map, h2]
    refine and_congr_right fun _ => and_congr ?_ ?_
    · constructor
      · intro h3 i j k hi hij hk'
        rw [← hinf hij hk']
        exact h3 _ _ _ (labels_rl.2 ⟨i, rfl, hi⟩) (before_rl.2 ⟨i, j, rfl, rfl, hij⟩) (labels_rl.2 ⟨k, rfl, hk'⟩)
      · intro h3 _ _ _ h4 h5 h6
        obtain ⟨i, rfl, hi⟩ := labels_rl.1 h4
        obtain ⟨i', j, e, rfl, hij⟩ := before_rl.1 h5
        cases hρ e
        obtain ⟨k, rfl, hk'⟩ := labels_rl.1 h6
        rw [hinf hij hk']
        exact h3 _ _ _ hi hij hk'
    · constructor
      · intro h3 i j hi hij
        obtain ⟨h4, y, h5⟩ := h3 _ _ (labels_rl.2 ⟨i, rfl, hi⟩) ((transGen_rl hρ).2 ⟨i, j, rfl, rfl, hij⟩)
        obtain ⟨j', e, h5⟩ := labels_rl.1 h5
        cases hρ e
        exact ⟨fun h6 => h4 ((transGen_rl hρ).2 ⟨_, _, rfl, rfl, h6⟩), y, h5⟩
      · intro h3 _ _ h8 h9
        obtain ⟨i, rfl, hi⟩ := labels_rl.1 h8
        obtain ⟨i', j, e, rfl, hij⟩ := (transGen_rl hρ).1 h9
        cases hρ e
        obtain ⟨h4, y, h5⟩ := h3 _ _ hi hij
        refine ⟨fun h6 => ?_, y, labels_rl.2 ⟨_, rfl, h5⟩⟩
        obtain ⟨a, b, e1, e2, h7⟩ := (transGen_rl hρ).1 h6
        cases hρ e1
        cases hρ e2
        exact h4 h7

/-! ### Other constraints -/

theorem cyclesKept_closure (hr : SameClosure h k) : CyclesKept h k := by
  obtain ⟨e, _, h1⟩ := hr
  refine ⟨by rw [e]; rfl, forall_congr' fun x => not_congr (h1 x x), fun _ => by rw [e]⟩

theorem contextKept_closure (hr : SameClosure h k) : ContextKept h k := by
  obtain ⟨e, ho, h1⟩ := hr
  refine ⟨by rw [e]; rfl, ho, fun x y => ?_⟩
  unfold OrderedAfter
  have e1 : Labels k = Labels h := by rw [e]; rfl
  have e2 : LastLabelled k = LastLabelled h := by rw [e]; rfl
  simp only [h1, e1, e2]

/-! ### The search -/

theorem names_of_calls (hc : callsOf k = callsOf h) : k.subtasks.map (·.task.name) = h.subtasks.map (·.task.name) := by
  have := congrArg (List.map fun c => c.1.name) hc
  simpa [callsOf, Function.comp_def] using this

theorem takeWhile_names {ss ss' : List Subtask} (hs : ss'.map (·.task.name) = ss.map (·.task.name)) (x : Name) :
    (ss'.takeWhile fun s => decide (s.task.name ≠ x)).map (·.task.name) = (ss.takeWhile fun s => decide (s.task.name ≠ x)).map (·.task.name) ∧
    (ss'.dropWhile fun s => decide (s.task.name ≠ x)).map (·.task.name) = (ss.dropWhile fun s => decide (s.task.name ≠ x)).map (·.task.name) := by
  have h1 : ∀ l : List Subtask, (l.takeWhile fun s => decide (s.task.name ≠ x)).map (·.task.name) =
      (l.map (·.task.name)).takeWhile fun y => decide (y ≠ x) := fun l => by rw [List.takeWhile_map]; rfl
  have h2 : ∀ l : List Subtask, (l.dropWhile fun s => decide (s.task.name ≠ x)).map (·.task.name) =
      (l.map (·.task.name)).dropWhile fun y => decide (y ≠ x) := fun l => by rw [List.dropWhile_map]; rfl
  rw [h1, h1, h2, h2, hs]
  exact ⟨rfl, rfl⟩

theorem Spec.ContextKept.prefix_eq (hr : ContextKept h k) (x : Name) : TDG.prefixNames k x = TDG.prefixNames h x := by
  unfold TDG.prefixNames
  have ht := hr.total
  cases hk : k.orderings with
  | total =>
    rw [ht.1 hk]
    exact (takeWhile_names (names_of_calls hr.calls) x).1
  | partial_ os =>
    cases hh : h.orderings with
    | total => rw [ht.2 hh] at hk; cases hk
    | partial_ os' => rfl

theorem Spec.ContextKept.suffix_iff (hr : ContextKept h k) (x y : Name) : TDG.InSuffix k x y ↔ TDG.InSuffix h x y := by
  unfold TDG.InSuffix
  have ht := hr.total
  cases hk : k.orderings with
  | total =>
    rw [ht.1 hk]
    have h1 := (takeWhile_names (names_of_calls hr.calls) x).2
    have h2 := congrArg (fun l => y ∈ List.tail l) h1
    simp only [← List.map_tail, List.mem_map] at h2
    exact iff_of_eq h2
  | partial_ os =>
    cases hh : h.orderings with
    | total => rw [ht.2 hh] at hk; cases hk
    | partial_ os' =>
      have := hr.after x y
      rwa [orderedAfter_iff, orderedAfter_iff] at this

/-- The graphs differ in the task networks of methods, which give the same contexts. -/
def TDG.Alikes (g : TDG) (ms : List (Name × HTN)) : Prop :=
  ∀ m, ((g.relabel ms).method m).1 = (g.method m).1 ∧ ContextKept (g.method m).2 ((g.relabel ms).method m).2

variable {g : TDG} {ms : List (Name × HTN)}

theorem updateRec_alike {rt : RecType} {eps : Bool} {s s' nulls : List Nat} {c : List (Name × Name)} (hs : ∀ i, i ∈ s' ↔ i ∈ s) :
    updateRec rt eps s' nulls c = updateRec rt eps s nulls c := by
  have h1 : s'.isEmpty = s.isEmpty := by
    rw [Bool.eq_iff_iff, List.isEmpty_iff, List.isEmpty_iff, List.eq_nil_iff_forall_not_mem, List.eq_nil_iff_forall_not_mem]
    simp only [hs]
  have h2 : s'.all (fun x => decide (x ∈ nulls)) = s.all fun x => decide (x ∈ nulls) := by
    rw [Bool.eq_iff_iff, List.all_eq_true, List.all_eq_true]
    simp only [hs]
  unfold updateRec
  rw [h1, h2]

theorem TDG.cycleInfo_alike (ha : g.Alikes ms) {n : Nat} {nulls : List Nat} {x : Nat} {c : List (Nat × Nat)} {e e' : Bool}
    {s s' : List Nat} (h1 : g.cycleInfo ord n nulls x c = .ok (e, s)) (h2 : (g.relabel ms).cycleInfo ord n nulls x c = .ok (e', s')) :
    e' = e ∧ ∀ i, i ∈ s' ↔ i ∈ s := by
  obtain ⟨_, a1, a2⟩ := TDG.cycleInfo_ok h1
  obtain ⟨_, b1, b2⟩ := TDG.cycleInfo_ok h2
  have hn : ∀ t, (g.relabel ms).taskName t = g.taskName t := fun _ => rfl
  have ht : (g.relabel ms).tasks = g.tasks := rfl
  constructor
  · rw [Bool.eq_iff_iff, a1, b1]
    refine forall₂_congr fun e _ => ?_
    unfold TDG.EpsEdge
    rw [(ha e.2).2.prefix_eq, hn, ht]
  · intro i
    rw [a2, b2]
    refine exists_congr fun e => and_congr_right fun _ => exists_congr fun y => ?_
    rw [(ha e.2).2.suffix_iff, hn, ht]

theorem TDG.cycleNames_alike (ha : g.Alikes ms) (c : List (Nat × Nat)) : (g.relabel ms).cycleNames c = g.cycleNames c := by
  unfold TDG.cycleNames
  refine List.map_congr_left fun p _ => ?_
  rw [(ha p.2).1]
  rfl

theorem TDG.expand_alike (ha : g.Alikes ms) {n : Nat} {nulls : List Nat} {path : List (Nat × Nat)} {m : Nat} {xs : List Nat}
    {stack : List (List (Nat × Nat))} {rt : RecType} {r r' : List (List (Nat × Nat)) × RecType}
    (h1 : g.expand ord n nulls path m xs stack rt = .ok r) (h2 : (g.relabel ms).expand ord n nulls path m xs stack rt = .ok r') :
    r' = r := by
  induction xs generalizing stack rt with
  | nil =>
    cases h1
    cases h2
    rfl
  | cons x xs ih =>
    unfold TDG.expand at h1 h2
    cases hc : cycleFrom path x with
    | none =>
      rw [hc] at h1 h2
      exact ih h1 h2
    | some c =>
      rw [hc] at h1 h2
      obtain ⟨⟨e, s⟩, a1, a2⟩ := R.bind_ok_iff.mp h1
      obtain ⟨⟨e', s'⟩, b1, b2⟩ := R.bind_ok_iff.mp h2
      obtain ⟨rfl, hs⟩ := TDG.cycleInfo_alike ha a1 b1
      simp only [TDG.cycleNames_alike ha, updateRec_alike hs] at b2
      exact ih a2 b2

theorem TDG.recLoop_alike (ha : g.Alikes ms) {N : Nat} {nulls : List Nat} {n : Nat} {stack : List (List (Nat × Nat))} {rt r r' : RecType}
    (h1 : g.recLoop ord N nulls n stack rt = .ok r) (h2 : (g.relabel ms).recLoop ord N nulls n stack rt = .ok r') : r' = r := by
  induction n generalizing stack rt with
  | zero =>
    cases stack with
    | nil =>
      cases h1
      cases h2
      rfl
    | cons => cases h1
  | succ n ih =>
    cases stack with
    | nil =>
      cases h1
      cases h2
      rfl
    | cons path stack =>
      unfold TDG.recLoop at h1 h2
      cases hl : path.getLast? with
      | none =>
        rw [hl] at h1 h2
        exact ih h1 h2
      | some q =>
        rw [hl] at h1 h2
        obtain ⟨⟨s, t⟩, a1, a2⟩ := R.bind_ok_iff.mp h1
        obtain ⟨⟨s', t'⟩, b1, b2⟩ := R.bind_ok_iff.mp h2
        cases TDG.expand_alike ha a1 b1
        exact ih a2 b2

theorem nullIndices_relabel (l : List Name) : nullIndices (g.relabel ms) l = nullIndices g l := by
  induction l with
  | nil => rfl
  | cons x l ih => simp only [nullIndices, ih]; rfl

theorem TDG.recursionType_alike (ha : g.Alikes ms) {n : Nat} {ns : List Name} {r r' : RecType} (h1 : g.recursionType ord n ns = .ok r)
    (h2 : (g.relabel ms).recursionType ord n ns = .ok r') : r' = r := by
  unfold TDG.recursionType at h1 h2
  rw [nullIndices_relabel] at h2
  obtain ⟨l, a1, a2⟩ := R.bind_ok_iff.mp h1
  obtain ⟨l', b1, b2⟩ := R.bind_ok_iff.mp h2
  rw [a1] at b1
  cases b1
  exact TDG.recLoop_alike ha a2 b2

theorem subtaskIndices_names {ts : List (Name × Bool)} : ∀ {ss ss' : List Subtask}, ss'.map (·.task.name) = ss.map (·.task.name) →
    subtaskIndices ts ss' = subtaskIndices ts ss
  | [], [], _ => rfl
  | [], _ :: _, h => by cases h
  | _ :: _, [], h => by cases h
  | s :: ss, s' :: ss', h => by
    simp only [List.map_cons, List.cons.injEq] at h
    simp only [subtaskIndices, h.1, subtaskIndices_names h.2]

theorem methodSubtasks_names {ts : List (Name × Bool)} {ms ms' : List Method}
    (h : List.Forall₂ (fun m k : Method => k = { m with tn := k.tn } ∧ ContextKept m.tn k.tn) ms ms') :
    methodSubtasks ts ms' = methodSubtasks ts ms := by
  induction h with
  | nil => rfl
  | cons h _ ih => simp only [methodSubtasks, subtaskIndices_names (names_of_calls h.2.calls), ih]

/-- The graphs of the domains. -/
theorem Spec.NetworksBy.graph (h : NetworksBy ContextKept d d') {g : TDG} (hg : TDG.new ord d = .ok g) :
    ∃ ms, TDG.new ord d' = .ok (g.relabel ms) ∧ g.Alikes ms := by
  have e1 : tdgTasks d' = tdgTasks d := by rw [h.same]; rfl
  have e2 : ∀ ts, methodTasks ts d'.methods = methodTasks ts d.methods := fun ts =>
    methodTasks_names (forall₂_map_eq h.methods fun m k ⟨e, _⟩ => by rw [e]) ts
  have e3 : ∀ ts, methodSubtasks ts d'.methods = methodSubtasks ts d.methods := fun ts => methodSubtasks_names h.methods
  refine ⟨d'.methods.map fun m => (m.name.name, m.tn), ?_, ?_⟩
  · unfold TDG.new at hg ⊢
    simp only [e1, e2, e3]
    obtain ⟨o, h1, h2⟩ := R.bind_ok_iff.mp hg
    obtain ⟨s, h3, h4⟩ := R.bind_ok_iff.mp h2
    rw [h1, R.bind_ok, h3, R.bind_ok]
    cases h4
    rfl
  · have hm : g.methods = d.methods.map fun m => (m.name.name, m.tn) := by
      unfold TDG.new at hg
      obtain ⟨o, h1, h2⟩ := R.bind_ok_iff.mp hg
      obtain ⟨s, h3, h4⟩ := R.bind_ok_iff.mp h2
      cases h4
      rfl
    intro m
    unfold TDG.method TDG.relabel
    simp only [hm, List.getElem?_map]
    have := h.methods
    cases h1 : d.methods[m]? with
    | none =>
      have : d'.methods[m]? = none := by
        rw [List.getElem?_eq_none_iff] at h1 ⊢
        rw [← this.length_eq]
        exact h1
      rw [this]
      exact ⟨rfl, ⟨rfl, Iff.rfl, fun _ _ => Iff.rfl⟩⟩
    | some a =>
      obtain ⟨hl, h2⟩ := List.getElem?_eq_some_iff.1 h1
      have hl' : m < d'.methods.length := this.length_eq ▸ hl
      have h3 := this.get hl hl'
      rw [List.getElem?_eq_getElem hl']
      simp only [List.get_eq_getElem, h2] at h3
      simp only [Option.map_some, Option.getD_some]
      exact ⟨by rw [h3.1], h3.2⟩

/-! ### What verify checks -/

theorem flatMap_calls {β : Type} (F : Symbol × List Symbol → List β) (hc : callsOf k = callsOf h) :
    (k.subtasks.flatMap fun s => F (s.task, s.terms)) = h.subtasks.flatMap fun s => F (s.task, s.terms) := by
  have e : ∀ l : List Subtask, (l.flatMap fun s => F (s.task, s.terms)) = (l.map fun s => (s.task, s.terms)).flatMap F := fun l => by
    rw [List.flatMap_map]
  rw [e, e]
  exact congrArg _ hc

theorem Spec.CyclesKept.orderCycle_eq (hr : CyclesKept h k) : orderCycle k = orderCycle h := by
  have e : ∀ h : HTN, (∃ a, Relation.TransGen (Before h) a a) ↔ ¬ Acyclic (Before h) := fun h => by simp [Acyclic]
  funext x
  unfold orderCycle
  simp only [e, hr.cyclic]
  by_cases hc : Acyclic (Before h)
  · simp [hc]
  · rw [hr.line hc]

theorem Spec.NetworksBy.header (h : NetworksBy r d d') : SameHeader d d' := by
  rw [h.same]
  exact ⟨rfl, rfl, rfl, rfl, rfl⟩

theorem Spec.NetworksBy.checks (h : NetworksBy CyclesKept d d') : domainChecks d' = domainChecks d := by
  have e1 : ∀ m k : Method, k = { m with tn := k.tn } ∧ CyclesKept m.tn k.tn → methodChecks d' k = methodChecks d m := by
    rintro m k ⟨e, hk⟩
    have h1 := flatMap_calls (fun c => subtaskChecks d m.params ⟨none, c.1, c.2⟩) hk.calls
    have h2 := hk.orderCycle_eq
    rw [h.header.methodChecks (by rw [h.same])]
    generalize k.tn = T at *
    subst e
    unfold methodChecks
    rw [h2, show (T.subtasks.flatMap (subtaskChecks d m.params)) = m.tn.subtasks.flatMap (subtaskChecks d m.params) from h1]
    rfl
  have e2 : forEach (fun b m => nameAgain .dupMethod (fun m : Method => symLine m.name) b m :: methodChecks d' m) [] d'.methods =
      forEach (fun b m => nameAgain .dupMethod (fun m : Method => symLine m.name) b m :: methodChecks d m) [] d.methods := by
    have := forall₂_forEach (S := fun m k : Method => k = { m with tn := k.tn } ∧ CyclesKept m.tn k.tn) (R := fun c c' => c' = c)
      (g := fun b m => nameAgain .dupMethod (fun m : Method => symLine m.name) b m :: methodChecks d m)
      (g' := fun b m => nameAgain .dupMethod (fun m : Method => symLine m.name) b m :: methodChecks d' m)
      (fun b b' a a' hb ha => by
        rw [nameAgain_local (fun _ _ ⟨e, _⟩ => by rw [e]) hb ha, e1 a a' ha]
        exact forall₂_same fun _ _ => rfl) .nil h.methods
    have h3 : ∀ {l l' : List Check}, List.Forall₂ (fun c c' => c' = c) l l' → l' = l := by
      intro l l' hl
      induction hl with
      | nil => rfl
      | cons e _ ih => rw [e, ih]
    exact h3 this
  have e3 : ∀ l, forEach (fun b a => nameAgain .dupAction (fun a : Action => (a.name, a.pos)) b a :: actionChecks d' a) [] l =
      forEach (fun b a => nameAgain .dupAction (fun a : Action => (a.name, a.pos)) b a :: actionChecks d a) [] l := fun l => by
    simp only [h.header.actionChecks]
  have e4 := h.header.checks
  unfold headerChecks at e4
  unfold domainChecks
  rw [e2, e3, show d'.actions = d.actions by rw [h.same]]
  simp only [← List.cons_append, ← List.append_assoc] at e4 ⊢
  rw [e4]

theorem Spec.NetworksByP.checks (h : NetworksByP CyclesKept p p') : problemChecks d p' = problemChecks d p := by
  have ho : p'.objects = p.objects := by rw [h.same]
  have e1 : factChecks d p' = factChecks d p := by
    funext a
    unfold factChecks factArg
    rw [ho]
  have e2 : initTnChecks d p' p'.initTn = initTnChecks d p p.initTn := by
    have h1 := h.params
    have h2 := h.related
    cases hi : p.initTn with
    | none =>
      rw [hi] at h1
      cases hj : p'.initTn with
      | none => rfl
      | some j => rw [hj] at h1; cases h1
    | some i =>
      rw [hi] at h1
      cases hj : p'.initTn with
      | none => rw [hj] at h1; cases h1
      | some j =>
        rw [hj] at h1
        have h3 := h2 i j hi hj
        obtain ⟨ps, T⟩ := i
        obtain ⟨qs, T'⟩ := j
        simp only [Option.map_some, Option.some.injEq] at h1
        subst h1
        have e4 : orderCycle T' = orderCycle T := h3.orderCycle_eq
        have e3 : initTaskChecks d p' ⟨qs, T'⟩ = fun s => initTaskChecks d p ⟨qs, T⟩ s := by
          funext s
          unfold initTaskChecks initArg
          rw [ho]
        show orderCycle T' :: T'.subtasks.flatMap (initTaskChecks d p' ⟨qs, T'⟩) = orderCycle T :: T.subtasks.flatMap (initTaskChecks d p ⟨qs, T⟩)
        rw [e3, e4]
        exact congrArg _ (flatMap_calls (fun c => initTaskChecks d p ⟨qs, T⟩ ⟨none, c.1, c.2⟩) h3.calls)
  have e3 : p'.initState = p.initState := by rw [h.same]
  have e4 : p'.goal = p.goal := by rw [h.same]
  have e5 : goalChecks d p' = goalChecks d p := by
    funext o
    cases o with
    | none => rfl
    | some f => unfold goalChecks; rw [e1]
  unfold problemChecks
  rw [e1, e2, e3, e4, e5, ho]

/-! ### The relations for domains -/

theorem Spec.NetworksBy.mono {r' : HTN → HTN → Prop} (hr : ∀ {a b}, r a b → r' a b) (h : NetworksBy r d d') : NetworksBy r' d d' :=
  ⟨h.same, forall₂_imp (fun _ _ ⟨e, h1⟩ => ⟨e, hr h1⟩) h.methods⟩

theorem calls_rn (h : HTN) : calls (rnHtn id h) = calls h := by
  simp [calls, rnHtn, rnSubtask, rnSymbol, Function.comp_def]

theorem calls_of (hc : callsOf k = callsOf h) : calls k = calls h := by
  have := congrArg (List.map fun c : Symbol × List Symbol => (c.1.name, c.2.map (·.name))) hc
  simpa [callsOf, calls, Function.comp_def] using this

theorem Spec.NetworksBy.resequenced (hr : ∀ {a b}, r a b → callsOf b = callsOf a) (h : NetworksBy r d d') :
    Resequenced Eq (rnDomain id d) (rnDomain id d') where
  same := by
    rw [h.same]
    rfl
  methods := by
    simp only [rnDomain, List.forall₂_map_left_iff, List.forall₂_map_right_iff]
    refine forall₂_imp (fun m k hk => ?_) h.methods
    obtain ⟨e, h1⟩ := hk
    refine ⟨?_, ?_⟩
    · rw [e]
      rfl
    · show calls (rnHtn id m.tn) = calls (rnHtn id k.tn)
      rw [calls_rn, calls_rn, calls_of (hr h1)]

/-! ### When the search returns -/

/-- The condition of C37. -/
def Searchable (d : DomainAST) : Prop := Resolved d ∧ d.tasks ≠ [] ∧ ∀ m ∈ d.methods, ∀ s ∈ m.tn.subtasks,
  Relation.ReflTransGen (HasSub d) s.task.name m.task.name → Tractable m.tn s.task.name

theorem labels_lines : Labels (rnHtn id h) = Labels h := by
  funext x i
  refine propext ⟨?_, ?_⟩
  · rintro ⟨s', hs', h1, y', h2, rfl⟩
    obtain ⟨s, hs, rfl⟩ := List.mem_map.1 (show s' ∈ h.subtasks.map (rnSubtask id) from hs')
    obtain ⟨y, h3, rfl⟩ := Option.map_eq_some_iff.1 (show s.id.map (rnSymbol id) = some y' from h2)
    exact ⟨s, hs, h1, y, h3, rfl⟩
  · rintro ⟨s, hs, h1, y, h2, rfl⟩
    exact ⟨rnSubtask id s, List.mem_map_of_mem hs, h1, rnSymbol id y, by simp [rnSubtask, h2], rfl⟩

theorem orderings_lines : (rnHtn id h).orderings = h.orderings := by
  unfold rnHtn
  cases h.orderings <;> simp [rnOrdering]

theorem tractable_lines {x : Name} : Tractable (rnHtn id h) x ↔ Tractable h x := by
  have h1 : Before (rnHtn id h) = Before h := by
    funext a b
    unfold Before
    rw [orderings_lines]
  unfold Tractable
  rw [labels_lines, h1, orderings_lines, show (rnHtn id h).subtasks.length = h.subtasks.length by simp [rnHtn]]

theorem hasSub_lines : HasSub (rnDomain id d) = HasSub d := by
  funext x y
  exact propext ⟨sameSubs_rn.2.hasSub, sameSubs_rn.1.hasSub⟩

theorem searchable_lines : Searchable (rnDomain id d) ↔ Searchable d := by
  unfold Searchable Resolved
  rw [hasSub_lines]
  refine and_congr ?_ (and_congr ?_ ?_)
  · simp [rnDomain, rnMethod, rnHtn, rnSubtask, rnSymbol, rnTask, rnAction]
  · simp [rnDomain]
  · have h1 : (rnDomain id d).methods = d.methods.map (rnMethod id) := rfl
    rw [h1, List.forall_mem_map]
    refine forall₂_congr fun m _ => ?_
    have h2 : (rnMethod id m).tn = rnHtn id m.tn := rfl
    have h3 : (rnHtn id m.tn).subtasks = m.tn.subtasks.map (rnSubtask id) := rfl
    rw [h2, h3, List.forall_mem_map]
    exact forall₂_congr fun s _ => imp_congr Iff.rfl tractable_lines

theorem Spec.LabelsKept.renamed (hr : LabelsKept h k) : LabelsRenamed h k := by
  obtain ⟨ρ, h1, _, h2⟩ := hr
  exact ⟨ρ, h1, h2⟩

theorem names_labels (hr : LabelsKept h k) : k.subtasks.map (·.task.name) = h.subtasks.map (·.task.name) :=
  names_of_calls (cyclesKept_rl hr.renamed).calls

theorem forall_names {ss ss' : List Subtask} {P : Name → Prop} (hs : ss'.map (·.task.name) = ss.map (·.task.name)) :
    (∀ s ∈ ss', P s.task.name) ↔ ∀ s ∈ ss, P s.task.name := by
  have e : ∀ l : List Subtask, (∀ s ∈ l, P s.task.name) ↔ ∀ x ∈ l.map (·.task.name), P x := fun l => by
    rw [List.forall_mem_map]
  rw [e, e, hs]

theorem forall₂_both {α β : Type} {R : α → β → Prop} {P : α → Prop} {Q : β → Prop} {l : List α} {l' : List β}
    (h : List.Forall₂ R l l') (hi : ∀ a b, R a b → (Q b ↔ P a)) : (∀ b ∈ l', Q b) ↔ ∀ a ∈ l, P a := by
  induction h with
  | nil => simp
  | cons h1 _ ih => simp only [List.forall_mem_cons, hi _ _ h1, ih]

theorem Spec.NetworksBy.searchable (h : NetworksBy LabelsKept d d') : Searchable d' ↔ Searchable d := by
  have hs : HasSub d' = HasSub d := by
    have := sameSubs_resequenced (Resequenced.mono (r := Eq) (r' := List.Perm) (fun e => e ▸ List.Perm.refl _)
      (h.resequenced fun hr => (cyclesKept_rl hr.renamed).calls))
    funext x y
    exact propext ⟨this.2.hasSub, this.1.hasSub⟩
  have ht : d'.tasks = d.tasks := by rw [h.same]
  have ha : d'.actions = d.actions := by rw [h.same]
  unfold Searchable Resolved
  rw [hs, ht, ha]
  refine and_congr ?_ (and_congr_right fun _ => ?_)
  · refine forall₂_both h.methods fun m k ⟨e, hk⟩ => ?_
    rw [names_labels hk, e]
  · refine forall₂_both h.methods fun m k ⟨e, hk⟩ => ?_
    rw [forall_names (P := fun x => Relation.ReflTransGen (HasSub d) x k.task.name → Tractable k.tn x) (names_labels hk)]
    obtain ⟨ρ, h1, h2, h3⟩ := hk
    rw [h3, show k.task = m.task by rw [e]]
    exact forall₂_congr fun s _ => imp_congr Iff.rfl (tractable_rl h1 h2)

end Verif
