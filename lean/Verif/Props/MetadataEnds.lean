import Verif.Proofs.Search
import Verif.Props.Crashes
import Verif.Props.Recursion
import Verif.Props.Commands

/-! C87: when `get_metadata` and `to_json` crash or do not end. -/

namespace Verif

open Spec

variable [Env] {ord : HashOrd} {f : Bytes} {prob : Option Bytes} {d : DomainAST}

omit [Env] in
theorem nullable_names {g : TDG} (hg : g.Of d) {l : List Nat} : ∀ x ∈ g.names l, TaskName d x := by
  intro x hx
  obtain ⟨i, _, hi⟩ := TDG.mem_names.mp hx
  unfold TDG.Is at hi
  rw [hg.tasks] at hi
  by_contra hno
  rw [← index_none, taskIndexLast_none] at hno
  obtain ⟨e, he, rfl⟩ := Option.map_eq_some_iff.mp hi
  exact hno e (List.mem_of_getElem? he) rfl

/-- The run on a domain file with enough budget for the parser and the nullable tasks. -/
theorem metadata_steps (hf : Parses f (.domain d)) :
    (¬ Resolved d ∧ ∃ y N, (y = .tdgTask ∨ y = .tdgSubtask) ∧ ∀ n, N ≤ n → getMetadata ord n f = .panic y) ∨
    (Resolved d ∧ d.tasks = [] ∧ ∀ n, getMetadata ord n f = .timeout) ∨
    (Resolved d ∧ d.tasks ≠ [] ∧ ∃ g l N, TDG.new ord d = .ok g ∧ g.Of d ∧ ∀ n, N ≤ n → getMetadata ord n f =
      (g.recursionType ord n (g.names l)).bind fun rt =>
        .ok ⟨rt, arrange ord [20] (g.names l), [], d.actions.length, d.tasks.length, d.methods.length⟩) := by
  rw [resolved_iff]
  obtain ⟨M, hM⟩ := hf
  by_cases hc : Verif.Closed d
  · obtain ⟨g, hg⟩ := (TDG.new_ok_iff (ord := ord)).mpr hc
    have hof := TDG.new_of hg
    by_cases hne : d.tasks = []
    · refine .inr (.inl ⟨hc, hne, fun n => ?_⟩)
      have h1 : getMetadata ord (max n M) f = .timeout := by
        unfold getMetadata
        rw [hM _ (by omega), R.bind_ok]
        simp only [hg, R.bind_ok, TDG.nullables]
        rw [TDG.nullLoop_hangs (unit_nil hof hne) rfl]
        rfl
      by_contra hn
      rw [(getMetadata_le ord (by omega : n ≤ max n M) f).eq hn] at h1
      exact hn h1
    · obtain ⟨l, hl⟩ := hof.nullables_term hne
      refine .inr (.inr ⟨hc, hne, g, l, max g.enough M, hg, hof, fun n hn => ?_⟩)
      unfold getMetadata
      rw [hM n (by omega), R.bind_ok]
      simp only [hg, R.bind_ok, TDG.nullables]
      have := hl n (by omega)
      unfold TDG.nullInit at this
      rw [this]
      simp only [R.bind_ok]
  · obtain ⟨y, hy, hy'⟩ := new_panic (ord := ord) hc
    refine .inl ⟨hc, y, M, hy', fun n hn => ?_⟩
    unfold getMetadata
    rw [hM n hn, R.bind_ok]
    simp only [hy]
    rfl

/-- C87, crashes: `get_metadata` panics on a domain file only if a method mentions a task or action that is not declared, or the ordering
of a method with a subtask that leads back to the method has the wrong number of constraints or mentions something that is not a label. -/
theorem C87_crash (hf : Parses f (.domain d)) {n : Nat} {y : Panic} (h : getMetadata ord n f = .panic y) :
    (¬ Resolved d ∧ (y = .tdgTask ∨ y = .tdgSubtask)) ∨
    (Resolved d ∧ d.tasks ≠ [] ∧ ∃ m s, Returning d m s ∧
      (y = .tdgAssert ∧ Miscounted m.tn ∨ y = .tdgId ∧ Unlabelled m.tn s.task.name)) := by
  have h' : ∀ k, n ≤ k → getMetadata ord k f = .panic y := fun k hk => by
    rw [(getMetadata_le ord hk f).eq (by rw [h]; simp), h]
  rcases metadata_steps (ord := ord) hf with ⟨h1, z, N, hz, hN⟩ | ⟨_, _, h1⟩ | ⟨h1, h2, g, l, N, hg, hof, hN⟩
  · have := h' (max n N) (by omega)
    rw [hN _ (by omega)] at this
    cases this
    exact .inl ⟨h1, hz⟩
  · rw [h1] at h; cases h
  · refine .inr ⟨h1, h2, ?_⟩
    have h3 := h' (max n N) (by omega)
    rw [hN _ (by omega)] at h3
    cases h4 : g.recursionType ord (max n N) (g.names l) with
    | timeout => rw [h4] at h3; cases h3
    | err e => rw [h4] at h3; cases h3
    | ok r => rw [h4] at h3; cases h3
    | panic z =>
      rw [h4] at h3; cases h3
      exact hof.recursionType_panic (resolved_iff.mp h1) (nullable_names hof) h4

/-- C87, endless runs: `get_metadata` runs for ever on a domain file only if there are no compound tasks, or in the ordering of a method
with a subtask that leads back to the method a label of the subtask is part of a label that follows it, or is followed by a cycle. -/
theorem C87_endless (hf : Parses f (.domain d)) (h : ∀ n, getMetadata ord n f = .timeout) :
    Resolved d ∧ (d.tasks = [] ∨ ∃ m s, Returning d m s ∧ Looping m.tn s.task.name) := by
  rcases metadata_steps (ord := ord) hf with ⟨_, z, N, _, hN⟩ | ⟨h1, h2, _⟩ | ⟨h1, h2, g, l, N, hg, hof, hN⟩
  · have := hN N (Nat.le_refl _)
    rw [h] at this; cases this
  · exact ⟨h1, .inl h2⟩
  · refine ⟨h1, .inr ?_⟩
    by_contra hl
    push Not at hl
    obtain ⟨n, hn⟩ := hof.recursionType_ends (ord := ord) (resolved_iff.mp h1) (nullable_names hof (l := l)) hl
    have h3 := hN (max n N) (by omega)
    rw [h, (TDG.recursionType_le g ord (by omega : n ≤ max n N) _).eq hn] at h3
    cases h4 : g.recursionType ord n (g.names l) with
    | timeout => exact hn h4
    | err e => rw [h4] at h3; cases h3
    | ok r => rw [h4] at h3; cases h3
    | panic z => rw [h4] at h3; cases h3

/-- C87: every run on a domain file returns metadata, panics, or does not end, and larger budgets do not change what a run gives. -/
theorem C87_cases (hf : Parses f (.domain d)) : (∃ md, Metadata ord f md) ∨ (∃ y n, getMetadata ord n f = .panic y) ∨
    ∀ n, getMetadata ord n f = .timeout := by
  by_contra hc
  push Not at hc
  obtain ⟨h1, h2, n, h3⟩ := hc
  obtain ⟨M, hM⟩ := hf
  cases h : getMetadata ord n f with
  | timeout => exact h3 h
  | panic y => exact h2 y n h
  | ok md => exact h1 md ⟨n, fun k hk => by rw [(getMetadata_le ord hk f).eq h3, h]⟩
  | err e =>
    have h4 : getMetadata ord (max n M) f = .err e := by rw [(getMetadata_le ord (by omega : n ≤ max n M) f).eq h3, h]
    have := getMetadata_err h4
    rw [hM _ (by omega)] at this
    cases this

/-- C87: what follows on a domain file.  If a method mentions something that is not declared, `get_metadata` panics; otherwise, without
compound tasks it does not end; with compound tasks it panics if a subtask that leads back to its method is intractable and none loops, and
does not end if one loops and none crashes. -/
theorem C87_determined (hf : Parses f (.domain d)) :
    (¬ Resolved d → ∃ y n, getMetadata ord n f = .panic y) ∧
    (Resolved d → d.tasks = [] → ∀ n, getMetadata ord n f = .timeout) ∧
    (Resolved d → d.tasks ≠ [] → (∃ m s, Returning d m s ∧ ¬ Tractable m.tn s.task.name) →
      (∀ m s, Returning d m s → ¬ Looping m.tn s.task.name) → ∃ y n, getMetadata ord n f = .panic y) ∧
    (Resolved d → d.tasks ≠ [] → (∃ m s, Returning d m s ∧ Looping m.tn s.task.name) →
      (∀ m s, Returning d m s → ¬ Miscounted m.tn ∧ ¬ Unlabelled m.tn s.task.name) → ∀ n, getMetadata ord n f = .timeout) := by
  have hno : ∀ m s, Returning d m s → ¬ Tractable m.tn s.task.name → ¬ ∃ md, Metadata ord f md :=
    fun m s hr ht hm => ht (((C37_returns_iff hf).mp hm).2.2 m hr.method s hr.subtask hr.back)
  refine ⟨fun h => ?_, fun h1 h2 => ?_, fun h1 h2 ⟨m, s, hr, ht⟩ hl => ?_, fun h1 h2 ⟨m, s, hr, hl⟩ hc => ?_⟩
  · rcases C87_cases (ord := ord) hf with hm | hp | hh
    · exact absurd ((C37_returns_iff hf).mp hm).1 h
    · exact hp
    · exact absurd (C87_endless hf hh).1 h
  · rcases C87_cases (ord := ord) hf with hm | ⟨y, n, hp⟩ | hh
    · exact absurd h2 ((C37_returns_iff hf).mp hm).2.1
    · rcases C87_crash hf hp with ⟨h, _⟩ | ⟨_, h, _⟩
      · exact absurd h1 h
      · exact absurd h2 h
    · exact hh
  · rcases C87_cases (ord := ord) hf with hm | hp | hh
    · exact absurd hm (hno m s hr ht)
    · exact hp
    · rcases (C87_endless hf hh).2 with h | ⟨m, s, hr, h⟩
      · exact absurd h h2
      · exact absurd h (hl m s hr)
  · rcases C87_cases (ord := ord) hf with hm | ⟨y, n, hp⟩ | hh
    · exact absurd hm (hno m s hr (not_tractable_of_looping hl))
    · rcases C87_crash hf hp with ⟨h, _⟩ | ⟨_, _, m, s, hr, ⟨_, h⟩ | ⟨_, h⟩⟩
      · exact absurd h1 h
      · exact absurd h (hc m s hr).1
      · exact absurd h (hc m s hr).2
    · exact hh

/-- C87: on an accepted domain with compound tasks a run that does not end is due to a label that is part of another one: the ordering of
some method puts the label of a subtask that leads back to the method directly before a label of which it, or another label of the same
task, is part. -/
theorem C87_accepted (hf : Parses f (.domain d)) (ha : ∃ ws, Returns ord f none (.ok ws)) (hne : d.tasks ≠ []) {ord' : HashOrd}
    (h : ∀ n, getMetadata ord' n f = .timeout) :
    ∃ m s i j k, Returning d m s ∧ Labels m.tn s.task.name i ∧ Before m.tn i j ∧ Labels m.tn s.task.name k ∧ k <:+: j := by
  rcases (C87_endless hf h).2 with h | ⟨m, s, hr, _, _, _, ⟨i, j, k, h1, h2, h3, h4⟩ | ⟨i, j, _, _, h3⟩⟩
  · exact absurd h hne
  · exact ⟨m, s, i, j, k, hr, h1, h2, h3, h4⟩
  · exact absurd h3 ((((C23_acceptance hf).mp ha).methods m hr.method).ordering j)

/-- C87, other files: on a file that is not a domain `get_metadata` behaves as the parser does, and panics on a problem. -/
theorem C87_not_domain (hf : ¬ ∃ d, Parses f (.domain d)) :
    (¬ ∃ md, Metadata ord f md) ∧
    (∀ y, (∃ n, getMetadata ord n f = .panic y) ↔ ParserCrash f y ∨ (y = .expectedDomain ∧ ∃ p, Parses f (.problem p))) ∧
    ((∀ n, getMetadata ord n f = .timeout) ↔ Stuck f) ∧
    ∀ e, (∃ n, getMetadata ord n f = .err e) ↔ ∃ n, parse n f = .err e := by
  have key : ∀ n, (∃ p, parse n f = .ok (.problem p) ∧ getMetadata ord n f = .panic .expectedDomain) ∨
      (∃ x, parse n f = .panic x ∧ getMetadata ord n f = .panic x) ∨ (∃ e, parse n f = .err e ∧ getMetadata ord n f = .err e) ∨
      (parse n f = .timeout ∧ getMetadata ord n f = .timeout) := by
    intro n
    unfold getMetadata
    cases hp : parse n f with
    | timeout => exact .inr (.inr (.inr ⟨rfl, rfl⟩))
    | err e => exact .inr (.inr (.inl ⟨e, rfl, rfl⟩))
    | panic x => exact .inr (.inl ⟨x, rfl, rfl⟩)
    | ok a =>
      cases a with
      | domain d => exact absurd ⟨d, .of_ok hp⟩ hf
      | problem p => exact .inl ⟨p, rfl, rfl⟩
  refine ⟨?_, fun y => ⟨?_, ?_⟩, ⟨fun h => (C66_hangs f).mp fun n => ?_, fun h n => ?_⟩, fun e => ⟨?_, ?_⟩⟩
  · rintro ⟨md, N, hN⟩
    have := hN N (Nat.le_refl _)
    rcases key N with ⟨_, _, h⟩ | ⟨_, _, h⟩ | ⟨_, _, h⟩ | ⟨_, h⟩ <;> rw [h] at this <;> cases this
  · rintro ⟨n, h⟩
    rcases key n with ⟨p, h1, h2⟩ | ⟨x, h1, h2⟩ | ⟨_, _, h2⟩ | ⟨_, h2⟩ <;> rw [h2] at h <;> cases h
    · exact .inr ⟨rfl, p, .of_ok h1⟩
    · exact .inl ((C65_panic f _).mp ⟨n, h1⟩)
  · rintro (h | ⟨rfl, p, N, hN⟩)
    · obtain ⟨n, hn⟩ := (C65_panic f _).mpr h
      refine ⟨n, ?_⟩
      rcases key n with ⟨_, h1, _⟩ | ⟨x, h1, h2⟩ | ⟨_, h1, _⟩ | ⟨h1, _⟩ <;> rw [hn] at h1 <;> cases h1
      exact h2
    · refine ⟨N, ?_⟩
      have hN := hN N (Nat.le_refl _)
      rcases key N with ⟨_, _, h2⟩ | ⟨_, h1, _⟩ | ⟨_, h1, _⟩ | ⟨h1, _⟩
      · exact h2
      all_goals rw [hN] at h1; cases h1
  · rcases key n with ⟨_, _, h2⟩ | ⟨_, _, h2⟩ | ⟨_, _, h2⟩ | ⟨h1, _⟩
    · rw [h] at h2; cases h2
    · rw [h] at h2; cases h2
    · rw [h] at h2; cases h2
    · exact h1
  · have h := (C66_hangs f).mpr h n
    rcases key n with ⟨_, h1, _⟩ | ⟨_, h1, _⟩ | ⟨_, h1, _⟩ | ⟨_, h2⟩
    · rw [h] at h1; cases h1
    · rw [h] at h1; cases h1
    · rw [h] at h1; cases h1
    · exact h2
  · rintro ⟨n, h⟩
    exact ⟨n, getMetadata_err h⟩
  · rintro ⟨n, h⟩
    refine ⟨n, ?_⟩
    rcases key n with ⟨_, h1, _⟩ | ⟨_, h1, _⟩ | ⟨_, h1, h2⟩ | ⟨h1, _⟩ <;> rw [h] at h1 <;> cases h1
    exact h2

/-! ### `to_json` -/

/-- C87, `to_json` never analyses anything: it panics in exactly these situations. -/
theorem C87_json_crash (x : Panic) : (∃ n, toJson ord n f prob = .panic x) ↔
    ParserCrash f x ∨ (x = .expectedDomain ∧ ∃ p, Parses f (.problem p)) ∨
    ∃ d, Parses f (.domain d) ∧ ∃ g, prob = some g ∧
      (ParserCrash g x ∨ (x = .expectedProblem ∧ ∃ d', Parses g (.domain d'))) := by
  constructor
  · rintro ⟨n, h⟩
    unfold toJson at h
    cases hp : parse n f with
    | timeout => rw [hp] at h; cases h
    | err e => rw [hp] at h; cases h
    | panic y => rw [hp] at h; cases h; exact .inl ((C65_panic f _).mp ⟨n, hp⟩)
    | ok a =>
      rw [hp, R.bind_ok] at h
      cases a with
      | problem p => cases h; exact .inr (.inl ⟨rfl, p, .of_ok hp⟩)
      | domain d =>
        refine .inr (.inr ⟨d, .of_ok hp, ?_⟩)
        cases prob with
        | none => cases h
        | some g =>
          refine ⟨g, rfl, ?_⟩
          simp only at h
          cases hq : parse n g with
          | timeout => rw [hq] at h; cases h
          | err e => rw [hq] at h; cases h
          | panic y => rw [hq] at h; cases h; exact .inl ((C65_panic g _).mp ⟨n, hq⟩)
          | ok b =>
            rw [hq, R.bind_ok] at h
            cases b with
            | problem p => cases h
            | domain d' => cases h; exact .inr ⟨rfl, d', .of_ok hq⟩
  · rintro (h | ⟨rfl, p, N, hN⟩ | ⟨d, ⟨N, hN⟩, g, rfl, h | ⟨rfl, d', M, hM⟩⟩)
    · obtain ⟨n, hn⟩ := (C65_panic f _).mpr h
      exact ⟨n, by unfold toJson; rw [hn]; rfl⟩
    · exact ⟨N, by unfold toJson; rw [hN N (Nat.le_refl _)]; rfl⟩
    · obtain ⟨n, hn⟩ := (C65_panic g _).mpr h
      refine ⟨max n N, ?_⟩
      unfold toJson
      rw [hN _ (by omega), R.bind_ok]
      simp only
      rw [parse_at_least hn (by simp) (by omega)]
      rfl
    · refine ⟨max M N, ?_⟩
      unfold toJson
      rw [hN _ (by omega), R.bind_ok]
      simp only
      rw [hM _ (by omega)]
      rfl

/-- C87, `to_json` does not end in exactly these situations. -/
theorem C87_json_endless : (∀ n, toJson ord n f prob = .timeout) ↔
    Stuck f ∨ ∃ d, Parses f (.domain d) ∧ ∃ g, prob = some g ∧ Stuck g := by
  constructor
  · intro h
    by_cases hs : Stuck f
    · exact .inl hs
    have hs' : ∃ n, parse n f ≠ .timeout := by
      by_contra hc
      push Not at hc
      exact hs ((C66_hangs f).mp hc)
    obtain ⟨n, hn⟩ := hs'
    have h1 := h n
    unfold toJson at h1
    cases hp : parse n f with
    | timeout => exact absurd hp hn
    | err e => rw [hp] at h1; cases h1
    | panic y => rw [hp] at h1; cases h1
    | ok a =>
      rw [hp, R.bind_ok] at h1
      cases a with
      | problem p => cases h1
      | domain d =>
        refine .inr ⟨d, .of_ok hp, ?_⟩
        cases prob with
        | none => cases h1
        | some g =>
          refine ⟨g, rfl, (C66_hangs g).mp fun k => ?_⟩
          by_contra hk
          have h2 := h (max n k)
          unfold toJson at h2
          rw [parse_at_least hp (by simp) (by omega), R.bind_ok] at h2
          simp only at h2
          rw [parse_fuel (by omega : k ≤ max n k) hk] at h2
          cases hq : parse k g with
          | timeout => exact hk hq
          | err e => rw [hq] at h2; cases h2
          | panic y => rw [hq] at h2; cases h2
          | ok b => rw [hq, R.bind_ok] at h2; cases b <;> cases h2
  · rintro (h | ⟨d, hd, g, rfl, h⟩) n
    · unfold toJson
      rw [(C66_hangs f).mpr h n]
      rfl
    · unfold toJson
      cases hp : parse n f with
      | timeout => rfl
      | ok a =>
        cases (Parses.of_ok hp).det hd
        rw [R.bind_ok]
        simp only
        rw [(C66_hangs g).mpr h n]
        rfl
      | err e =>
        obtain ⟨N, hN⟩ := hd
        have := hN (max n N) (by omega)
        rw [parse_at_least hp (by simp) (by omega)] at this
        cases this
      | panic e =>
        obtain ⟨N, hN⟩ := hd
        have := hN (max n N) (by omega)
        rw [parse_at_least hp (by simp) (by omega)] at this
        cases this

/-! ### The order of the hash tables can decide between a panic and an endless run -/

omit [Env] in
/-- The first context that the search computes never ends. -/
def TDG.stuckFirst (g : TDG) : Bool :=
  match (g.keys.flatMap fun t => (g.methodsOf t).map fun m => [(t, m)]).reverse with
  | [(t, m)] :: _ =>
    match g.tasksOf m with
    | x :: _ => x == t && (match (g.method m).2.orderings with
      | .partial_ os => os.length == (g.method m).2.subtasks.length - 1 &&
        (occurrences (g.method m).2 (g.taskName x)).any fun i => !(prefixHits os (occurrences (g.method m).2 (g.taskName x)) i).isEmpty
      | .total => false)
    | [] => false
  | _ => false

omit [Env] in
theorem TDG.stuckFirst_hangs {g : TDG} (h : g.stuckFirst = true) (fuel : Nat) (nulls : List Nat) :
    g.recLoop ord fuel nulls fuel (g.keys.flatMap fun t => (g.methodsOf t).map fun m => [(t, m)]).reverse .nonRecursive = .timeout := by
  unfold stuckFirst at h
  split at h
  case h_2 => cases h
  case h_1 t m rest hst =>
  rw [hst]
  split at h
  case h_2 => cases h
  case h_1 x xs hx =>
  simp only [Bool.and_eq_true, beq_iff_eq] at h
  obtain ⟨rfl, h⟩ := h
  split at h
  case h_2 => cases h
  case h_1 os ho =>
  simp only [Bool.and_eq_true, beq_iff_eq, List.any_eq_true, Bool.not_eq_true', List.isEmpty_eq_false_iff] at h
  obtain ⟨hlen, i, hi, hh⟩ := h
  obtain ⟨k, hk⟩ := List.exists_mem_of_ne_nil _ hh
  obtain ⟨h1, j, h2, h3⟩ := mem_prefixHits.mp hk
  have hp : g.getPrefix ord fuel x m = .timeout := by
    cases hp : g.getPrefix ord fuel x m with
    | timeout => rfl
    | ok r =>
      exact absurd h3 (((getPrefix_ok hp).2 os ho).2 i j k (mem_occurrences.mp hi) (by rw [before_eq ho]; exact h2) (mem_occurrences.mp h1))
    | err e => exact absurd hp (noErr_getPrefix g fuel x m e)
    | panic y =>
      unfold getPrefix at hp
      simp only [ho, hlen, ne_eq, not_true_eq_false, if_false] at hp
      rcases prefixLoop_nopanic (os := os) (occ := occurrences (g.method m).2 (g.taskName x)) (n := fuel)
        (stack := (arrange ord [3, x, m] (occurrences (g.method m).2 (g.taskName x))).reverse) with h1 | h1
        <;> rw [h1] at hp <;> cases hp
  cases fuel with
  | zero => rfl
  | succ n =>
    rw [recLoop]
    have hc : cycleFrom [(x, m)] x = some [(x, m)] := by simp [cycleFrom]
    simp only [List.getLast?_singleton, hx]
    rw [expand]
    simp only [hc, List.cons_append, List.nil_append, cycleInfo, hp]
    rfl

/-- A run whose first context never ends does not end. -/
theorem endless_of_stuckFirst {n : Nat} (hq : (parse n f).holds (fun
    | .domain d => (match TDG.new ord d with | .ok g => g.stuckFirst && !d.tasks.isEmpty | _ => false)
    | .problem _ => false) = true) (k : Nat) : getMetadata ord k f = .timeout := by
  obtain ⟨a, hf, h⟩ := parses_holds hq
  cases a with
  | problem p => cases h
  | domain d =>
    by_contra hk
    simp only at h
    split at h
    case h_2 => cases h
    case h_1 g hg =>
    simp only [Bool.and_eq_true, Bool.not_eq_true', List.isEmpty_eq_false_iff] at h
    rcases metadata_steps (ord := ord) hf with ⟨h1, _⟩ | ⟨_, h2, _⟩ | ⟨h1, h2, g', l, N, hg', hof, hN⟩
    · exact h1 (resolved_iff.mpr (TDG.new_ok_iff.mp ⟨g, hg⟩))
    · exact h.2 h2
    · rw [hg] at hg'
      cases hg'
      have h3 := hN (max k N) (by omega)
      obtain ⟨nulls, hnulls⟩ := map_some_of (l := g.names l) (f := fun x => taskIndexFirst g.tasks x)
        fun x hx => hof.first_index (nullable_names hof x hx)
      unfold TDG.recursionType at h3
      rw [nullIndices_ok.mpr hnulls, R.bind_ok, TDG.stuckFirst_hangs h.1, (getMetadata_le ord (by omega : k ≤ max k N) f).eq hk] at h3
      exact hk h3

omit [Env] in
/-- `t` has a method with two copies of `t` and no constraint; `u` has a method with two copies of `u`, where the label `a` of the first
is part of the label `aa` of the second. -/
def tossDomain : Bytes := b!"(define (domain d) (:task t :parameters ()) (:task u :parameters ())
    (:method m0 :parameters () :task (t) :subtasks (and (i (t)) (j (t))))
    (:method m1 :parameters () :task (u) :subtasks (and (a (u)) (aa (u))) :ordering (< a aa)))\n"

omit [Env] in
/-- C87: the domain is accepted in every order; in one order of the hash tables `get_metadata` panics, in another it does not end, and it
never returns. -/
theorem C87_order : (∀ ord, ∃ ws, @Returns Env.plain ord tossDomain none (.ok ws)) ∧
    (∀ n, @getMetadata Env.plain HashOrd.id n tossDomain = .timeout) ∧
    (∃ N, ∀ n, N ≤ n → @getMetadata Env.plain HashOrd.rev n tossDomain = .panic .tdgAssert) ∧
    ∀ ord, ¬ ∃ md, @Metadata Env.plain ord tossDomain md := by
  have h0 : @Returns Env.plain HashOrd.id tossDomain none (.ok [⟨b!"t", 1⟩, ⟨b!"u", 1⟩]) :=
    @returns_run Env.plain _ _ _ 90 _ (by decide +kernel) (by simp)
  have h1 : @getMetadata Env.plain HashOrd.rev 90 tossDomain = .panic .tdgAssert := by decide +kernel
  have h2 := @endless_of_stuckFirst Env.plain HashOrd.id tossDomain 90 (by decide +kernel)
  have h3 : ∀ n, 90 ≤ n → @getMetadata Env.plain HashOrd.rev n tossDomain = .panic .tdgAssert := fun n hn => by
    rw [(@getMetadata_le Env.plain _ _ _ hn _).eq (by rw [h1]; simp), h1]
  obtain ⟨a, hf, hq⟩ := @parses_holds tossDomain Env.plain 90
    (shapeIs [b!"t", b!"u"] [] [(b!"t", [b!"t", b!"t"]), (b!"u", [b!"u", b!"u"])]) (by decide +kernel)
  obtain ⟨d, rfl, _⟩ := shape_of hq
  refine ⟨fun ord => ?_, h2, ⟨90, h3⟩, fun ord hm => ?_⟩
  · exact (@C23_acceptance Env.plain ord _ d hf).mpr ((@C23_acceptance Env.plain HashOrd.id _ d hf).mp ⟨_, h0⟩)
  · obtain ⟨md, N, hN⟩ := (@C37_returns_iff Env.plain HashOrd.id _ d hf).mpr ((@C37_returns_iff Env.plain ord _ d hf).mp hm)
    have := hN N (Nat.le_refl _)
    rw [h2] at this
    cases this

omit [Env] in
/-- Each of the panics occurs: an undeclared task, an undeclared subtask, an ordering with something that is not a label (the domain is
accepted), and a problem instead of a domain. -/
theorem C87_instance :
    @getMetadata Env.plain HashOrd.id 90
      b!"(define (domain d) (:task t :parameters ()) (:method m :parameters () :task (u) :subtasks ()))\n" = .panic .tdgTask ∧
    @getMetadata Env.plain HashOrd.id 90
      b!"(define (domain d) (:task t :parameters ()) (:method m :parameters () :task (t) :subtasks (v)))\n" = .panic .tdgSubtask ∧
    @Returns Env.plain HashOrd.id b!"(define (domain d) (:task t :parameters ()) (:method m :parameters () :task (t)
      :subtasks (and (a (t)) (b (t))) :ordering (< a c)))\n" none (.ok [⟨b!"t", 1⟩]) ∧
    @getMetadata Env.plain HashOrd.id 90 b!"(define (domain d) (:task t :parameters ()) (:method m :parameters () :task (t)
      :subtasks (and (a (t)) (b (t))) :ordering (< a c)))\n" = .panic .tdgId ∧
    @getMetadata Env.plain HashOrd.id 90 b!"(define (problem p) (:domain d))\n" = .panic .expectedDomain ∧
    ∃ n, @toJson Env.plain HashOrd.id n b!"(define (problem p) (:domain d))\n" none = .panic .expectedDomain := by
  refine ⟨by decide +kernel, by decide +kernel, @returns_run Env.plain _ _ _ 90 _ (by decide +kernel) (by simp), by decide +kernel,
    by decide +kernel, ?_⟩
  obtain ⟨a, h1, h2⟩ := @parses_holds b!"(define (problem p) (:domain d))\n" Env.plain 90
    (fun | .problem _ => true | .domain _ => false) (by decide +kernel)
  cases a with
  | domain d => cases h2
  | problem p => exact (@C87_json_crash Env.plain _ _ _ _).mpr (.inr (.inl ⟨rfl, p, h1⟩))

end Verif
