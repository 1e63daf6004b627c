import Verif.Proofs.Mentions

/-! Independence of the iteration order of hash containers, and the warnings in terms of names. -/

namespace Verif

open Spec

variable {d : DomainAST} {ord ord' : HashOrd}

/-! ### The checks -/

theorem taskConsistent_perm {g : TypeGraph} {task : Symbol} {terms params constants : List Symbol}
    {tasks tasks' : List Task} {actions actions' : List Action} (ht : (tasks.map (·.name)).Nodup)
    (ha : (actions.map (·.name)).Nodup) (hpt : tasks'.Perm tasks) (hpa : actions'.Perm actions) :
    taskConsistent g task terms params constants tasks' actions' =
      taskConsistent g task terms params constants tasks actions := by
  unfold taskConsistent
  rw [find_perm (f := fun a : Action => a.name) ha hpa, find_perm (f := fun a : Task => a.name) ht hpt]

theorem checkSubtasks_perm {g : TypeGraph} {params constants : List Symbol}
    {tasks tasks' : List Task} {actions actions' : List Action} (ht : (tasks.map (·.name)).Nodup)
    (ha : (actions.map (·.name)).Nodup) (hpt : tasks'.Perm tasks) (hpa : actions'.Perm actions) :
    ∀ l, checkSubtasks g params constants tasks' actions' l = checkSubtasks g params constants tasks actions l
  | [] => rfl
  | s :: l => by
    rw [checkSubtasks, checkSubtasks, taskConsistent_perm ht ha hpt hpa, checkSubtasks_perm ht ha hpt hpa l]

theorem methodCheck_plain (ord : HashOrd) (ht : (d.tasks.map (·.name)).Nodup) (ha : (d.actions.map (·.name)).Nodup)
    (m : Method) : methodCheck ord d m =
      checkMethod (TypeGraph.new d.types) d.predicates (constantsOf d) d.tasks d.tasks d.actions m := by
  unfold methodCheck checkMethod
  simp only [taskConsistent_perm ht (actions := []) (actions' := []) (by simp) (arrange_perm ord [10] d.tasks) .nil,
    checkSubtasks_perm ht ha (arrange_perm ord [10] d.tasks) (arrange_perm ord [11] d.actions)]

theorem bindU_congr {β : Type} {x : R Unit} {f f' : Unit → R β} (h : x = .ok () → f () = f' ()) :
    R.bind x f = R.bind x f' := by
  cases x with
  | ok => exact h rfl
  | _ => rfl

/-- The checks do not depend on iteration orders. -/
theorem checkDomain_ord (ord ord' : HashOrd) (d : DomainAST) : checkDomain ord d = checkDomain ord' d := by
  rw [checkDomain_eq, checkDomain_eq]
  refine bindU_congr fun _ => bindU_congr fun _ => bindU_congr fun _ => bindU_congr fun ht => bindU_congr fun ha => ?_
  have ht := (scanTasks_ok.mp ht).1
  have ha := ((scanDup_ok_nil ..).mp ha).1
  rw [show methodCheck ord d = methodCheck ord' d from
    funext fun m => (methodCheck_plain ord ht ha m).trans (methodCheck_plain ord' ht ha m).symm]

/-- The result without the warnings. -/
def outcome (r : R (List Warning)) : R Unit := r.bind fun _ => .ok ()

theorem verifyProblem_outcome (ws ws' : List Warning) (p : ProblemAST) :
    outcome (verifyProblem (tableOf ws d) p) = outcome (verifyProblem (tableOf ws' d) p) := by
  have h1 : ∀ ws, checkPredInsts (tableOf ws d) = checkPredInsts (tableOf [] d) := by
    intro ws
    have h : ∀ a b c e, checkPredArgs (tableOf ws d) a b c e = checkPredArgs (tableOf [] d) a b c e := by
      intro a b c e
      induction c generalizing e with
      | nil => cases e <;> simp [checkPredArgs]
      | cons x c ih => cases e <;> simp [checkPredArgs, ih]
    funext o l
    induction l with
    | nil => rfl
    | cons a l ih => simp only [checkPredInsts, checkPredInst, ih, h]
  have h2 : ∀ ws, checkInitTn (tableOf ws d) = checkInitTn (tableOf [] d) := by
    intro ws
    have h : ∀ a b c e e', checkSubtaskArgs (tableOf ws d) a b c e e' = checkSubtaskArgs (tableOf [] d) a b c e e' := by
      intro a b c e e'
      induction e generalizing e' with
      | nil => cases e' <;> simp [checkSubtaskArgs]
      | cons x e ih => cases e' <;> simp [checkSubtaskArgs, ih]
    have h' : ∀ o ps l, checkSubtaskInsts (tableOf ws d) o ps l = checkSubtaskInsts (tableOf [] d) o ps l := by
      intro o ps l
      induction l with
      | nil => rfl
      | cons a l ih => simp only [checkSubtaskInsts, checkSubtaskInst, ih, h]
    funext o i
    cases i with
    | none => rfl
    | some i => simp only [checkInitTn, h']
  unfold verifyProblem checkGoal outcome
  rw [h1 ws, h1 ws', h2 ws, h2 ws']
  cases TypeGraph.checkDecls (TypeGraph.new d.types) p.objects <;> try rfl
  cases checkDupObjects [] p.objects <;> try rfl
  cases checkPredInsts (tableOf [] d) p.objects p.initState <;> try rfl
  cases checkInitTn (tableOf [] d) p.objects p.initTn <;> try rfl
  cases p.goal with
  | none => rfl
  | some f => simp only [R.bind_ok]; cases checkPredInsts (tableOf [] d) p.objects f.propPreds <;> rfl

/-! ### Results of `verify` -/

theorem returns_outcome [Env] {f : Bytes} {prob : Option Bytes} {r : R (List Warning)} (ord' : HashOrd)
    (h : Returns ord f prob r) : ∃ r', Returns ord' f prob r' ∧ outcome r' = outcome r := by
  obtain ⟨hr, N, hN⟩ := h
  have hv := hN N (Nat.le_refl _)
  cases hp : parse N f with
  | timeout => unfold verify at hv; rw [hp] at hv; exact absurd hv.symm hr
  | err e =>
    refine ⟨r, returns_iff.mpr ⟨hr, N, ?_⟩, rfl⟩
    unfold verify at hv ⊢; rw [hp] at hv ⊢; exact hv
  | panic e =>
    refine ⟨r, returns_iff.mpr ⟨hr, N, ?_⟩, rfl⟩
    unfold verify at hv ⊢; rw [hp] at hv ⊢; exact hv
  | ok a =>
    cases a with
    | problem p =>
      refine ⟨r, returns_iff.mpr ⟨hr, N, ?_⟩, rfl⟩
      unfold verify at hv ⊢; rw [hp] at hv ⊢; exact hv
    | domain d =>
      have hf : Parses f (.domain d) := .of_ok hp
      have hR : Returns ord f prob r := ⟨hr, N, hN⟩
      rcases verifyDomain_eventually ord' d with ⟨ws', hd, hac'⟩ | ⟨e, hc, _⟩ | ⟨x, hc, _⟩
      · obtain ⟨ws, hac⟩ := (accepts_iff (ord := ord)).mpr hd
        cases prob with
        | none =>
          cases hR.det ((returns_ok_none hf).mpr hac)
          exact ⟨.ok ws', (returns_ok_none hf).mpr hac', rfl⟩
        | some g =>
          rw [returns_parsed hf] at hR
          obtain ⟨_, M, hM⟩ := hR
          obtain ⟨K, hK⟩ := hac
          obtain ⟨K', hK'⟩ := hac'
          have h1 := hM (max M (max K K')) (by omega)
          simp only [hK _ (show K ≤ max M (max K K') by omega), R.bind_ok] at h1
          cases hg : parse (max M (max K K')) g with
          | timeout => rw [hg] at h1; exact absurd h1.symm hr
          | err e =>
            rw [hg] at h1
            exact ⟨r, (returns_parsed hf).mpr ⟨hr, max M (max K K'), fun n hn => by
              simp only [hK' n (by omega), R.bind_ok, parse_fuel hn (by rw [hg]; simp), hg]; exact h1⟩, rfl⟩
          | panic e =>
            rw [hg] at h1
            exact ⟨r, (returns_parsed hf).mpr ⟨hr, max M (max K K'), fun n hn => by
              simp only [hK' n (by omega), R.bind_ok, parse_fuel hn (by rw [hg]; simp), hg]; exact h1⟩, rfl⟩
          | ok a =>
            cases a with
            | domain d' =>
              rw [hg] at h1
              exact ⟨r, (returns_parsed hf).mpr ⟨hr, max M (max K K'), fun n hn => by
                simp only [hK' n (by omega), R.bind_ok, parse_fuel hn (by rw [hg]; simp), hg]; exact h1⟩, rfl⟩
            | problem p =>
              rw [hg] at h1
              exact ⟨_, returns_of_accepts hf (.of_ok hg) ⟨K', hK'⟩, h1 ▸ verifyProblem_outcome ws' ws p⟩
      · rw [checkDomain_ord ord' ord] at hc
        cases hR.det (returns_of_err hf hc)
        rw [checkDomain_ord ord ord'] at hc
        exact ⟨_, returns_of_err hf hc, rfl⟩
      · rw [checkDomain_ord ord' ord] at hc
        cases hR.det (returns_of_panic hf hc)
        rw [checkDomain_ord ord ord'] at hc
        exact ⟨_, returns_of_panic hf hc, rfl⟩

/-! ### Nullable tasks -/

/-- `ns` are the names computed by `compute_nullables`. -/
def NullablesAre (ord : HashOrd) (d : DomainAST) (ns : List Name) : Prop :=
  ∃ N, ∀ n, N ≤ n → ((TDG.new ord d).bind fun g => g.nullables n) = .ok ns

theorem NullablesAre.det {ns ns' : List Name} (h : NullablesAre ord d ns) (h' : NullablesAre ord d ns') : ns = ns' := by
  obtain ⟨N, h⟩ := h
  obtain ⟨M, h'⟩ := h'
  have h1 := h (max N M) (by omega)
  rw [h' (max N M) (by omega)] at h1
  simpa using h1.symm

theorem nullables_exist (hd : DomainOk d) (hne : d.tasks ≠ []) : ∃ ns, NullablesAre ord d ns := by
  obtain ⟨g, hg, hof⟩ := Verif.DomainOk.graph hd ord
  obtain ⟨l, hl⟩ := hof.nullables_term hne
  exact ⟨g.names l, g.enough, fun n hn => by rw [hg, R.bind_ok, TDG.nullables, hl n hn, R.bind_ok]⟩

theorem NullablesAre.loop {ns : List Name} (h : NullablesAre ord d ns) :
    ∃ g n l, TDG.new ord d = .ok g ∧ g.Of d ∧ g.nullLoop n g.nullInit = .ok l ∧ ns = g.names l := by
  obtain ⟨N, h⟩ := h
  have := h N (Nat.le_refl _)
  obtain ⟨g, h1, h2⟩ := R.bind_ok_iff.mp this
  unfold TDG.nullables at h2
  obtain ⟨l, h3, h4⟩ := R.bind_ok_iff.mp h2
  cases h4
  exact ⟨g, N, l, h1, TDG.new_of h1, h3, rfl⟩

theorem DomainOk.owners (hd : DomainOk d) : ∀ m ∈ d.methods, ∃ t ∈ d.tasks, t.name = m.task.name := fun m hm =>
  let ⟨t, h1, h2, _⟩ := (hd.methods m hm).task
  ⟨t, h1, h2⟩

/-- Every nullable task is found. -/
theorem nullables_complete (hd : DomainOk d) (hc : NoClash d) {ns : List Name} (h : NullablesAre ord d ns) {x : Name}
    (hx : Nullable d x) : x ∈ ns := by
  obtain ⟨g, n, l, hg, hof, hl, rfl⟩ := h.loop
  have hu := uniqueNames hd hc
  have hcl := Verif.DomainOk.closed hd
  have htn : TaskName d x := by cases hx with | mk h1 _ => exact (hcl _ h1).1
  obtain ⟨i, hi⟩ := hof.is_exists hu htn
  refine TDG.mem_names.mpr ⟨i, ?_, hi⟩
  exact TDG.nullLoop_complete hof.bounded (.init hof.bounded) (hof.hasUnits hu (Verif.DomainOk.owners hd)) (by simp) hl i
    ((hof.vanishes_iff hu hcl hi).mpr hx)

/-- Only nullable tasks are found, under the condition. -/
theorem nullables_exact (hd : DomainOk d) (hc : NoClash d) (hx : Unmixed d) {ns : List Name}
    (h : NullablesAre ord d ns) {x : Name} : x ∈ ns ↔ Nullable d x := by
  refine ⟨fun hm => ?_, nullables_complete hd hc h⟩
  obtain ⟨g, n, l, hg, hof, hl, rfl⟩ := h.loop
  have hu := uniqueNames hd hc
  have hcl := Verif.DomainOk.closed hd
  obtain ⟨i, h1, hi⟩ := TDG.mem_names.mp hm
  have hmix := hof.unmixed hu hcl hx
  exact (hof.vanishes_iff hu hcl hi).mp
    (TDG.nullLoop_sound hof.bounded hmix (.init hof.bounded) (.init hof.bounded hmix) hl i h1)

/-- Whatever is found leads to a method without subtasks. -/
theorem nullables_near (hd : DomainOk d) (hc : NoClash d) {ns : List Name}
    (h : NullablesAre ord d ns) {x : Name} (hm : x ∈ ns) :
    ∃ m ∈ d.methods, m.tn.subtasks = [] ∧ Relation.ReflTransGen (HasSub d) x m.task.name := by
  obtain ⟨g, n, l, hg, hof, hl, rfl⟩ := h.loop
  have hu := uniqueNames hd hc
  have hcl := Verif.DomainOk.closed hd
  obtain ⟨i, h1, hi⟩ := TDG.mem_names.mp hm
  obtain ⟨y, hy, hr⟩ := TDG.nullLoop_near hof.bounded (.init hof.bounded) .init hl i h1
  obtain ⟨m, hm1, hm2⟩ := (TDG.mem_null0 hof.bounded).mp hy
  obtain ⟨mm, h3, h4⟩ := (hof.mem_methodsOf _ _).mp hm1
  obtain ⟨z, hz, hxz⟩ := hof.reach_names hu hi hr
  refine ⟨mm, List.mem_of_getElem? h3, ?_, ?_⟩
  · by_contra hne
    obtain ⟨s, hs⟩ := List.exists_mem_of_ne_nil _ hne
    obtain ⟨k, hk⟩ := hof.is_exists hu ((hcl mm (List.mem_of_getElem? h3)).2 s hs)
    have : k ∈ g.tasksOf m := (hof.mem_tasksOf _ _).mpr ⟨mm, h3, s, hs, (hof.index hu).mpr hk⟩
    rw [hm2] at this; cases this
  · rw [((hof.index hu).mp h4).det hz]; exact hxz

/-! ### Warnings -/

/-- The warnings of a domain in terms of names. -/
theorem warnings_names (hd : DomainOk d) (hc : NoClash d) {ws : List Warning} (h : Accepts ord d ws) :
    (ws.map (·.symbol)).Nodup ∧ ∀ w, w ∈ ws ↔ ∃ t ∈ d.tasks, w = ⟨t.name, t.pos⟩ ∧ ¬ ReachesAction d t.name ∧
      ∀ ns, NullablesAre ord d ns → t.name ∉ ns := by
  obtain ⟨g, l, ws', hg, hof, hac, hw⟩ := Verif.DomainOk.accepts hd ord
  cases h.det hac
  refine ⟨hw.once, fun w => ?_⟩
  rw [hw.mem]
  have hu := uniqueNames hd hc
  have hcl := Verif.DomainOk.closed hd
  constructor
  · rintro ⟨t, ht, rfl, i, hi, hr, hn⟩
    refine ⟨t, ht, rfl, ?_, fun ns hns => ?_⟩
    · rintro ⟨a, ha, hta⟩
      obtain ⟨j, hj, hij⟩ := hof.reach_index hu hcl ((hof.index_first hu).mp hi) hta
      refine hr ⟨j, a.name, hij, ?_⟩
      obtain ⟨k, hk⟩ := List.mem_iff_getElem?.mp ha
      have hk' : g.tasks[d.tasks.length + k]? = some (a.name, false) := by
        rw [hof.tasks, tdgTasks, List.getElem?_append_right (by simp)]
        simp [hk]
      have := hof.is_inj hu hj (show g.Is (d.tasks.length + k) a.name by simp [TDG.Is, hk'])
      rw [this]; exact hk'
    · have hl := hw.loop (List.ne_nil_of_mem ht)
      have : NullablesAre ord d (g.names l) :=
        ⟨g.enough, fun n hn => by rw [hg, R.bind_ok, TDG.nullables, hl n hn, R.bind_ok]⟩
      rw [hns.det this]; exact hn
  · rintro ⟨t, ht, rfl, hr, hn⟩
    obtain ⟨i, hi, _⟩ := hof.compound ht
    refine ⟨t, ht, rfl, i, hi, ?_, ?_⟩
    · rintro ⟨j, x, hij, hj⟩
      obtain ⟨y, hy, hty⟩ := hof.reach_names hu ((hof.index_first hu).mp hi) hij
      apply hr
      have hx : (x, false) ∈ tdgTasks d := hof.tasks ▸ List.mem_of_getElem? hj
      have hyx : y = x := hy.det (by simp [TDG.Is, hj])
      unfold tdgTasks at hx
      simp only [List.mem_append, List.mem_map, Prod.mk.injEq, Bool.true_eq_false, and_false, exists_false, and_true,
        false_or] at hx
      obtain ⟨a, ha, rfl⟩ := hx
      exact ⟨a, ha, hyx ▸ hty⟩
    · have hl := hw.loop (List.ne_nil_of_mem ht)
      exact hn _ ⟨g.enough, fun n hn => by rw [hg, R.bind_ok, TDG.nullables, hl n hn, R.bind_ok]⟩

/-- A task that can be refined reaches an action or is nullable. -/
theorem Spec.Refinable.cases' {x : Name} (h : Refinable d x) : ReachesAction d x ∨ Nullable d x := by
  induction h with
  | action ha => exact .inl ⟨_, ha, .refl⟩
  | @method m hm _ ih =>
    by_cases h : ∀ s ∈ m.tn.subtasks, Nullable d s.task.name
    · exact .inr (.mk hm h)
    · simp only [not_forall] at h
      obtain ⟨s, hs, hn⟩ := h
      rcases ih s hs with ⟨a, ha, h1⟩ | h1
      · exact .inl ⟨a, ha, .head ⟨m, hm, rfl, s, hs, rfl⟩ h1⟩
      · exact absurd h1 hn

end Verif
