import Verif.Proofs.Scan

/-! Semantic analysis of domains: acceptance, reports, panics. -/

namespace Verif

open Spec

/-- Errors about repeated names and cycles. -/
def isDup : SemErr → Bool
  | .dupObject _ | .dupRequirement _ | .dupPredicate _ | .dupAction _ | .dupTask _ | .dupMethod _ | .dupParameter _
  | .cyclicType | .cyclicOrdering _ => true
  | _ => false

/-- A truthful report other than a repeated name or a cycle. -/
def Plain (d : DomainAST) (e : PErr) : Prop := ∃ se, e = .semantic se ∧ DomainReport d se ∧ isDup se = false

/-! ### Formulas -/

theorem checkAtoms_ok (g : TypeGraph) (params constants : List Symbol) (ps : List Predicate) : ∀ l : List Predicate,
    checkAtoms g params constants ps l = .ok () ↔ ∀ p ∈ l, checkAtom g params constants ps p = .ok ()
  | [] => by simp [checkAtoms]
  | p :: l => by
    rw [checkAtoms, bindU_ok, checkAtoms_ok g params constants ps l]
    simp

theorem checkAtoms_err (g : TypeGraph) (params constants : List Symbol) (ps : List Predicate) {e : PErr} :
    ∀ l : List Predicate, checkAtoms g params constants ps l = .err e →
      ∃ p ∈ l, checkAtom g params constants ps p = .err e
  | [] => by simp [checkAtoms]
  | p :: l => by
    intro h
    rw [checkAtoms, bindU_err] at h
    rcases h with h | ⟨_, h⟩
    · exact ⟨p, List.mem_cons_self .., h⟩
    · obtain ⟨q, hq, h'⟩ := checkAtoms_err g params constants ps l h
      exact ⟨q, List.mem_cons_of_mem _ hq, h'⟩

theorem checkAtom_nopanic (g : TypeGraph) (params constants : List Symbol) (ps : List Predicate) (p : Predicate)
    (x : Panic) : checkAtom g params constants ps p ≠ .panic x ∧ checkAtom g params constants ps p ≠ .timeout := by
  cases h : ps.find? (fun d => decide (d.name = p.name)) with
  | some q => rw [checkAtom_args g params constants ps p q h]; exact checkArgs_nopanic ..
  | none => rw [checkAtom_eq, h]; simp

theorem checkAtoms_nopanic (g : TypeGraph) (params constants : List Symbol) (ps : List Predicate) (x : Panic) :
    ∀ l : List Predicate, checkAtoms g params constants ps l ≠ .panic x ∧ checkAtoms g params constants ps l ≠ .timeout
  | [] => by simp [checkAtoms]
  | p :: l => by
    have h1 := checkAtom_nopanic g params constants ps p
    have h2 := checkAtoms_nopanic g params constants ps x l
    rw [checkAtoms]
    cases h : checkAtom g params constants ps p with
    | ok => exact h2
    | err => simp
    | panic q => exact absurd h (h1 q).1
    | timeout => exact absurd h (h1 x).2

theorem checkAtom_ok (d : DomainAST) (hn : (d.predicates.map (·.name)).Nodup) {params : List Symbol}
    (hp : (params.map (·.name)).Nodup) (p : Predicate) :
    checkAtom (TypeGraph.new d.types) params (constantsOf d) d.predicates p = .ok () ↔
      ∃ q ∈ d.predicates, q.name = p.name ∧ ArgsFit (typesOf d) [params, constantsOf d] p.vars q.vars := by
  cases h : d.predicates.find? (fun d => decide (d.name = p.name)) with
  | some q =>
    rw [checkAtom_args _ params _ _ p q h, checkArgs_ok d _ _ hp]
    have hq := (find_unique hn).mp h
    constructor
    · intro h'; exact ⟨q, hq.1, hq.2, h'⟩
    · rintro ⟨q', h1, h2, h3⟩
      rw [(find_unique hn).mpr ⟨h1, h2⟩] at h; cases h; exact h3
  | none =>
    rw [checkAtom_eq, h]
    constructor
    · intro h'; cases h'
    · rintro ⟨q, hq, he, _⟩; exact absurd he (find_none.mp h q hq)

theorem checkFormula_nopanic (g : TypeGraph) {params : List Symbol} (hl : Located params) (constants : List Symbol)
    (ps atoms : List Predicate) (x : Panic) : checkFormula g params constants ps atoms ≠ .panic x := by
  unfold checkFormula
  intro h
  rcases bindU_panic.mp h with h | ⟨_, h⟩
  · exact checkDecls_panic g params hl x h
  · exact (checkAtoms_nopanic g params constants ps x atoms).1 h

theorem optFormula_ok (d : DomainAST) (hn : (d.predicates.map (·.name)).Nodup) {params : List Symbol}
    (hp : (params.map (·.name)).Nodup) (o : Option Formula) :
    checkOptFormula (TypeGraph.new d.types) d.predicates params (constantsOf d) o = .ok () ↔
      ∀ f, o = some f → FormulaOk d params f := by
  cases o with
  | none => simp [checkOptFormula]
  | some f =>
    simp only [checkOptFormula, bindU_ok, checkFormula, checkDecls_ok, checkPredDecls_ok hn, checkAtoms_ok,
      mem_propPreds, checkAtom_ok d hn hp, Option.some.injEq, forall_eq']
    constructor
    · rintro ⟨⟨h1, h2⟩, h3, h4⟩
      refine ⟨h1, h3, h2, fun p hp q hq he => ?_⟩
      obtain ⟨q', h5, h6, h7⟩ := h4 p hp
      rw [List.inj_on_of_nodup_map hn hq h5 (he.trans h6.symm)]; exact h7
    · rintro ⟨h1, h2, h3, h4⟩
      refine ⟨⟨h1, h3⟩, h2, fun p hp => ?_⟩
      obtain ⟨q, hq, he, _⟩ := h3 p hp.occurs
      exact ⟨q, hq, he, h4 p hp q hq he⟩

theorem optFormula_err (d : DomainAST) {params : List Symbol}
    (hp : (params.map (·.name)).Nodup) (hP : ParamsOf d params) (o : Option Formula)
    (hF : ∀ f, o = some f → FormulaOf d params f) {e : PErr}
    (h : checkOptFormula (TypeGraph.new d.types) d.predicates params (constantsOf d) o = .err e) : Plain d e := by
  cases o with
  | none => simp [checkOptFormula] at h
  | some f =>
    have hF := hF f rfl
    simp only [checkOptFormula] at h
    rcases bindU_err.mp h with h | ⟨_, h⟩
    · obtain ⟨p, h1, h2⟩ := checkPredDecls_err f h
      rcases h2 with ⟨rfl, h2⟩ | ⟨q, hq, he, hl, rfl⟩
      · exact ⟨_, rfl, .undefPredicate hF h1 h2, rfl⟩
      · exact ⟨_, rfl, .predArity hF h1 hq he hl, rfl⟩
    · unfold checkFormula at h
      rcases bindU_err.mp h with h | ⟨_, h⟩
      · obtain ⟨s, hs, t, pos, h1, h2, h3, rfl⟩ := checkDecls_err d params e h
        exact ⟨_, rfl, .undefType hP hs h1 h2 h3, rfl⟩
      · obtain ⟨p, hm, h⟩ := checkAtoms_err _ _ _ _ _ h
        rw [mem_propPreds] at hm
        cases hf : d.predicates.find? (fun d => decide (d.name = p.name)) with
        | none =>
          rw [checkAtom_eq, hf] at h
          simp only [R.err.injEq] at h
          subst h
          exact ⟨_, rfl, .undefPredicate hF hm.occurs (find_none.mp hf), rfl⟩
        | some q =>
          have hq := List.mem_of_find?_eq_some hf
          have he : q.name = p.name := by simpa using List.find?_some hf
          rw [checkAtom_args _ params _ _ p q hf] at h
          rcases checkArgs_err d _ _ hp h with ⟨v, hv, hu, rfl⟩ | ⟨rfl, hl⟩ | ⟨te, rfl, hm'⟩
          · exact ⟨_, rfl, .undefVariable hF hm hv hu, rfl⟩
          · exact ⟨_, rfl, .predArity hF hm.occurs hq he hl, rfl⟩
          · exact ⟨_, rfl, .predArgType hF hm hq he hm', rfl⟩

theorem optFormula_panic (g : TypeGraph) (ps : List Predicate) {params : List Symbol} (hl : Located params)
    (constants : List Symbol) (o : Option Formula) {x : Panic}
    (h : checkOptFormula g ps params constants o = .panic x) :
    x = .existsFormula ∧ ∃ f, o = some f ∧ HasExists f := by
  cases o with
  | none => simp [checkOptFormula] at h
  | some f =>
    simp only [checkOptFormula] at h
    rcases bindU_panic.mp h with h | ⟨_, h⟩
    · exact ⟨(checkPredDecls_panic f h).1, f, rfl, (checkPredDecls_panic f h).2⟩
    · exact absurd h (checkFormula_nopanic g hl constants ps _ x)

theorem optFormula_timeout (g : TypeGraph) (ps : List Predicate) (params constants : List Symbol)
    (o : Option Formula) : checkOptFormula g ps params constants o ≠ .timeout := by
  cases o with
  | none => simp [checkOptFormula]
  | some f =>
    simp only [checkOptFormula, checkFormula]
    intro h
    rcases R.bind_timeout_iff.mp h with h | ⟨_, _, h⟩
    · exact checkPredDecls_timeout f h
    · rcases R.bind_timeout_iff.mp h with h | ⟨_, _, h⟩
      · exact checkDecls_timeout g params h
      · exact (checkAtoms_nopanic g params constants ps .utf8 _).2 h

/-! ### Parameters -/

theorem checkDupParams_ok (l : List Symbol) : checkDupParams [] l = .ok () ↔ (l.map (·.name)).Nodup := by
  rw [checkDupParams_scan, scanDup_ok_nil]; simp

theorem checkDupParams_err (l : List Symbol) (e : PErr) : checkDupParams [] l = .err e ↔
    ∃ de, e = .semantic (.dupParameter de) ∧ Repeats (l.map fun s => (s.name, s.pos)) de := by
  rw [checkDupParams_scan]
  constructor
  · intro h
    obtain ⟨a, x, c, rfl, h1, _, h3⟩ := (scanDup_err_nil _ _ _ _).mp h
    rcases h3 with ⟨y, hy, h4, rfl⟩ | ⟨_, h3⟩
    · obtain ⟨a1, a2, rfl⟩ := List.append_of_mem hy
      exact ⟨_, rfl, RepeatsAfter.repeats (ok := fun _ => True)
        ⟨a1, y, a2, x, c, by simp, h1, by simp, h4, rfl⟩⟩
    · cases h3
  · rintro ⟨de, rfl, a, x, b, y, c, h1, h2, h3, h4⟩
    rw [scanDup_dup (fun s : Symbol => (s.name, s.pos)) SemErr.dupParameter (by intro a b h; cases h; rfl)]
    · obtain ⟨l1, l2, hl, ha, hc⟩ := List.map_eq_append_iff.mp h1
      obtain ⟨l3, l4, hl1, ha1, hb1⟩ := List.map_eq_append_iff.mp ha
      obtain ⟨x', l5, rfl, hx, hb⟩ := List.map_eq_cons_iff.mp hb1
      obtain ⟨y', l6, rfl, hy, _⟩ := List.map_eq_cons_iff.mp hc
      subst hl hl1 ha1 hx hy hb
      refine ⟨l3, x', l5, y', l6, by simp, by simpa [List.map_map, Function.comp_def] using h2, by simp, h3, h4⟩
    · simp

theorem checkDupParams_nopanic (l : List Symbol) (p : Panic) :
    checkDupParams [] l ≠ .panic p ∧ checkDupParams [] l ≠ .timeout := by
  rw [checkDupParams_scan]
  refine ⟨fun h => ?_, scanDup_timeout _ _ _ (by simp) _ _⟩
  obtain ⟨x, _, h⟩ := scanDup_panic _ _ _ _ _ h
  cases h

/-! ### Actions -/

theorem checkAction_ok (d : DomainAST) (hn : (d.predicates.map (·.name)).Nodup) (a : Action) :
    checkAction (TypeGraph.new d.types) d.predicates (constantsOf d) a = .ok () ↔ ActionOk d a := by
  unfold checkAction
  rw [bindU_ok, bindU_ok, checkDupParams_ok]
  constructor
  · rintro ⟨h1, h2, h3⟩
    exact ⟨h1, (optFormula_ok d hn h1 _).mp h2, (optFormula_ok d hn h1 _).mp h3⟩
  · rintro ⟨h1, h2, h3⟩
    exact ⟨h1, (optFormula_ok d hn h1 _).mpr h2, (optFormula_ok d hn h1 _).mpr h3⟩

theorem checkAction_err (d : DomainAST) (a : Action) (ha : a ∈ d.actions) {e : PErr}
    (h : checkAction (TypeGraph.new d.types) d.predicates (constantsOf d) a = .err e) :
    (∃ de, e = .semantic (.dupParameter de) ∧ Repeats (a.params.map fun s => (s.name, s.pos)) de) ∨ Plain d e := by
  unfold checkAction at h
  rcases bindU_err.mp h with h | ⟨h0, h⟩
  · exact .inl ((checkDupParams_err _ _).mp h)
  · rw [checkDupParams_ok] at h0
    rcases bindU_err.mp h with h | ⟨_, h⟩
    · exact .inr (optFormula_err d h0 (.action ha) a.pre (fun f hf => .pre ha hf) h)
    · exact .inr (optFormula_err d h0 (.action ha) a.eff (fun f hf => .eff ha hf) h)

theorem checkAction_panic (g : TypeGraph) (ps : List Predicate) (constants : List Symbol) (a : Action)
    (hl : Located a.params) {x : Panic} (h : checkAction g ps constants a = .panic x) :
    x = .existsFormula ∧ ∃ f, (a.pre = some f ∨ a.eff = some f) ∧ HasExists f := by
  unfold checkAction at h
  rcases bindU_panic.mp h with h | ⟨_, h⟩
  · exact absurd h (checkDupParams_nopanic _ x).1
  · rcases bindU_panic.mp h with h | ⟨_, h⟩
    · obtain ⟨h1, f, h2, h3⟩ := optFormula_panic g ps hl constants _ h
      exact ⟨h1, f, .inl h2, h3⟩
    · obtain ⟨h1, f, h2, h3⟩ := optFormula_panic g ps hl constants _ h
      exact ⟨h1, f, .inr h2, h3⟩

theorem checkAction_timeout (g : TypeGraph) (ps : List Predicate) (constants : List Symbol) (a : Action) :
    checkAction g ps constants a ≠ .timeout := by
  unfold checkAction
  intro h
  rcases R.bind_timeout_iff.mp h with h | ⟨_, _, h⟩
  · exact (checkDupParams_nopanic _ .utf8).2 h
  · rcases R.bind_timeout_iff.mp h with h | ⟨_, _, h⟩
    · exact optFormula_timeout _ _ _ _ _ h
    · exact optFormula_timeout _ _ _ _ _ h

/-! ### Methods -/

theorem callee_iff {d : DomainAST} {x : Name} {ps : List Symbol} (ha : (d.actions.map (·.name)).Nodup)
    (ht : (d.tasks.map (·.name)).Nodup) : Callee d x ps ↔
      (∃ a, d.actions.find? (fun a => decide (a.name = x)) = some a ∧ ps = a.params) ∨
      (d.actions.find? (fun a => decide (a.name = x)) = none ∧
        ∃ t, d.tasks.find? (fun a => decide (a.name = x)) = some t ∧ ps = t.params) := by
  constructor
  · intro h
    cases h with
    | action h1 h2 => exact .inl ⟨_, (find_unique ha).mpr ⟨h1, h2⟩, rfl⟩
    | task h0 h1 h2 => exact .inr ⟨find_none.mpr h0, _, (find_unique ht).mpr ⟨h1, h2⟩, rfl⟩
  · rintro (⟨a, h, rfl⟩ | ⟨h0, t, h, rfl⟩)
    · have := (find_unique ha).mp h; exact .action this.1 this.2
    · have := (find_unique ht).mp h; exact .task (find_none.mp h0) this.1 this.2

theorem checkOrdering_ok (h : HTN) : checkOrdering h = .ok () ↔ Acyclic (Before h) := by
  unfold checkOrdering Acyclic
  have hb : h.orderings.isAcyclic = true ↔ ∀ x, ¬ Relation.TransGen (Before h) x x := by
    unfold Ordering.isAcyclic
    cases ho : h.orderings with
    | total =>
      simp only [true_iff]
      intro x hx
      obtain ⟨y, ⟨os, h1, _⟩, _⟩ := Relation.TransGen.head'_iff.mp hx
      rw [ho] at h1; cases h1
    | partial_ os =>
      have : Before h = Edge os := by
        funext a b
        apply propext
        unfold Before Edge
        rw [ho]
        exact ⟨fun ⟨os', h1, h2⟩ => by cases h1; exact h2, fun h => ⟨os, rfl, h⟩⟩
      rw [this]; exact isAcyclic_iff os
  rw [← hb]
  cases h.orderings.isAcyclic with
  | true => simp
  | false => simp only [Bool.false_eq_true, if_false, iff_false]; split <;> simp

theorem checkOrdering_err (h : HTN) (e : PErr) : checkOrdering h = .err e ↔
    ¬ Acyclic (Before h) ∧ ∃ pos, h.orderingPos = some pos ∧ e = .semantic (.cyclicOrdering pos) := by
  rw [← checkOrdering_ok]
  unfold checkOrdering
  cases h.orderings.isAcyclic with
  | true => simp
  | false =>
    simp only [Bool.false_eq_true, if_false]
    cases h.orderingPos <;> simp [eq_comm]

theorem checkOrdering_panic (h : HTN) (hp : ∀ os, h.orderings = .partial_ os → os ≠ [] → h.orderingPos.isSome)
    (x : Panic) : checkOrdering h ≠ .panic x := by
  unfold checkOrdering
  cases ho : h.orderings with
  | total => simp [Ordering.isAcyclic]
  | partial_ os =>
    cases os with
    | nil => simp [Ordering.isAcyclic, isAcyclic]
    | cons o os =>
      have := hp _ ho (by simp)
      obtain ⟨pos, hpos⟩ := Option.isSome_iff_exists.mp this
      rw [hpos]
      split <;> simp

theorem checkOrdering_timeout (h : HTN) : checkOrdering h ≠ .timeout := by
  unfold checkOrdering
  split
  · simp
  · split <;> simp

theorem taskConsistent_nopanic (g : TypeGraph) (task : Symbol) (terms params constants : List Symbol)
    (tasks : List Task) (actions : List Action) (x : Panic) :
    taskConsistent g task terms params constants tasks actions ≠ .panic x ∧
      taskConsistent g task terms params constants tasks actions ≠ .timeout := by
  cases h : actions.find? (fun a => decide (a.name = task.name)) with
  | some a => rw [taskConsistent_action g task terms params constants tasks actions a h]; exact checkArgs_nopanic ..
  | none =>
    cases h' : tasks.find? (fun a => decide (a.name = task.name)) with
    | some t => rw [taskConsistent_task g task terms params constants tasks actions t h h']; exact checkArgs_nopanic ..
    | none =>
      rw [taskConsistent_undef g task terms params constants tasks actions h h']
      have := argTypes_nopanic params constants terms
      cases hr : argTypes params constants terms with
      | ok => simp
      | err => simp
      | panic q => exact absurd hr (this q).1
      | timeout => exact absurd hr (this x).2

theorem checkSubtasks_nopanic (g : TypeGraph) (params constants : List Symbol) (tasks : List Task)
    (actions : List Action) (x : Panic) : ∀ l : List Subtask,
    checkSubtasks g params constants tasks actions l ≠ .panic x ∧
      checkSubtasks g params constants tasks actions l ≠ .timeout
  | [] => by simp [checkSubtasks]
  | s :: l => by
    have h1 := taskConsistent_nopanic g s.task s.terms params constants tasks actions
    have h2 := checkSubtasks_nopanic g params constants tasks actions x l
    rw [checkSubtasks]
    cases h : taskConsistent g s.task s.terms params constants tasks actions with
    | ok => exact h2
    | err => simp
    | panic q => exact absurd h (h1 q).1
    | timeout => exact absurd h (h1 x).2

theorem checkSubtasks_ok (g : TypeGraph) (params constants : List Symbol) (tasks : List Task)
    (actions : List Action) : ∀ l : List Subtask, checkSubtasks g params constants tasks actions l = .ok () ↔
      ∀ s ∈ l, taskConsistent g s.task s.terms params constants tasks actions = .ok ()
  | [] => by simp [checkSubtasks]
  | s :: l => by
    rw [checkSubtasks, bindU_ok, checkSubtasks_ok g params constants tasks actions l]
    simp

theorem checkSubtasks_err (g : TypeGraph) (params constants : List Symbol) (tasks : List Task)
    (actions : List Action) {e : PErr} : ∀ l : List Subtask, checkSubtasks g params constants tasks actions l = .err e →
      ∃ s ∈ l, taskConsistent g s.task s.terms params constants tasks actions = .err e
  | [] => by simp [checkSubtasks]
  | s :: l => by
    intro h
    rw [checkSubtasks, bindU_err] at h
    rcases h with h | ⟨_, h⟩
    · exact ⟨s, List.mem_cons_self .., h⟩
    · obtain ⟨q, hq, h'⟩ := checkSubtasks_err g params constants tasks actions l h
      exact ⟨q, List.mem_cons_of_mem _ hq, h'⟩

theorem subtask_ok (d : DomainAST) (ord : HashOrd) (ha : (d.actions.map (·.name)).Nodup)
    (ht : (d.tasks.map (·.name)).Nodup) {params : List Symbol} (hp : (params.map (·.name)).Nodup) (s : Subtask) :
    taskConsistent (TypeGraph.new d.types) s.task s.terms params (constantsOf d) (arrange ord [10] d.tasks)
        (arrange ord [11] d.actions) = .ok () ↔
      ∃ ps, Callee d s.task.name ps ∧ ArgsFit (typesOf d) [params, constantsOf d] s.terms ps := by
  have fa := find_perm (f := fun a : Action => a.name) ha (arrange_perm ord [11] d.actions) s.task.name
  have ft := find_perm (f := fun a : Task => a.name) ht (arrange_perm ord [10] d.tasks) s.task.name
  simp only [callee_iff ha ht]
  cases h : d.actions.find? (fun a => decide (a.name = s.task.name)) with
  | some a =>
    rw [taskConsistent_action _ _ _ _ _ _ _ a (fa.trans h), checkArgs_ok d _ _ hp]
    simp
  | none =>
    cases h' : d.tasks.find? (fun a => decide (a.name = s.task.name)) with
    | some t =>
      rw [taskConsistent_task _ _ _ _ _ _ _ t (fa.trans h) (ft.trans h'), checkArgs_ok d _ _ hp]
      simp
    | none =>
      rw [taskConsistent_undef _ _ _ _ _ _ _ (fa.trans h) (ft.trans h')]
      simp [R.bind_ok_iff]

theorem subtask_err (d : DomainAST) (ord : HashOrd) (ha : (d.actions.map (·.name)).Nodup)
    (ht : (d.tasks.map (·.name)).Nodup) {m : Method} (hm : m ∈ d.methods) (hp : (m.params.map (·.name)).Nodup)
    {s : Subtask} (hs : s ∈ m.tn.subtasks) {e : PErr}
    (h : taskConsistent (TypeGraph.new d.types) s.task s.terms m.params (constantsOf d) (arrange ord [10] d.tasks)
        (arrange ord [11] d.actions) = .err e) : Plain d e := by
  have fa := find_perm (f := fun a : Action => a.name) ha (arrange_perm ord [11] d.actions) s.task.name
  have ft := find_perm (f := fun a : Task => a.name) ht (arrange_perm ord [10] d.tasks) s.task.name
  have key : ∀ ps, Callee d s.task.name ps →
      checkArgs (TypeGraph.new d.types) .taskArgType (.taskArity ⟨s.task.name, ps.length, s.terms.length, s.task.pos⟩)
        m.params (constantsOf d) s.terms ps = .err e → Plain d e := by
    intro ps hc h
    rcases checkArgs_err d _ _ hp h with ⟨v, hv, hu, rfl⟩ | ⟨rfl, hl⟩ | ⟨te, rfl, hm'⟩
    · exact ⟨_, rfl, .undefTerm (.subtask hm hs) hv hu, rfl⟩
    · exact ⟨_, rfl, .subtaskArity hm hs hc hl, rfl⟩
    · exact ⟨_, rfl, .subtaskType hm hs hc hm', rfl⟩
  cases h1 : d.actions.find? (fun a => decide (a.name = s.task.name)) with
  | some a =>
    rw [taskConsistent_action _ _ _ _ _ _ _ a (fa.trans h1)] at h
    exact key _ ((callee_iff ha ht).mpr (.inl ⟨a, h1, rfl⟩)) h
  | none =>
    cases h' : d.tasks.find? (fun a => decide (a.name = s.task.name)) with
    | some t =>
      rw [taskConsistent_task _ _ _ _ _ _ _ t (fa.trans h1) (ft.trans h')] at h
      exact key _ ((callee_iff ha ht).mpr (.inr ⟨h1, t, h', rfl⟩)) h
    | none =>
      rw [taskConsistent_undef _ _ _ _ _ _ _ (fa.trans h1) (ft.trans h')] at h
      rcases R.bind_err_iff.mp h with h | ⟨_, _, h⟩
      · obtain ⟨v, hv, hu, rfl⟩ := argTypes_err hp h
        exact ⟨_, rfl, .undefTerm (.subtask hm hs) hv hu, rfl⟩
      · simp only [R.err.injEq] at h
        subst h
        refine ⟨_, rfl, .undefSubtask hm hs (fun ps hc => ?_), rfl⟩
        rcases (callee_iff ha ht).mp hc with ⟨a, h2, _⟩ | ⟨_, t, h2, _⟩
        · rw [h1] at h2; cases h2
        · rw [h'] at h2; cases h2

/-- The checks of a method, in the run with iteration order `ord`. -/
abbrev methodCheck (ord : HashOrd) (d : DomainAST) (m : Method) : R Unit :=
  checkMethod (TypeGraph.new d.types) d.predicates (constantsOf d) d.tasks (arrange ord [10] d.tasks)
    (arrange ord [11] d.actions) m

theorem methodTask_ok (d : DomainAST) (ord : HashOrd) (ht : (d.tasks.map (·.name)).Nodup) (m : Method)
    (hp : (m.params.map (·.name)).Nodup) :
    (checkMethodTask d.tasks m = .ok () ∧ taskConsistent (TypeGraph.new d.types) m.task m.taskTerms m.params
        (constantsOf d) (arrange ord [10] d.tasks) [] = .ok ()) ↔
      ∃ t ∈ d.tasks, t.name = m.task.name ∧ ArgsFit (typesOf d) [m.params, constantsOf d] m.taskTerms t.params := by
  have ft := find_perm (f := fun a : Task => a.name) ht (arrange_perm ord [10] d.tasks) m.task.name
  unfold checkMethodTask
  rw [find_swap (fun t : Task => t.name)]
  cases h' : d.tasks.find? (fun a => decide (a.name = m.task.name)) with
  | some t =>
    have hm := (find_unique ht).mp h'
    rw [taskConsistent_task _ _ _ _ _ _ _ t rfl (ft.trans h'), checkArgs_ok d _ _ hp]
    simp only
    constructor
    · rintro ⟨_, h2⟩; exact ⟨t, hm.1, hm.2, h2⟩
    · rintro ⟨t', h1, h2, h3⟩
      rw [(find_unique ht).mpr ⟨h1, h2⟩] at h'; cases h'
      exact ⟨by rw [if_neg (not_not.mpr (List.Forall₂.length_eq h3))], h3⟩
  | none =>
    simp only
    constructor
    · rintro ⟨h, _⟩; cases h
    · rintro ⟨t, h1, h2, _⟩; exact absurd h2 (find_none.mp h' t h1)

theorem checkMethod_ok (d : DomainAST) (ord : HashOrd) (hn : (d.predicates.map (·.name)).Nodup)
    (ha : (d.actions.map (·.name)).Nodup) (ht : (d.tasks.map (·.name)).Nodup) (m : Method) :
    methodCheck ord d m = .ok () ↔ MethodOk d m := by
  unfold methodCheck checkMethod
  rw [bindU_ok, bindU_ok, bindU_ok, bindU_ok, bindU_ok, checkDupParams_ok, checkSubtasks_ok, checkOrdering_ok]
  constructor
  · rintro ⟨h1, h2, h3, h4, h5, h6⟩
    exact ⟨h1, (optFormula_ok d hn h1 _).mp h2, (methodTask_ok d ord ht m h1).mp ⟨h3, h4⟩,
      fun s hs => (subtask_ok d ord ha ht h1 s).mp (h5 s hs), h6⟩
  · rintro ⟨h1, h2, h3, h4, h5⟩
    have := (methodTask_ok d ord ht m h1).mpr h3
    exact ⟨h1, (optFormula_ok d hn h1 _).mpr h2, this.1, this.2,
      fun s hs => (subtask_ok d ord ha ht h1 s).mpr (h4 s hs), h5⟩

theorem checkMethod_err (d : DomainAST) (ord : HashOrd) (ha : (d.actions.map (·.name)).Nodup)
    (ht : (d.tasks.map (·.name)).Nodup) (m : Method) (hm : m ∈ d.methods) {e : PErr}
    (h : methodCheck ord d m = .err e) :
    (∃ de, e = .semantic (.dupParameter de) ∧ Repeats (m.params.map fun s => (s.name, s.pos)) de) ∨ Plain d e ∨
      (¬ Acyclic (Before m.tn) ∧ ∃ pos, m.tn.orderingPos = some pos ∧ e = .semantic (.cyclicOrdering pos)) := by
  unfold methodCheck checkMethod at h
  rcases bindU_err.mp h with h | ⟨h0, h⟩
  · exact .inl ((checkDupParams_err _ _).mp h)
  rw [checkDupParams_ok] at h0
  refine .inr ?_
  rcases bindU_err.mp h with h | ⟨_, h⟩
  · exact .inl (optFormula_err d h0 (.method hm) m.pre (fun f hf => .method hm hf) h)
  rcases bindU_err.mp h with h | ⟨h1, h⟩
  · unfold checkMethodTask at h
    rw [find_swap (fun t : Task => t.name)] at h
    cases hf : d.tasks.find? (fun a => decide (a.name = m.task.name)) with
    | none =>
      rw [hf] at h
      simp only [R.err.injEq] at h
      subst h
      exact .inl ⟨_, rfl, .undefTask hm (find_none.mp hf), rfl⟩
    | some t =>
      have htm := (find_unique ht).mp hf
      rw [hf] at h
      simp only at h
      split at h
      · rename_i hl
        simp only [R.err.injEq] at h
        subst h
        exact .inl ⟨_, rfl, .methodArity hm htm.1 htm.2 hl, rfl⟩
      · cases h
  rcases bindU_err.mp h with h | ⟨_, h⟩
  · have ft := find_perm (f := fun a : Task => a.name) ht (arrange_perm ord [10] d.tasks) m.task.name
    unfold checkMethodTask at h1
    rw [find_swap (fun t : Task => t.name)] at h1
    cases hf : d.tasks.find? (fun a => decide (a.name = m.task.name)) with
    | none => rw [hf] at h1; cases h1
    | some t =>
      have htm := (find_unique ht).mp hf
      rw [hf] at h1
      simp only at h1
      split at h1
      · cases h1
      · rename_i hl
        rw [taskConsistent_task _ _ _ _ _ _ _ t rfl (ft.trans hf)] at h
        rcases checkArgs_err d _ _ h0 h with ⟨v, hv, hu, rfl⟩ | ⟨rfl, hl'⟩ | ⟨te, rfl, hm'⟩
        · exact .inl ⟨_, rfl, .undefTerm (.task hm) hv hu, rfl⟩
        · exact absurd hl' hl
        · exact .inl ⟨_, rfl, .methodTaskType hm htm.1 htm.2 hm', rfl⟩
  rcases bindU_err.mp h with h | ⟨_, h⟩
  · obtain ⟨s, hs, h⟩ := checkSubtasks_err _ _ _ _ _ _ h
    exact .inl (subtask_err d ord ha ht hm h0 hs h)
  · exact .inr ((checkOrdering_err _ _).mp h)

theorem checkMethod_panic (d : DomainAST) (ord : HashOrd) (m : Method) (hl : Located m.params)
    (ho : ∀ os, m.tn.orderings = .partial_ os → os ≠ [] → m.tn.orderingPos.isSome) {x : Panic}
    (h : methodCheck ord d m = .panic x) :
    x = .existsFormula ∧ ∃ f, m.pre = some f ∧ HasExists f := by
  unfold methodCheck checkMethod at h
  rcases bindU_panic.mp h with h | ⟨_, h⟩
  · exact absurd h (checkDupParams_nopanic _ x).1
  rcases bindU_panic.mp h with h | ⟨_, h⟩
  · exact optFormula_panic _ _ hl _ _ h
  rcases bindU_panic.mp h with h | ⟨_, h⟩
  · unfold checkMethodTask at h
    split at h
    · cases h
    · split at h <;> cases h
  rcases bindU_panic.mp h with h | ⟨_, h⟩
  · exact absurd h (taskConsistent_nopanic _ _ _ _ _ _ _ x).1
  rcases bindU_panic.mp h with h | ⟨_, h⟩
  · exact absurd h (checkSubtasks_nopanic _ _ _ _ _ x _).1
  · exact absurd h (checkOrdering_panic _ ho x)

theorem checkMethod_timeout (d : DomainAST) (ord : HashOrd) (m : Method) : methodCheck ord d m ≠ .timeout := by
  unfold methodCheck checkMethod
  intro h
  rcases R.bind_timeout_iff.mp h with h | ⟨_, _, h⟩
  · exact (checkDupParams_nopanic _ .utf8).2 h
  rcases R.bind_timeout_iff.mp h with h | ⟨_, _, h⟩
  · exact optFormula_timeout _ _ _ _ _ h
  rcases R.bind_timeout_iff.mp h with h | ⟨_, _, h⟩
  · unfold checkMethodTask at h
    split at h
    · cases h
    · split at h <;> cases h
  rcases R.bind_timeout_iff.mp h with h | ⟨_, _, h⟩
  · exact (taskConsistent_nopanic _ _ _ _ _ _ _ .utf8).2 h
  rcases R.bind_timeout_iff.mp h with h | ⟨_, _, h⟩
  · exact (checkSubtasks_nopanic _ _ _ _ _ .utf8 _).2 h
  · exact checkOrdering_timeout _ h

/-! ### Domains -/

/-- `checkDomain` as a chain of scans. -/
theorem checkDomain_eq (ord : HashOrd) (d : DomainAST) : checkDomain ord d =
    (checkDupReqs [] d.requirements).bind fun _ =>
    (TypeGraph.new d.types).verify.bind fun _ =>
    (scanDup (fun s : Predicate => (s.name, s.pos)) .dupPredicate
      (fun p => (TypeGraph.new d.types).checkDecls p.vars) [] d.predicates).bind fun _ =>
    (scanDup (fun s : Task => (s.name, s.pos)) .dupTask
      (fun p => (TypeGraph.new d.types).checkDecls p.params) [] d.tasks).bind fun _ =>
    (scanDup (fun s : Action => (s.name, s.pos)) .dupAction
      (checkAction (TypeGraph.new d.types) d.predicates (constantsOf d)) [] d.actions).bind fun _ =>
    scanDup (fun s : Method => (s.name.name, s.name.pos)) .dupMethod (methodCheck ord d) [] d.methods := by
  unfold checkDomain
  simp only [verifyPredicates_scan, verifyTasks_scan, verifyActions_scan, verifyMethods_scan]
  rfl

theorem checkDomain_ok (ord : HashOrd) (d : DomainAST) : checkDomain ord d = .ok () ↔ DomainOk d := by
  rw [checkDomain_eq]
  simp only [bindU_ok, scanDup_ok_nil, verify_ok, checkDecls_ok]
  have hr := checkDupReqs_ok d.requirements [] (by simp)
  rw [hr]
  simp only [List.nil_append]
  constructor
  · rintro ⟨h1, h2, ⟨h3, h4⟩, ⟨h5, h6⟩, ⟨h7, h8⟩, h9, h10⟩
    exact ⟨h1, h2, h3, h4, h5, h6, h7, fun a ha => (checkAction_ok d h3 a).mp (h8 a ha), h9,
      fun m hm => (checkMethod_ok d ord h3 h7 h5 m).mp (h10 m hm)⟩
  · rintro ⟨h1, h2, h3, h4, h5, h6, h7, h8, h9, h10⟩
    exact ⟨h1, h2, ⟨h3, h4⟩, ⟨h5, h6⟩, ⟨h7, fun a ha => (checkAction_ok d h3 a).mpr (h8 a ha)⟩, h9,
      fun m hm => (checkMethod_ok d ord h3 h7 h5 m).mpr (h10 m hm)⟩

end Verif
