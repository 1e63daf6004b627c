import Verif.Proofs.Domain

/-! Which errors are reported for a domain, and when. -/

namespace Verif

open Spec

theorem plain_not {d : DomainAST} {se : SemErr} (h : Plain d (.semantic se)) (hd : isDup se = true) : False := by
  obtain ⟨se', h1, _, h2⟩ := h
  simp only [PErr.semantic.injEq] at h1
  rw [← h1, hd] at h2; cases h2

theorem Spec.RepeatsAfter.congr {α : Type} {kp : α → Name × Nat} {p q : α → Prop} {l : List α} {e : DupErr}
    (h : ∀ x ∈ l, (p x ↔ q x)) : RepeatsAfter kp p l e ↔ RepeatsAfter kp q l e := by
  have key : ∀ {p q : α → Prop}, (∀ x ∈ l, (p x ↔ q x)) → RepeatsAfter kp p l e → RepeatsAfter kp q l e := by
    rintro p q h ⟨a, x, b, y, c, rfl, h1, h2, h3⟩
    exact ⟨a, x, b, y, c, rfl, h1, fun z hz => (h z (List.mem_append_left _ hz)).mp (h2 z hz), h3⟩
  exact ⟨key h, key fun x hx => (h x hx).symm⟩

section stages
variable (ord : HashOrd) (d : DomainAST)

abbrev scanPredicates : R Unit := scanDup (fun s : Predicate => (s.name, s.pos)) .dupPredicate
  (fun p => (TypeGraph.new d.types).checkDecls p.vars) [] d.predicates

abbrev scanTasks : R Unit := scanDup (fun s : Task => (s.name, s.pos)) .dupTask
  (fun p => (TypeGraph.new d.types).checkDecls p.params) [] d.tasks

abbrev scanActions : R Unit := scanDup (fun s : Action => (s.name, s.pos)) .dupAction
  (checkAction (TypeGraph.new d.types) d.predicates (constantsOf d)) [] d.actions

abbrev scanMethods : R Unit := scanDup (fun s : Method => (s.name.name, s.name.pos)) .dupMethod (methodCheck ord d) []
  d.methods

end stages

variable {ord : HashOrd} {d : DomainAST}

theorem scanPredicates_ok : scanPredicates d = .ok () ↔ PredicatesOk d := by
  simp only [scanPredicates, scanDup_ok_nil, checkDecls_ok, PredicatesOk]

theorem scanTasks_ok : scanTasks d = .ok () ↔ TasksOk d := by
  simp only [scanTasks, scanDup_ok_nil, checkDecls_ok, TasksOk]

theorem scanActions_ok (hn : (d.predicates.map (·.name)).Nodup) : scanActions d = .ok () ↔ ActionsOk d := by
  simp only [scanActions, scanDup_ok_nil, checkAction_ok d hn, ActionsOk]

theorem reqs_ok : checkDupReqs [] d.requirements = .ok () ↔ d.requirements.Nodup := by
  simpa using checkDupReqs_ok d.requirements [] (by simp)

theorem reqs_err {e : PErr} : checkDupReqs [] d.requirements = .err e ↔
    ∃ a r b, d.requirements = a ++ r :: b ∧ a.Nodup ∧ r ∈ a ∧ e = .semantic (.dupRequirement r) := by
  simpa using checkDupReqs_err (e := e) d.requirements [] (by simp)

/-- The error of a domain is the error of the first stage that fails. -/
theorem checkDomain_err {e : PErr} : checkDomain ord d = .err e ↔
    checkDupReqs [] d.requirements = .err e ∨
    (d.requirements.Nodup ∧ ¬ Acyclic (DirectSub (typesOf d)) ∧ e = .semantic .cyclicType) ∨
    (HeadOk d ∧ scanPredicates d = .err e) ∨
    (HeadOk d ∧ PredicatesOk d ∧ scanTasks d = .err e) ∨
    (HeadOk d ∧ PredicatesOk d ∧ TasksOk d ∧ scanActions d = .err e) ∨
    (HeadOk d ∧ PredicatesOk d ∧ TasksOk d ∧ ActionsOk d ∧ scanMethods ord d = .err e) := by
  rw [checkDomain_eq]
  simp only [bindU_err, reqs_ok, verify_ok, verify_err]
  rw [show scanDup (fun s : Predicate => (s.name, s.pos)) SemErr.dupPredicate
    (fun p => (TypeGraph.new d.types).checkDecls p.vars) [] d.predicates = scanPredicates d from rfl,
    show scanDup (fun s : Task => (s.name, s.pos)) SemErr.dupTask
    (fun p => (TypeGraph.new d.types).checkDecls p.params) [] d.tasks = scanTasks d from rfl,
    show scanDup (fun s : Action => (s.name, s.pos)) SemErr.dupAction
    (checkAction (TypeGraph.new d.types) d.predicates (constantsOf d)) [] d.actions = scanActions d from rfl,
    show scanDup (fun s : Method => (s.name.name, s.name.pos)) SemErr.dupMethod (methodCheck ord d) []
    d.methods = scanMethods ord d from rfl, scanPredicates_ok, scanTasks_ok]
  constructor
  · rintro (h | ⟨h0, (⟨h, h1⟩ | ⟨h1, (h | ⟨h2, (h | ⟨h3, (h | ⟨h4, h⟩)⟩)⟩)⟩)⟩)
    · exact .inl h
    · exact .inr (.inl ⟨h0, h1, h⟩)
    · exact .inr (.inr (.inl ⟨⟨h0, h1⟩, h⟩))
    · exact .inr (.inr (.inr (.inl ⟨⟨h0, h1⟩, h2, h⟩)))
    · exact .inr (.inr (.inr (.inr (.inl ⟨⟨h0, h1⟩, h2, h3, h⟩))))
    · exact .inr (.inr (.inr (.inr (.inr ⟨⟨h0, h1⟩, h2, h3, (scanActions_ok h2.1).mp h4, h⟩))))
  · rintro (h | ⟨h0, h1, h⟩ | ⟨⟨h0, h1⟩, h⟩ | ⟨⟨h0, h1⟩, h2, h⟩ | ⟨⟨h0, h1⟩, h2, h3, h⟩ | ⟨⟨h0, h1⟩, h2, h3, h4, h⟩)
    · exact .inl h
    · exact .inr ⟨h0, .inl ⟨h, h1⟩⟩
    · exact .inr ⟨h0, .inr ⟨h1, .inl h⟩⟩
    · exact .inr ⟨h0, .inr ⟨h1, .inr ⟨h2, .inl h⟩⟩⟩
    · exact .inr ⟨h0, .inr ⟨h1, .inr ⟨h2, .inr ⟨h3, .inl h⟩⟩⟩⟩
    · exact .inr ⟨h0, .inr ⟨h1, .inr ⟨h2, .inr ⟨h3, .inr ⟨(scanActions_ok h2.1).mpr h4, h⟩⟩⟩⟩⟩

/-! ### Kinds of errors per stage -/

theorem scan_kind {α : Type} {kp : α → Name × Nat} {mk : DupErr → SemErr} {check : α → R Unit} {l : List α} {e : PErr}
    (h : scanDup kp mk check [] l = .err e) :
    (∃ de, e = .semantic (mk de) ∧ RepeatsAfter kp (fun x => check x = .ok ()) l de) ∨
      ∃ a x c, l = a ++ x :: c ∧ ((a ++ [x]).map (fun x => (kp x).1)).Nodup ∧ (∀ y ∈ a, check y = .ok ()) ∧
        check x = .err e := by
  obtain ⟨a, x, c, rfl, h1, h2, h3⟩ := (scanDup_err_nil kp mk check l).mp h
  rcases h3 with ⟨y, hy, h4, h5⟩ | ⟨h3, h4⟩
  · obtain ⟨a1, a2, rfl⟩ := List.append_of_mem hy
    exact .inl ⟨_, h5, a1, y, a2, x, c, by simp, h1, h2, h4, rfl⟩
  · refine .inr ⟨a, x, c, rfl, ?_, h2, h4⟩
    rw [List.map_append, List.map_singleton, nodup_snoc]; exact ⟨h1, h3⟩

theorem scan_first {α : Type} {kp : α → Name × Nat} {mk : DupErr → SemErr} {check : α → R Unit} {a c : List α} {x : α}
    {e : PErr} (h1 : ((a ++ [x]).map (fun x => (kp x).1)).Nodup) (h2 : ∀ y ∈ a, check y = .ok ())
    (h3 : check x = .err e) : scanDup kp mk check [] (a ++ x :: c) = .err e := by
  rw [List.map_append, List.map_singleton, nodup_snoc] at h1
  exact (scanDup_err_nil kp mk check _).mpr ⟨a, x, c, rfl, h1.1, h2, .inr ⟨h1.2, h3⟩⟩

theorem decls_plain {l : List Symbol} (hl : ParamsOf d l) {e : PErr}
    (h : (TypeGraph.new d.types).checkDecls l = .err e) : Plain d e := by
  obtain ⟨s, hs, t, pos, h1, h2, h3, rfl⟩ := checkDecls_err d l e h
  exact ⟨_, rfl, .undefType hl hs h1 h2 h3, rfl⟩

theorem scanPredicates_kind {e : PErr} (h : scanPredicates d = .err e) :
    (∃ de, e = .semantic (.dupPredicate de) ∧
      RepeatsAfter (fun s : Predicate => (s.name, s.pos)) (fun p => TypesKnown (typesOf d) p.vars) d.predicates de) ∨
    Plain d e := by
  rcases scan_kind h with ⟨de, h1, h2⟩ | ⟨a, x, c, h1, _, _, h2⟩
  · exact .inl ⟨de, h1, (RepeatsAfter.congr fun x _ => checkDecls_ok d x.vars).mp h2⟩
  · exact .inr (decls_plain (.predicate (p := x) (by rw [h1]; simp)) h2)

theorem scanTasks_kind {e : PErr} (h : scanTasks d = .err e) :
    (∃ de, e = .semantic (.dupTask de) ∧
      RepeatsAfter (fun s : Task => (s.name, s.pos)) (fun p => TypesKnown (typesOf d) p.params) d.tasks de) ∨
    Plain d e := by
  rcases scan_kind h with ⟨de, h1, h2⟩ | ⟨a, x, c, h1, _, _, h2⟩
  · exact .inl ⟨de, h1, (RepeatsAfter.congr fun x _ => checkDecls_ok d x.params).mp h2⟩
  · exact .inr (decls_plain (.task (t := x) (by rw [h1]; simp)) h2)

theorem scanActions_kind (hn : (d.predicates.map (·.name)).Nodup) {e : PErr} (h : scanActions d = .err e) :
    (∃ de, e = .semantic (.dupAction de) ∧
      RepeatsAfter (fun s : Action => (s.name, s.pos)) (ActionOk d) d.actions de) ∨
    (∃ de, e = .semantic (.dupParameter de) ∧ BadActionParam d de) ∨ Plain d e := by
  rcases scan_kind h with ⟨de, h1, h2⟩ | ⟨a, x, c, h1, h2, h3, h4⟩
  · exact .inl ⟨de, h1, (RepeatsAfter.congr fun x _ => checkAction_ok d hn x).mp h2⟩
  · rcases checkAction_err d x (by rw [h1]; simp) h4 with ⟨de, h5, h6⟩ | h5
    · exact .inr (.inl ⟨de, h5, a, x, c, h1, h2, fun y hy => (checkAction_ok d hn y).mp (h3 y hy), h6⟩)
    · exact .inr (.inr h5)

/-- With a total order, only the last check can differ. -/
theorem methodCheck_total (hn : (d.predicates.map (·.name)).Nodup)
    (ha : (d.actions.map (·.name)).Nodup) (ht : (d.tasks.map (·.name)).Nodup) (m : Method) (pos : Nat) :
    (methodCheck ord d m = .err (.semantic (.cyclicOrdering pos)) ∧ m ∈ d.methods) ↔
      MethodOk d { m with tn := { m.tn with orderings := .total } } ∧ ¬ Acyclic (Before m.tn) ∧
        m.tn.orderingPos = some pos ∧ m ∈ d.methods := by
  have split : ∀ m : Method, methodCheck ord d m = (methodCheck ord d { m with tn := { m.tn with orderings := .total } }).bind
      fun _ => checkOrdering m.tn := by
    intro m
    unfold methodCheck checkMethod
    cases checkDupParams [] m.params <;> try rfl
    cases checkOptFormula (TypeGraph.new d.types) d.predicates m.params (constantsOf d) m.pre <;> try rfl
    have : checkMethodTask d.tasks { m with tn := { m.tn with orderings := .total } } = checkMethodTask d.tasks m := rfl
    rw [this]
    cases checkMethodTask d.tasks m <;> try rfl
    cases taskConsistent (TypeGraph.new d.types) m.task m.taskTerms m.params (constantsOf d)
      (arrange ord [10] d.tasks) [] <;> try rfl
    cases checkSubtasks (TypeGraph.new d.types) m.params (constantsOf d) (arrange ord [10] d.tasks)
      (arrange ord [11] d.actions) m.tn.subtasks <;> rfl
  constructor
  · rintro ⟨h, hm⟩
    rw [split] at h
    rcases bindU_err.mp h with h' | ⟨h1, h2⟩
    · -- the other checks never report a cycle
      exfalso
      unfold methodCheck checkMethod at h'
      rw [show checkMethodTask d.tasks { m with tn := { m.tn with orderings := .total } } = checkMethodTask d.tasks m
        from rfl] at h'
      have hd : ∀ {e : PErr}, methodCheck ord d m = .err e → _ := @checkMethod_err d ord ha ht m hm
      rcases bindU_err.mp h' with h1 | ⟨h0, h'⟩
      · obtain ⟨_, h1, _⟩ := (checkDupParams_err _ _).mp h1; cases h1
      rw [checkDupParams_ok] at h0
      rcases bindU_err.mp h' with h1 | ⟨_, h'⟩
      · exact plain_not (optFormula_err d h0 (ParamsOf.method (m := m) hm) m.pre
          (fun f hf => FormulaOf.method (m := m) hm hf) h1) rfl
      rcases bindU_err.mp h' with h1 | ⟨_, h'⟩
      · unfold checkMethodTask at h1
        split at h1
        · cases h1
        · split at h1 <;> cases h1
      rcases bindU_err.mp h' with h1 | ⟨_, h'⟩
      · have : ∀ (a : List Action), taskConsistent (TypeGraph.new d.types) m.task m.taskTerms m.params (constantsOf d)
            (arrange ord [10] d.tasks) a ≠ .err (.semantic (.cyclicOrdering pos)) := by
          intro a h1
          have key : ∀ (fs : List Symbol) (ar : ArityErr), checkArgs (TypeGraph.new d.types) .taskArgType
              (.taskArity ar) m.params (constantsOf d) m.taskTerms fs ≠ .err (.semantic (.cyclicOrdering pos)) := by
            intro fs ar h
            rcases checkArgs_err d _ _ h0 h with ⟨v, _, _, h⟩ | ⟨h, _⟩ | ⟨_, h, _⟩ <;> cases h
          cases hf : a.find? (fun a => decide (a.name = m.task.name)) with
          | some x => rw [taskConsistent_action _ _ _ _ _ _ _ x hf] at h1; exact key _ _ h1
          | none =>
            cases hf' : (arrange ord [10] d.tasks).find? (fun a => decide (a.name = m.task.name)) with
            | some t => rw [taskConsistent_task _ _ _ _ _ _ _ t hf hf'] at h1; exact key _ _ h1
            | none =>
              rw [taskConsistent_undef _ _ _ _ _ _ _ hf hf'] at h1
              rcases R.bind_err_iff.mp h1 with h1 | ⟨_, _, h1⟩
              · obtain ⟨_, _, _, h1⟩ := argTypes_err h0 h1; cases h1
              · cases h1
        exact this _ h1
      rcases bindU_err.mp h' with h1 | ⟨_, h'⟩
      · obtain ⟨s, hs, h1⟩ := checkSubtasks_err _ _ _ _ _ _ h1
        exact plain_not (subtask_err d ord ha ht hm h0 hs h1) rfl
      · unfold checkOrdering at h'
        simp [Ordering.isAcyclic] at h'
    · obtain ⟨h3, p, h4, h5⟩ := (checkOrdering_err _ _).mp h2
      cases h5
      exact ⟨(checkMethod_ok d ord hn ha ht _).mp h1, h3, h4, hm⟩
  · rintro ⟨h1, h2, h3, hm⟩
    refine ⟨?_, hm⟩
    rw [split, (checkMethod_ok d ord hn ha ht _).mpr h1]
    exact (checkOrdering_err _ _).mpr ⟨h2, pos, h3, rfl⟩

theorem scanMethods_kind (hn : (d.predicates.map (·.name)).Nodup)
    (ha : (d.actions.map (·.name)).Nodup) (ht : (d.tasks.map (·.name)).Nodup) {e : PErr}
    (h : scanMethods ord d = .err e) :
    (∃ de, e = .semantic (.dupMethod de) ∧
      RepeatsAfter (fun s : Method => (s.name.name, s.name.pos)) (MethodOk d) d.methods de) ∨
    (∃ de, e = .semantic (.dupParameter de) ∧ BadMethodParam d de) ∨
    (∃ pos, e = .semantic (.cyclicOrdering pos) ∧ BadOrdering d pos) ∨ Plain d e := by
  rcases scan_kind h with ⟨de, h1, h2⟩ | ⟨a, x, c, h1, h2, h3, h4⟩
  · exact .inl ⟨de, h1, (RepeatsAfter.congr fun x _ => checkMethod_ok d ord hn ha ht x).mp h2⟩
  · have hx : x ∈ d.methods := by rw [h1]; simp
    have hok : ∀ y ∈ a, MethodOk d y := fun y hy => (checkMethod_ok d ord hn ha ht y).mp (h3 y hy)
    rcases checkMethod_err d ord ha ht x hx h4 with ⟨de, h5, h6⟩ | h5 | ⟨h5, pos, h6, rfl⟩
    · exact .inr (.inl ⟨de, h5, a, x, c, h1, h2, hok, h6⟩)
    · exact .inr (.inr (.inr h5))
    · have := (methodCheck_total hn ha ht x pos).mp ⟨h4, hx⟩
      exact .inr (.inr (.inl ⟨pos, rfl, a, x, c, h1, h2, hok, this.1, h5, h6⟩))

/-! ### Truth of reports -/

theorem cyclic_of_not {α : Type} {r : α → α → Prop} (h : ¬ Acyclic r) : ∃ x, Relation.TransGen r x x := by
  unfold Acyclic at h
  simpa using h

/-- Every error of a domain is a semantic error that is true of the domain. -/
theorem checkDomain_report {e : PErr} (h : checkDomain ord d = .err e) : ∃ se, e = .semantic se ∧ DomainReport d se := by
  rcases checkDomain_err.mp h with h | ⟨_, h1, rfl⟩ | ⟨_, h⟩ | ⟨_, _, h⟩ | ⟨_, h2, _, h⟩ | ⟨_, h2, h3, h4, h⟩
  · obtain ⟨a, r, b, h1, h2, h3, rfl⟩ := reqs_err.mp h
    obtain ⟨a1, a2, rfl⟩ := List.append_of_mem h3
    exact ⟨_, rfl, .dupRequirement (by simpa using h1) h2⟩
  · obtain ⟨x, hx⟩ := cyclic_of_not h1
    exact ⟨_, rfl, .cyclicType hx⟩
  · rcases scanPredicates_kind h with ⟨de, rfl, h'⟩ | ⟨se, h1, h2, _⟩
    · exact ⟨_, rfl, .dupPredicate h'.repeats⟩
    · exact ⟨se, h1, h2⟩
  · rcases scanTasks_kind h with ⟨de, rfl, h'⟩ | ⟨se, h1, h2, _⟩
    · exact ⟨_, rfl, .dupTask h'.repeats⟩
    · exact ⟨se, h1, h2⟩
  · rcases scanActions_kind h2.1 h with ⟨de, rfl, h'⟩ | ⟨de, rfl, a, x, c, h1, _, _, h'⟩ | ⟨se, h1, h2, _⟩
    · exact ⟨_, rfl, .dupAction h'.repeats⟩
    · exact ⟨_, rfl, .dupActionParameter (by rw [h1]; simp) h'⟩
    · exact ⟨se, h1, h2⟩
  · rcases scanMethods_kind h2.1 h4.1 h3.1 h with ⟨de, rfl, h'⟩ | ⟨de, rfl, a, x, c, h1, _, _, h'⟩ |
      ⟨pos, rfl, a, x, c, h1, _, _, _, h5, h6⟩ | ⟨se, h1, h2, _⟩
    · exact ⟨_, rfl, .dupMethod h'.repeats⟩
    · exact ⟨_, rfl, .dupMethodParameter (by rw [h1]; simp) h'⟩
    · obtain ⟨y, hy⟩ := cyclic_of_not h5
      exact ⟨_, rfl, .cyclicOrdering (m := x) (by rw [h1]; simp) hy h6⟩
    · exact ⟨se, h1, h2⟩

/-! ### When each repetition or cycle is reported -/

theorem dupRequirement_iff {r : Req} : checkDomain ord d = .err (.semantic (.dupRequirement r)) ↔
    ∃ a b, d.requirements = a ++ r :: b ∧ a.Nodup ∧ r ∈ a := by
  rw [checkDomain_err, reqs_err]
  constructor
  · rintro (⟨a, r', b, h1, h2, h3, h4⟩ | ⟨_, _, h⟩ | ⟨_, h⟩ | ⟨_, _, h⟩ | ⟨_, h2, _, h⟩ | ⟨_, h2, h3, h4, h⟩)
    · cases h4; exact ⟨a, b, h1, h2, h3⟩
    · cases h
    · rcases scanPredicates_kind h with ⟨_, h, _⟩ | h
      · cases h
      · exact (plain_not h rfl).elim
    · rcases scanTasks_kind h with ⟨_, h, _⟩ | h
      · cases h
      · exact (plain_not h rfl).elim
    · rcases scanActions_kind h2.1 h with ⟨_, h, _⟩ | ⟨_, h, _⟩ | h
      · cases h
      · cases h
      · exact (plain_not h rfl).elim
    · rcases scanMethods_kind h2.1 h4.1 h3.1 h with ⟨_, h, _⟩ | ⟨_, h, _⟩ | ⟨_, h, _⟩ | h
      · cases h
      · cases h
      · cases h
      · exact (plain_not h rfl).elim
  · rintro ⟨a, b, h1, h2, h3⟩; exact .inl ⟨a, r, b, h1, h2, h3, rfl⟩

theorem cyclicType_iff : checkDomain ord d = .err (.semantic .cyclicType) ↔
    d.requirements.Nodup ∧ ¬ Acyclic (DirectSub (typesOf d)) := by
  rw [checkDomain_err, reqs_err]
  constructor
  · rintro (⟨_, _, _, _, _, _, h⟩ | ⟨h1, h2, _⟩ | ⟨_, h⟩ | ⟨_, _, h⟩ | ⟨_, h2, _, h⟩ | ⟨_, h2, h3, h4, h⟩)
    · cases h
    · exact ⟨h1, h2⟩
    · rcases scanPredicates_kind h with ⟨_, h, _⟩ | h
      · cases h
      · exact (plain_not h rfl).elim
    · rcases scanTasks_kind h with ⟨_, h, _⟩ | h
      · cases h
      · exact (plain_not h rfl).elim
    · rcases scanActions_kind h2.1 h with ⟨_, h, _⟩ | ⟨_, h, _⟩ | h
      · cases h
      · cases h
      · exact (plain_not h rfl).elim
    · rcases scanMethods_kind h2.1 h4.1 h3.1 h with ⟨_, h, _⟩ | ⟨_, h, _⟩ | ⟨_, h, _⟩ | h
      · cases h
      · cases h
      · cases h
      · exact (plain_not h rfl).elim
  · rintro ⟨h1, h2⟩; exact .inr (.inl ⟨h1, h2, rfl⟩)

theorem dupPredicate_iff {e : DupErr} : checkDomain ord d = .err (.semantic (.dupPredicate e)) ↔
    HeadOk d ∧ RepeatsAfter (fun s : Predicate => (s.name, s.pos)) (fun p => TypesKnown (typesOf d) p.vars)
      d.predicates e := by
  rw [checkDomain_err, reqs_err]
  constructor
  · rintro (⟨_, _, _, _, _, _, h⟩ | ⟨_, _, h⟩ | ⟨h0, h⟩ | ⟨_, _, h⟩ | ⟨_, h2, _, h⟩ | ⟨_, h2, h3, h4, h⟩)
    · cases h
    · cases h
    · rcases scanPredicates_kind h with ⟨_, h, h'⟩ | h
      · cases h; exact ⟨h0, h'⟩
      · exact (plain_not h rfl).elim
    · rcases scanTasks_kind h with ⟨_, h, _⟩ | h
      · cases h
      · exact (plain_not h rfl).elim
    · rcases scanActions_kind h2.1 h with ⟨_, h, _⟩ | ⟨_, h, _⟩ | h
      · cases h
      · cases h
      · exact (plain_not h rfl).elim
    · rcases scanMethods_kind h2.1 h4.1 h3.1 h with ⟨_, h, _⟩ | ⟨_, h, _⟩ | ⟨_, h, _⟩ | h
      · cases h
      · cases h
      · cases h
      · exact (plain_not h rfl).elim
  · rintro ⟨h1, h2⟩
    refine .inr (.inr (.inl ⟨h1, ?_⟩))
    rw [scanPredicates, scanDup_dup _ SemErr.dupPredicate (by intro a b h; cases h; rfl)]
    · exact (RepeatsAfter.congr fun x _ => checkDecls_ok d x.vars).mpr h2
    · intro x hx h
      exact plain_not (decls_plain (.predicate hx) h) rfl

theorem dupTask_iff {e : DupErr} : checkDomain ord d = .err (.semantic (.dupTask e)) ↔
    HeadOk d ∧ PredicatesOk d ∧
      RepeatsAfter (fun s : Task => (s.name, s.pos)) (fun p => TypesKnown (typesOf d) p.params) d.tasks e := by
  rw [checkDomain_err, reqs_err]
  constructor
  · rintro (⟨_, _, _, _, _, _, h⟩ | ⟨_, _, h⟩ | ⟨h0, h⟩ | ⟨h1, h2, h⟩ | ⟨_, h2, _, h⟩ | ⟨_, h2, h3, h4, h⟩)
    · cases h
    · cases h
    · rcases scanPredicates_kind h with ⟨_, h, h'⟩ | h
      · cases h
      · exact (plain_not h rfl).elim
    · rcases scanTasks_kind h with ⟨_, h, h'⟩ | h
      · cases h; exact ⟨h1, h2, h'⟩
      · exact (plain_not h rfl).elim
    · rcases scanActions_kind h2.1 h with ⟨_, h, _⟩ | ⟨_, h, _⟩ | h
      · cases h
      · cases h
      · exact (plain_not h rfl).elim
    · rcases scanMethods_kind h2.1 h4.1 h3.1 h with ⟨_, h, _⟩ | ⟨_, h, _⟩ | ⟨_, h, _⟩ | h
      · cases h
      · cases h
      · cases h
      · exact (plain_not h rfl).elim
  · rintro ⟨h1, h2, h3⟩
    refine .inr (.inr (.inr (.inl ⟨h1, h2, ?_⟩)))
    rw [scanTasks, scanDup_dup _ SemErr.dupTask (by intro a b h; cases h; rfl)]
    · exact (RepeatsAfter.congr fun x _ => checkDecls_ok d x.params).mpr h3
    · intro x hx h
      exact plain_not (decls_plain (.task hx) h) rfl

theorem dupAction_iff {e : DupErr} : checkDomain ord d = .err (.semantic (.dupAction e)) ↔
    HeadOk d ∧ PredicatesOk d ∧ TasksOk d ∧
      RepeatsAfter (fun s : Action => (s.name, s.pos)) (ActionOk d) d.actions e := by
  rw [checkDomain_err, reqs_err]
  constructor
  · rintro (⟨_, _, _, _, _, _, h⟩ | ⟨_, _, h⟩ | ⟨h0, h⟩ | ⟨h1, h2, h⟩ | ⟨h1, h2, h3, h⟩ | ⟨_, h2, h3, h4, h⟩)
    · cases h
    · cases h
    · rcases scanPredicates_kind h with ⟨_, h, h'⟩ | h
      · cases h
      · exact (plain_not h rfl).elim
    · rcases scanTasks_kind h with ⟨_, h, h'⟩ | h
      · cases h
      · exact (plain_not h rfl).elim
    · rcases scanActions_kind h2.1 h with ⟨_, h, h'⟩ | ⟨_, h, _⟩ | h
      · cases h; exact ⟨h1, h2, h3, h'⟩
      · cases h
      · exact (plain_not h rfl).elim
    · rcases scanMethods_kind h2.1 h4.1 h3.1 h with ⟨_, h, _⟩ | ⟨_, h, _⟩ | ⟨_, h, _⟩ | h
      · cases h
      · cases h
      · cases h
      · exact (plain_not h rfl).elim
  · rintro ⟨h1, h2, h3, h4⟩
    refine .inr (.inr (.inr (.inr (.inl ⟨h1, h2, h3, ?_⟩))))
    rw [scanActions, scanDup_dup _ SemErr.dupAction (by intro a b h; cases h; rfl)]
    · exact (RepeatsAfter.congr fun x _ => checkAction_ok d h2.1 x).mpr h4
    · intro x hx h
      rcases checkAction_err d x hx h with ⟨_, h, _⟩ | h
      · cases h
      · exact plain_not h rfl

theorem dupMethod_iff {e : DupErr} : checkDomain ord d = .err (.semantic (.dupMethod e)) ↔
    HeadOk d ∧ PredicatesOk d ∧ TasksOk d ∧ ActionsOk d ∧
      RepeatsAfter (fun s : Method => (s.name.name, s.name.pos)) (MethodOk d) d.methods e := by
  rw [checkDomain_err, reqs_err]
  constructor
  · rintro (⟨_, _, _, _, _, _, h⟩ | ⟨_, _, h⟩ | ⟨h0, h⟩ | ⟨h1, h2, h⟩ | ⟨h1, h2, h3, h⟩ | ⟨h1, h2, h3, h4, h⟩)
    · cases h
    · cases h
    · rcases scanPredicates_kind h with ⟨_, h, h'⟩ | h
      · cases h
      · exact (plain_not h rfl).elim
    · rcases scanTasks_kind h with ⟨_, h, h'⟩ | h
      · cases h
      · exact (plain_not h rfl).elim
    · rcases scanActions_kind h2.1 h with ⟨_, h, h'⟩ | ⟨_, h, _⟩ | h
      · cases h
      · cases h
      · exact (plain_not h rfl).elim
    · rcases scanMethods_kind h2.1 h4.1 h3.1 h with ⟨_, h, h'⟩ | ⟨_, h, _⟩ | ⟨_, h, _⟩ | h
      · cases h; exact ⟨h1, h2, h3, h4, h'⟩
      · cases h
      · cases h
      · exact (plain_not h rfl).elim
  · rintro ⟨h1, h2, h3, h4, h5⟩
    refine .inr (.inr (.inr (.inr (.inr ⟨h1, h2, h3, h4, ?_⟩))))
    rw [scanMethods, scanDup_dup _ SemErr.dupMethod (by intro a b h; cases h; rfl)]
    · exact (RepeatsAfter.congr fun x _ => checkMethod_ok d ord h2.1 h4.1 h3.1 x).mpr h5
    · intro x hx h
      rcases checkMethod_err d ord h4.1 h3.1 x hx h with ⟨_, h, _⟩ | h | ⟨_, _, _, h⟩
      · cases h
      · exact plain_not h rfl
      · cases h

theorem dupParameter_iff {e : DupErr} : checkDomain ord d = .err (.semantic (.dupParameter e)) ↔
    HeadOk d ∧ PredicatesOk d ∧ TasksOk d ∧ (BadActionParam d e ∨ (ActionsOk d ∧ BadMethodParam d e)) := by
  rw [checkDomain_err, reqs_err]
  constructor
  · rintro (⟨_, _, _, _, _, _, h⟩ | ⟨_, _, h⟩ | ⟨h0, h⟩ | ⟨h1, h2, h⟩ | ⟨h1, h2, h3, h⟩ | ⟨h1, h2, h3, h4, h⟩)
    · cases h
    · cases h
    · rcases scanPredicates_kind h with ⟨_, h, h'⟩ | h
      · cases h
      · exact (plain_not h rfl).elim
    · rcases scanTasks_kind h with ⟨_, h, h'⟩ | h
      · cases h
      · exact (plain_not h rfl).elim
    · rcases scanActions_kind h2.1 h with ⟨_, h, h'⟩ | ⟨_, h, h'⟩ | h
      · cases h
      · cases h; exact ⟨h1, h2, h3, .inl h'⟩
      · exact (plain_not h rfl).elim
    · rcases scanMethods_kind h2.1 h4.1 h3.1 h with ⟨_, h, h'⟩ | ⟨_, h, h'⟩ | ⟨_, h, _⟩ | h
      · cases h
      · cases h; exact ⟨h1, h2, h3, .inr ⟨h4, h'⟩⟩
      · cases h
      · exact (plain_not h rfl).elim
  · rintro ⟨h1, h2, h3, (⟨a, x, c, h4, h5, h6, h7⟩ | ⟨h4, a, x, c, h5, h6, h7, h8⟩)⟩
    · refine .inr (.inr (.inr (.inr (.inl ⟨h1, h2, h3, ?_⟩))))
      rw [scanActions, h4]
      refine scan_first h5 (fun y hy => (checkAction_ok d h2.1 y).mpr (h6 y hy)) ?_
      unfold checkAction
      rw [(checkDupParams_err _ _).mpr ⟨e, rfl, h7⟩, R.bind_err]
    · refine .inr (.inr (.inr (.inr (.inr ⟨h1, h2, h3, h4, ?_⟩))))
      rw [scanMethods, h5]
      refine scan_first h6 (fun y hy => (checkMethod_ok d ord h2.1 h4.1 h3.1 y).mpr (h7 y hy)) ?_
      unfold methodCheck checkMethod
      rw [(checkDupParams_err _ _).mpr ⟨e, rfl, h8⟩, R.bind_err]

theorem cyclicOrdering_iff {pos : Nat} : checkDomain ord d = .err (.semantic (.cyclicOrdering pos)) ↔
    HeadOk d ∧ PredicatesOk d ∧ TasksOk d ∧ ActionsOk d ∧ BadOrdering d pos := by
  rw [checkDomain_err, reqs_err]
  constructor
  · rintro (⟨_, _, _, _, _, _, h⟩ | ⟨_, _, h⟩ | ⟨h0, h⟩ | ⟨h1, h2, h⟩ | ⟨h1, h2, h3, h⟩ | ⟨h1, h2, h3, h4, h⟩)
    · cases h
    · cases h
    · rcases scanPredicates_kind h with ⟨_, h, h'⟩ | h
      · cases h
      · exact (plain_not h rfl).elim
    · rcases scanTasks_kind h with ⟨_, h, h'⟩ | h
      · cases h
      · exact (plain_not h rfl).elim
    · rcases scanActions_kind h2.1 h with ⟨_, h, h'⟩ | ⟨_, h, h'⟩ | h
      · cases h
      · cases h
      · exact (plain_not h rfl).elim
    · rcases scanMethods_kind h2.1 h4.1 h3.1 h with ⟨_, h, h'⟩ | ⟨_, h, h'⟩ | ⟨_, h, h'⟩ | h
      · cases h
      · cases h
      · cases h; exact ⟨h1, h2, h3, h4, h'⟩
      · exact (plain_not h rfl).elim
  · rintro ⟨h1, h2, h3, h4, a, x, c, h5, h6, h7, h8, h9, h10⟩
    refine .inr (.inr (.inr (.inr (.inr ⟨h1, h2, h3, h4, ?_⟩))))
    rw [scanMethods, h5]
    refine scan_first h6 (fun y hy => (checkMethod_ok d ord h2.1 h4.1 h3.1 y).mpr (h7 y hy)) ?_
    exact ((methodCheck_total h2.1 h4.1 h3.1 x pos).mpr ⟨h8, h9, h10, by rw [h5]; simp⟩).1

/-! ### Panics -/

/-- Every type in the domain has a position, and so has every non-empty ordering (the parser guarantees both). -/
structure Positioned (d : DomainAST) : Prop where
  params : ∀ l, ParamsOf d l → Located l
  orderings : ∀ m ∈ d.methods, ∀ os, m.tn.orderings = .partial_ os → os ≠ [] → m.tn.orderingPos.isSome

theorem checkDomain_panic (hp : Positioned d) {x : Panic} (h : checkDomain ord d = .panic x) :
    x = .existsFormula ∧ ∃ l f, FormulaOf d l f ∧ HasExists f := by
  rw [checkDomain_eq] at h
  rcases bindU_panic.mp h with h | ⟨_, h⟩
  · exact absurd h (checkDupReqs_nopanic x _ _).1
  rcases bindU_panic.mp h with h | ⟨_, h⟩
  · exact absurd h (verify_panic _ x)
  rcases bindU_panic.mp h with h | ⟨_, h⟩
  · obtain ⟨p, hm, h⟩ := scanDup_panic _ _ _ _ _ h
    exact absurd h (checkDecls_panic _ _ (hp.params _ (.predicate hm)) x)
  rcases bindU_panic.mp h with h | ⟨_, h⟩
  · obtain ⟨p, hm, h⟩ := scanDup_panic _ _ _ _ _ h
    exact absurd h (checkDecls_panic _ _ (hp.params _ (.task hm)) x)
  rcases bindU_panic.mp h with h | ⟨_, h⟩
  · obtain ⟨a, hm, h⟩ := scanDup_panic _ _ _ _ _ h
    obtain ⟨h1, f, h2 | h2, h3⟩ := checkAction_panic _ _ _ a (hp.params _ (.action hm)) h
    · exact ⟨h1, _, f, .pre hm h2, h3⟩
    · exact ⟨h1, _, f, .eff hm h2, h3⟩
  · obtain ⟨m, hm, h⟩ := scanDup_panic _ _ _ _ _ h
    obtain ⟨h1, f, h2, h3⟩ := checkMethod_panic d ord m (hp.params _ (.method hm)) (hp.orderings m hm) h
    exact ⟨h1, _, f, .method hm h2, h3⟩

theorem checkDomain_timeout : checkDomain ord d ≠ .timeout := by
  rw [checkDomain_eq]
  intro h
  rcases R.bind_timeout_iff.mp h with h | ⟨_, _, h⟩
  · exact (checkDupReqs_nopanic .utf8 _ _).2 h
  rcases R.bind_timeout_iff.mp h with h | ⟨_, _, h⟩
  · unfold TypeGraph.verify at h; split at h <;> cases h
  rcases R.bind_timeout_iff.mp h with h | ⟨_, _, h⟩
  · exact scanDup_timeout _ _ _ (fun x => checkDecls_timeout _ _) _ _ h
  rcases R.bind_timeout_iff.mp h with h | ⟨_, _, h⟩
  · exact scanDup_timeout _ _ _ (fun x => checkDecls_timeout _ _) _ _ h
  rcases R.bind_timeout_iff.mp h with h | ⟨_, _, h⟩
  · exact scanDup_timeout _ _ _ (fun x => checkAction_timeout _ _ _ _) _ _ h
  · exact scanDup_timeout _ _ _ (fun x => checkMethod_timeout _ _ _) _ _ h

end Verif
