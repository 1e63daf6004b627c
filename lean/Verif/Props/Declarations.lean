import Verif.Proofs.Outline
import Verif.Props.Changes
import Verif.Props.Clash
import Verif.Props.Recursion

/-! C76 and C77: how the metadata and the warnings change with the declarations of a domain. -/

namespace Verif

open Spec

variable [Env] {ord ord' : HashOrd} {f f' : Bytes} {prob prob' : Option Bytes} {d d' : DomainAST} {md md' : MetaData}

/-! ### The parts of a rearranged or extended domain -/

omit [Env] in
theorem taskNames_rn (d : DomainAST) : (rnDomain id d).tasks.map (·.name) = d.tasks.map (·.name) := by
  simp [rnDomain, rnTask, Function.comp_def]

omit [Env] in
theorem actionNames_rn (d : DomainAST) : (rnDomain id d).actions.map (·.name) = d.actions.map (·.name) := by
  simp [rnDomain, rnAction, Function.comp_def]

omit [Env] in
theorem actionName_iff {x : Name} : ActionName d x ↔ x ∈ d.actions.map (·.name) := by simp [ActionName]

omit [Env] in
theorem Spec.Rearranged.covered (h : Rearranged (rnDomain id d) (rnDomain id d')) : Covered d d' :=
  covered_of_sub fun _ => h.methods.mem_iff.mp

omit [Env] in
theorem Spec.Rearranged.taskNames (h : Rearranged (rnDomain id d) (rnDomain id d')) :
    (d.tasks.map (·.name)).Perm (d'.tasks.map (·.name)) := by
  rw [← taskNames_rn d, ← taskNames_rn d']
  exact h.tasks.map _

omit [Env] in
theorem Spec.Rearranged.actionNames (h : Rearranged (rnDomain id d) (rnDomain id d')) :
    (d.actions.map (·.name)).Perm (d'.actions.map (·.name)) := by
  rw [← actionNames_rn d, ← actionNames_rn d']
  exact h.actions.map _

omit [Env] in
theorem Spec.Rearranged.actionName (h : Rearranged (rnDomain id d) (rnDomain id d')) (x : Name) : ActionName d x ↔ ActionName d' x := by
  rw [actionName_iff, actionName_iff, h.actionNames.mem_iff]

omit [Env] in
theorem Spec.Rearranged.ambiguous (h : Rearranged (rnDomain id d) (rnDomain id d')) (x : Name) : Ambiguous d x ↔ Ambiguous d' x := by
  unfold Ambiguous
  rw [(h.taskNames.append h.actionNames).count_eq]

omit [Env] in
theorem Spec.Rearranged.erasable (h : Rearranged (rnDomain id d) (rnDomain id d')) (x : Name) : Erasable d x ↔ Erasable d' x :=
  ⟨h.covered.erasable fun _ _ => (h.actionName _).mpr, h.symm.covered.erasable fun _ _ => (h.actionName _).mp⟩

omit [Env] in
theorem Spec.Rearranged.uniform (h : Rearranged (rnDomain id d) (rnDomain id d')) (hu : Uniform d) : Uniform d' := by
  obtain ⟨φ, h1, h2⟩ := h.symm.covered
  rintro m hm ⟨s, hs, he⟩
  rw [← h.erasable, ← outline_task (h1 m)]
  refine hu _ (h2 m hm) ?_
  obtain ⟨k, hk, hks⟩ := (exists_sub m.tn _).mp ⟨s, hs, rfl⟩
  obtain ⟨s', hs', h3⟩ := (exists_sub (φ m).tn s.task.name).mpr ⟨k, by rw [outline_keys (h1 m)]; exact hk, hks⟩
  exact ⟨s', hs', by rw [h3, h.erasable]; exact he⟩

omit [Env] in
theorem Spec.Extends.covered (h : Extends (rnDomain id d) (rnDomain id d')) : Covered d d' := covered_of_sub h.methods

omit [Env] in
theorem Spec.Extends.actionName (h : Extends (rnDomain id d) (rnDomain id d')) {x : Name} (hx : ActionName d x) : ActionName d' x := by
  rw [actionName_iff, ← actionNames_rn, List.mem_map] at hx ⊢
  obtain ⟨a, ha, rfl⟩ := hx
  exact ⟨a, h.actions a ha, rfl⟩

omit [Env] in
theorem Spec.Extends.taskName (h : Extends (rnDomain id d) (rnDomain id d')) {x : Name} (hx : x ∈ d.tasks.map (·.name)) :
    x ∈ d'.tasks.map (·.name) := by
  rw [← taskNames_rn, List.mem_map] at hx ⊢
  obtain ⟨a, ha, rfl⟩ := hx
  exact ⟨a, h.tasks a ha, rfl⟩

omit [Env] in
theorem resolved_covered (h : Covered d' d) (ht : ∀ x ∈ d.tasks.map (·.name), x ∈ d'.tasks.map (·.name))
    (ha : ∀ x ∈ d.actions.map (·.name), x ∈ d'.actions.map (·.name)) (hr : Resolved d) : Resolved d' := by
  obtain ⟨φ, h1, h2⟩ := h
  intro m hm x hx
  refine (hr (φ m) (h2 m hm) x ?_).imp (ht x) (ha x)
  rw [List.mem_cons, List.mem_map] at hx ⊢
  rw [exists_sub, outline_keys (h1 m), outline_task (h1 m), ← exists_sub]
  exact hx

/-! ### C76: the order of declarations -/

theorem computed_rearranged (hf : Parses f (.domain d)) (hf' : Parses f' (.domain d'))
    (h : Rearranged (rnDomain id d) (rnDomain id d')) (hm : ∃ md, Metadata ord f md) : ∃ md, Metadata ord' f' md := by
  rw [C37_returns_iff hf] at hm
  rw [C37_returns_iff hf']
  obtain ⟨h1, h2, h3⟩ := hm
  refine ⟨resolved_covered h.symm.covered (fun x => h.taskNames.mem_iff.mp) (fun x => h.actionNames.mem_iff.mp) h1, fun h4 => ?_, ?_⟩
  · have h5 := h.taskNames
    rw [h4] at h5
    exact h2 (List.map_eq_nil_iff.mp h5.eq_nil)
  · obtain ⟨φ, h4, h5⟩ := h.symm.covered
    intro m hm s hs hr
    rw [← tractable_outline (h4 m)]
    obtain ⟨s', hs', h6⟩ : ∃ s' ∈ (φ m).tn.subtasks, s'.task.name = s.task.name := by
      rw [exists_sub, outline_keys (h4 m), ← exists_sub]
      exact ⟨s, hs, rfl⟩
    rw [← h6]
    refine h3 (φ m) (h5 m hm) s' hs' ?_
    rw [h6, outline_task (h4 m)]
    exact h.symm.covered.refl_trans hr

/-- C76: whether the metadata can be computed does not depend on the order of the declarations. -/
theorem C76_computed (hf : Parses f (.domain d)) (hf' : Parses f' (.domain d'))
    (h : Rearranged (rnDomain id d) (rnDomain id d')) : (∃ md, Metadata ord f md) ↔ ∃ md, Metadata ord' f' md :=
  ⟨computed_rearranged hf hf' h, computed_rearranged hf' hf h.symm⟩

theorem class_rearranged (hf : Parses f (.domain d)) (hf' : Parses f' (.domain d'))
    (h : Rearranged (rnDomain id d) (rnDomain id d')) (hm : Metadata ord f md) (hm' : Metadata ord' f' md')
    (hn : ∀ x, x ∈ md.nullables ↔ x ∈ md'.nullables) : md.recursion.cls = md'.recursion.cls :=
  rank_injective (Nat.le_antisymm
    (h.covered.rank (fun _ _ => (h.ambiguous _).mpr) (fun x => (hn x).mp) (C49_exact hf hm).1 (C49_exact hf' hm').1)
    (h.symm.covered.rank (fun _ _ => (h.ambiguous _).mp) (fun x => (hn x).mpr) (C49_exact hf' hm').1 (C49_exact hf hm).1))

/-- C76: the counts, whether the domain is recursive and, if the same tasks are reported to be nullable, the class of the
recursion do not depend on the order of the declarations. -/
theorem C76_metadata (hf : Parses f (.domain d)) (hf' : Parses f' (.domain d'))
    (h : Rearranged (rnDomain id d) (rnDomain id d')) (hm : Metadata ord f md) (hm' : Metadata ord' f' md') :
    (md.nActions = md'.nActions ∧ md.nTasks = md'.nTasks ∧ md.nMethods = md'.nMethods) ∧
    (md.recursion = .nonRecursive ↔ md'.recursion = .nonRecursive) ∧
    ((∀ x, x ∈ md.nullables ↔ x ∈ md'.nullables) → md.recursion.cls = md'.recursion.cls) := by
  refine ⟨?_, ?_, class_rearranged hf hf' h hm hm'⟩
  · obtain ⟨h1, h2, h3⟩ := C38_counts_tree hf hm
    obtain ⟨h1', h2', h3'⟩ := C38_counts_tree hf' hm'
    have h4 := h.methods.length_eq
    simp only [rnDomain, List.length_map] at h4
    have h5 := h.taskNames.length_eq
    have h6 := h.actionNames.length_eq
    simp only [List.length_map] at h5 h6
    exact ⟨by omega, by omega, by omega⟩
  · rw [C34_non_recursive hf hm, C34_non_recursive hf' hm']
    exact not_congr ⟨fun ⟨x, hx⟩ => ⟨x, h.covered.trans hx⟩, fun ⟨x, hx⟩ => ⟨x, h.symm.covered.trans hx⟩⟩

/-- C76, for accepted domains that are uniform: the nullable tasks and the class do not depend on the order of the
declarations.  For domains that are not uniform, not even the same file has always the same nullable tasks, see
`C32_refuted`. -/
theorem C76_uniform (hf : Parses f (.domain d)) (hf' : Parses f' (.domain d'))
    (h : Rearranged (rnDomain id d) (rnDomain id d')) (ha : ∃ ws, Returns ord f none (.ok ws))
    (ha' : ∃ ws, Returns ord' f' none (.ok ws)) (hu : Uniform d) (hm : Metadata ord f md) (hm' : Metadata ord' f' md') :
    (∀ x, x ∈ md.nullables ↔ x ∈ md'.nullables) ∧ md.recursion.cls = md'.recursion.cls := by
  have h1 : ∀ x, x ∈ md.nullables ↔ x ∈ md'.nullables := fun x => by
    rw [(C31_bounds_partial hf ha md hm).2.2 hu, (C31_bounds_partial hf' ha' md' hm').2.2 (h.uniform hu), h.erasable]
  exact ⟨h1, class_rearranged hf hf' h hm hm' h1⟩

omit [Env] in
theorem reachesAction_covered (h : Covered d d') (ha : ∀ x, ActionName d x → ActionName d' x) {x : Name} (hx : ReachesAction d x) :
    ReachesAction d' x := by
  obtain ⟨a, h1, h2⟩ := hx
  obtain ⟨b, h3, h4⟩ := ha a.name ⟨a, h1, rfl⟩
  exact ⟨b, h3, by rw [h4]; exact h.refl_trans h2⟩

theorem warning_symbols_sub (hf : Parses f (.domain d)) (hf' : Parses f' (.domain d'))
    (h : Rearranged (rnDomain id d) (rnDomain id d')) (hu : Uniform d) {ws ws' : List Warning}
    (hr : Returns ord f prob (.ok ws)) (hr' : Returns ord' f' prob' (.ok ws')) {x : Name} (hx : x ∈ ws.map (·.symbol)) :
    x ∈ ws'.map (·.symbol) := by
  obtain ⟨w, hw, rfl⟩ := List.mem_map.mp hx
  obtain ⟨t, ht, rfl, _⟩ := ((C29_exact hf ws hr).2.2 w).mp hw
  obtain ⟨h1, h2⟩ := ((C30_clash_partial hf ws hr).2.2 hu t ht).mp hw
  obtain ⟨t', ht', h3⟩ := List.mem_map.mp (h.taskNames.mem_iff.mp (List.mem_map_of_mem ht))
  refine List.mem_map.mpr ⟨⟨t'.name, t'.pos⟩, ((C30_clash_partial hf' ws' hr').2.2 (h.uniform hu) t' ht').mpr ?_, h3⟩
  rw [h3, ← h.erasable, ← h.actionName]
  exact ⟨h1.imp_right fun h4 h5 => h4 (reachesAction_covered h.symm.covered (fun x => (h.actionName x).mpr) h5), h2⟩

/-- C76 for warnings: for a uniform domain, the same tasks are warned about. -/
theorem C76_warnings (hf : Parses f (.domain d)) (hf' : Parses f' (.domain d'))
    (h : Rearranged (rnDomain id d) (rnDomain id d')) (hu : Uniform d) (ws ws' : List Warning)
    (hr : Returns ord f prob (.ok ws)) (hr' : Returns ord' f' prob' (.ok ws')) :
    (ws.map (·.symbol)).Perm (ws'.map (·.symbol)) :=
  (List.perm_ext_iff_of_nodup (C29_exact hf ws hr).1 (C29_exact hf' ws' hr').1).mpr fun _ =>
    ⟨warning_symbols_sub hf hf' h hu hr hr', warning_symbols_sub hf' hf h.symm (h.uniform hu) hr' hr⟩

/-! ### C77: additional declarations -/

/-- C77: a recursive domain stays recursive when declarations are added. -/
theorem C77_recursive (hf : Parses f (.domain d)) (hf' : Parses f' (.domain d'))
    (h : Extends (rnDomain id d) (rnDomain id d')) (hm : Metadata ord f md) (hm' : Metadata ord' f' md')
    (hr : md'.recursion = .nonRecursive) : md.recursion = .nonRecursive := by
  rw [C34_non_recursive hf' hm'] at hr
  rw [C34_non_recursive hf hm]
  exact fun ⟨x, hx⟩ => hr ⟨x, h.covered.trans hx⟩

omit [Env] in
theorem not_ambiguous (hd : DomainOk d) (hc : NoClash d) (x : Name) : ¬ Ambiguous d x := by
  have h : (d.tasks.map (·.name) ++ d.actions.map (·.name)).Nodup := by
    refine List.nodup_append'.mpr ⟨hd.tasks, hd.actionNames, ?_⟩
    intro y h1 h2
    obtain ⟨t, ht, rfl⟩ := List.mem_map.mp h1
    obtain ⟨a, ha, h3⟩ := List.mem_map.mp h2
    exact hc t ht a ha h3.symm
  unfold Ambiguous
  have := List.nodup_iff_count_le_one.mp h x
  omega

/-- C77: adding declarations does not lower the class of the recursion, provided that everything reported to be nullable is
so still, that the extended domain is accepted and that no compound task has the name of an action. -/
theorem C77_class (hf : Parses f (.domain d)) (hf' : Parses f' (.domain d'))
    (h : Extends (rnDomain id d) (rnDomain id d')) (ha' : ∃ ws, Returns ord' f' none (.ok ws)) (hc : NoClash d')
    (hm : Metadata ord f md) (hm' : Metadata ord' f' md') (hn : ∀ x ∈ md.nullables, x ∈ md'.nullables) :
    md.recursion.cls.rank ≤ md'.recursion.cls.rank :=
  h.covered.rank (fun _ _ h1 => absurd h1 (not_ambiguous ((C23_acceptance hf').mp ha') hc _)) hn (C49_exact hf hm).1
    (C49_exact hf' hm').1

omit [Env] in
theorem erasable_extends (h : Extends (rnDomain id d) (rnDomain id d')) (hd : DomainOk d) (hc : NoClash d') {x : Name}
    (he : Erasable d x) : Erasable d' x := by
  refine h.covered.erasable (fun m hm hact => ?_) he
  obtain ⟨t, ht, h1, _⟩ := (hd.methods m hm).task
  obtain ⟨t', ht', h2⟩ := List.mem_map.mp (h.taskName (List.mem_map_of_mem ht))
  obtain ⟨a, ha, h3⟩ := hact
  exact absurd (by rw [h2, h1, h3]) (hc t' ht' a ha)

/-- C77 for uniform domains: when declarations are added to an accepted domain such that it is still accepted and no compound
task has the name of an action, then nullable tasks stay nullable, the class does not become lower, and no task that was
not warned about is warned about.  Without the condition that the first domain is uniform this is false, see
`C77_refuted`. -/
theorem C77_uniform (hf : Parses f (.domain d)) (hf' : Parses f' (.domain d'))
    (h : Extends (rnDomain id d) (rnDomain id d')) (ws ws' : List Warning) (hr : Returns ord f none (.ok ws))
    (hr' : Returns ord' f' none (.ok ws')) (hc : NoClash d') (hu : Uniform d) :
    (∀ md md', Metadata ord f md → Metadata ord' f' md' →
      (∀ x ∈ md.nullables, x ∈ md'.nullables) ∧ md.recursion.cls.rank ≤ md'.recursion.cls.rank) ∧
    ∀ w ∈ ws', w.symbol ∈ d.tasks.map (·.name) → w.symbol ∈ ws.map (·.symbol) := by
  have hd := (C23_acceptance hf).mp ⟨_, hr⟩
  have hd' := (C23_acceptance hf').mp ⟨_, hr'⟩
  refine ⟨fun md md' hm hm' => ?_, fun w hw ht => ?_⟩
  · have h1 : ∀ x ∈ md.nullables, x ∈ md'.nullables := fun x hx =>
      (C31_bounds_partial hf' ⟨_, hr'⟩ md' hm').1 x (erasable_extends h hd hc (((C31_bounds_partial hf ⟨_, hr⟩ md hm).2.2 hu x).mp hx))
    exact ⟨h1, C77_class hf hf' h ⟨_, hr'⟩ hc hm hm' h1⟩
  · obtain ⟨t', ht', rfl, h1, h2⟩ := ((C29_exact hf' ws' hr').2.2 w).mp hw
    obtain ⟨t, ht, h3⟩ := List.mem_map.mp ht
    obtain ⟨ns, hns⟩ := (C29_exact hf' ws' hr').2.1 (List.ne_nil_of_mem ht')
    refine List.mem_map.mpr ⟨⟨t.name, t.pos⟩, ((C30_clash_partial hf ws hr).2.2 hu t ht).mpr ⟨?_, fun h4 => ?_⟩, h3⟩
    · refine .inr fun h4 => ?_
      rw [h3] at h4
      have h5 := reachesAction_covered h.covered (fun x => h.actionName) h4
      rcases h1 with ⟨a, ha, h6⟩ | h1
      · exact hc t' ht' a ha h6.symm
      · exact h1 h5
    · rw [h3] at h4
      exact h2 ns hns (nullables_erasable hd' hns (erasable_extends h hd hc h4))

/-- A totally ordered method without parameters that is written in line `l`. -/
def bareMethod (l : Nat) (m t : Name) (subtasks : List Name) : Method :=
  ⟨⟨m, l, none, none⟩, ⟨t, l, none, none⟩, [], [], none, ⟨subtasks.map fun s => ⟨none, ⟨s, l, none, none⟩, []⟩, none, .total, none⟩⟩

/-- A domain without types, constants and predicates. -/
def bareDomain (tasks actions : List (Name × Nat)) (methods : List Method) : DomainAST :=
  ⟨b!"d", none, none, [], [], tasks.map fun t => ⟨t.1, t.2, []⟩, methods, actions.map fun a => ⟨a.1, a.2, [], none, none⟩, []⟩

/-- A recursive domain; `w` has no method. -/
def tasksFirst : Bytes := b!"(define (domain d) (:task t :parameters ()) (:task e :parameters ()) (:task u :parameters ())
  (:task w :parameters ()) (:action a :parameters ())
  (:method m0 :parameters () :task (t) :ordered-subtasks ())
  (:method m1 :parameters () :task (t) :ordered-subtasks (and (e) (t) (a)))
  (:method m2 :parameters () :task (e) :ordered-subtasks ())
  (:method m3 :parameters () :task (u) :ordered-subtasks (and (a))))\n"

def tasksFirstTree : DomainAST := bareDomain [(b!"t", 1), (b!"e", 1), (b!"u", 1), (b!"w", 2)] [(b!"a", 2)]
  [bareMethod 3 b!"m0" b!"t" [], bareMethod 4 b!"m1" b!"t" [b!"e", b!"t", b!"a"], bareMethod 5 b!"m2" b!"e" [],
    bareMethod 6 b!"m3" b!"u" [b!"a"]]

/-- The same declarations in another order. -/
def methodsFirst : Bytes := b!"(define (domain d)
  (:method m3 :parameters () :task (u) :ordered-subtasks (and (a)))
  (:task w :parameters ())
  (:method m1 :parameters () :task (t) :ordered-subtasks (and (e) (t) (a)))
  (:task u :parameters ())
  (:method m2 :parameters () :task (e) :ordered-subtasks ())
  (:action a :parameters ())
  (:method m0 :parameters () :task (t) :ordered-subtasks ())
  (:task e :parameters ()) (:task t :parameters ()))\n"

def methodsFirstTree : DomainAST := bareDomain [(b!"w", 3), (b!"u", 5), (b!"e", 9), (b!"t", 9)] [(b!"a", 7)]
  [bareMethod 2 b!"m3" b!"u" [b!"a"], bareMethod 4 b!"m1" b!"t" [b!"e", b!"t", b!"a"], bareMethod 6 b!"m2" b!"e" [],
    bareMethod 8 b!"m0" b!"t" []]

/-- Additional methods for `t` and `w`, an additional task and an additional action. -/
def moreMethods : Bytes := b!"(define (domain d) (:task t :parameters ()) (:task e :parameters ()) (:task u :parameters ())
  (:task w :parameters ()) (:task v :parameters ()) (:action a :parameters ()) (:action b :parameters ())
  (:method m0 :parameters () :task (t) :ordered-subtasks ())
  (:method m1 :parameters () :task (t) :ordered-subtasks (and (e) (t) (a)))
  (:method m2 :parameters () :task (e) :ordered-subtasks ())
  (:method m3 :parameters () :task (u) :ordered-subtasks (and (a)))
  (:method m4 :parameters () :task (w) :ordered-subtasks (and (b)))
  (:method m5 :parameters () :task (t) :ordered-subtasks (and (t) (e))))\n"

def moreMethodsTree : DomainAST := bareDomain [(b!"t", 1), (b!"e", 1), (b!"u", 1), (b!"w", 2), (b!"v", 2)] [(b!"a", 2), (b!"b", 2)]
  [bareMethod 3 b!"m0" b!"t" [], bareMethod 4 b!"m1" b!"t" [b!"e", b!"t", b!"a"], bareMethod 5 b!"m2" b!"e" [],
    bareMethod 6 b!"m3" b!"u" [b!"a"], bareMethod 7 b!"m4" b!"w" [b!"b"], bareMethod 8 b!"m5" b!"t" [b!"t", b!"e"]]

theorem parses_tree {n : Nat} {t : DomainAST}
    (h : (match parse n f with | .ok (.domain d) => decide (d = t) | _ => false) = true) : Parses f (.domain t) := by
  split at h
  · rename_i d h1
    exact of_decide_eq_true h ▸ .of_ok h1
  · cases h

omit [Env] in
theorem tasksFirst_parses : @Parses Env.plain tasksFirst (.domain tasksFirstTree) :=
  @parses_tree Env.plain _ 100 _ (by decide +kernel)

omit [Env] in
theorem methodsFirst_parses : @Parses Env.plain methodsFirst (.domain methodsFirstTree) :=
  @parses_tree Env.plain _ 100 _ (by decide +kernel)

omit [Env] in
theorem moreMethods_parses : @Parses Env.plain moreMethods (.domain moreMethodsTree) :=
  @parses_tree Env.plain _ 100 _ (by decide +kernel)

omit [Env] in
theorem tasksFirst_uniform : Uniform tasksFirstTree := by
  have h4 : tasksFirstTree.actions.map (·.name) = [b!"a"] := rfl
  have h5 : tasksFirstTree.methods.map (fun m => (m.task.name, m.tn.subtasks.map (·.task.name))) =
      [(b!"t", []), (b!"t", [b!"e", b!"t", b!"a"]), (b!"e", []), (b!"u", [b!"a"])] := rfl
  have hn : ¬ Erasable tasksFirstTree b!"a" :=
    fun h => not_nullable h5 [b!"a", b!"u"] (by decide) _ (by simp) h.nullable
  have he : Erasable tasksFirstTree b!"e" := erasable_shape h4 h5 (l := []) (by simp) (by simp) (by simp)
  have ht : Erasable tasksFirstTree b!"t" := erasable_shape h4 h5 (l := []) (by simp) (by simp) (by simp)
  rintro m hm ⟨s, hs, he'⟩
  have h6 := methods_shape h5 hm
  have h7 : s.task.name ∈ m.tn.subtasks.map (·.task.name) := List.mem_map.mpr ⟨s, hs, rfl⟩
  simp only [List.mem_cons, Prod.mk.injEq, List.not_mem_nil, or_false] at h6
  rcases h6 with ⟨h8, _⟩ | ⟨h8, _⟩ | ⟨h8, _⟩ | ⟨_, h6⟩
  · exact h8 ▸ ht
  · exact h8 ▸ ht
  · exact h8 ▸ he
  · rw [h6] at h7
    simp only [List.mem_cons, List.not_mem_nil, or_false] at h7
    exact absurd (h7 ▸ he') hn

omit [Env] in
/-- Instance of `C76_computed`, `C76_metadata`, `C76_uniform` and `C76_warnings`, with `tasksFirst_parses`,
`methodsFirst_parses` and `tasksFirst_uniform`. -/
example : Rearranged (rnDomain id tasksFirstTree) (rnDomain id methodsFirstTree) ∧
    @Returns Env.plain HashOrd.id tasksFirst none (.ok [⟨b!"w", 2⟩]) ∧
    @Returns Env.plain HashOrd.rev methodsFirst none (.ok [⟨b!"w", 3⟩]) ∧
    @Metadata Env.plain HashOrd.id tasksFirst ⟨.growingEmptyPrefix [(b!"t", b!"m1"), (b!"t", b!"m1")], [b!"t", b!"e"], [], 1, 4, 4⟩ ∧
    @Metadata Env.plain HashOrd.rev methodsFirst ⟨.growingEmptyPrefix [(b!"t", b!"m1"), (b!"t", b!"m1")], [b!"e", b!"t"], [], 1, 4, 4⟩ :=
  ⟨by decide +kernel, @returns_run Env.plain _ _ _ 100 _ (by decide +kernel) (by simp),
    @returns_run Env.plain _ _ _ 100 _ (by decide +kernel) (by simp), @metadata_run Env.plain _ _ 100 _ (by decide +kernel),
    @metadata_run Env.plain _ _ 100 _ (by decide +kernel)⟩

omit [Env] in
/-- Instance of `C77_recursive`, `C77_class` and `C77_uniform`, with `tasksFirst_parses`, `moreMethods_parses` and
`tasksFirst_uniform`: the class becomes higher and the warning about `w` disappears. -/
example : Extends (rnDomain id tasksFirstTree) (rnDomain id moreMethodsTree) ∧ NoClash moreMethodsTree ∧
    @Returns Env.plain HashOrd.id tasksFirst none (.ok [⟨b!"w", 2⟩]) ∧
    @Returns Env.plain HashOrd.id moreMethods none (.ok [⟨b!"v", 2⟩]) ∧
    @Metadata Env.plain HashOrd.id tasksFirst ⟨.growingEmptyPrefix [(b!"t", b!"m1"), (b!"t", b!"m1")], [b!"t", b!"e"], [], 1, 4, 4⟩ ∧
    @Metadata Env.plain HashOrd.id moreMethods ⟨.growAndShrink [(b!"t", b!"m5"), (b!"t", b!"m5")], [b!"t", b!"e"], [], 2, 5, 6⟩ :=
  ⟨by decide +kernel, show ∀ t ∈ moreMethodsTree.tasks, ∀ a ∈ moreMethodsTree.actions, t.name ≠ a.name by decide +kernel,
    @returns_run Env.plain _ _ _ 100 _ (by decide +kernel) (by simp), @returns_run Env.plain _ _ _ 100 _ (by decide +kernel) (by simp),
    @metadata_run Env.plain _ _ 100 _ (by decide +kernel), @metadata_run Env.plain _ _ 100 _ (by decide +kernel)⟩

/-- `mixedDomain` with an additional empty method for `y`. -/
def mixedMore : Bytes := b!"(define (domain d) (:task w :parameters ()) (:task y :parameters ())
    (:task x :parameters ()) (:task q :parameters ()) (:task t :parameters ())
    (:method m1 :parameters () :task (w) :ordered-subtasks ())
    (:method m2 :parameters () :task (y) :ordered-subtasks (and (w)))
    (:method m3 :parameters () :task (x) :ordered-subtasks (and (y) (q)))
    (:method m4 :parameters () :task (t) :ordered-subtasks (and (x)))
    (:method m5 :parameters () :task (y) :ordered-subtasks ()))\n"

def mixedTree (more : List Method) : DomainAST := bareDomain [(b!"w", 1), (b!"y", 1), (b!"x", 2), (b!"q", 2), (b!"t", 2)] []
  ([bareMethod 3 b!"m1" b!"w" [], bareMethod 4 b!"m2" b!"y" [b!"w"], bareMethod 5 b!"m3" b!"x" [b!"y", b!"q"],
    bareMethod 6 b!"m4" b!"t" [b!"x"]] ++ more)

omit [Env] in
/-- Without the condition that the domain is uniform, an additional method can remove a task from the nullable ones and add
a warning: `t` is wrongly taken to be nullable before the method is added. -/
theorem C77_refuted : ∃ d d' md md' ws ws', @Parses Env.plain mixedDomain (.domain d) ∧ @Parses Env.plain mixedMore (.domain d') ∧
    Extends (rnDomain id d) (rnDomain id d') ∧ NoClash d' ∧
    @Metadata Env.plain HashOrd.id mixedDomain md ∧ @Metadata Env.plain HashOrd.id mixedMore md' ∧
    b!"t" ∈ md.nullables ∧ b!"t" ∉ md'.nullables ∧
    @Returns Env.plain HashOrd.id mixedDomain none (.ok ws) ∧ @Returns Env.plain HashOrd.id mixedMore none (.ok ws') ∧
    b!"t" ∉ ws.map (·.symbol) ∧ b!"t" ∈ ws'.map (·.symbol) :=
  ⟨mixedTree [], mixedTree [bareMethod 7 b!"m5" b!"y" []],
    ⟨.nonRecursive, [b!"t", b!"y", b!"w"], [], 0, 5, 4⟩, ⟨.nonRecursive, [b!"w", b!"y"], [], 0, 5, 5⟩,
    [⟨b!"x", 2⟩, ⟨b!"q", 2⟩], [⟨b!"x", 2⟩, ⟨b!"q", 2⟩, ⟨b!"t", 2⟩],
    @parses_tree Env.plain _ 80 _ (by decide +kernel), @parses_tree Env.plain _ 80 _ (by decide +kernel), by decide +kernel,
    (by intro t _ a ha; cases ha),
    @metadata_run Env.plain _ _ 80 _ (by decide +kernel), @metadata_run Env.plain _ _ 80 _ (by decide +kernel), by decide, by decide,
    @returns_run Env.plain _ _ _ 80 _ (by decide +kernel) (by simp), @returns_run Env.plain _ _ _ 80 _ (by decide +kernel) (by simp),
    by decide, by decide⟩

end Verif
