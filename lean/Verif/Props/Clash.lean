import Verif.Proofs.Clash
import Verif.Props.Decomposition

/-! C29 to C32 for all accepted domains, also if a compound task has the name of an action. -/

namespace Verif

open Spec

variable [Env] {ord ord' : HashOrd} {f : Bytes} {prob : Option Bytes} {d : DomainAST}

theorem returns_accepts (hf : Parses f (.domain d)) {ws : List Warning} (h : Returns ord f prob (.ok ws)) :
    Accepts ord d ws := by
  cases prob with
  | none => exact (returns_ok_none hf).mp h
  | some g => exact (returns_ok_none hf).mp (C33_same_warnings g ws h)

/-- C29, exactly, for every accepted domain: a compound task is warned about, once and at the line of its declaration, if
and only if it has the name of an action or no action can be reached from it, and it is not computed to be nullable. -/
theorem C29_exact (hf : Parses f (.domain d)) (ws : List Warning) (h : Returns ord f prob (.ok ws)) :
    (ws.map (·.symbol)).Nodup ∧ (d.tasks ≠ [] → ∃ ns, NullablesAre ord d ns) ∧
    ∀ w, w ∈ ws ↔ ∃ t ∈ d.tasks, w = ⟨t.name, t.pos⟩ ∧ (ActionName d t.name ∨ ¬ ReachesAction d t.name) ∧
      ∀ ns, NullablesAre ord d ns → t.name ∉ ns := by
  have hac := returns_accepts hf h
  have hd := accepts_iff.mp ⟨_, hac⟩
  obtain ⟨h1, h2⟩ := warnings_clash hd hac
  exact ⟨h1, nullables_exist hd, h2⟩

/-- C30 for every accepted domain and iteration order: a warning is right unless it is about a task with the name of an
action; tasks that reach no action or have the name of one are warned about if they cannot even be suspected to be
nullable, and, if the domain is uniform, exactly if they are not erasable. -/
theorem C30_clash_partial (hf : Parses f (.domain d)) (ws : List Warning) (h : Returns ord f prob (.ok ws)) :
    (∀ w ∈ ws, ¬ ActionName d w.symbol → ¬ Refinable d w.symbol) ∧
    (∀ t ∈ d.tasks, (ActionName d t.name ∨ ¬ ReachesAction d t.name) → ¬ Suspected d t.name → ⟨t.name, t.pos⟩ ∈ ws) ∧
    (Uniform d → ∀ t ∈ d.tasks, ⟨t.name, t.pos⟩ ∈ ws ↔
      (ActionName d t.name ∨ ¬ ReachesAction d t.name) ∧ ¬ Erasable d t.name) := by
  have hd := accepts_iff.mp ⟨_, returns_accepts hf h⟩
  obtain ⟨_, h1, h2⟩ := C29_exact hf ws h
  refine ⟨fun w hw hna hr => ?_, fun t ht ha hs => ?_, fun hu t ht => ?_⟩
  · obtain ⟨t, ht, rfl, h3, h4⟩ := (h2 w).mp hw
    have h3 := h3.resolve_left hna
    rcases hr.cases' with h5 | h5
    · exact h3 h5
    · obtain ⟨ns, hns⟩ := h1 (List.ne_nil_of_mem ht)
      refine h4 ns hns (nullables_erasable hd hns (h5.erasable fun y hy => ?_))
      rintro ⟨a, ha, rfl⟩
      exact h3 ⟨a, ha, hy.to_reflTransGen⟩
  · exact (h2 _).mpr ⟨t, ht, rfl, ha, fun ns hns hm => hs (nullables_suspected hd hns hm)⟩
  · rw [h2]
    constructor
    · rintro ⟨t', ht', he, h3, h4⟩
      have hn : t.name = t'.name := congrArg Warning.symbol he
      obtain ⟨ns, hns⟩ := h1 (List.ne_nil_of_mem ht)
      rw [hn]
      exact ⟨h3, fun h5 => h4 ns hns ((nullables_uniform hd hu hns).mpr h5)⟩
    · rintro ⟨h3, h4⟩
      exact ⟨t, ht, rfl, h3, fun ns hns hm => h4 ((nullables_uniform hd hu hns).mp hm)⟩

/-- C31 for every accepted domain and iteration order: every erasable task is reported, every task reported is suspected,
and if the domain is uniform, exactly the erasable tasks are reported. -/
theorem C31_bounds_partial (hf : Parses f (.domain d)) (ha : ∃ ws, Returns ord f none (.ok ws)) (md : MetaData)
    (h : Metadata ord f md) :
    (∀ x, Erasable d x → x ∈ md.nullables) ∧ (∀ x ∈ md.nullables, Suspected d x) ∧
    (Uniform d → ∀ x, x ∈ md.nullables ↔ Erasable d x) := by
  have hd := (C23_acceptance hf).mp ha
  obtain ⟨ns, rt, h1, rfl, _⟩ := h.parts hf
  simp only [mem_arrange]
  exact ⟨fun x => nullables_erasable hd h1, fun x => nullables_suspected hd h1, fun hu x => nullables_uniform hd hu h1⟩

omit [Env] in
/-- Erasable tasks are nullable, and conversely if no compound task has the name of an action. -/
theorem C31_erasable (x : Name) : (Erasable d x → Nullable d x) ∧ (DomainOk d → NoClash d → Nullable d x → Erasable d x) :=
  ⟨Spec.Erasable.nullable, fun hd hc => (erasable_iff hd hc).mpr⟩

/-- C32 for every accepted domain: if it is uniform, the warnings are the same in all iteration orders, up to order. -/
theorem C32_uniform_partial (hf : Parses f (.domain d)) (hu : Uniform d) (ws ws' : List Warning)
    (h : Returns ord f prob (.ok ws)) (h' : Returns ord' f prob (.ok ws')) : ws'.Perm ws := by
  obtain ⟨h1, _, h2⟩ := C29_exact hf ws h
  obtain ⟨h1', _, h2'⟩ := C29_exact hf ws' h'
  have h3 := (C30_clash_partial hf ws h).2.2 hu
  have h3' := (C30_clash_partial hf ws' h').2.2 hu
  refine (List.perm_ext_iff_of_nodup h1'.of_map h1.of_map).mpr fun w => ⟨fun hw => ?_, fun hw => ?_⟩
  · obtain ⟨t, ht, rfl, _⟩ := (h2' w).mp hw
    exact (h3 t ht).mpr ((h3' t ht).mp hw)
  · obtain ⟨t, ht, rfl, _⟩ := (h2 w).mp hw
    exact (h3' t ht).mpr ((h3 t ht).mp hw)

/-- `a` is a compound task and an action, with an empty method and one that leads to `b`; `t` leads to `a`. -/
def clashDomain : Bytes := b!"(define (domain d) (:task a :parameters ()) (:task t :parameters ())
    (:action a :parameters ()) (:action b :parameters ())
    (:method m1 :parameters () :task (a) :ordered-subtasks ())
    (:method m2 :parameters () :task (a) :ordered-subtasks (and (b)))
    (:method m3 :parameters () :task (t) :ordered-subtasks (and (a))))\n"

omit [Env] in
theorem clash_shape : ∃ d, @Parses Env.plain clashDomain (.domain d) ∧ d.tasks.map (·.name) = [b!"a", b!"t"] ∧
    d.actions.map (·.name) = [b!"a", b!"b"] ∧ d.methods.map (fun m => (m.task.name, m.tn.subtasks.map (·.task.name))) =
      [(b!"a", []), (b!"a", [b!"b"]), (b!"t", [b!"a"])] := by
  obtain ⟨a, h1, h2⟩ := @parses_holds clashDomain Env.plain 80
    (shapeIs [b!"a", b!"t"] [b!"a", b!"b"] [(b!"a", []), (b!"a", [b!"b"]), (b!"t", [b!"a"])]) (by decide +kernel)
  obtain ⟨d, rfl, h3⟩ := shape_of h2
  exact ⟨d, h1, h3⟩

omit [Env] in
/-- C31 fails in the other direction as well if a compound task has the name of an action: `t` is nullable by way of the
empty method for `a`, and is not reported. -/
theorem C31_clash_refuted : ∃ d md, @Parses Env.plain clashDomain (.domain d) ∧
    (∃ ws, @Returns Env.plain HashOrd.id clashDomain none (.ok ws)) ∧ @Metadata Env.plain HashOrd.id clashDomain md ∧
    Nullable d b!"t" ∧ b!"t" ∉ md.nullables := by
  obtain ⟨d, h1, _, _, h5⟩ := clash_shape
  have ha : Nullable d b!"a" := nullable_shape h5 (l := []) (by simp) (by simp)
  exact ⟨d, ⟨.nonRecursive, [b!"a"], [], 2, 2, 3⟩, h1, ⟨[], @returns_run Env.plain _ _ _ 80 _ (by decide +kernel) (by simp)⟩,
    @metadata_run Env.plain _ _ 80 _ (by decide +kernel), nullable_shape h5 (l := [b!"a"]) (by simp) (by simpa using ha),
    by decide⟩

omit [Env] in
theorem erasable_shape {actions : List Name} {methods : List (Name × List Name)} (ha : d.actions.map (·.name) = actions)
    (h : d.methods.map (fun m => (m.task.name, m.tn.subtasks.map (·.task.name))) = methods) {x : Name} {l : List Name}
    (hm : (x, l) ∈ methods) (hn : ∀ s ∈ l, s ∉ actions) (hl : ∀ s ∈ l, Erasable d s) : Erasable d x := by
  rw [← h] at hm
  obtain ⟨m, hm, he⟩ := List.mem_map.mp hm
  rw [Prod.mk.injEq] at he
  rw [← he.1]
  have hs : ∀ s ∈ m.tn.subtasks, s.task.name ∈ l := fun s hs => he.2 ▸ List.mem_map.mpr ⟨s, hs, rfl⟩
  refine .mk hm (fun s h1 => ?_) fun s h1 => hl _ (hs s h1)
  rintro ⟨a, h2, h3⟩
  exact hn _ (hs s h1) (h3 ▸ ha ▸ List.mem_map.mpr ⟨a, h2, rfl⟩)

/-- `a` is a compound task and an action, with a method that leads to `b`; `t` leads to `a`, and `u` to the erasable `v`. -/
def clashUniform : Bytes := b!"(define (domain d) (:task a :parameters ()) (:task t :parameters ())
    (:task u :parameters ()) (:task v :parameters ())
    (:action a :parameters ()) (:action b :parameters ())
    (:method m1 :parameters () :task (a) :ordered-subtasks (and (b)))
    (:method m2 :parameters () :task (t) :ordered-subtasks (and (a) (t)))
    (:method m3 :parameters () :task (u) :ordered-subtasks (and (v)))
    (:method m4 :parameters () :task (v) :ordered-subtasks ()))\n"

omit [Env] in
theorem clash_uniform : ∃ d, @Parses Env.plain clashUniform (.domain d) ∧ ¬ NoClash d ∧ Uniform d ∧ Erasable d b!"u" ∧
    ¬ Erasable d b!"a" ∧ ¬ Erasable d b!"t" ∧ Refinable d b!"a" := by
  obtain ⟨a, h1, h2⟩ := @parses_holds clashUniform Env.plain 100
    (shapeIs [b!"a", b!"t", b!"u", b!"v"] [b!"a", b!"b"]
      [(b!"a", [b!"b"]), (b!"t", [b!"a", b!"t"]), (b!"u", [b!"v"]), (b!"v", [])]) (by decide +kernel)
  obtain ⟨d, rfl, h3, h4, h5⟩ := shape_of h2
  have hn : ∀ x ∈ [b!"a", b!"b", b!"t"], ¬ Erasable d x :=
    fun x hx h => not_nullable h5 [b!"a", b!"b", b!"t"] (by decide) x hx h.nullable
  have hv : Erasable d b!"v" := erasable_shape h4 h5 (l := []) (by simp) (by simp) (by simp)
  have hu : Erasable d b!"u" := erasable_shape h4 h5 (l := [b!"v"]) (by simp) (by decide) (by simpa using hv)
  have ha : b!"a" ∈ d.actions.map (·.name) := by rw [h4]; simp
  obtain ⟨a, ha, hane⟩ := List.mem_map.mp ha
  have ht : b!"a" ∈ d.tasks.map (·.name) := by rw [h3]; simp
  obtain ⟨t, ht, htn⟩ := List.mem_map.mp ht
  refine ⟨d, h1, fun h => h t ht a ha (htn.trans hane.symm), ?_, hu, hn _ (by simp), hn _ (by simp), ?_⟩
  · rintro m hm ⟨s, hs, he⟩
    have h6 := methods_shape h5 hm
    have h7 : s.task.name ∈ m.tn.subtasks.map (·.task.name) := List.mem_map.mpr ⟨s, hs, rfl⟩
    simp only [List.mem_cons, Prod.mk.injEq, List.not_mem_nil, or_false] at h6
    rcases h6 with ⟨_, h6⟩ | ⟨_, h6⟩ | ⟨h8, _⟩ | ⟨_, h6⟩
    · rw [h6] at h7
      exact absurd he (hn _ (List.mem_cons_of_mem _ (by simpa using Or.inl h7)))
    · rw [h6] at h7
      simp only [List.mem_cons, List.not_mem_nil, or_false] at h7
      exact absurd he (hn _ (by simpa using h7.elim Or.inl fun h => Or.inr (Or.inr h)))
    · exact h8 ▸ hu
    · simp [h6] at h7
  · exact hane ▸ .action ha

omit [Env] in
/-- There, `a` is warned about and has a refinement, and the nullable tasks reported are `u` and `v`. -/
example : @Returns Env.plain HashOrd.id clashUniform none (.ok [⟨b!"a", 1⟩]) ∧
    @Metadata Env.plain HashOrd.id clashUniform ⟨.recursive [(b!"t", b!"m2"), (b!"t", b!"m2")], [b!"u", b!"v"], [], 2, 4, 4⟩ :=
  ⟨@returns_run Env.plain _ _ _ 100 _ (by decide +kernel) (by simp), @metadata_run Env.plain _ _ 100 _ (by decide +kernel)⟩

end Verif
