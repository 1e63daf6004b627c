import Verif.Proofs.Order
import Verif.Props.Semantic

/-! C29 – C32: warnings, nullable tasks, and independence of the iteration order of hash containers. -/

namespace Verif

open Spec

variable [Env] {ord ord' : HashOrd} {f g : Bytes} {prob : Option Bytes} {d : DomainAST} {p : ProblemAST}

/-! ### Concrete files -/

omit [Env] in
theorem parses_holds [Env] {n : Nat} {q : AST → Bool} (h : (parse n f).holds q = true) : ∃ a, Parses f a ∧ q a = true := by
  cases hp : parse n f with
  | ok a => rw [hp] at h; exact ⟨a, .of_ok hp, h⟩
  | _ => rw [hp] at h; cases h

/-- The names of tasks, actions, and of the tasks of each method. -/
def shapeIs (tasks actions : List Name) (methods : List (Name × List Name)) : AST → Bool
  | .domain d => d.tasks.map (·.name) = tasks && d.actions.map (·.name) = actions &&
      d.methods.map (fun m => (m.task.name, m.tn.subtasks.map (·.task.name))) = methods
  | .problem _ => false

omit [Env] in
theorem shape_of {tasks actions : List Name} {methods : List (Name × List Name)} {a : AST}
    (h : shapeIs tasks actions methods a = true) : ∃ d, a = .domain d ∧ d.tasks.map (·.name) = tasks ∧
      d.actions.map (·.name) = actions ∧ d.methods.map (fun m => (m.task.name, m.tn.subtasks.map (·.task.name))) = methods := by
  cases a with
  | problem => cases h
  | domain d =>
    simp only [shapeIs, Bool.and_eq_true, decide_eq_true_eq] at h
    exact ⟨d, rfl, h.1.1, h.1.2, h.2⟩

omit [Env] in
theorem methods_shape {methods : List (Name × List Name)}
    (h : d.methods.map (fun m => (m.task.name, m.tn.subtasks.map (·.task.name))) = methods) {m : Method}
    (hm : m ∈ d.methods) : (m.task.name, m.tn.subtasks.map (·.task.name)) ∈ methods :=
  h ▸ List.mem_map.mpr ⟨m, hm, rfl⟩

omit [Env] in
/-- A set of names that is closed in this sense contains no nullable task. -/
theorem not_nullable {methods : List (Name × List Name)}
    (h : d.methods.map (fun m => (m.task.name, m.tn.subtasks.map (·.task.name))) = methods) (S : List Name)
    (hS : ∀ e ∈ methods, e.1 ∈ S → ∃ s ∈ e.2, s ∈ S) : ∀ x ∈ S, ¬ Nullable d x := by
  intro x hx hn
  induction hn with
  | @mk m hm _ ih =>
    obtain ⟨s, h1, h2⟩ := hS _ (methods_shape h hm) hx
    obtain ⟨t, ht, rfl⟩ := List.mem_map.mp h1
    exact ih t ht h2

omit [Env] in
theorem nullable_shape {methods : List (Name × List Name)}
    (h : d.methods.map (fun m => (m.task.name, m.tn.subtasks.map (·.task.name))) = methods) {x : Name} {l : List Name}
    (hm : (x, l) ∈ methods) (hl : ∀ s ∈ l, Nullable d s) : Nullable d x := by
  rw [← h] at hm
  obtain ⟨m, hm, he⟩ := List.mem_map.mp hm
  rw [Prod.mk.injEq] at he
  rw [← he.1]
  exact .mk hm fun s hs => hl _ (he.2 ▸ List.mem_map.mpr ⟨s, hs, rfl⟩)

omit [Env] in
theorem noClash_shape {tasks actions : List Name} (h1 : d.tasks.map (·.name) = tasks)
    (h2 : d.actions.map (·.name) = actions) (h : ∀ x ∈ tasks, x ∉ actions) : NoClash d :=
  fun _ ht _ ha he => h _ (h1 ▸ List.mem_map.mpr ⟨_, ht, rfl⟩) (he ▸ h2 ▸ List.mem_map.mpr ⟨_, ha, rfl⟩)

omit [Env] in
theorem unmixed_shape {methods : List (Name × List Name)}
    (h : d.methods.map (fun m => (m.task.name, m.tn.subtasks.map (·.task.name))) = methods)
    (hu : ∀ e ∈ methods, (∃ s ∈ e.2, Nullable d s) → Nullable d e.1) : Unmixed d := by
  rintro m hm ⟨s, hs, hn⟩
  exact hu _ (methods_shape h hm) ⟨_, List.mem_map.mpr ⟨s, hs, rfl⟩, hn⟩

omit [Env] in
/-- A set of names without actions that is closed in this sense contains no refinable task. -/
theorem not_refinable {methods : List (Name × List Name)}
    (h : d.methods.map (fun m => (m.task.name, m.tn.subtasks.map (·.task.name))) = methods) (S : List Name)
    (hS : ∀ e ∈ methods, e.1 ∈ S → ∃ s ∈ e.2, s ∈ S) (hA : ∀ x ∈ S, x ∉ d.actions.map (·.name)) :
    ∀ x ∈ S, ¬ Refinable d x := by
  intro x hx hn
  induction hn with
  | @action a ha => exact hA _ hx (List.mem_map.mpr ⟨a, ha, rfl⟩)
  | @method m hm _ ih =>
    obtain ⟨s, h1, h2⟩ := hS _ (methods_shape h hm) hx
    obtain ⟨t, ht, rfl⟩ := List.mem_map.mp h1
    exact ih t ht h2

/-- `w` has an empty method and `t` leads to `w`; `u` has no method; `v` leads to `u` and to an action. -/
def plainDomain : Bytes := b!"(define (domain d)\n(:task w :parameters ())\n(:task t :parameters ())
    (:task u :parameters ()) (:task v :parameters ()) (:action a :parameters ())
    (:method m1 :parameters () :task (w) :ordered-subtasks ())
    (:method m2 :parameters () :task (t) :ordered-subtasks (and (w)))
    (:method m3 :parameters () :task (v) :ordered-subtasks (and (u) (a))))\n"

omit [Env] in
/-- A domain that meets the conditions of C29 to C32, with a nullable task, a warning and a reachable action. -/
theorem plain_instance : ∃ d, @Parses Env.plain plainDomain (.domain d) ∧ NoClash d ∧ Unmixed d ∧
    Nullable d b!"t" ∧ ReachesAction d b!"v" ∧ @Returns Env.plain HashOrd.id plainDomain none (.ok [⟨b!"u", 4⟩]) := by
  obtain ⟨a, h1, h2⟩ := @parses_holds plainDomain Env.plain 80
    (shapeIs [b!"w", b!"t", b!"u", b!"v"] [b!"a"] [(b!"w", []), (b!"t", [b!"w"]), (b!"v", [b!"u", b!"a"])]) (by decide +kernel)
  obtain ⟨d, rfl, h3, h4, h5⟩ := shape_of h2
  have hw : Nullable d b!"w" := nullable_shape h5 (l := []) (by simp) (by simp)
  have ht : Nullable d b!"t" := nullable_shape h5 (l := [b!"w"]) (by simp) (by simpa using hw)
  have hu : ∀ x ∈ [b!"v", b!"u", b!"a"], ¬ Nullable d x := not_nullable h5 _ (by decide)
  refine ⟨d, h1, noClash_shape h3 h4 (by decide), unmixed_shape h5 ?_, ht, ?_,
    @returns_run Env.plain _ _ _ 80 _ (by decide +kernel) (by simp)⟩
  · simp only [List.forall_mem_cons, List.exists_mem_cons_iff] at hu ⊢
    refine ⟨fun _ => hw, fun _ => ht, ?_, (fun _ h => nomatch h)⟩
    rintro (h | h | ⟨_, h, _⟩)
    · exact absurd h hu.2.1
    · exact absurd h hu.2.2.1
    · cases h
  · have ha : b!"a" ∈ d.actions.map (·.name) := by rw [h4]; simp
    obtain ⟨x, hx, hn⟩ := List.mem_map.mp ha
    have hv : (b!"v", [b!"u", b!"a"]) ∈ d.methods.map (fun m => (m.task.name, m.tn.subtasks.map (·.task.name))) := by
      rw [h5]; simp
    obtain ⟨m, hm, he⟩ := List.mem_map.mp hv
    rw [Prod.mk.injEq] at he
    have hs : b!"a" ∈ m.tn.subtasks.map (·.task.name) := by rw [he.2]; simp
    obtain ⟨s, hs, hsn⟩ := List.mem_map.mp hs
    exact ⟨x, hx, .single ⟨m, hm, he.1, s, hs, hsn.trans hn.symm⟩⟩

/-! ### C29: what is warned about -/

/-- C29, the part that holds: unless a compound task has the name of an action, a task is warned about, once and at the
line of its declaration, exactly when no action can be reached from it and it is not computed to be nullable.
Missing: domains where a compound task and an action share a name, see `C29_refuted`. -/
theorem C29_warnings_partial (hf : Parses f (.domain d)) (hc : NoClash d) (ws : List Warning)
    (h : Returns ord f prob (.ok ws)) :
    (ws.map (·.symbol)).Nodup ∧ (d.tasks ≠ [] → ∃ ns, NullablesAre ord d ns) ∧
    ∀ w, w ∈ ws ↔ ∃ t ∈ d.tasks, w = ⟨t.name, t.pos⟩ ∧ ¬ ReachesAction d t.name ∧
      ∀ ns, NullablesAre ord d ns → t.name ∉ ns := by
  have hac : Accepts ord d ws := by
    rcases returns_inv h with ⟨e, _, h1⟩ | ⟨x, _, h1⟩ | ⟨_, _, h1⟩ | ⟨d', hd', h2⟩
    · cases h1
    · cases h1
    · cases h1
    cases hf.det hd'
    rcases h2 with ⟨e, _, h1⟩ | ⟨x, _, h1⟩ | ⟨ws', hac, h2⟩
    · cases h1
    · cases h1
    rcases h2 with ⟨_, h1⟩ | ⟨g', _, h2⟩
    · cases h1; exact hac
    rcases h2 with ⟨e, _, h1⟩ | ⟨x, _, h1⟩ | ⟨_, _, h1⟩ | ⟨p, hp, h1⟩
    · cases h1
    · cases h1
    · cases h1
    obtain ⟨_, rfl⟩ := (verifyProblem_ok (accepts_iff.mp ⟨_, hac⟩) ws).mp h1.symm
    exact hac
  have hd := accepts_iff.mp ⟨_, hac⟩
  obtain ⟨h1, h2⟩ := warnings_names hd hc hac
  exact ⟨h1, nullables_exist hd, h2⟩

omit [Env] in
/-- C29 does not hold when an action has the name of a compound task: `a` is warned about, although its method leads to
the action `b`. -/
theorem C29_refuted : ∃ d, @Parses Env.plain b!"(define (domain d) (:task a :parameters ()) (:action a :parameters ())
    (:action b :parameters ()) (:method m :parameters () :task (a) :ordered-subtasks (and (b))))\n" (.domain d) ∧
    @Returns Env.plain HashOrd.id b!"(define (domain d) (:task a :parameters ()) (:action a :parameters ())
    (:action b :parameters ()) (:method m :parameters () :task (a) :ordered-subtasks (and (b))))\n" none
      (.ok [⟨b!"a", 1⟩]) ∧ HasSub d b!"a" b!"b" ∧ ∃ x ∈ d.actions, x.name = b!"b" := by
  obtain ⟨a, h1, h2⟩ := @parses_holds b!"(define (domain d) (:task a :parameters ()) (:action a :parameters ())
    (:action b :parameters ()) (:method m :parameters () :task (a) :ordered-subtasks (and (b))))\n" Env.plain 60
    (shapeIs [b!"a"] [b!"a", b!"b"] [(b!"a", [b!"b"])]) (by decide +kernel)
  obtain ⟨d, rfl, _, h4, h5⟩ := shape_of h2
  refine ⟨d, h1, @returns_run Env.plain _ _ _ 60 _ (by decide +kernel) (by simp), ?_, ?_⟩
  · have : (b!"a", [b!"b"]) ∈ d.methods.map (fun m => (m.task.name, m.tn.subtasks.map (·.task.name))) := by
      rw [h5]; exact List.mem_cons_self
    obtain ⟨m, hm, he⟩ := List.mem_map.mp this
    simp only [Prod.mk.injEq] at he
    have hb : b!"b" ∈ m.tn.subtasks.map (·.task.name) := by rw [he.2]; exact List.mem_cons_self
    obtain ⟨s, hs, hsn⟩ := List.mem_map.mp hb
    exact ⟨m, hm, he.1, s, hs, hsn⟩
  · have : b!"b" ∈ d.actions.map (·.name) := by rw [h4]; simp
    obtain ⟨x, hx, hn⟩ := List.mem_map.mp this
    exact ⟨x, hx, hn⟩

/-- Instance: `plain_instance`, and here `t` leads to `u`, which has no method, so both are warned about; `v` leads to an action. -/
example : @Returns Env.plain HashOrd.id b!"(define (domain d)\n(:task t :parameters ())\n(:task u :parameters ())
    (:task v :parameters ()) (:action a :parameters ()) (:method m :parameters () :task (t) :ordered-subtasks (and (u)))
    (:method n :parameters () :task (v) :ordered-subtasks (and (u) (a))))\n" none (.ok [⟨b!"t", 2⟩, ⟨b!"u", 3⟩]) :=
  @returns_run Env.plain _ _ _ 60 _ (by decide +kernel) (by simp)

/-! ### C30: unrefinable tasks -/

/-- C30, the part that holds for every iteration order: a task that is warned about cannot be refined into actions; a task
that reaches neither an action nor a method without subtasks is warned about; and under the condition `Unmixed` the
tasks warned about are exactly those that reach no action and are not nullable.  Missing: some tasks that cannot be
refined are not warned about, see `C30_refuted`. -/
theorem C30_warnings_partial (hf : Parses f (.domain d)) (hc : NoClash d) (ws : List Warning)
    (h : Returns ord f prob (.ok ws)) :
    (∀ w ∈ ws, ¬ Refinable d w.symbol) ∧
    (∀ t ∈ d.tasks, ¬ ReachesAction d t.name →
      (∀ m ∈ d.methods, m.tn.subtasks = [] → ¬ Relation.ReflTransGen (HasSub d) t.name m.task.name) →
      ⟨t.name, t.pos⟩ ∈ ws) ∧
    (Unmixed d → ∀ t ∈ d.tasks, ⟨t.name, t.pos⟩ ∈ ws ↔ ¬ ReachesAction d t.name ∧ ¬ Nullable d t.name) := by
  have hd : DomainOk d := by
    cases prob with
    | none => exact (C23_acceptance hf).mp ⟨ws, h⟩
    | some g => exact C24_needs_domain hf ⟨ws, h⟩
  obtain ⟨_, h1, h2⟩ := C29_warnings_partial hf hc ws h
  refine ⟨fun w hw hr => ?_, fun t ht hr hn => ?_, fun hx t ht => ?_⟩
  · obtain ⟨t, ht, rfl, h3, h4⟩ := (h2 w).mp hw
    rcases hr.cases' with h5 | h5
    · exact h3 h5
    · obtain ⟨ns, hns⟩ := h1 (List.ne_nil_of_mem ht)
      exact h4 ns hns (nullables_complete hd hc hns h5)
  · refine (h2 _).mpr ⟨t, ht, rfl, hr, fun ns hns hm => ?_⟩
    obtain ⟨m, h3, h4, h5⟩ := nullables_near hd hc hns hm
    exact hn m h3 h4 h5
  · rw [h2]
    constructor
    · rintro ⟨t', ht', he, h3, h4⟩
      obtain ⟨ns, hns⟩ := h1 (List.ne_nil_of_mem ht)
      rw [Warning.mk.injEq] at he
      rw [he.1]
      exact ⟨h3, fun h => h4 ns hns (nullables_complete hd hc hns h)⟩
    · rintro ⟨h3, h4⟩
      exact ⟨t, ht, rfl, h3, fun ns hns hm => h4 ((nullables_exact hd hc hx hns).mp hm)⟩

omit [Env] in
/-- C30 does not hold: the only method for `t` has the subtasks `p` and `t`, so `t` has no refinement, and there is no
warning. -/
theorem C30_refuted : ∃ d, @Parses Env.plain b!"(define (domain d) (:task t :parameters ()) (:action p :parameters ())
    (:method m :parameters () :task (t) :ordered-subtasks (and (p) (t))))\n" (.domain d) ∧
    @Returns Env.plain HashOrd.id b!"(define (domain d) (:task t :parameters ()) (:action p :parameters ())
    (:method m :parameters () :task (t) :ordered-subtasks (and (p) (t))))\n" none (.ok []) ∧
    (∃ t ∈ d.tasks, t.name = b!"t") ∧ ¬ Refinable d b!"t" := by
  obtain ⟨a, h1, h2⟩ := @parses_holds b!"(define (domain d) (:task t :parameters ()) (:action p :parameters ())
    (:method m :parameters () :task (t) :ordered-subtasks (and (p) (t))))\n" Env.plain 60
    (shapeIs [b!"t"] [b!"p"] [(b!"t", [b!"p", b!"t"])]) (by decide +kernel)
  obtain ⟨d, rfl, h3, h4, h5⟩ := shape_of h2
  refine ⟨d, h1, @returns_run Env.plain _ _ _ 60 _ (by decide +kernel) (by simp), ?_,
    not_refinable h5 [b!"t"] (by decide) (by rw [h4]; decide) _ (by simp)⟩
  have : b!"t" ∈ d.tasks.map (·.name) := by rw [h3]; simp
  obtain ⟨x, hx, hn⟩ := List.mem_map.mp this
  exact ⟨x, hx, hn⟩

/-! ### C31: nullable tasks -/

/-- `get_metadata` returns `r` for every large enough fuel. -/
def Metadata (ord : HashOrd) (f : Bytes) (md : MetaData) : Prop := ∃ N, ∀ n, N ≤ n → getMetadata ord n f = .ok md

theorem metadata_run {n : Nat} {md : MetaData} (h : getMetadata ord n f = .ok md) : Metadata ord f md :=
  ⟨n, fun m hm => by rw [(getMetadata_le ord hm f).eq (by rw [h]; simp), h]⟩

theorem Metadata.parts {md : MetaData} (h : Metadata ord f md) (hf : Parses f (.domain d)) :
    ∃ ns rt, NullablesAre ord d ns ∧ md = ⟨rt, arrange ord [20] ns, [], d.actions.length, d.tasks.length, d.methods.length⟩ ∧
      ∃ N, ∀ n, N ≤ n → ((TDG.new ord d).bind fun g => g.recursionType ord n ns) = .ok rt := by
  obtain ⟨N, hN⟩ := h
  obtain ⟨M, hM⟩ := hf
  have h1 : ∀ n, max N M ≤ n → ((TDG.new ord d).bind fun tdg => (tdg.nullables n).bind fun nulls =>
      (tdg.recursionType ord n nulls).bind fun rt =>
        .ok (⟨rt, arrange ord [20] nulls, [], d.actions.length, d.tasks.length, d.methods.length⟩ : MetaData)) = .ok md := by
    intro n hn
    have := hN n (by omega)
    unfold getMetadata at this
    rw [hM n (by omega)] at this
    exact this
  obtain ⟨g, hg, h2⟩ := R.bind_ok_iff.mp (h1 _ (Nat.le_refl _))
  obtain ⟨ns, hns, h3⟩ := R.bind_ok_iff.mp h2
  obtain ⟨rt, hrt, h4⟩ := R.bind_ok_iff.mp h3
  cases h4
  have hmono : ∀ n, max N M ≤ n → g.nullables n = .ok ns := by
    intro n hn
    unfold TDG.nullables at hns ⊢
    obtain ⟨l, h5, h6⟩ := R.bind_ok_iff.mp hns
    rw [TDG.nullLoop_mono hn h5]; exact h6
  refine ⟨ns, rt, ⟨max N M, fun n hn => by rw [hg, R.bind_ok]; exact hmono n hn⟩, rfl, max N M, fun n hn => ?_⟩
  have := h1 n hn
  rw [hg, R.bind_ok, hmono n hn, R.bind_ok] at this
  obtain ⟨rt', h5, h6⟩ := R.bind_ok_iff.mp this
  rw [hg, R.bind_ok, h5]
  cases h6; rfl

/-- C31, the part that holds for every iteration order: for an accepted domain in which no compound task has the name of
an action, every nullable task is reported, every task reported leads to a method without subtasks, and under the
condition `Unmixed` exactly the nullable tasks are reported.  Missing: without the condition other tasks are reported,
see `C31_refuted`. -/
theorem C31_nullables_partial (hf : Parses f (.domain d)) (ha : ∃ ws, Returns ord f none (.ok ws)) (hc : NoClash d)
    (md : MetaData) (h : Metadata ord f md) :
    (∀ x, Nullable d x → x ∈ md.nullables) ∧
    (∀ x ∈ md.nullables, ∃ m ∈ d.methods, m.tn.subtasks = [] ∧ Relation.ReflTransGen (HasSub d) x m.task.name) ∧
    (Unmixed d → ∀ x, x ∈ md.nullables ↔ Nullable d x) := by
  have hd := (C23_acceptance hf).mp ha
  obtain ⟨ns, rt, h1, rfl, _⟩ := h.parts hf
  simp only [mem_arrange]
  exact ⟨fun x => nullables_complete hd hc h1, fun x => nullables_near hd hc h1,
    fun hx x => nullables_exact hd hc hx h1⟩

/-- `w` has an empty method, `y` leads to `w`, `x` to `y` and `q`, `t` to `x`, and `q` has no method. -/
def mixedDomain : Bytes := b!"(define (domain d) (:task w :parameters ()) (:task y :parameters ())
    (:task x :parameters ()) (:task q :parameters ()) (:task t :parameters ())
    (:method m1 :parameters () :task (w) :ordered-subtasks ())
    (:method m2 :parameters () :task (y) :ordered-subtasks (and (w)))
    (:method m3 :parameters () :task (x) :ordered-subtasks (and (y) (q)))
    (:method m4 :parameters () :task (t) :ordered-subtasks (and (x))))\n"

omit [Env] in
theorem mixed_shape : ∃ d, @Parses Env.plain mixedDomain (.domain d) ∧
    d.tasks.map (·.name) = [b!"w", b!"y", b!"x", b!"q", b!"t"] ∧ d.actions.map (·.name) = [] ∧
    d.methods.map (fun m => (m.task.name, m.tn.subtasks.map (·.task.name))) =
      [(b!"w", []), (b!"y", [b!"w"]), (b!"x", [b!"y", b!"q"]), (b!"t", [b!"x"])] := by
  obtain ⟨a, h1, h2⟩ := @parses_holds mixedDomain Env.plain 80
    (shapeIs [b!"w", b!"y", b!"x", b!"q", b!"t"] []
      [(b!"w", []), (b!"y", [b!"w"]), (b!"x", [b!"y", b!"q"]), (b!"t", [b!"x"])]) (by decide +kernel)
  obtain ⟨d, rfl, h3⟩ := shape_of h2
  exact ⟨d, h1, h3⟩

omit [Env] in
/-- C31 does not hold in general: `t` is reported as nullable, although `q` below it has no method. -/
theorem C31_refuted : ∃ d md, @Parses Env.plain mixedDomain (.domain d) ∧ @Metadata Env.plain HashOrd.id mixedDomain md ∧
    b!"t" ∈ md.nullables ∧ ¬ Nullable d b!"t" := by
  obtain ⟨d, h1, _, _, h5⟩ := mixed_shape
  refine ⟨d, ⟨.nonRecursive, [b!"t", b!"y", b!"w"], [], 0, 5, 4⟩, h1,
    @metadata_run Env.plain _ _ 80 _ (by decide +kernel), by decide,
    not_nullable h5 [b!"t", b!"x", b!"q"] (by decide) _ (by simp)⟩

/-! ### C32: hash order -/

/-- C32, the part that holds for all files and all iteration orders: `verify` accepts or rejects alike and returns the same
error, and the warnings are the same up to order if no compound task has the name of an action and the condition `Unmixed` holds.
Missing: without the condition the warnings can differ, see `C32_refuted`. -/
theorem C32_order_partial (r : R (List Warning)) (h : Returns ord f prob r) :
    ∃ r', Returns ord' f prob r' ∧ ((∃ ws ws', r = .ok ws ∧ r' = .ok ws' ∧
      ∀ d, Parses f (.domain d) → NoClash d → Unmixed d → ws'.Perm ws) ∨ (r' = r ∧ ∀ ws, r ≠ .ok ws)) := by
  obtain ⟨r', h', ho⟩ := returns_outcome ord' h
  refine ⟨r', h', ?_⟩
  cases r with
  | ok ws =>
    cases r' with
    | ok ws' =>
      refine .inl ⟨ws, ws', rfl, rfl, fun d hf hc hx => ?_⟩
      obtain ⟨h1, _, h2⟩ := C29_warnings_partial hf hc ws h
      obtain ⟨h1', _, h2'⟩ := C29_warnings_partial hf hc ws' h'
      obtain ⟨_, _, h3⟩ := C30_warnings_partial hf hc ws h
      obtain ⟨_, _, h3'⟩ := C30_warnings_partial hf hc ws' h'
      refine (List.perm_ext_iff_of_nodup h1'.of_map h1.of_map).mpr fun w => ⟨fun hw => ?_, fun hw => ?_⟩
      · obtain ⟨t, ht, rfl, _⟩ := (h2' w).mp hw
        exact (h3 hx t ht).mpr ((h3' hx t ht).mp hw)
      · obtain ⟨t, ht, rfl, _⟩ := (h2 w).mp hw
        exact (h3' hx t ht).mpr ((h3 hx t ht).mp hw)
    | _ => cases ho
  | err e =>
    cases r' with
    | err e' => simp only [outcome, R.bind_err, R.err.injEq] at ho; exact .inr ⟨by rw [ho], by simp⟩
    | _ => cases ho
  | panic x =>
    cases r' with
    | panic e' => simp only [outcome, R.bind_panic, R.panic.injEq] at ho; exact .inr ⟨by rw [ho], by simp⟩
    | _ => cases ho
  | timeout => exact absurd rfl h.1

omit [Env] in
/-- C32 does not hold in general: two iteration orders give different warnings. -/
theorem C32_refuted : ∃ ws ws', @Returns Env.plain HashOrd.id mixedDomain none (.ok ws) ∧
    @Returns Env.plain HashOrd.rev mixedDomain none (.ok ws') ∧ (∀ l, (⟨b!"t", l⟩ : Warning) ∉ ws) ∧ ⟨b!"t", 2⟩ ∈ ws' :=
  ⟨[⟨b!"x", 2⟩, ⟨b!"q", 2⟩], [⟨b!"t", 2⟩, ⟨b!"q", 2⟩, ⟨b!"x", 2⟩],
    @returns_run Env.plain _ _ _ 80 _ (by decide +kernel) (by simp),
    @returns_run Env.plain _ _ _ 80 _ (by decide +kernel) (by simp), by simp, by simp⟩

end Verif
