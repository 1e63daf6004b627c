import Verif.Proofs.Splitting
import Verif.Props.Changes
import Verif.Props.Decomposition
import Verif.Props.Recursion

/-! C102: splitting methods. -/

namespace Verif

open Spec

variable [Env] {ord ord' : HashOrd} {f f' g : Bytes} {d d₁ d' : DomainAST} {p : ProblemAST} {m : Method} {t x : Name}
  {md md' : MetaData}

/-- C102: a domain with a method split is accepted if and only if the domain is accepted and the parameters of the method have
known types. -/
theorem C102_domain (hf : Parses f (.domain d)) (h : SplitMethod d m t x d₁) (hf' : Parses f' (.domain d'))
    (hc : rnDomain id d' = rnDomain id d₁) :
    (∃ ws, Returns ord' f' none (.ok ws)) ↔ (∃ ws, Returns ord f none (.ok ws)) ∧ TypesKnown (typesOf d) m.params := by
  rw [returns_domain_iff hf, returns_domain_iff hf', ← domainOk_lines, hc, domainOk_lines, h.domainOk]

/-- C102: the same problems are accepted, except for those that use the new task. -/
theorem C102_problem (hf : Parses f (.domain d)) (h : SplitMethod d m t x d₁) (hf' : Parses f' (.domain d'))
    (hc : rnDomain id d' = rnDomain id d₁) (hg : Parses g (.problem p))
    (hp : ∀ i, p.initTn = some i → ∀ s ∈ i.tn.subtasks, s.task.name ≠ t) :
    (∃ ws, Returns ord' f' (some g) (.ok ws)) ↔
      (∃ ws, Returns ord f (some g) (.ok ws)) ∧ TypesKnown (typesOf d) m.params := by
  rw [returns_problem_iff hf hg, returns_problem_iff hf' hg, ← domainOk_lines, ← problemOk_lines, hc, domainOk_lines,
    problemOk_lines, h.domainOk, h.problemOk hp]
  tauto

/-! ### Decompositions do not depend on lines -/

/-- What matters for decompositions. -/
def callsOf (d : DomainAST) : List (Name × List Name) := d.methods.map fun m => (m.task.name, m.tn.subtasks.map (·.task.name))

omit [Env] in
theorem callsOf_rn : callsOf (rnDomain id d) = callsOf d := by
  simp [callsOf, rnDomain, rnMethod, rnHtn, rnSubtask, rnSymbol, Function.comp_def]

omit [Env] in
theorem hasSub_calls {y z : Name} : HasSub d y z ↔ ∃ l, (y, l) ∈ callsOf d ∧ z ∈ l := by
  unfold callsOf
  constructor
  · rintro ⟨m, hm, rfl, s, hs, rfl⟩
    exact ⟨_, List.mem_map.mpr ⟨m, hm, rfl⟩, List.mem_map.mpr ⟨s, hs, rfl⟩⟩
  · rintro ⟨l, h1, h2⟩
    obtain ⟨m, hm, e⟩ := List.mem_map.mp h1
    rw [Prod.mk.injEq] at e
    obtain ⟨rfl, rfl⟩ := e
    obtain ⟨s, hs, rfl⟩ := List.mem_map.mp h2
    exact ⟨m, hm, rfl, s, hs, rfl⟩

omit [Env] in
theorem hasSub_of_calls (h : callsOf d = callsOf d') : HasSub d = HasSub d' := by
  funext y z
  rw [eq_iff_iff, hasSub_calls, hasSub_calls, h]

omit [Env] in
theorem nullable_of_calls (h : callsOf d = callsOf d') {y : Name} : Nullable d y ↔ Nullable d' y := by
  have key {d d' : DomainAST} (h : callsOf d = callsOf d') {y : Name} (hy : Nullable d y) : Nullable d' y := by
    induction hy with
    | @mk m hm _ ih =>
      refine nullable_shape h.symm (List.mem_map.mpr ⟨m, hm, rfl⟩) fun s hs => ?_
      obtain ⟨r, hr, rfl⟩ := List.mem_map.mp hs
      exact ih r hr
  exact ⟨key h, key h.symm⟩

omit [Env] in
theorem refinable_of_calls (h : callsOf d = callsOf d') (ha : d.actions.map (·.name) = d'.actions.map (·.name)) {y : Name} :
    Refinable d y ↔ Refinable d' y := by
  have key {d d' : DomainAST} (h : callsOf d = callsOf d') (ha : d.actions.map (·.name) = d'.actions.map (·.name)) {y : Name}
      (hy : Refinable d y) : Refinable d' y := by
    induction hy with
    | action h1 =>
      have h2 := List.mem_map_of_mem (f := Action.name) h1
      rw [ha] at h2
      obtain ⟨b, h3, h4⟩ := List.mem_map.mp h2
      exact h4 ▸ .action h3
    | @method m hm _ ih =>
      have h2 : (m.task.name, m.tn.subtasks.map (·.task.name)) ∈ callsOf d' := h ▸ List.mem_map.mpr ⟨m, hm, rfl⟩
      obtain ⟨n, hn, e⟩ := List.mem_map.mp h2
      rw [Prod.mk.injEq] at e
      rw [← e.1]
      refine .method hn fun s hs => ?_
      have h3 := List.mem_map_of_mem (f := fun s : Subtask => s.task.name) hs
      rw [e.2] at h3
      obtain ⟨r, hr, h4⟩ := List.mem_map.mp h3
      exact h4 ▸ ih r hr
  exact ⟨key h ha, key h.symm ha.symm⟩

omit [Env] in
theorem reachesAction_of_calls (h : callsOf d = callsOf d') (ha : d.actions.map (·.name) = d'.actions.map (·.name)) {y : Name} :
    ReachesAction d y ↔ ReachesAction d' y := by
  have key {d d' : DomainAST} (h : HasSub d = HasSub d') (ha : d.actions.map (·.name) = d'.actions.map (·.name)) :
      ReachesAction d y → ReachesAction d' y := by
    rintro ⟨a, h1, h2⟩
    have h3 := List.mem_map_of_mem (f := Action.name) h1
    rw [ha] at h3
    obtain ⟨b, h4, h5⟩ := List.mem_map.mp h3
    exact ⟨b, h4, by rw [h5, ← h]; exact h2⟩
  exact ⟨key (hasSub_of_calls h) ha, key (hasSub_of_calls h.symm) ha.symm⟩

omit [Env] in
theorem names_of_lines (hc : rnDomain id d' = rnDomain id d₁) : callsOf d' = callsOf d₁ ∧
    d'.actions.map (·.name) = d₁.actions.map (·.name) ∧ d'.tasks.map (·.name) = d₁.tasks.map (·.name) ∧
    d'.methods.length = d₁.methods.length := by
  refine ⟨by rw [← callsOf_rn (d := d'), hc, callsOf_rn], ?_, ?_, ?_⟩
  · simpa [rnDomain, rnAction, Function.comp_def] using congrArg (fun d => d.actions.map (·.name)) hc
  · simpa [rnDomain, rnTask, Function.comp_def] using congrArg (fun d => d.tasks.map (·.name)) hc
  · simpa [rnDomain] using congrArg (fun d => d.methods.length) hc

omit [Env] in
/-- C102: what the old tasks can be decomposed into does not change. -/
theorem C102_decompositions (h : SplitMethod d m t x d₁) (hc : rnDomain id d' = rnDomain id d₁) {y : Name} (hy : y ≠ t) :
    (Nullable d' y ↔ Nullable d y) ∧ (Refinable d' y ↔ Refinable d y) ∧ (ReachesAction d' y ↔ ReachesAction d y) ∧
    ∀ z, z ≠ t → (Relation.TransGen (HasSub d') y z ↔ Relation.TransGen (HasSub d) y z) := by
  obtain ⟨h1, h2, _, _⟩ := names_of_lines hc
  refine ⟨(nullable_of_calls h1).trans (h.nullable hy), (refinable_of_calls h1 h2).trans (h.refinable hy),
    (reachesAction_of_calls h1 h2).trans (h.reachesAction hy), fun z hz => ?_⟩
  rw [hasSub_of_calls h1]
  exact ⟨fun h3 => (h.up hy h3).1 hz, h.down⟩

/-- C102: the domain stays recursive or not, and has one task and one method more. -/
theorem C102_metadata (hf : Parses f (.domain d)) (h : SplitMethod d m t x d₁) (hf' : Parses f' (.domain d'))
    (hc : rnDomain id d' = rnDomain id d₁) (hm : Metadata ord f md) (hm' : Metadata ord' f' md') :
    (md'.recursion = .nonRecursive ↔ md.recursion = .nonRecursive) ∧ md'.nActions = md.nActions ∧
    md'.nTasks = md.nTasks + 1 ∧ md'.nMethods = md.nMethods + 1 := by
  obtain ⟨h1, h2, h3, h4⟩ := names_of_lines hc
  obtain ⟨c1, c2, c3⟩ := C38_counts_tree hf hm
  obtain ⟨c1', c2', c3'⟩ := C38_counts_tree hf' hm'
  refine ⟨?_, ?_, ?_, ?_⟩
  · rw [C34_non_recursive hf hm, C34_non_recursive hf' hm', hasSub_of_calls h1, h.cyclic]
  · have := congrArg List.length h2
    simp only [List.length_map] at this
    obtain ⟨_, _, _, _, _, _, _, _, _, _, _, _, _, rfl⟩ := h
    rw [c1, c1', this]
  · have := congrArg List.length h3
    simp only [List.length_map] at this
    obtain ⟨_, _, ts₁, ts₂, _, _, _, _, ht, _, _, _, _, rfl⟩ := h
    rw [c2, c2', this, ht]
    simp only [List.length_append, List.length_cons]
    omega
  · obtain ⟨ms₁, ms₂, _, _, _, _, _, hms, _, _, _, _, _, rfl⟩ := h
    rw [c3, c3', h4, hms]
    simp only [List.length_append, List.length_cons]
    omega

omit [Env] in
theorem unmixed_of_calls (h : callsOf d = callsOf d') (hu : Unmixed d) : Unmixed d' := by
  rintro n hn ⟨s, hs, h1⟩
  have h2 : (n.task.name, n.tn.subtasks.map (·.task.name)) ∈ callsOf d := h ▸ List.mem_map.mpr ⟨n, hn, rfl⟩
  obtain ⟨k, hk, e⟩ := List.mem_map.mp h2
  rw [Prod.mk.injEq] at e
  have h3 := List.mem_map_of_mem (f := fun s : Subtask => s.task.name) hs
  rw [← e.2] at h3
  obtain ⟨r, hr, h4⟩ := List.mem_map.mp h3
  rw [← e.1, ← nullable_of_calls h]
  exact hu k hk ⟨r, hr, by rw [h4, nullable_of_calls h]; exact h1⟩

omit [Env] in
theorem noClash_of_names (ha : d.actions.map (·.name) = d'.actions.map (·.name)) (ht : d.tasks.map (·.name) = d'.tasks.map (·.name))
    (hn : NoClash d) : NoClash d' := by
  refine noClash_shape rfl rfl fun y h1 h2 => ?_
  rw [← ht] at h1
  rw [← ha] at h2
  obtain ⟨u, hu, rfl⟩ := List.mem_map.mp h1
  obtain ⟨v, hv, e⟩ := List.mem_map.mp h2
  exact hn u hu v hv e.symm

/-- C102: with correctly computed nullable tasks, the same old tasks are nullable and are warned about. -/
theorem C102_warnings (hf : Parses f (.domain d)) (h : SplitMethod d m t x d₁) (hf' : Parses f' (.domain d'))
    (hc : rnDomain id d' = rnDomain id d₁) (hn : NoClash d) (hu : Unmixed d) (hu' : Unmixed d') {ws ws' : List Warning}
    (hr : Returns ord f none (.ok ws)) (hr' : Returns ord' f' none (.ok ws')) :
    (∀ y, y ≠ t → (y ∈ ws'.map (·.symbol) ↔ y ∈ ws.map (·.symbol))) ∧
    ∀ md md', Metadata ord f md → Metadata ord' f' md' → ∀ y, y ≠ t → (y ∈ md'.nullables ↔ y ∈ md.nullables) := by
  obtain ⟨h1, h2, h3, h4⟩ := names_of_lines hc
  have hn' : NoClash d' := noClash_of_names h2.symm h3.symm (h.noClash.mpr hn)
  have old (y : Name) (hy : y ≠ t) : (∃ u ∈ d'.tasks, u.name = y) ↔ ∃ u ∈ d.tasks, u.name = y := by
    rw [← List.mem_map, ← List.mem_map, h3]
    obtain ⟨_, _, ts₁, ts₂, _, _, _, _, ht, _, _, _, _, rfl⟩ := h
    rw [ht]
    simp [hy.symm, eq_comm]
  have warned {ord : HashOrd} {f : Bytes} {d : DomainAST} {ws : List Warning} (hf : Parses f (.domain d)) (hn : NoClash d)
      (hu : Unmixed d) (hr : Returns ord f none (.ok ws)) (y : Name) :
      y ∈ ws.map (·.symbol) ↔ (∃ u ∈ d.tasks, u.name = y) ∧ ¬ ReachesAction d y ∧ ¬ Nullable d y := by
    have hw := (C30_warnings_partial hf hn ws hr).2.2 hu
    rw [List.mem_map]
    constructor
    · rintro ⟨w, hw', rfl⟩
      obtain ⟨u, hu', e, _⟩ := ((C29_warnings_partial hf hn ws hr).2.2 w).mp hw'
      rw [e] at hw' ⊢
      exact ⟨⟨u, hu', rfl⟩, (hw u hu').mp hw'⟩
    · rintro ⟨⟨u, hu', rfl⟩, h⟩
      exact ⟨_, (hw u hu').mpr h, rfl⟩
  refine ⟨fun y hy => ?_, fun md md' hm hm' y hy => ?_⟩
  · obtain ⟨k1, _, k3, _⟩ := C102_decompositions h hc hy
    rw [warned hf hn hu hr, warned hf' hn' hu' hr', old y hy, k1, k3]
  · rw [(C31_nullables_partial hf ⟨ws, hr⟩ hn md hm).2.2 hu, (C31_nullables_partial hf' ⟨ws', hr'⟩ hn' md' hm').2.2 hu',
      (C102_decompositions h hc hy).1]

/-! ### Instances -/

def longMethod : Bytes := b!"(define (domain d) (:types a - b) (:task s :parameters (?x - b)) (:action m :parameters (?x - b))
 (:method n :parameters (?x - b ?y - a) :task (s ?x) :ordered-subtasks (and (m ?x) (m ?y) (s ?y)))
 (:method o :parameters (?x - b) :task (s ?x) :ordered-subtasks (and (m ?x))))\n"

def shortMethods : Bytes := b!"(define (domain d) (:types a - b) (:task s :parameters (?x - b))
 (:task s1 :parameters (?x - b ?y - a)) (:action m :parameters (?x - b))
 (:method n :parameters (?x - b ?y - a) :task (s ?x) :ordered-subtasks (and (m ?x) (s1 ?x ?y)))
 (:method n1 :parameters (?x - b ?y - a) :task (s1 ?x ?y) :ordered-subtasks (and (m ?y) (s ?y)))
 (:method o :parameters (?x - b) :task (s ?x) :ordered-subtasks (and (m ?x))))\n"

/-- The first method split after `k` subtasks. -/
def splitFirst (d : DomainAST) (k : Nat) (t x : Name) : DomainAST :=
  match d.methods with
  | [] => d
  | m :: ms => { d with
      tasks := d.tasks ++ [⟨t, 0, m.params⟩]
      methods := frontMethod m t (m.tn.subtasks.take k) [] :: restMethod m t x (m.tn.subtasks.drop k) :: ms }

/-- What `splitFirst` needs. -/
def CanSplit (d : DomainAST) (t x : Name) : Prop :=
  d.methods ≠ [] ∧ (∀ m ∈ d.methods, m.tn.orderings = .total) ∧ (∀ u ∈ d.tasks, u.name ≠ t) ∧ (∀ a ∈ d.actions, a.name ≠ t) ∧
    (∀ m ∈ d.methods, m.task.name ≠ t ∧ ∀ s ∈ m.tn.subtasks, s.task.name ≠ t) ∧ ∀ n ∈ d.methods, n.name.name ≠ x

instance : Decidable (CanSplit d t x) := by unfold CanSplit; infer_instance

omit [Env] in
theorem splitFirst_splits (k : Nat) (h : CanSplit d t x) : ∃ m ∈ d.methods, SplitMethod d m t x (splitFirst d k t x) := by
  obtain ⟨h1, h2, h3, h4, h5, h6⟩ := h
  unfold splitFirst
  cases hm : d.methods with
  | nil => exact absurd hm h1
  | cons m ms =>
    refine ⟨m, List.mem_cons_self, [], ms, d.tasks, [], m.tn.subtasks.take k, m.tn.subtasks.drop k, [], hm, by simp,
      by rw [List.append_nil, List.take_append_drop], h2 m (by rw [hm]; exact List.mem_cons_self), ⟨h3, h4, h5⟩, h6, rfl⟩

omit [Env] in
/-- Instance: a method with three subtasks is split after the first one. -/
example : ∃ d m d₁ d', @Parses Env.plain longMethod (.domain d) ∧ SplitMethod d m b!"s1" b!"n1" d₁ ∧
    @Parses Env.plain shortMethods (.domain d') ∧ rnDomain id d' = rnDomain id d₁ ∧
    @Returns Env.plain HashOrd.id longMethod none (.ok []) ∧ @Returns Env.plain HashOrd.id shortMethods none (.ok []) := by
  let _ := Env.plain
  obtain ⟨d, d', h1, h2, h3, h4⟩ := parses_pair (f := longMethod) (f' := shortMethods) (n := 300)
    (r := fun d d' => CanSplit d b!"s1" b!"n1" ∧ rnDomain id d' = rnDomain id (splitFirst d 1 b!"s1" b!"n1")) (by decide +kernel)
  obtain ⟨m, _, h5⟩ := splitFirst_splits 1 h3
  exact ⟨d, m, _, d', h1, h5, h2, h4, returns_run (n := 300) (by decide +kernel) (by decide),
    returns_run (n := 300) (by decide +kernel) (by decide)⟩

/-- A method with a parameter of an unknown type. -/
def vagueMethod : Bytes := b!"(define (domain d) (:task s :parameters ()) (:action m :parameters ())
 (:method n :parameters (?x - q) :task (s) :ordered-subtasks (and (m) (m))))\n"

def vagueSplit : Bytes := b!"(define (domain d) (:task s :parameters ())
 (:task s1 :parameters (?x - q)) (:action m :parameters ())
 (:method n :parameters (?x - q) :task (s) :ordered-subtasks (and (m) (s1 ?x)))
 (:method n1 :parameters (?x - q) :task (s1 ?x) :ordered-subtasks (and (m))))\n"

omit [Env] in
/-- C102: the types have to be known. The types of the parameters of a method without precondition are not checked, but those of
a task are. -/
theorem C102_types_needed : ∃ d m d₁ d', @Parses Env.plain vagueMethod (.domain d) ∧ SplitMethod d m b!"s1" b!"n1" d₁ ∧
    @Parses Env.plain vagueSplit (.domain d') ∧ rnDomain id d' = rnDomain id d₁ ∧
    @Returns Env.plain HashOrd.id vagueMethod none (.ok []) ∧
    @Returns Env.plain HashOrd.id vagueSplit none (.err (.semantic (.undefType ⟨b!"q", 2⟩))) := by
  let _ := Env.plain
  obtain ⟨d, d', h1, h2, h3, h4⟩ := parses_pair (f := vagueMethod) (f' := vagueSplit) (n := 300)
    (r := fun d d' => CanSplit d b!"s1" b!"n1" ∧ rnDomain id d' = rnDomain id (splitFirst d 1 b!"s1" b!"n1")) (by decide +kernel)
  obtain ⟨m, _, h5⟩ := splitFirst_splits 1 h3
  exact ⟨d, m, _, d', h1, h5, h2, h4, returns_run (n := 300) (by decide +kernel) (by decide),
    returns_run (n := 300) (by decide +kernel) (by decide)⟩

/-- As `listedLast` in C84, with the split method first. -/
def mixedMethod : Bytes := b!"(define (domain d) (:task s :parameters ()) (:task t :parameters ()) (:task a :parameters ()) (:task b :parameters ()) (:task c :parameters ())
 (:method m1 :parameters () :task (t) :ordered-subtasks (and (b) (a))) (:method m0 :parameters () :task (s) :ordered-subtasks (t))
 (:method m2 :parameters () :task (b) :ordered-subtasks (c)) (:method m3 :parameters () :task (c) :ordered-subtasks ()))\n"

def mixedSplit : Bytes := b!"(define (domain d) (:task s :parameters ()) (:task t :parameters ()) (:task a :parameters ()) (:task b :parameters ()) (:task c :parameters ()) (:task s1 :parameters ())
 (:method m1 :parameters () :task (t) :ordered-subtasks (and (s1)))
 (:method n1 :parameters () :task (s1) :ordered-subtasks (and (b) (a))) (:method m0 :parameters () :task (s) :ordered-subtasks (t))
 (:method m2 :parameters () :task (b) :ordered-subtasks (c)) (:method m3 :parameters () :task (c) :ordered-subtasks ()))\n"

omit [Env] in
/-- C102: if nullable tasks are not computed correctly, splitting a method can hide a warning about its task. -/
theorem C102_warnings_refuted : ∃ d m d₁ d', @Parses Env.plain mixedMethod (.domain d) ∧ SplitMethod d m b!"s1" b!"n1" d₁ ∧
    @Parses Env.plain mixedSplit (.domain d') ∧ rnDomain id d' = rnDomain id d₁ ∧
    @Returns Env.plain HashOrd.id mixedMethod none (.ok [⟨b!"t", 1⟩, ⟨b!"a", 1⟩]) ∧
    @Returns Env.plain HashOrd.id mixedSplit none (.ok [⟨b!"a", 1⟩, ⟨b!"s1", 1⟩]) := by
  let _ := Env.plain
  obtain ⟨d, d', h1, h2, h3, h4⟩ := parses_pair (f := mixedMethod) (f' := mixedSplit) (n := 900)
    (r := fun d d' => CanSplit d b!"s1" b!"n1" ∧ rnDomain id d' = rnDomain id (splitFirst d 0 b!"s1" b!"n1")) (by decide +kernel)
  obtain ⟨m, _, h5⟩ := splitFirst_splits 0 h3
  exact ⟨d, m, _, d', h1, h5, h2, h4, returns_run (n := 900) (by decide +kernel) (by decide),
    returns_run (n := 900) (by decide +kernel) (by decide)⟩

/-- A uniform domain: `e` is nullable, `u` cannot be refined. -/
def plainLong : Bytes := b!"(define (domain d) (:task s :parameters ()) (:task u :parameters ()) (:task e :parameters ())
 (:method n :parameters () :task (e) :ordered-subtasks (and (e) (e)))
 (:method o :parameters () :task (e) :ordered-subtasks ()) (:method k :parameters () :task (s) :ordered-subtasks (and (u))))\n"

def plainShort : Bytes := b!"(define (domain d) (:task s :parameters ()) (:task u :parameters ()) (:task e :parameters ()) (:task s1 :parameters ())
 (:method n :parameters () :task (e) :ordered-subtasks (and (e) (s1)))
 (:method n1 :parameters () :task (s1) :ordered-subtasks (and (e)))
 (:method o :parameters () :task (e) :ordered-subtasks ()) (:method k :parameters () :task (s) :ordered-subtasks (and (u))))\n"

omit [Env] in
/-- Instance of `C102_warnings`. -/
example : ∃ d m d₁ d', @Parses Env.plain plainLong (.domain d) ∧ SplitMethod d m b!"s1" b!"n1" d₁ ∧
    @Parses Env.plain plainShort (.domain d') ∧ rnDomain id d' = rnDomain id d₁ ∧ NoClash d ∧ Unmixed d ∧ Unmixed d' ∧
    @Returns Env.plain HashOrd.id plainLong none (.ok [⟨b!"s", 1⟩, ⟨b!"u", 1⟩]) ∧
    @Returns Env.plain HashOrd.id plainShort none (.ok [⟨b!"s", 1⟩, ⟨b!"u", 1⟩]) := by
  let _ := Env.plain
  obtain ⟨d, d', h1, h2, ⟨h3, h4⟩, hk, ha⟩ := parses_pair (f := plainLong) (f' := plainShort) (n := 900)
    (r := fun d d' => (CanSplit d b!"s1" b!"n1" ∧ rnDomain id d' = rnDomain id (splitFirst d 1 b!"s1" b!"n1")) ∧
      (callsOf d = [(b!"e", [b!"e", b!"e"]), (b!"e", []), (b!"s", [b!"u"])] ∧
        callsOf d' = [(b!"e", [b!"e", b!"s1"]), (b!"s1", [b!"e"]), (b!"e", []), (b!"s", [b!"u"])]) ∧ d.actions = [])
    (by decide +kernel)
  obtain ⟨m, _, h5⟩ := splitFirst_splits 1 h3
  have e : Nullable d b!"e" := nullable_shape hk.1 (l := []) (by simp) (fun _ h => nomatch h)
  have e' : Nullable d' b!"e" := nullable_shape hk.2 (l := []) (by simp) (fun _ h => nomatch h)
  have s' : Nullable d' b!"s1" := nullable_shape hk.2 (l := [b!"e"]) (by simp) (by simpa using e')
  have hu : Unmixed d := unmixed_shape hk.1 fun c hc h => by
    simp only [List.mem_cons, List.not_mem_nil, or_false] at hc
    rcases hc with rfl | rfl | rfl
    · exact e
    · exact e
    · obtain ⟨s, hs, hn⟩ := h
      simp only [List.mem_cons, List.not_mem_nil, or_false] at hs
      subst hs
      exact absurd hn (not_nullable hk.1 [b!"u"] (by decide) _ (by simp))
  have hu' : Unmixed d' := unmixed_shape hk.2 fun c hc h => by
    simp only [List.mem_cons, List.not_mem_nil, or_false] at hc
    rcases hc with rfl | rfl | rfl | rfl
    · exact e'
    · exact s'
    · exact e'
    · obtain ⟨s, hs, hn⟩ := h
      simp only [List.mem_cons, List.not_mem_nil, or_false] at hs
      subst hs
      exact absurd hn (not_nullable hk.2 [b!"u"] (by decide) _ (by simp))
  exact ⟨d, m, _, d', h1, h5, h2, h4, fun _ _ a h => (by rw [ha] at h; cases h), hu, hu',
    returns_run (n := 900) (by decide +kernel) (by decide), returns_run (n := 900) (by decide +kernel) (by decide)⟩

end Verif
