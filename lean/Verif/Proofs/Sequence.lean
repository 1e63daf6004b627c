import Verif.Proofs.Order
import Verif.Proofs.Reorder
import Verif.Proofs.Rewriting
import Verif.Proofs.Skeleton
import Verif.Spec.Clash
import Verif.Spec.Decomposition
import Verif.Spec.Sequence

/-! Changing labels and orderings of subtasks. -/

namespace Verif

open Spec

variable {ord : HashOrd} {g : TDG} {d d' : DomainAST} {p p' : ProblemAST} {r : List (Name × List Name) → List (Name × List Name) → Prop}

/-! ### Nullable tasks and warnings do not depend on orderings and labels -/

/-- All subtasks are totally ordered. -/
def unordered (d : DomainAST) : DomainAST := { d with methods := d.methods.map fun m => { m with tn := { m.tn with orderings := .total } } }

/-- Another list of networks in the graph. -/
def TDG.relabel (ms : List (Name × HTN)) (g : TDG) : TDG := { g with methods := ms }

theorem methodTasks_names {ms ms' : List Method} (h : ms'.map (·.task.name) = ms.map (·.task.name)) (ts : List (Name × Bool)) :
    methodTasks ts ms' = methodTasks ts ms := by
  induction ms generalizing ms' with
  | nil => rw [List.map_eq_nil_iff.mp h]
  | cons m ms ih =>
    cases ms' with
    | nil => cases h
    | cons m' ms' =>
      simp only [List.map_cons, List.cons.injEq] at h
      simp only [methodTasks, h.1, ih h.2]

theorem unordered_new : ∃ ms, TDG.new ord (unordered d) = (TDG.new ord d).map (TDG.relabel ms) := by
  have h1 : tdgTasks (unordered d) = tdgTasks d := rfl
  have h2 : ∀ ts, methodTasks ts (unordered d).methods = methodTasks ts d.methods := fun ts =>
    methodTasks_names (by simp [unordered, Function.comp_def]) ts
  have h3 : ∀ ts, methodSubtasks ts (unordered d).methods = methodSubtasks ts d.methods := by
    intro ts
    simp only [unordered]
    induction d.methods with
    | nil => rfl
    | cons m ms ih => simp only [List.map_cons, methodSubtasks, ih]
  refine ⟨(unordered d).methods.map fun m => (m.name.name, m.tn), ?_⟩
  unfold TDG.new
  simp only [h1, h2, h3]
  cases methodTasks (tdgTasks d) d.methods with
  | ok owner =>
    cases methodSubtasks (tdgTasks d) d.methods with
    | ok subs => simp only [R.map, R.bind_ok, TDG.relabel]
    | _ => rfl
  | _ => rfl

variable {ms : List (Name × HTN)}

theorem TDG.nullLoop_relabel (n : Nat) (s : NullState) : (g.relabel ms).nullLoop n s = g.nullLoop n s := by
  induction n generalizing s with
  | zero => rfl
  | succ n ih =>
    unfold TDG.nullLoop
    rw [ih]
    rfl

theorem TDG.nullables_relabel (n : Nat) : (g.relabel ms).nullables n = g.nullables n := by
  unfold TDG.nullables
  rw [TDG.nullLoop_relabel]
  rfl

theorem TDG.bfs_relabel (n : Nat) (q v r : List Nat) : (g.relabel ms).bfs n q v r = g.bfs n q v r := by
  induction n generalizing q v r with
  | zero => cases q <;> rfl
  | succ n ih =>
    cases q with
    | nil => rfl
    | cons t q =>
      simp only [TDG.bfs, ih]
      rfl

theorem TDG.reachable_relabel (n : Nat) (x : Name) : (g.relabel ms).reachable n x = g.reachable n x := by
  unfold TDG.reachable
  simp only [TDG.bfs_relabel, TDG.nullables_relabel]
  rfl

theorem collectWarnings_relabel (n : Nat) (ts : List Task) : collectWarnings (g.relabel ms) n ts = collectWarnings g n ts := by
  induction ts with
  | nil => rfl
  | cons t ts ih => simp only [collectWarnings, TDG.reachable_relabel, ih]

theorem nullablesOf_unordered (n : Nat) :
    ((TDG.new ord (unordered d)).bind fun g => g.nullables n) = (TDG.new ord d).bind fun g => g.nullables n := by
  obtain ⟨ms, h⟩ := unordered_new (ord := ord) (d := d)
  rw [h, R.map_bind]
  simp only [TDG.nullables_relabel]

theorem nullablesOf_skeleton (n : Nat) :
    ((TDG.new ord (skeleton d)).bind fun g => g.nullables n) = (TDG.new ord d).bind fun g => g.nullables n := by
  rw [TDG.new_skeleton, R.map_bind]
  simp only [TDG.nullables_bare]

theorem warningsOf_unordered (n : Nat) : warningsOf ord n (unordered d) = warningsOf ord n d := by
  obtain ⟨ms, h⟩ := unordered_new (ord := ord) (d := d)
  unfold warningsOf
  rw [h, R.map_bind]
  simp only [collectWarnings_relabel]
  rfl

theorem skeleton_unordered_rn : skeleton (unordered (rnDomain id d)) = skeleton (unordered d) := by
  simp [skeleton, unordered, rnDomain, Function.comp_def, methodOnly, rnMethod, rnTask, rnAction, rnHtn, nameOnly, rnSymbol, orderOnly]
  intro m _ a _
  exact subtaskOnly_rn false a

theorem only_of_calls {h k : HTN} (hc : calls h = calls k) : h.subtasks.map (subtaskOnly false) = k.subtasks.map (subtaskOnly false) := by
  have : ∀ x : HTN, x.subtasks.map (subtaskOnly false) = (calls x).map fun c => ⟨none, nameOnly ⟨c.1, 0, none, none⟩, []⟩ := by
    intro x
    simp [calls, subtaskOnly, nameOnly, Function.comp_def]
  rw [this, this, hc]

theorem Spec.Resequenced.skeleton_eq (h : Resequenced Eq d d') : skeleton (unordered d') = skeleton (unordered d) := by
  have hm : d'.methods.map (fun m => methodOnly { m with tn := { m.tn with orderings := .total } }) =
      d.methods.map (fun m => methodOnly { m with tn := { m.tn with orderings := .total } }) := by
    refine forall2_map_eq (fun {m k} hmk => ?_) h.methods
    rw [hmk.1]
    simp only [methodOnly, orderOnly, only_of_calls hmk.2]
  have hs := h.same
  simp only [skeleton, unordered, List.map_map, Function.comp_def, hm]
  rw [hs]

theorem skeleton_resequenced (h : Resequenced Eq (rnDomain id d) (rnDomain id d')) :
    skeleton (unordered d') = skeleton (unordered d) := by
  rw [← skeleton_unordered_rn, h.skeleton_eq, skeleton_unordered_rn]

/-- The nullable tasks, in the order in which they are found. -/
theorem nullablesOf_resequenced (h : Resequenced Eq (rnDomain id d) (rnDomain id d')) (n : Nat) :
    ((TDG.new ord d').bind fun g => g.nullables n) = (TDG.new ord d).bind fun g => g.nullables n := by
  rw [← nullablesOf_unordered, ← nullablesOf_skeleton, skeleton_resequenced h, nullablesOf_skeleton, nullablesOf_unordered]

theorem nullablesAre_resequenced (h : Resequenced Eq (rnDomain id d) (rnDomain id d')) {ns : List Name} :
    NullablesAre ord d' ns ↔ NullablesAre ord d ns := by
  simp only [NullablesAre, nullablesOf_resequenced h]

theorem warningsOf_resequenced (h : Resequenced Eq (rnDomain id d) (rnDomain id d')) (n : Nat) :
    (warningsOf ord n d').map (fun ws => ws.map fun w => (⟨w.symbol, 0⟩ : Warning)) =
      (warningsOf ord n d).map (fun ws => ws.map fun w => (⟨w.symbol, 0⟩ : Warning)) := by
  have h1 := warningsOf_skeleton (ord := ord) (d := unordered d') n
  rw [skeleton_resequenced h, warningsOf_skeleton, warningsOf_unordered, warningsOf_unordered] at h1
  exact h1.symm

/-! ### Well-formedness -/

theorem Spec.ArgsFit.names {ts : List Symbol} {sc : List (List Symbol)} {a b ps : List Symbol} (hab : a.map (·.name) = b.map (·.name))
    (h : ArgsFit ts sc a ps) : ArgsFit ts sc b ps := by
  unfold ArgsFit at h ⊢
  induction h generalizing b with
  | nil => rw [List.map_eq_nil_iff.mp hab.symm]; exact .nil
  | @cons x y l l' hxy _ ih =>
    cases b with
    | nil => cases hab
    | cons z b =>
      simp only [List.map_cons, List.cons.injEq] at hab
      refine .cons ?_ (ih hab.2)
      obtain ⟨ty, h1, h2⟩ := hxy
      exact ⟨ty, hab.1 ▸ h1, h2⟩

theorem mem_of_calls {h k : HTN} (hc : (calls h).Perm (calls k)) {s : Subtask} (hs : s ∈ h.subtasks) :
    ∃ t ∈ k.subtasks, t.task.name = s.task.name ∧ t.terms.map (·.name) = s.terms.map (·.name) := by
  have h1 : (s.task.name, s.terms.map (·.name)) ∈ calls k := hc.mem_iff.mp (List.mem_map.mpr ⟨s, hs, rfl⟩)
  obtain ⟨t, ht, he⟩ := List.mem_map.mp h1
  simp only [Prod.mk.injEq] at he
  exact ⟨t, ht, he.1, he.2⟩

theorem subtasksOk_of_calls {h k : HTN} (hc : (calls h).Perm (calls k)) {sc : List (List Symbol)}
    (hs : ∀ s ∈ h.subtasks, ∃ ps, Callee d s.task.name ps ∧ ArgsFit (typesOf d) sc s.terms ps) :
    ∀ s ∈ k.subtasks, ∃ ps, Callee d s.task.name ps ∧ ArgsFit (typesOf d) sc s.terms ps := by
  intro s hm
  obtain ⟨t, ht, h1, h2⟩ := mem_of_calls hc.symm hm
  obtain ⟨ps, h3, h4⟩ := hs t ht
  exact ⟨ps, h1 ▸ h3, h4.names h2⟩

theorem Spec.Resequenced.symm (h : Resequenced List.Perm d d') : Resequenced List.Perm d' d := by
  have hrel : ∀ {l l' : List Method}, List.Forall₂ (fun m k : Method => k = { m with tn := k.tn } ∧ (calls m.tn).Perm (calls k.tn)) l l' →
      List.Forall₂ (fun m k : Method => k = { m with tn := k.tn } ∧ (calls m.tn).Perm (calls k.tn)) l' l := by
    refine fun {_ _} => forall2_symm ?_
    rintro m k ⟨h1, h2⟩
    refine ⟨?_, h2.symm⟩
    generalize k.tn = tn at h1
    subst h1
    rfl
  refine ⟨?_, hrel h.methods⟩
  · have hs := h.same
    generalize d'.methods = ms at hs
    subst hs
    rfl

theorem domainOk_resequenced (h : Resequenced List.Perm d d') (hd : DomainOk d) :
    DomainOk d' ↔ ∀ m ∈ d'.methods, Acyclic (Before m.tn) := by
  refine ⟨fun h' m hm => (h'.methods m hm).ordering, fun ho => ?_⟩
  have hcallee : ∀ {x ps}, Callee d x ps → Callee d' x ps := by
    rintro x ps (⟨h1, h2⟩ | ⟨h1, h2, h3⟩)
    · exact .action (by rw [h.same]; exact h1) h2
    · exact .task (by rw [h.same]; exact h1) (by rw [h.same]; exact h2) h3
  have hform : ∀ {ps f}, FormulaOk d ps f → FormulaOk d' ps f := by
    rintro ps f ⟨h1, h2, h3, h4⟩
    rw [h.same]
    exact ⟨h1, h2, h3, h4⟩
  have htypes : typesOf d' = typesOf d := by rw [h.same]; rfl
  have hconsts : constantsOf d' = constantsOf d := by rw [h.same]; rfl
  have htasks : d'.tasks = d.tasks := by rw [h.same]
  refine ⟨?_, ?_, ?_, ?_, ?_, ?_, ?_, ?_, ?_, fun k hk => ?_⟩
  · rw [h.same]; exact hd.requirements
  · rw [htypes]; exact hd.types
  · rw [h.same]; exact hd.predicates
  · rw [htypes]; rw [h.same]; exact hd.predicateTypes
  · rw [htasks]; exact hd.tasks
  · rw [htypes, htasks]; exact hd.taskTypes
  · rw [h.same]; exact hd.actionNames
  · intro a ha
    have ha : a ∈ d.actions := by rw [h.same] at ha; exact ha
    have h1 := hd.actions a ha
    exact ⟨h1.params, fun f hf => hform (h1.pre f hf), fun f hf => hform (h1.eff f hf)⟩
  · have : d'.methods.map (·.name.name) = d.methods.map (·.name.name) :=
      forall2_map_eq (fun hmk => by rw [hmk.1]) h.methods
    rw [this]
    exact hd.methodNames
  · obtain ⟨m, hm, h1, h2⟩ := forall2_mem_right h.methods hk
    have h3 := hd.methods m hm
    have hp : k.params = m.params := by rw [h1]
    refine ⟨?_, fun f hf => ?_, ?_, ?_, ho k hk⟩
    · rw [hp]; exact h3.params
    · rw [hp]
      rw [h1] at hf
      exact hform (h3.pre f hf)
    · rw [htypes, hconsts, htasks, h1]
      exact h3.task
    · intro s hs
      rw [htypes, hconsts, hp]
      obtain ⟨ps, h4, h5⟩ := subtasksOk_of_calls h2 h3.subtasks s hs
      exact ⟨ps, hcallee h4, h5⟩

theorem problemOk_resequenced (h : ResequencedProblem List.Perm p p') (hp : ProblemOk d p) :
    ProblemOk d p' ↔ ∀ k, p'.initTn = some k → Acyclic (Before k.tn) := by
  refine ⟨fun h' k hk => (h'.htn k hk).ordering, fun ho => ?_⟩
  have hobj : p'.objects = p.objects := by rw [h.same]
  have hfact : ∀ {a}, FactOk d p a → FactOk d p' a := by
    rintro a ⟨q, h1, h2, h3⟩
    exact ⟨q, h1, h2, by rw [hobj]; exact h3⟩
  refine ⟨by rw [hobj]; exact hp.objectTypes, by rw [hobj]; exact hp.objects, fun a ha => ?_, fun k hk => ?_, fun f hf a ha => ?_⟩
  · rw [h.same] at ha
    exact hfact (hp.init a ha)
  · have h1 := h.params
    rw [hk] at h1
    cases hq : p.initTn with
    | none => rw [hq] at h1; cases h1
    | some k0 =>
      rw [hq] at h1
      simp only [Option.map_some, Option.some.injEq] at h1
      refine ⟨ho k hk, ?_⟩
      rw [hobj, h1]
      exact subtasksOk_of_calls (h.calls k0 k hq hk) (hp.htn k0 hq).subtasks
  · rw [h.same] at hf
    exact hfact (hp.goal f hf a ha)

/-- The methods of the domain do not matter. -/
theorem problemOk_domain (h : Resequenced r d d') (hp : ProblemOk d p) : ProblemOk d' p := by
  have hcallee : ∀ {x ps}, Callee d x ps → Callee d' x ps := by
    rintro x ps (⟨h1, h2⟩ | ⟨h1, h2, h3⟩)
    · exact .action (by rw [h.same]; exact h1) h2
    · exact .task (by rw [h.same]; exact h1) (by rw [h.same]; exact h2) h3
  have htypes : typesOf d' = typesOf d := by rw [h.same]; rfl
  have hconsts : constantsOf d' = constantsOf d := by rw [h.same]; rfl
  have hfact : ∀ {a}, FactOk d p a → FactOk d' p a := by
    rintro a ⟨q, h1, h2, h3⟩
    exact ⟨q, by rw [h.same]; exact h1, h2, by rw [htypes, hconsts]; exact h3⟩
  refine ⟨by rw [htypes]; exact hp.objectTypes, hp.objects, fun a ha => hfact (hp.init a ha), fun k hk => ⟨(hp.htn k hk).ordering, fun s hs => ?_⟩,
    fun f hf a ha => hfact (hp.goal f hf a ha)⟩
  obtain ⟨ps, h1, h2⟩ := (hp.htn k hk).subtasks s hs
  exact ⟨ps, hcallee h1, by rw [htypes, hconsts]; exact h2⟩

/-! ### Decomposition -/

/-- The same actions, tasks and methods with the same sets of subtasks, by name. -/
structure SameSubs (d d' : DomainAST) : Prop where
  actions : ∀ a ∈ d.actions, ∃ b ∈ d'.actions, b.name = a.name
  methods : ∀ m ∈ d.methods, ∃ k ∈ d'.methods, k.task.name = m.task.name ∧
    ∀ x, (∃ s ∈ m.tn.subtasks, s.task.name = x) ↔ ∃ s ∈ k.tn.subtasks, s.task.name = x

theorem sameSubs_rn : SameSubs d (rnDomain id d) ∧ SameSubs (rnDomain id d) d := by
  refine ⟨⟨fun a ha => ⟨rnAction id a, List.mem_map_of_mem ha, rfl⟩, fun m hm => ⟨rnMethod id m, List.mem_map_of_mem hm, rfl, fun x => ?_⟩⟩,
    fun a ha => ?_, fun k hk => ?_⟩
  · simp [rnMethod, rnHtn, rnSubtask, rnSymbol]
  · obtain ⟨b, hb, rfl⟩ := List.mem_map.mp ha
    exact ⟨b, hb, rfl⟩
  · obtain ⟨m, hm, rfl⟩ := List.mem_map.mp hk
    refine ⟨m, hm, rfl, fun x => ?_⟩
    simp [rnMethod, rnHtn, rnSubtask, rnSymbol]

theorem SameSubs.trans {e : DomainAST} (h : SameSubs d d') (h' : SameSubs d' e) : SameSubs d e := by
  refine ⟨fun a ha => ?_, fun m hm => ?_⟩
  · obtain ⟨b, hb, h1⟩ := h.actions a ha
    obtain ⟨c, hc, h2⟩ := h'.actions b hb
    exact ⟨c, hc, h2.trans h1⟩
  · obtain ⟨b, hb, h1, h2⟩ := h.methods m hm
    obtain ⟨c, hc, h3, h4⟩ := h'.methods b hb
    exact ⟨c, hc, h3.trans h1, fun x => (h2 x).trans (h4 x)⟩

theorem Spec.Resequenced.sameSubs (h : Resequenced List.Perm d d') : SameSubs d d' := by
  refine ⟨fun a ha => ⟨a, by rw [h.same]; exact ha, rfl⟩, fun m hm => ?_⟩
  obtain ⟨k, hk, h1, h2⟩ := forall2_mem_right h.symm.methods hm
  refine ⟨k, hk, by rw [h1], fun x => ⟨?_, ?_⟩⟩
  · rintro ⟨s, hs, rfl⟩
    obtain ⟨t, ht, h3, _⟩ := mem_of_calls h2.symm hs
    exact ⟨t, ht, h3⟩
  · rintro ⟨s, hs, rfl⟩
    obtain ⟨t, ht, h3, _⟩ := mem_of_calls h2 hs
    exact ⟨t, ht, h3⟩

theorem sameSubs_resequenced (h : Resequenced List.Perm (rnDomain id d) (rnDomain id d')) : SameSubs d d' ∧ SameSubs d' d :=
  ⟨sameSubs_rn.1.trans (h.sameSubs.trans sameSubs_rn.2), sameSubs_rn.1.trans (h.symm.sameSubs.trans sameSubs_rn.2)⟩

theorem SameSubs.actionName (h : SameSubs d d') {x : Name} : ActionName d x → ActionName d' x := by
  rintro ⟨a, ha, rfl⟩
  exact h.actions a ha

theorem SameSubs.hasSub (h : SameSubs d d') {x y : Name} : HasSub d x y → HasSub d' x y := by
  rintro ⟨m, hm, rfl, hs⟩
  obtain ⟨k, hk, h1, h2⟩ := h.methods m hm
  exact ⟨k, hk, h1, (h2 y).mp hs⟩

theorem SameSubs.reaches (h : SameSubs d d') {x : Name} : ReachesAction d x → ReachesAction d' x := by
  rintro ⟨a, ha, hr⟩
  obtain ⟨b, hb, h1⟩ := h.actions a ha
  exact ⟨b, hb, h1 ▸ Relation.ReflTransGen.mono (fun _ _ => h.hasSub) _ _ hr⟩

theorem SameSubs.erasable (h : SameSubs d d') (h' : SameSubs d' d) {x : Name} (he : Erasable d x) : Erasable d' x := by
  induction he with
  | @mk m hm h1 _ ih =>
    obtain ⟨k, hk, h2, h3⟩ := h.methods m hm
    rw [← h2]
    refine .mk hk (fun s hs ha => ?_) (fun s hs => ?_)
    · obtain ⟨t, ht, h4⟩ := (h3 _).mpr ⟨s, hs, rfl⟩
      exact h1 t ht (h4 ▸ h'.actionName ha)
    · obtain ⟨t, ht, h4⟩ := (h3 _).mpr ⟨s, hs, rfl⟩
      exact h4 ▸ ih t ht

theorem SameSubs.uniform (h : SameSubs d d') (h' : SameSubs d' d) (hu : Uniform d) : Uniform d' := by
  rintro k hk ⟨s, hs, he⟩
  obtain ⟨m, hm, h1, h2⟩ := h'.methods k hk
  obtain ⟨t, ht, h3⟩ := (h2 _).mp ⟨s, hs, rfl⟩
  rw [← h1]
  exact h.erasable h' (hu m hm ⟨t, ht, h3 ▸ h'.erasable h he⟩)

/-! ### Iteration orders -/

theorem order_of_perm {α : Type} {l k : List α} (h : k.Perm l) : ∃ p : List Nat, p.Perm (List.range l.length) ∧ p.filterMap (fun i => l[i]?) = k := by
  obtain ⟨σ, hσ⟩ := perm_index h
  refine ⟨(List.range k.length).map σ, ?_, ?_⟩
  · refine (List.perm_ext_iff_of_nodup (List.nodup_range.map σ.injective) List.nodup_range).mpr fun j => ?_
    have h1 : ∀ i, i < k.length ↔ σ i < l.length := by
      intro i
      have h2 : l[σ i]? = none ↔ k[i]? = none := by rw [hσ]
      rw [List.getElem?_eq_none_iff, List.getElem?_eq_none_iff] at h2
      omega
    simp only [List.mem_map, List.mem_range]
    constructor
    · rintro ⟨i, hi, rfl⟩
      exact (h1 i).mp hi
    · intro hj
      exact ⟨σ.symm j, (h1 _).mpr (by simpa using hj), by simp⟩
  · rw [List.filterMap_map]
    have : ((fun i => l[i]?) ∘ σ) = fun i => k[i]? := funext hσ
    rw [this, filterMap_range]

/-- Other orders of the subtasks of each method, where possible. -/
def HashOrd.withSubtasks (ord : HashOrd) (c : Nat → List Nat) : HashOrd where
  order
    | [1, m], n => if (c m).Perm (List.range n) then c m else ord.order [1, m] n
    | s, n => ord.order s n
  isPerm s n := by
    split
    · split
      · assumption
      · exact ord.isPerm _ _
    · exact ord.isPerm _ _

/-- The same tasks and, for each method, the same task and the same subtasks in any order. -/
structure SameNames (d d' : DomainAST) : Prop where
  tasks : d'.tasks.map (·.name) = d.tasks.map (·.name)
  actions : d'.actions.map (·.name) = d.actions.map (·.name)
  methods : List.Forall₂ (fun m k : Method => k.task.name = m.task.name ∧
    (m.tn.subtasks.map (·.task.name)).Perm (k.tn.subtasks.map (·.task.name))) d.methods d'.methods

theorem sameNames_resequenced (h : Resequenced List.Perm (rnDomain id d) (rnDomain id d')) : SameNames d d' := by
  refine ⟨?_, ?_, ?_⟩
  · have := congrArg (fun e : DomainAST => e.tasks.map (·.name)) h.same
    simpa [rnDomain, rnTask, Function.comp_def] using this
  · have := congrArg (fun e : DomainAST => e.actions.map (·.name)) h.same
    simpa [rnDomain, rnAction, Function.comp_def] using this
  · have h1 := h.methods
    simp only [rnDomain, List.forall₂_map_left_iff, List.forall₂_map_right_iff] at h1
    refine h1.imp fun m k ⟨h2, h3⟩ => ⟨?_, ?_⟩
    · have h4 := congrArg (fun m : Method => m.task.name) h2
      exact h4
    have h4 := h3.map Prod.fst
    simpa [calls, rnMethod, rnHtn, rnSubtask, rnSymbol, Function.comp_def] using h4

theorem subtaskIndices_perm {ts : List (Name × Bool)} {ss ss' : List Subtask} {l : List Nat}
    (h : (ss.map (·.task.name)).Perm (ss'.map (·.task.name))) (hl : subtaskIndices ts ss = .ok l) :
    ∃ l', subtaskIndices ts ss' = .ok l' ∧ l.Perm l' := by
  rw [subtaskIndices_ok] at hl
  have h1 := h.map (taskIndexLast ts)
  simp only [List.map_map] at h1
  have h2 : (l.map some).Perm (ss'.map fun m => taskIndexLast ts m.task.name) := hl ▸ h1
  have h3 := h2.filterMap id
  simp only [List.filterMap_map, Function.comp_def, id] at h3
  have h4 : l.Perm (ss'.filterMap fun m => taskIndexLast ts m.task.name) := by simpa using h3
  refine ⟨_, subtaskIndices_ok.mpr ?_, h4⟩
  have h5 : ∀ o ∈ ss'.map (fun m => taskIndexLast ts m.task.name), o.isSome := by
    intro o ho
    obtain ⟨x, _, rfl⟩ := List.mem_map.mp (h2.mem_iff.mpr ho)
    rfl
  clear h2 h3 h4 h hl h1
  induction ss' with
  | nil => rfl
  | cons s ss' ih =>
    simp only [List.map_cons, List.mem_cons, forall_eq_or_imp] at h5
    obtain ⟨x, hx⟩ := Option.isSome_iff_exists.mp h5.1
    simp only [List.map_cons, List.filterMap_cons, hx]
    rw [ih h5.2]

theorem methodSubtasks_perm {ts : List (Name × Bool)} {ms ks : List Method} {subs : List (List Nat)}
    (h : List.Forall₂ (fun m k : Method => k.task.name = m.task.name ∧
      (m.tn.subtasks.map (·.task.name)).Perm (k.tn.subtasks.map (·.task.name))) ms ks)
    (hs : methodSubtasks ts ms = .ok subs) : ∃ subs', methodSubtasks ts ks = .ok subs' ∧ List.Forall₂ List.Perm subs subs' := by
  induction h generalizing subs with
  | nil =>
    cases hs
    exact ⟨[], rfl, .nil⟩
  | cons h _ ih =>
    simp only [methodSubtasks, R.bind_ok_iff, R.ok.injEq] at hs
    obtain ⟨l, h1, r, h2, rfl⟩ := hs
    obtain ⟨l', h3, h4⟩ := subtaskIndices_perm h.2 h1
    obtain ⟨r', h5, h6⟩ := ih h2
    exact ⟨l' :: r', by simp only [methodSubtasks, h3, h5, R.bind_ok], .cons h4 h6⟩

/-- Whatever the order of listing, the same graphs can arise. -/
theorem SameNames.graph (h : SameNames d d') (hg : TDG.new ord d = .ok g) : ∃ c ms, TDG.new (ord.withSubtasks c) d' = .ok (g.relabel ms) := by
  have ht : tdgTasks d' = tdgTasks d := by
    have h1 : ∀ d : DomainAST, tdgTasks d = (d.tasks.map (·.name)).map (fun x => (x, true)) ++
        (d.actions.map (·.name)).map (fun x => (x, false)) := fun d => by simp [tdgTasks, Function.comp_def]
    rw [h1, h1, h.tasks, h.actions]
  have hm : methodTasks (tdgTasks d) d'.methods = methodTasks (tdgTasks d) d.methods :=
    methodTasks_names (forall2_map_eq (fun hmk => hmk.1) h.methods) _
  unfold TDG.new at hg
  simp only [R.bind_ok_iff, R.ok.injEq] at hg
  obtain ⟨owner, h1, subs, h2, rfl⟩ := hg
  obtain ⟨subs', h3, h4⟩ := methodSubtasks_perm h.methods h2
  have h5 : ∀ m, ∃ p : List Nat, ∀ l l', subs[m]? = some l → subs'[m]? = some l' →
      p.Perm (List.range l'.dedup.length) ∧ p.filterMap (fun i => l'.dedup[i]?) = arrange ord [1, m] l.dedup := by
    intro m
    cases hs : subs[m]? with
    | none => exact ⟨[], fun l l' h => by cases h⟩
    | some l =>
      cases hs' : subs'[m]? with
      | none => exact ⟨[], fun l l' _ h => by cases h⟩
      | some l' =>
        have h6 : l.Perm l' := by
          obtain ⟨hi, he⟩ := List.getElem?_eq_some_iff.mp hs
          obtain ⟨hi', he'⟩ := List.getElem?_eq_some_iff.mp hs'
          rw [← he, ← he']
          exact h4.get hi hi'
        obtain ⟨p, h7, h8⟩ := order_of_perm ((arrange_perm ord [1, m] l.dedup).trans h6.dedup)
        refine ⟨p, fun a a' ha ha' => ?_⟩
        cases ha
        cases ha'
        exact ⟨h7, h8⟩
  choose c hc using h5
  refine ⟨c, d'.methods.map fun m => (m.name.name, m.tn), ?_⟩
  unfold TDG.new
  simp only [ht, hm, h1, h3, R.bind_ok, TDG.relabel]
  congr 2
  refine List.ext_getElem? fun m => ?_
  simp only [List.getElem?_mapIdx]
  cases hs : subs[m]? with
  | none =>
    have : subs'[m]? = none := by
      rw [List.getElem?_eq_none_iff] at hs ⊢
      rw [← h4.length_eq]
      exact hs
    rw [this]
    rfl
  | some l =>
    obtain ⟨l', hs'⟩ : ∃ l', subs'[m]? = some l' := by
      refine ⟨_, List.getElem?_eq_getElem ?_⟩
      rw [← h4.length_eq]
      exact (List.getElem?_eq_some_iff.mp hs).1
    obtain ⟨h6, h7⟩ := hc m l l' hs hs'
    rw [hs', Option.map_some, Option.map_some]
    congr 1
    rw [← h7]
    simp only [arrange, HashOrd.withSubtasks, h6, if_true]

theorem collectWarnings_names (n : Nat) : ∀ {ts ts' : List Task}, ts'.map (·.name) = ts.map (·.name) →
    (collectWarnings g n ts').map (List.map Warning.symbol) = (collectWarnings g n ts).map (List.map Warning.symbol)
  | [], [], _ => rfl
  | t :: ts, t' :: ts', h => by
    simp only [List.map_cons, List.cons.injEq] at h
    have ih := collectWarnings_names n h.2
    simp only [collectWarnings, h.1]
    cases g.reachable n t.name with
    | ok r =>
      cases hw : collectWarnings g n ts with
      | ok ws =>
        cases hw' : collectWarnings g n ts' with
        | ok ws' =>
          rw [hw, hw'] at ih
          have ih : ws'.map Warning.symbol = ws.map Warning.symbol := R.ok.inj ih
          simp only [R.bind_ok, R.map]
          split <;> simp [ih]
        | _ => rw [hw, hw'] at ih; cases ih
      | _ =>
        cases hw' : collectWarnings g n ts' with
        | ok ws' => rw [hw, hw'] at ih; cases ih
        | _ => rw [hw, hw'] at ih; revert ih; simp [R.map, R.bind]
    | _ => rfl

theorem SameNames.possible (h : SameNames d d') (hg : TDG.new ord d = .ok g) : ∃ ord' : HashOrd,
    (∀ n, ((TDG.new ord' d').bind fun g => g.nullables n) = (TDG.new ord d).bind fun g => g.nullables n) ∧
    (∀ n, (warningsOf ord' n d').map (List.map Warning.symbol) = (warningsOf ord n d).map (List.map Warning.symbol)) ∧
    ∀ l : List Name, arrange ord' [20] l = arrange ord [20] l := by
  obtain ⟨c, ms, hg'⟩ := h.graph hg
  refine ⟨ord.withSubtasks c, fun n => ?_, fun n => ?_, fun l => rfl⟩
  · rw [hg, hg', R.bind_ok, R.bind_ok, TDG.nullables_relabel]
  · unfold warningsOf
    rw [hg, hg', R.bind_ok, R.bind_ok, collectWarnings_relabel]
    refine collectWarnings_names n ?_
    rw [← arrange_map, ← arrange_map, h.tasks]
    rfl

theorem Spec.Resequenced.mono {r' : List (Name × List Name) → List (Name × List Name) → Prop} (hr : ∀ {a b}, r a b → r' a b)
    (h : Resequenced r d d') : Resequenced r' d d' :=
  ⟨h.same, h.methods.imp fun _ _ h => ⟨h.1, hr h.2⟩⟩

end Verif
