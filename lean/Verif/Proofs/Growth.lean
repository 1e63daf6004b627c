import Verif.Spec.Growth
import Verif.Proofs.Args
import Verif.Proofs.Renaming

/-! Well-formedness of rearranged and extended domains. -/

namespace Verif

open Spec

variable {d d' : DomainAST} {p p' : ProblemAST}

/-! ### Scopes -/

theorem firstNamed_iff {l : List Symbol} (hl : (l.map (·.name)).Nodup) {x : Name} {s : Symbol} :
    FirstNamed l x s ↔ s ∈ l ∧ s.name = x := by
  constructor
  · rintro ⟨pre, post, rfl, h, _⟩
    exact ⟨by simp, h⟩
  · rintro ⟨h1, rfl⟩
    obtain ⟨pre, post, rfl⟩ := List.append_of_mem h1
    refine ⟨pre, post, rfl, rfl, fun y hy hn => ?_⟩
    simp only [List.map_append, List.map_cons, List.nodup_append, List.mem_map, List.mem_cons] at hl
    exact hl.2.2 _ ⟨y, hy, rfl⟩ _ (.inl rfl) hn

theorem firstNamed_name {l : List Symbol} {x : Name} {s : Symbol} (h : FirstNamed l x s) : s ∈ l ∧ s.name = x := by
  obtain ⟨pre, post, rfl, h, _⟩ := h
  exact ⟨by simp, h⟩

/-- The inner scopes stay, the last one grows. -/
theorem typeIn_mono {c c' : List Symbol} (hc : (c'.map (·.name)).Nodup) (hs : ∀ s ∈ c, s ∈ c') :
    ∀ {ls : List (List Symbol)} {x : Name} {ty : Option Name}, TypeIn (ls ++ [c]) x ty → TypeIn (ls ++ [c']) x ty
  | [], x, ty, h => by
    cases h with
    | here h =>
      obtain ⟨h1, h2⟩ := firstNamed_name h
      exact .here ((firstNamed_iff hc).mpr ⟨hs _ h1, h2⟩)
    | outer _ h => cases h
  | l :: ls, x, ty, h => by
    cases h with
    | here h => exact .here h
    | outer h1 h2 => exact .outer h1 (typeIn_mono hc hs h2)

theorem fits_mono {t t' : List Symbol} (ht : ∀ s ∈ t, s ∈ t') {x y : Option Name} (h : Fits t x y) : Fits t' x y := by
  cases h with
  | untyped => exact .untyped
  | sub h => exact .sub (Relation.ReflTransGen.mono (r := DirectSub t) (p := DirectSub t') (fun a b ⟨s, h1, h2⟩ => ⟨s, ht s h1, h2⟩) _ _ h)

theorem typesKnown_mono {t t' l : List Symbol} (ht : ∀ s ∈ t, s ∈ t') (h : TypesKnown t l) : TypesKnown t' l :=
  fun s hs x hx => let ⟨y, h1, h2⟩ := h s hs x hx; ⟨y, ht y h1, h2⟩

/-! ### Extensions -/

variable (he : Extends d d') (hc : ConstantsOnce d')
include he hc

theorem argsFit_mono {ls : List (List Symbol)} {args formals : List Symbol}
    (h : ArgsFit (typesOf d) (ls ++ [constantsOf d]) args formals) :
    ArgsFit (typesOf d') (ls ++ [constantsOf d']) args formals :=
  List.Forall₂.imp (fun _ _ ⟨ty, h1, h2⟩ => ⟨ty, typeIn_mono hc he.constants h1, fits_mono he.types h2⟩) h

omit hc in
theorem callee_mono {x : Name} {ps : List Symbol} (h : Callee d x ps) : Callee d' x ps := by
  cases h with
  | action h1 h2 => exact .action (he.actions _ h1) h2
  | task h0 h1 h2 =>
    refine .task (fun a ha hn => ?_) (he.tasks _ h1) h2
    by_cases hm : a ∈ d.actions
    · exact h0 a hm hn
    · exact he.fresh a ha hm _ h1 (h2.trans hn.symm)

theorem formulaOk_mono (hp : (d'.predicates.map (·.name)).Nodup) {params : List Symbol} {f : Formula}
    (h : FormulaOk d params f) : FormulaOk d' params f := by
  refine ⟨h.noExists, typesKnown_mono he.types h.paramTypes, fun p hp' => ?_, fun p hf q hq hn => ?_⟩
  · obtain ⟨q, h1, h2⟩ := h.declared p hp'
    exact ⟨q, he.predicates q h1, h2⟩
  · obtain ⟨q0, h1, h2, _⟩ := h.declared p hf.occurs
    have : q = q0 := List.inj_on_of_nodup_map hp hq (he.predicates q0 h1) (hn.trans h2.symm)
    subst this
    exact argsFit_mono he hc (ls := [params]) (h.typed p hf _ h1 h2)

theorem actionOk_mono (hp : (d'.predicates.map (·.name)).Nodup) {a : Action} (h : ActionOk d a) : ActionOk d' a :=
  ⟨h.params, fun f hf => formulaOk_mono he hc hp (h.pre f hf), fun f hf => formulaOk_mono he hc hp (h.eff f hf)⟩

theorem methodOk_mono (hp : (d'.predicates.map (·.name)).Nodup) {m : Method} (h : MethodOk d m) : MethodOk d' m := by
  refine ⟨h.params, fun f hf => formulaOk_mono he hc hp (h.pre f hf), ?_, fun s hs => ?_, h.ordering⟩
  · obtain ⟨t, h1, h2, h3⟩ := h.task
    exact ⟨t, he.tasks t h1, h2, argsFit_mono he hc (ls := [m.params]) h3⟩
  · obtain ⟨ps, h1, h2⟩ := h.subtasks s hs
    exact ⟨ps, callee_mono he h1, argsFit_mono he hc (ls := [m.params]) h2⟩

/-- A well-formed domain stays well-formed exactly if the additions are fine. -/
theorem domainOk_extends (h : DomainOk d) : DomainOk d' ↔ Additions d d' := by
  constructor
  · intro h'
    exact ⟨h'.requirements, h'.types, h'.predicates, fun p hp _ => h'.predicateTypes p hp, h'.tasks,
      fun t ht _ => h'.taskTypes t ht, h'.actionNames, fun a ha _ => h'.actions a ha, h'.methodNames,
      fun m hm _ => h'.methods m hm⟩
  · intro h'
    refine ⟨h'.requirements, h'.types, h'.predicates, fun p hp => ?_, h'.tasks, fun t ht => ?_, h'.actionNames,
      fun a ha => ?_, h'.methodNames, fun m hm => ?_⟩
    · by_cases hm : p ∈ d.predicates
      · exact typesKnown_mono he.types (h.predicateTypes p hm)
      · exact h'.predicateTypes p hp hm
    · by_cases hm : t ∈ d.tasks
      · exact typesKnown_mono he.types (h.taskTypes t hm)
      · exact h'.taskTypes t ht hm
    · by_cases hm : a ∈ d.actions
      · exact actionOk_mono he hc h'.predicates (h.actions a hm)
      · exact h'.actions a ha hm
    · by_cases hn : m ∈ d.methods
      · exact methodOk_mono he hc h'.predicates (h.methods m hn)
      · exact h'.methods m hm hn

/-- A well-formed problem stays well-formed. -/
theorem problemOk_mono (h : ProblemOk d p) : ProblemOk d' p := by
  have fact : ∀ a, FactOk d p a → FactOk d' p a := fun a ⟨q, h1, h2, h3⟩ =>
    ⟨q, he.predicates q h1, h2, argsFit_mono he hc (ls := [p.objects]) h3⟩
  refine ⟨typesKnown_mono he.types h.objectTypes, h.objects, fun a ha => fact a (h.init a ha), fun t ht => ?_,
    fun f hf a ha => fact a (h.goal f hf a ha)⟩
  obtain ⟨h1, h2⟩ := h.htn t ht
  refine ⟨h1, fun s hs => ?_⟩
  obtain ⟨ps, h3, h4⟩ := h2 s hs
  exact ⟨ps, callee_mono he h3, argsFit_mono he hc (ls := [p.objects, t.params.getD []]) h4⟩

omit he hc

/-! ### Rearrangements -/

theorem Spec.Rearranged.symm (h : Rearranged d d') : Rearranged d' d :=
  ⟨h.requirements.symm, h.types.symm, h.constants.symm, h.predicates.symm, h.tasks.symm, h.actions.symm, h.methods.symm⟩

theorem Spec.Rearranged.extends (h : Rearranged d d') : Extends d d' :=
  ⟨fun _ hx => h.types.mem_iff.mp hx, fun _ hx => h.constants.mem_iff.mp hx, fun _ hx => h.predicates.mem_iff.mp hx,
    fun _ hx => h.tasks.mem_iff.mp hx, fun _ hx => h.actions.mem_iff.mp hx, fun _ hx => h.methods.mem_iff.mp hx,
    fun _ ha hn => absurd (h.actions.mem_iff.mpr ha) hn⟩

theorem Spec.Rearranged.constantsOnce (h : Rearranged d d') (hc : ConstantsOnce d) : ConstantsOnce d' :=
  (h.constants.map _).nodup_iff.mp hc

theorem domainOk_perm (h : Rearranged d d') (hc : ConstantsOnce d) : DomainOk d ↔ DomainOk d' := by
  have key : ∀ {d d' : DomainAST}, Rearranged d d' → ConstantsOnce d → DomainOk d → DomainOk d' := by
    intro d d' h hc hd
    refine (domainOk_extends h.extends (h.constantsOnce hc) hd).mpr ?_
    refine ⟨h.requirements.nodup_iff.mp hd.requirements, ?_, (h.predicates.map _).nodup_iff.mp hd.predicates,
      fun p hp hn => absurd (h.predicates.mem_iff.mpr hp) hn, (h.tasks.map _).nodup_iff.mp hd.tasks,
      fun p hp hn => absurd (h.tasks.mem_iff.mpr hp) hn, (h.actions.map _).nodup_iff.mp hd.actionNames,
      fun p hp hn => absurd (h.actions.mem_iff.mpr hp) hn, (h.methods.map _).nodup_iff.mp hd.methodNames,
      fun p hp hn => absurd (h.methods.mem_iff.mpr hp) hn⟩
    intro x hx
    exact hd.types x (Relation.TransGen.mono (r := DirectSub (typesOf d')) (p := DirectSub (typesOf d))
      (fun a b ⟨s, h1, h2⟩ => ⟨s, h.types.mem_iff.mpr h1, h2⟩) _ _ hx)
  exact ⟨key h hc, key h.symm (h.constantsOnce hc)⟩

theorem Spec.RearrangedP.symm (h : RearrangedP p p') : RearrangedP p' p :=
  ⟨h.objects.symm, h.init.symm, h.goal.symm, h.htn.symm⟩

/-- Any scope may be permuted, if it has no repeated names. -/
theorem typeIn_perm {c c' : List Symbol} (hc : (c.map (·.name)).Nodup) (hs : c.Perm c') {ls : List (List Symbol)} {x : Name}
    {ty : Option Name} (h : TypeIn (c :: ls) x ty) : TypeIn (c' :: ls) x ty := by
  have hc' : (c'.map (·.name)).Nodup := (hs.map _).nodup_iff.mp hc
  cases h with
  | here h =>
    obtain ⟨h1, h2⟩ := firstNamed_name h
    exact .here ((firstNamed_iff hc').mpr ⟨hs.mem_iff.mp h1, h2⟩)
  | outer h1 h2 => exact .outer (fun s hm => h1 s (hs.mem_iff.mpr hm)) h2

theorem problemOk_perm (h : Rearranged d d') (hc : ConstantsOnce d) (hp : RearrangedP p p') :
    ProblemOk d p ↔ ProblemOk d' p' := by
  have key : ∀ {d d' : DomainAST} {p p' : ProblemAST}, Rearranged d d' → ConstantsOnce d → RearrangedP p p' → ProblemOk d p →
      ProblemOk d' p' := by
    intro d d' p p' h hc hp hk
    have hk := problemOk_mono h.extends (h.constantsOnce hc) hk
    have args : ∀ {ls : List (List Symbol)} {as fs : List Symbol}, ArgsFit (typesOf d') (p.objects :: ls) as fs →
        ArgsFit (typesOf d') (p'.objects :: ls) as fs := fun h =>
      List.Forall₂.imp (fun _ _ ⟨ty, h1, h2⟩ => ⟨ty, typeIn_perm hk.objects hp.objects h1, h2⟩) h
    have fact : ∀ a, FactOk d' p a → FactOk d' p' a := fun a ⟨q, h1, h2, h3⟩ => ⟨q, h1, h2, args h3⟩
    refine ⟨fun s hs => hk.objectTypes s (hp.objects.mem_iff.mpr hs), (hp.objects.map _).nodup_iff.mp hk.objects,
      fun a ha => fact a (hk.init a (hp.init.mem_iff.mpr ha)), fun t ht => ?_,
      fun f hf a ha => fact a (hk.goal f (hp.goal.trans hf) a ha)⟩
    obtain ⟨h1, h2⟩ := hk.htn t (hp.htn.trans ht)
    refine ⟨h1, fun s hs => ?_⟩
    obtain ⟨ps, h3, h4⟩ := h2 s hs
    exact ⟨ps, h3, args h4⟩
  exact ⟨key h hc hp, key h.symm (h.constantsOnce hc) hp.symm⟩

/-! ### Parts without meaning -/

theorem acyclic_core (h : HTN) : Acyclic (Before (coreHtn h)) ↔ Acyclic (Before h) := Iff.rfl

theorem formulaOk_decl (hp : d.predicates = d'.predicates) (ht : d.types = d'.types) (hc : d.constants = d'.constants)
    {params : List Symbol} {f : Formula} (h : FormulaOk d params f) : FormulaOk d' params f := by
  have h1 : typesOf d = typesOf d' := by unfold typesOf; rw [ht]
  have h2 : constantsOf d = constantsOf d' := by unfold constantsOf; rw [hc]
  exact ⟨h.noExists, h1 ▸ h.paramTypes, hp ▸ h.declared, by rw [← h1, ← h2, ← hp]; exact h.typed⟩

/-- Everything but the methods agrees. -/
structure SameHead (d d' : DomainAST) : Prop where
  types : d.types = d'.types
  constants : d.constants = d'.constants
  predicates : d.predicates = d'.predicates
  tasks : d.tasks = d'.tasks
  actions : d.actions = d'.actions

theorem SameHead.symm (h : SameHead d d') : SameHead d' d :=
  ⟨h.types.symm, h.constants.symm, h.predicates.symm, h.tasks.symm, h.actions.symm⟩

theorem SameHead.action (h : SameHead d d') {a : Action} (ha : ActionOk d a) : ActionOk d' a :=
  ⟨ha.params, fun f hf => formulaOk_decl h.predicates h.types h.constants (ha.pre f hf),
    fun f hf => formulaOk_decl h.predicates h.types h.constants (ha.eff f hf)⟩

theorem SameHead.callee (h : SameHead d d') {x : Name} {ps : List Symbol} (hc : Callee d x ps) : Callee d' x ps := by
  cases hc with
  | action h1 h2 => exact .action (h.actions ▸ h1) h2
  | task h0 h1 h2 => exact .task (h.actions ▸ h0) (h.tasks ▸ h1) h2

theorem SameHead.method (h : SameHead d d') {m m' : Method} (hm : MethodOk d m) (h1 : m'.params = m.params) (h2 : m'.pre = m.pre)
    (h3 : m'.task = m.task) (h4 : m'.taskTerms = m.taskTerms) (h5 : m'.tn.subtasks = m.tn.subtasks)
    (h6 : m'.tn.orderings = m.tn.orderings) : MethodOk d' m' := by
  have e1 : typesOf d = typesOf d' := by unfold typesOf; rw [h.types]
  have e2 : constantsOf d = constantsOf d' := by unfold constantsOf; rw [h.constants]
  refine ⟨h1 ▸ hm.params, ?_, ?_, ?_, ?_⟩
  · intro f hf
    rw [h1]
    exact formulaOk_decl h.predicates h.types h.constants (hm.pre f (h2 ▸ hf))
  · rw [h1, h3, h4, ← e1, ← e2, ← h.tasks]; exact hm.task
  · intro s hs
    obtain ⟨ps, h7, h8⟩ := hm.subtasks s (h5 ▸ hs)
    exact ⟨ps, h.callee h7, by rw [h1, ← e1, ← e2]; exact h8⟩
  · have : Before m'.tn = Before m.tn := by funext a b; simp [Before, h6]
    rw [this]; exact hm.ordering

theorem domainOk_core : DomainOk d ↔ d.requirements.Nodup ∧ DomainOk (coreDomain d) := by
  rw [← domainOk_rn (d := d) (ρ := id) fun _ _ h => h]
  have hr : (rnDomain id d).requirements = d.requirements := rfl
  rw [← hr]
  unfold coreDomain
  generalize rnDomain id d = e
  have hh : SameHead e { e with name := [], requirements := [], functions := [], methods := e.methods.map fun m => { m with tn := coreHtn m.tn } } :=
    ⟨rfl, rfl, rfl, rfl, rfl⟩
  constructor
  · intro h
    refine ⟨h.requirements, List.nodup_nil, h.types, h.predicates, h.predicateTypes, h.tasks, h.taskTypes, h.actionNames,
      fun a ha => hh.action (h.actions a ha), ?_, ?_⟩
    · simpa [Function.comp_def] using h.methodNames
    · intro m' hm'
      obtain ⟨m, hm, rfl⟩ := List.mem_map.mp hm'
      exact hh.method (h.methods m hm) rfl rfl rfl rfl rfl rfl
  · rintro ⟨hr, h⟩
    refine ⟨hr, h.types, h.predicates, h.predicateTypes, h.tasks, h.taskTypes, h.actionNames,
      fun a ha => hh.symm.action (h.actions a ha), ?_, ?_⟩
    · simpa [Function.comp_def] using h.methodNames
    · intro m hm
      exact hh.symm.method (h.methods _ (List.mem_map.mpr ⟨m, hm, rfl⟩)) rfl rfl rfl rfl rfl rfl

theorem SameHead.problem (h : SameHead d d') (hi : p'.initTn.map (fun i => { i with tn := coreHtn i.tn }) = p.initTn.map (fun i => { i with tn := coreHtn i.tn }))
    (ho : p'.objects = p.objects) (hs : p'.initState = p.initState) (hg : p'.goal = p.goal) (hp : ProblemOk d p) : ProblemOk d' p' := by
  have e1 : typesOf d = typesOf d' := by unfold typesOf; rw [h.types]
  have e2 : constantsOf d = constantsOf d' := by unfold constantsOf; rw [h.constants]
  have fact : ∀ a, FactOk d p a → FactOk d' p' a := fun a ⟨q, h1, h2, h3⟩ =>
    ⟨q, h.predicates ▸ h1, h2, by rw [← e1, ← e2, ho]; exact h3⟩
  refine ⟨by rw [← e1, ho]; exact hp.objectTypes, by rw [ho]; exact hp.objects, fun a ha => fact a (hp.init a (hs ▸ ha)), fun t ht => ?_,
    fun f hf a ha => fact a (hp.goal f (hg ▸ hf) a ha)⟩
  rw [ht, Option.map_some] at hi
  obtain ⟨t0, h1, h2⟩ := Option.map_eq_some_iff.mp hi.symm
  obtain ⟨h3, h4⟩ := hp.htn t0 h1
  have hps : t0.params = t.params := congrArg (fun i => i.params) h2
  have hsub : t0.tn.subtasks = t.tn.subtasks := congrArg (fun i => i.tn.subtasks) h2
  have hord : t0.tn.orderings = t.tn.orderings := congrArg (fun i => i.tn.orderings) h2
  refine ⟨?_, fun s hs => ?_⟩
  · have : Before t.tn = Before t0.tn := by funext a b; simp [Before, hord]
    rw [this]; exact h3
  · obtain ⟨ps, h5, h6⟩ := h4 s (hsub ▸ hs)
    exact ⟨ps, h.callee h5, by rw [← e1, ← e2, ho, ← hps]; exact h6⟩

theorem problemOk_core : ProblemOk d p ↔ ProblemOk (coreDomain d) (coreProblem p) := by
  rw [← problemOk_rn (d := d) (p := p) (ρ := id) fun _ _ h => h]
  have hh : SameHead (rnDomain id d) (coreDomain d) := ⟨rfl, rfl, rfl, rfl, rfl⟩
  have hi : (coreProblem p).initTn.map (fun i => { i with tn := coreHtn i.tn }) =
      (rnProblem id p).initTn.map (fun i => { i with tn := coreHtn i.tn }) := by
    cases h : (rnProblem id p).initTn <;> simp [coreProblem, h, coreHtn]
  exact ⟨hh.problem hi rfl rfl rfl, hh.symm.problem hi.symm rfl rfl rfl⟩

end Verif
