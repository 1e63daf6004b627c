import Verif.Spec.Splitting
import Verif.Spec.Decomposition
import Verif.Proofs.Subtyping

/-! Splitting a method changes neither acceptance nor decompositions. -/

namespace Verif

open Spec

variable {d d' : DomainAST} {p : ProblemAST} {m : Method} {t x : Name}

/-- The parts of a domain that do not change. -/
theorem Spec.SplitMethod.formulaOk (h : SplitMethod d m t x d') {params : List Symbol} {f : Formula} :
    FormulaOk d' params f ↔ FormulaOk d params f := by
  obtain ⟨_, _, _, _, _, _, _, _, _, _, _, _, _, rfl⟩ := h
  exact ⟨fun h => ⟨h.1, h.2, h.3, h.4⟩, fun h => ⟨h.1, h.2, h.3, h.4⟩⟩

theorem Spec.SplitMethod.callee (h : SplitMethod d m t x d') {y : Name} (hy : y ≠ t) {ps : List Symbol} :
    Callee d' y ps ↔ Callee d y ps := by
  obtain ⟨_, _, ts₁, ts₂, _, _, _, _, ht, _, _, hn, _, rfl⟩ := h
  constructor
  · intro h
    cases h with
    | action h1 h2 => exact .action h1 h2
    | task h1 h2 h3 =>
      simp only [List.mem_append, List.mem_cons] at h2
      rcases h2 with h2 | rfl | h2
      · exact .task h1 (by rw [ht]; exact List.mem_append_left _ h2) h3
      · exact absurd h3.symm hy
      · exact .task h1 (by rw [ht]; exact List.mem_append_right _ h2) h3
  · intro h
    cases h with
    | action h1 h2 => exact .action (d := { d with tasks := _, methods := _ }) h1 h2
    | task h1 h2 h3 =>
      refine .task (d := { d with tasks := _, methods := _ }) h1 ?_ h3
      rw [ht] at h2
      simp only [List.mem_append, List.mem_cons] at h2 ⊢
      tauto

theorem Spec.SplitMethod.callee_new (h : SplitMethod d m t x d') : Callee d' t m.params := by
  obtain ⟨_, _, ts₁, ts₂, _, _, _, _, _, _, _, hn, _, rfl⟩ := h
  exact .task (d := { d with tasks := _, methods := _ }) (t := ⟨t, 0, m.params⟩) hn.actions (by simp) rfl

/-- Parameters can be passed on. -/
theorem argsFit_params {types : List Symbol} {rest : List (List Symbol)} (params : List Symbol) (h : (params.map (·.name)).Nodup) :
    ArgsFit types (params :: rest) (params.map fun s => argument s.name) params := by
  have key : ∀ pre post, params = pre ++ post →
      List.Forall₂ (ArgFits types (params :: rest)) (post.map fun s => argument s.name) post := by
    intro pre post
    induction post generalizing pre with
    | nil => intro _; exact .nil
    | cons s post ih =>
      intro e
      refine .cons ⟨s.ty, .here ⟨pre, post, e, rfl, ?_⟩, fits_refl _⟩ (ih (pre ++ [s]) (by simp [e]))
      intro y hy hys
      rw [e] at h
      simp only [List.map_append, List.map_cons] at h
      exact (List.nodup_append.mp h).2.2 _ (List.mem_map_of_mem hy) _ List.mem_cons_self hys
  exact key [] params rfl

theorem acyclic_total {tn : HTN} (h : tn.orderings = .total) : Acyclic (Before tn) := by
  intro y hy
  obtain ⟨z, ⟨os, h1, _⟩, _⟩ := Relation.TransGen.head'_iff.mp hy
  rw [h] at h1
  cases h1

theorem Spec.SplitMethod.domainOk (h : SplitMethod d m t x d') :
    DomainOk d' ↔ DomainOk d ∧ TypesKnown (typesOf d) m.params := by
  have hform := @Spec.SplitMethod.formulaOk _ _ _ _ _ h
  have hcall := @Spec.SplitMethod.callee _ _ _ _ _ h
  have hnew := h.callee_new
  obtain ⟨ms₁, ms₂, ts₁, ts₂, a, b, c, hm, ht, hs, ho, hn, hx, e⟩ := h
  have e1 : typesOf d' = typesOf d := by rw [e]; rfl
  have e2 : constantsOf d' = constantsOf d := by rw [e]; rfl
  have e3 : d'.tasks = ts₁ ++ ⟨t, 0, m.params⟩ :: ts₂ := by rw [e]
  have e4 : d'.methods = ms₁ ++ frontMethod m t a c :: restMethod m t x b :: ms₂ := by rw [e]
  have e5 : d'.actions = d.actions := by rw [e]
  have e6 : d'.predicates = d.predicates := by rw [e]
  have e7 : d'.requirements = d.requirements := by rw [e]
  have mem (u : Task) : u ∈ d'.tasks ↔ u = ⟨t, 0, m.params⟩ ∨ u ∈ d.tasks := by
    rw [e3, ht]; simp only [List.mem_append, List.mem_cons]; tauto
  have memm (n : Method) : n ∈ d'.methods ↔ n = frontMethod m t a c ∨ n = restMethod m t x b ∨ n ∈ ms₁ ++ ms₂ := by
    rw [e4]; simp only [List.mem_append, List.mem_cons]; tauto
  have memd (n : Method) : n ∈ d.methods ↔ n = m ∨ n ∈ ms₁ ++ ms₂ := by
    rw [hm]; simp only [List.mem_append, List.mem_cons]; tauto
  have hmd : m ∈ d.methods := (memd m).mpr (.inl rfl)
  have hmt := hn.methods m hmd
  -- methods that are in both domains
  have other (n : Method) (hnd : n ∈ d.methods) : MethodOk d' n ↔ MethodOk d n := by
    have h1 := hn.methods n hnd
    refine ⟨fun h => ⟨h.params, fun f hf => hform.mp (h.pre f hf), ?_, fun s hs => ?_, h.ordering⟩,
      fun h => ⟨h.params, fun f hf => hform.mpr (h.pre f hf), ?_, fun s hs => ?_, h.ordering⟩⟩
    · obtain ⟨u, hu, h2, h3⟩ := h.task
      rw [e1, e2] at h3
      rcases (mem u).mp hu with rfl | hu
      · exact absurd h2.symm h1.1
      · exact ⟨u, hu, h2, h3⟩
    · obtain ⟨ps, h2, h3⟩ := h.subtasks s hs
      rw [e1, e2] at h3
      exact ⟨ps, (hcall (h1.2 s hs)).mp h2, h3⟩
    · obtain ⟨u, hu, h2, h3⟩ := h.task
      rw [e1, e2]
      exact ⟨u, (mem u).mpr (.inr hu), h2, h3⟩
    · obtain ⟨ps, h2, h3⟩ := h.subtasks s hs
      rw [e1, e2]
      exact ⟨ps, (hcall (h1.2 s hs)).mpr h2, h3⟩
  have front_mem (s : Subtask) : s ∈ (frontMethod m t a c).tn.subtasks ↔ s = callRest t m.params ∨ s ∈ a ∨ s ∈ c := by
    simp only [frontMethod, List.mem_append, List.mem_cons]; tauto
  have old_mem (s : Subtask) : s ∈ m.tn.subtasks ↔ s ∈ a ∨ s ∈ b ∨ s ∈ c := by
    rw [hs]; simp only [List.mem_append]; tauto
  have split : MethodOk d' (frontMethod m t a c) ∧ MethodOk d' (restMethod m t x b) ↔ MethodOk d m := by
    constructor
    · rintro ⟨h1, h2⟩
      refine ⟨h1.params, fun f hf => hform.mp (h1.pre f hf), ?_, fun s hs => ?_, acyclic_total ho⟩
      · obtain ⟨u, hu, h3, h4⟩ := h1.task
        rw [e1, e2] at h4
        rcases (mem u).mp hu with rfl | hu
        · exact absurd h3.symm hmt.1
        · exact ⟨u, hu, h3, h4⟩
      · have : ∃ ps, Callee d' s.task.name ps ∧ ArgsFit (typesOf d') [m.params, constantsOf d'] s.terms ps := by
          rcases (old_mem s).mp hs with hs | hs | hs
          · exact h1.subtasks s ((front_mem s).mpr (.inr (.inl hs)))
          · exact h2.subtasks s hs
          · exact h1.subtasks s ((front_mem s).mpr (.inr (.inr hs)))
        obtain ⟨ps, h3, h4⟩ := this
        rw [e1, e2] at h4
        exact ⟨ps, (hcall (hmt.2 s hs)).mp h3, h4⟩
    · intro h1
      have sub (s : Subtask) (hs : s ∈ m.tn.subtasks) :
          ∃ ps, Callee d' s.task.name ps ∧ ArgsFit (typesOf d') [m.params, constantsOf d'] s.terms ps := by
        obtain ⟨ps, h2, h3⟩ := h1.subtasks s hs
        rw [e1, e2]
        exact ⟨ps, (hcall (hmt.2 s hs)).mpr h2, h3⟩
      refine ⟨⟨h1.params, fun f hf => hform.mpr (h1.pre f hf), ?_, fun s hs => ?_, acyclic_total ho⟩,
        ⟨h1.params, (fun f hf => nomatch hf), ⟨⟨t, 0, m.params⟩, (mem _).mpr (.inl rfl), rfl, argsFit_params _ h1.params⟩,
          fun s hs => sub s ((old_mem s).mpr (.inr (.inl hs))), acyclic_total rfl⟩⟩
      · obtain ⟨u, hu, h2, h3⟩ := h1.task
        rw [e1, e2]
        exact ⟨u, (mem u).mpr (.inr hu), h2, h3⟩
      · rcases (front_mem s).mp hs with rfl | hs | hs
        · exact ⟨m.params, hnew, argsFit_params _ h1.params⟩
        · exact sub s ((old_mem s).mpr (.inl hs))
        · exact sub s ((old_mem s).mpr (.inr (.inr hs)))
  have perm : (d'.methods.map (·.name.name)).Perm (x :: d.methods.map (·.name.name)) := by
    rw [e4, hm]
    simp only [List.map_append, List.map_cons]
    show (List.map _ ms₁ ++ m.name.name :: x :: List.map _ ms₂).Perm _
    have h1 := List.perm_middle (a := x) (l₁ := ms₁.map (·.name.name) ++ [m.name.name]) (l₂ := ms₂.map (·.name.name))
    simpa using h1
  have permt : (d'.tasks.map (·.name)).Perm (t :: d.tasks.map (·.name)) := by
    rw [e3, ht]
    simp only [List.map_append, List.map_cons]
    exact List.perm_middle
  have hxn : x ∉ d.methods.map (·.name.name) := fun h => by
    obtain ⟨n, h1, h2⟩ := List.mem_map.mp h
    exact hx n h1 h2
  have htn : t ∉ d.tasks.map (·.name) := fun h => by
    obtain ⟨n, h1, h2⟩ := List.mem_map.mp h
    exact hn.tasks n h1 h2
  have methods : (∀ n ∈ d'.methods, MethodOk d' n) ↔ ∀ n ∈ d.methods, MethodOk d n := by
    constructor
    · intro h n hnd
      rcases (memd n).mp hnd with rfl | h1
      · exact split.mp ⟨h _ ((memm _).mpr (.inl rfl)), h _ ((memm _).mpr (.inr (.inl rfl)))⟩
      · exact (other n hnd).mp (h n ((memm n).mpr (.inr (.inr h1))))
    · intro h n hnd
      have h2 := split.mpr (h m hmd)
      rcases (memm n).mp hnd with rfl | rfl | h1
      · exact h2.1
      · exact h2.2
      · have h3 := (memd n).mpr (.inr h1)
        exact (other n h3).mpr (h n h3)
  have actions : (∀ y ∈ d'.actions, ActionOk d' y) ↔ ∀ y ∈ d.actions, ActionOk d y := by
    rw [e5]
    exact forall₂_congr fun y _ => ⟨fun h => ⟨h.1, fun f hf => hform.mp (h.2 f hf), fun f hf => hform.mp (h.3 f hf)⟩,
      fun h => ⟨h.1, fun f hf => hform.mpr (h.2 f hf), fun f hf => hform.mpr (h.3 f hf)⟩⟩
  constructor
  · intro h
    have h1 := h.tasks
    have h2 := h.methodNames
    rw [permt.nodup_iff, List.nodup_cons] at h1
    rw [perm.nodup_iff, List.nodup_cons] at h2
    have h3 := h.taskTypes
    rw [e1] at h3
    exact ⟨⟨e7 ▸ h.requirements, e1 ▸ h.types, e6 ▸ h.predicates, by have := h.predicateTypes; rwa [e1, e6] at this, h1.2,
      fun u hu => h3 u ((mem u).mpr (.inr hu)), e5 ▸ h.actionNames, actions.mp h.actions, h2.2, methods.mp h.methods⟩,
      h3 _ ((mem _).mpr (.inl rfl))⟩
  · rintro ⟨h, hk⟩
    refine ⟨e7 ▸ h.requirements, e1 ▸ h.types, e6 ▸ h.predicates, by rw [e1, e6]; exact h.predicateTypes, ?_, ?_, e5 ▸ h.actionNames,
      actions.mpr h.actions, ?_, methods.mpr h.methods⟩
    · rw [permt.nodup_iff, List.nodup_cons]; exact ⟨htn, h.tasks⟩
    · intro u hu
      rw [e1]
      rcases (mem u).mp hu with rfl | hu
      · exact hk
      · exact h.taskTypes u hu
    · rw [perm.nodup_iff, List.nodup_cons]; exact ⟨hxn, h.methodNames⟩

theorem Spec.SplitMethod.problemOk (h : SplitMethod d m t x d') (hp : ∀ i, p.initTn = some i → ∀ s ∈ i.tn.subtasks, s.task.name ≠ t) :
    ProblemOk d' p ↔ ProblemOk d p := by
  have hcall := @Spec.SplitMethod.callee _ _ _ _ _ h
  obtain ⟨ms₁, ms₂, ts₁, ts₂, a, b, c, hm, ht, hs, ho, hn, hx, e⟩ := h
  have e1 : typesOf d' = typesOf d := by rw [e]; rfl
  have e2 : constantsOf d' = constantsOf d := by rw [e]; rfl
  have e6 : d'.predicates = d.predicates := by rw [e]
  have fact {q : Predicate} : FactOk d' p q ↔ FactOk d p q := by unfold FactOk; rw [e1, e2, e6]
  constructor
  · intro h
    refine ⟨e1 ▸ h.objectTypes, h.objects, fun q hq => fact.mp (h.init q hq), fun i hi => ⟨(h.htn i hi).ordering, fun s hs => ?_⟩,
      fun f hf q hq => fact.mp (h.goal f hf q hq)⟩
    obtain ⟨ps, h1, h2⟩ := (h.htn i hi).subtasks s hs
    rw [e1, e2] at h2
    exact ⟨ps, (hcall (hp i hi s hs)).mp h1, h2⟩
  · intro h
    refine ⟨e1.symm ▸ h.objectTypes, h.objects, fun q hq => fact.mpr (h.init q hq),
      fun i hi => ⟨(h.htn i hi).ordering, fun s hs => ?_⟩, fun f hf q hq => fact.mpr (h.goal f hf q hq)⟩
    obtain ⟨ps, h1, h2⟩ := (h.htn i hi).subtasks s hs
    rw [e1, e2]
    exact ⟨ps, (hcall (hp i hi s hs)).mpr h1, h2⟩

/-! ### Decompositions -/

/-- The methods of a split domain, as far as decompositions are concerned. -/
theorem Spec.SplitMethod.methods (h : SplitMethod d m t x d') : ∃ a b c, ∃ ms : List Method, m.tn.subtasks = a ++ b ++ c ∧
    (∀ n, n ∈ d.methods ↔ n = m ∨ n ∈ ms) ∧
    (∀ n, n ∈ d'.methods ↔ n = frontMethod m t a c ∨ n = restMethod m t x b ∨ n ∈ ms) ∧ NewTask d t ∧ d'.actions = d.actions := by
  obtain ⟨ms₁, ms₂, ts₁, ts₂, a, b, c, hm, ht, hs, ho, hn, hx, e⟩ := h
  refine ⟨a, b, c, ms₁ ++ ms₂, hs, fun n => ?_, fun n => ?_, hn, by rw [e]⟩
  · rw [hm]; simp only [List.mem_append, List.mem_cons]; tauto
  · rw [e]; simp only [List.mem_append, List.mem_cons]; tauto

theorem Spec.SplitMethod.nullable (h : SplitMethod d m t x d') {y : Name} (hy : y ≠ t) : Nullable d' y ↔ Nullable d y := by
  obtain ⟨a, b, c, ms, hs, h1, h2, hn, _⟩ := h.methods
  have hmd : m ∈ d.methods := (h1 m).mpr (.inl rfl)
  constructor
  · intro hy'
    have key : ∀ y, Nullable d' y → (y ≠ t → Nullable d y) ∧ (y = t → ∀ s ∈ b, Nullable d s.task.name) := by
      intro y hy
      induction hy with
      | @mk n hn' _ ih =>
        rcases (h2 n).mp hn' with rfl | rfl | h3
        · refine ⟨fun _ => ?_, fun e => absurd e (hn.methods m hmd).1⟩
          refine Nullable.mk (m := m) hmd fun s hs' => ?_
          rw [hs] at hs'
          have h4 : ∀ s ∈ a ++ b ++ c, s.task.name ≠ t := fun s h => (hn.methods m hmd).2 s (hs ▸ h)
          have h5 := h4 s hs'
          simp only [List.mem_append] at hs'
          rcases hs' with (h6 | h6) | h6
          · exact (ih s (by simp [frontMethod, h6])).1 h5
          · exact (ih (callRest t m.params) (by simp [frontMethod])).2 rfl s h6
          · exact (ih s (by simp [frontMethod, h6])).1 h5
        · exact ⟨fun e => absurd rfl e, fun _ s hsb => (ih s hsb).1 ((hn.methods m hmd).2 s (by rw [hs]; simp [hsb]))⟩
        · have h4 : n ∈ d.methods := (h1 n).mpr (.inr h3)
          exact ⟨fun _ => .mk h4 fun s hs => (ih s hs).1 ((hn.methods n h4).2 s hs), fun e => absurd e (hn.methods n h4).1⟩
    exact (key y hy').1 hy
  · intro hy'
    clear hy
    induction hy' with
    | @mk n hn' _ ih =>
      rcases (h1 n).mp hn' with rfl | h3
      · have h4 : Nullable d' t :=
          .mk (m := restMethod n t x b) ((h2 _).mpr (.inr (.inl rfl))) fun s hsb => ih s (by rw [hs]; simp [show s ∈ b from hsb])
        refine .mk (m := frontMethod n t a c) ((h2 _).mpr (.inl rfl)) fun s hs' => ?_
        simp only [frontMethod, List.mem_append, List.mem_cons] at hs'
        rcases hs' with h5 | rfl | h5
        · exact ih s (by rw [hs]; simp [h5])
        · exact h4
        · exact ih s (by rw [hs]; simp [h5])
      · exact .mk ((h2 n).mpr (.inr (.inr h3))) ih

theorem Spec.SplitMethod.refinable (h : SplitMethod d m t x d') {y : Name} (hy : y ≠ t) : Refinable d' y ↔ Refinable d y := by
  obtain ⟨a, b, c, ms, hs, h1, h2, hn, ha⟩ := h.methods
  have hmd : m ∈ d.methods := (h1 m).mpr (.inl rfl)
  constructor
  · intro hy'
    have key : ∀ y, Refinable d' y → (y ≠ t → Refinable d y) ∧ (y = t → ∀ s ∈ b, Refinable d s.task.name) := by
      intro y hy
      induction hy with
      | action h3 =>
        rw [ha] at h3
        exact ⟨fun _ => .action h3, fun e => absurd e (hn.actions _ h3)⟩
      | @method n hn' _ ih =>
        rcases (h2 n).mp hn' with rfl | rfl | h3
        · refine ⟨fun _ => ?_, fun e => absurd e (hn.methods m hmd).1⟩
          refine Refinable.method (m := m) hmd fun s hs' => ?_
          rw [hs] at hs'
          have h4 : ∀ s ∈ a ++ b ++ c, s.task.name ≠ t := fun s h => (hn.methods m hmd).2 s (hs ▸ h)
          have h5 := h4 s hs'
          simp only [List.mem_append] at hs'
          rcases hs' with (h6 | h6) | h6
          · exact (ih s (by simp [frontMethod, h6])).1 h5
          · exact (ih (callRest t m.params) (by simp [frontMethod])).2 rfl s h6
          · exact (ih s (by simp [frontMethod, h6])).1 h5
        · exact ⟨fun e => absurd rfl e, fun _ s hsb => (ih s hsb).1 ((hn.methods m hmd).2 s (by rw [hs]; simp [hsb]))⟩
        · have h4 : n ∈ d.methods := (h1 n).mpr (.inr h3)
          exact ⟨fun _ => .method h4 fun s hs => (ih s hs).1 ((hn.methods n h4).2 s hs), fun e => absurd e (hn.methods n h4).1⟩
    exact (key y hy').1 hy
  · intro hy'
    clear hy
    induction hy' with
    | action h3 => exact .action (ha.symm ▸ h3)
    | @method n hn' _ ih =>
      rcases (h1 n).mp hn' with rfl | h3
      · have h4 : Refinable d' t :=
          .method (m := restMethod n t x b) ((h2 _).mpr (.inr (.inl rfl))) fun s hsb => ih s (by rw [hs]; simp [show s ∈ b from hsb])
        refine .method (m := frontMethod n t a c) ((h2 _).mpr (.inl rfl)) fun s hs' => ?_
        simp only [frontMethod, List.mem_append, List.mem_cons] at hs'
        rcases hs' with h5 | rfl | h5
        · exact ih s (by rw [hs]; simp [h5])
        · exact h4
        · exact ih s (by rw [hs]; simp [h5])
      · exact .method ((h2 n).mpr (.inr (.inr h3))) ih

theorem Spec.SplitMethod.down (h : SplitMethod d m t x d') {y z : Name} (hyz : Relation.TransGen (HasSub d) y z) :
    Relation.TransGen (HasSub d') y z := by
  obtain ⟨a, b, c, ms, hs, h1, h2, hn, _⟩ := h.methods
  have step {y z : Name} (h : HasSub d y z) : Relation.TransGen (HasSub d') y z := by
    obtain ⟨n, h3, rfl, s, h4, rfl⟩ := h
    rcases (h1 n).mp h3 with rfl | h5
    · rw [hs] at h4
      simp only [List.mem_append] at h4
      rcases h4 with (h4 | h4) | h4
      · exact .single ⟨frontMethod n t a c, (h2 _).mpr (.inl rfl), rfl, s, by simp [frontMethod, h4], rfl⟩
      · exact .tail (.single ⟨frontMethod n t a c, (h2 _).mpr (.inl rfl), rfl, callRest t n.params, by simp [frontMethod], rfl⟩)
          ⟨restMethod n t x b, (h2 _).mpr (.inr (.inl rfl)), rfl, s, h4, rfl⟩
      · exact .single ⟨frontMethod n t a c, (h2 _).mpr (.inl rfl), rfl, s, by simp [frontMethod, h4], rfl⟩
    · exact .single ⟨n, (h2 n).mpr (.inr (.inr h5)), rfl, s, h4, rfl⟩
  induction hyz with
  | single h => exact step h
  | tail _ h ih => exact ih.trans (step h)

theorem Spec.SplitMethod.up (h : SplitMethod d m t x d') {y z : Name} (hy : y ≠ t) (hyz : Relation.TransGen (HasSub d') y z) :
    (z ≠ t → Relation.TransGen (HasSub d) y z) ∧ (z = t → Relation.ReflTransGen (HasSub d) y m.task.name) := by
  obtain ⟨a, b, c, ms, hs, h1, h2, hn, _⟩ := h.methods
  have hmd : m ∈ d.methods := (h1 m).mpr (.inl rfl)
  -- what one step looks like
  have step {y z : Name} (h : HasSub d' y z) : y ≠ t ∧ z ≠ t ∧ HasSub d y z ∨ y = m.task.name ∧ z = t ∨
      y = t ∧ z ≠ t ∧ HasSub d m.task.name z := by
    obtain ⟨n, h3, rfl, s, h4, rfl⟩ := h
    rcases (h2 n).mp h3 with rfl | rfl | h5
    · simp only [frontMethod, List.mem_append, List.mem_cons] at h4
      have old (h : s ∈ m.tn.subtasks) : m.task.name ≠ t ∧ s.task.name ≠ t ∧ HasSub d m.task.name s.task.name :=
        ⟨(hn.methods m hmd).1, (hn.methods m hmd).2 s h, m, hmd, rfl, s, h, rfl⟩
      rcases h4 with h4 | rfl | h4
      · exact .inl (old (by rw [hs]; simp [h4]))
      · exact .inr (.inl ⟨rfl, rfl⟩)
      · exact .inl (old (by rw [hs]; simp [h4]))
    · have h5 : s ∈ m.tn.subtasks := by rw [hs]; simp [show s ∈ b from h4]
      exact .inr (.inr ⟨rfl, (hn.methods m hmd).2 s h5, m, hmd, rfl, s, h5, rfl⟩)
    · have h6 : n ∈ d.methods := (h1 n).mpr (.inr h5)
      exact .inl ⟨(hn.methods n h6).1, (hn.methods n h6).2 s h4, n, h6, rfl, s, h4, rfl⟩
  induction hyz with
  | single h =>
    rcases step h with ⟨_, h4, h5⟩ | ⟨rfl, h4⟩ | ⟨h3, _, _⟩
    · exact ⟨fun _ => .single h5, fun e => absurd e h4⟩
    · exact ⟨fun e => absurd h4 e, fun _ => .refl⟩
    · exact absurd h3 hy
  | tail _ h ih =>
    rcases step h with ⟨h3, h4, h5⟩ | ⟨h3, h4⟩ | ⟨h3, h4, h5⟩
    · exact ⟨fun _ => (ih.1 h3).tail h5, fun e => absurd e h4⟩
    · exact ⟨fun e => absurd h4 e, fun _ => by
        rw [← h3]; exact (ih.1 (h3 ▸ (hn.methods m hmd).1)).to_reflTransGen⟩
    · exact ⟨fun _ => .tail' (ih.2 h3) h5, fun e => absurd e h4⟩

theorem Spec.SplitMethod.cyclic (h : SplitMethod d m t x d') :
    (∃ y, Relation.TransGen (HasSub d') y y) ↔ ∃ y, Relation.TransGen (HasSub d) y y := by
  constructor
  · rintro ⟨y, hy⟩
    by_cases e : y = t
    · subst e
      obtain ⟨z, h3, h4⟩ := Relation.TransGen.head'_iff.mp hy
      have hz : z ≠ y := by
        obtain ⟨a, b, c, ms, hs, h1, h2, hn, _⟩ := h.methods
        have hmd : m ∈ d.methods := (h1 m).mpr (.inl rfl)
        obtain ⟨n, h5, h6, s, h7, rfl⟩ := h3
        rcases (h2 n).mp h5 with rfl | rfl | h8
        · exact absurd h6 (hn.methods m hmd).1
        · exact (hn.methods m hmd).2 s (by rw [hs]; simp [show s ∈ b from h7])
        · exact absurd h6 (hn.methods n ((h1 n).mpr (.inr h8))).1
      exact ⟨z, (h.up hz (.tail' h4 h3)).1 hz⟩
    · exact ⟨y, (h.up e hy).1 e⟩
  · rintro ⟨y, hy⟩
    exact ⟨y, h.down hy⟩

theorem Spec.SplitMethod.reachesAction (h : SplitMethod d m t x d') {y : Name} (hy : y ≠ t) : ReachesAction d' y ↔ ReachesAction d y := by
  obtain ⟨a, b, c, ms, hs, h1, h2, hn, ha⟩ := h.methods
  unfold ReachesAction
  rw [ha]
  refine exists_congr fun z => and_congr_right fun hz => ?_
  rw [Relation.reflTransGen_iff_eq_or_transGen, Relation.reflTransGen_iff_eq_or_transGen]
  exact or_congr_right ⟨fun h3 => (h.up hy h3).1 (hn.actions z hz), h.down⟩

theorem Spec.SplitMethod.noClash (h : SplitMethod d m t x d') : NoClash d' ↔ NoClash d := by
  obtain ⟨ms₁, ms₂, ts₁, ts₂, a, b, c, hm, ht, hs, ho, hn, hx, e⟩ := h
  have e5 : d'.actions = d.actions := by rw [e]
  have mem (u : Task) : u ∈ d'.tasks ↔ u = ⟨t, 0, m.params⟩ ∨ u ∈ d.tasks := by
    rw [e, ht]; simp only [List.mem_append, List.mem_cons]; tauto
  unfold NoClash
  rw [e5]
  refine ⟨fun h u hu => h u ((mem u).mpr (.inr hu)), fun h u hu => ?_⟩
  rcases (mem u).mp hu with rfl | hu
  · exact fun y hy e => hn.actions y hy e.symm
  · exact h u hu

end Verif
