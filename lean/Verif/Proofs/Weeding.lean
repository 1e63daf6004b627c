import Verif.Spec.Weeding
import Verif.Proofs.Pruning
import Verif.Proofs.Regrouped
import Verif.Proofs.RelaidLex
import Verif.Proofs.Clash

/-! Domains without some compound tasks. -/

namespace Verif

open Spec

variable {d d' : DomainAST} {p : ProblemAST} {W : List Name}

theorem weeded_nil : weeded [] d = d := by simp [weeded]

theorem weeded_append (W W' : List Name) : weeded W' (weeded W d) = weeded (W ++ W') d := by
  simp only [weeded, List.filter_filter, DomainAST.mk.injEq, true_and, and_true]
  constructor <;> refine List.filter_congr fun x _ => ?_
  · simp only [List.mem_append, not_or, ← Bool.decide_and]
    exact decide_eq_decide.mpr (by tauto)
  · simp only [List.mem_append, not_or, ← Bool.decide_and]
    refine decide_eq_decide.mpr ⟨fun h => ⟨⟨h.2.1, h.1.1⟩, fun s hs => ⟨h.2.2 s hs, h.1.2 s hs⟩⟩,
      fun h => ⟨⟨h.1.2, fun s hs => (h.2 s hs).2⟩, h.1.1, fun s hs => (h.2 s hs).1⟩⟩

theorem mem_weeded_tasks {t : Task} : t ∈ (weeded W d).tasks ↔ t ∈ d.tasks ∧ t.name ∉ W := by
  simp [weeded, List.mem_filter]

theorem mem_weeded_methods {m : Method} : m ∈ (weeded W d).methods ↔
    m ∈ d.methods ∧ m.task.name ∉ W ∧ ∀ s ∈ m.tn.subtasks, s.task.name ∉ W := by
  simp [weeded, List.mem_filter]

theorem weeded_rn : weeded W (rnDomain id d) = rnDomain id (weeded W d) := by
  simp only [weeded, rnDomain, List.filter_map, DomainAST.mk.injEq, true_and, and_true]
  constructor <;> refine congrArg _ (List.filter_congr fun x _ => ?_)
  · simp only [Function.comp, rnTask, id]; congr
  · simp [rnMethod, rnSymbol, rnHtn, rnSubtask]

theorem drops_filter {α : Type} {P : α → Prop} {q : α → Bool} : ∀ {l : List α}, (∀ x ∈ l, q x = false → P x) → Drops P (l.filter q) l
  | [], _ => .nil
  | x :: l, h => by
    have ih := drops_filter (l := l) fun y hy => h y (List.mem_cons_of_mem _ hy)
    rw [List.filter_cons]
    split
    · exact .keep ih
    · exact .drop (h x (List.mem_cons_self ..) (Bool.eq_false_iff.mpr ‹_›)) ih

theorem weeded_pruned : Pruned (weeded W d) d where
  requirements := .refl _
  types := Drops.refl _
  constants := Drops.refl _
  predicates := Drops.refl _
  actions := Drops.refl _
  methods := List.filter_sublist
  tasks := by
    refine drops_filter fun t _ ht => ?_
    have ht : t.name ∈ W := by simpa using ht
    refine ⟨?_, ?_⟩
    · rintro ⟨m, hm, s, hs, h⟩
      exact (mem_weeded_methods.mp hm).2.2 s hs (h ▸ ht)
    · rintro ⟨m, hm, h⟩
      exact (mem_weeded_methods.mp hm).2.1 (h ▸ ht)

theorem domainOk_weeded (h : DomainOk d) : DomainOk (weeded W d) := domainOk_pruned weeded_pruned h

theorem weeded_actionName {x : Name} : ActionName (weeded W d) x ↔ ActionName d x := Iff.rfl

/-- Calls of tasks that stay mean the same. -/
theorem callee_weeded {x : Name} (hx : x ∉ W) {ps : List Symbol} : Callee (weeded W d) x ps ↔ Callee d x ps := by
  constructor
  · rintro (⟨h1, h2⟩ | ⟨h1, h2, h3⟩)
    · exact .action h1 h2
    · exact .task h1 (mem_weeded_tasks.mp h2).1 h3
  · rintro (⟨h1, h2⟩ | ⟨h1, h2, h3⟩)
    · exact .action h1 h2
    · exact .task h1 (mem_weeded_tasks.mpr ⟨h2, h3 ▸ hx⟩) h3

/-- Calls of tasks that were removed mean nothing. -/
theorem callee_gone {x : Name} (hx : x ∈ W) (ha : ¬ ActionName d x) {ps : List Symbol} : ¬ Callee (weeded W d) x ps := by
  rintro (⟨h1, h2⟩ | ⟨_, h2, h3⟩)
  · exact ha ⟨_, h1, h2⟩
  · exact (mem_weeded_tasks.mp h2).2 (h3 ▸ hx)

theorem problemOk_weeded (hs : ∀ s, SubtaskP p s → s.task.name ∉ W) : ProblemOk (weeded W d) p ↔ ProblemOk d p := by
  have key : ∀ h, p.initTn = some h → (InitTnOk (weeded W d) p h ↔ InitTnOk d p h) := fun h hh =>
    ⟨fun ⟨h1, h2⟩ => ⟨h1, fun s h3 => by
        obtain ⟨ps, h4, h5⟩ := h2 s h3
        exact ⟨ps, (callee_weeded (hs s ⟨h, hh, h3⟩)).mp h4, h5⟩⟩,
      fun ⟨h1, h2⟩ => ⟨h1, fun s h3 => by
        obtain ⟨ps, h4, h5⟩ := h2 s h3
        exact ⟨ps, (callee_weeded (hs s ⟨h, hh, h3⟩)).mpr h4, h5⟩⟩⟩
  exact ⟨fun ⟨h1, h2, h3, h4, h5⟩ => ⟨h1, h2, h3, fun h hh => (key h hh).mp (h4 h hh), h5⟩,
    fun ⟨h1, h2, h3, h4, h5⟩ => ⟨h1, h2, h3, fun h hh => (key h hh).mpr (h4 h hh), h5⟩⟩

theorem problemOk_gone {s : Subtask} (hs : SubtaskP p s) (hw : s.task.name ∈ W) (ha : ¬ ActionName d s.task.name) :
    ¬ ProblemOk (weeded W d) p := by
  intro h
  obtain ⟨i, h1, h2⟩ := hs
  obtain ⟨ps, h3, _⟩ := (h.htn i h1).subtasks s h2
  exact callee_gone hw ha h3

/-! ### Refinements and plans -/

theorem refinable_weeded (hW : ∀ x ∈ W, ¬ Refinable d x) {x : Name} : Refinable (weeded W d) x ↔ Refinable d x := by
  constructor
  · intro h
    induction h with
    | action h => exact .action h
    | method h _ ih => exact .method (mem_weeded_methods.mp h).1 ih
  · intro h
    induction h with
    | action h => exact .action (d := weeded W d) h
    | @method m h h1 ih =>
      exact .method (d := weeded W d) (mem_weeded_methods.mpr ⟨h, fun hm => hW _ hm (.method h h1), fun s hs hm => hW _ hm (h1 s hs)⟩) ih

theorem decomposes_sub {n n' : List Ground} (h : Decomposes (weeded W d) p n n') : Decomposes d p n n' := by
  cases h with
  | mk h1 h2 => exact .mk (d := d) (mem_weeded_methods.mp h1).1 h2

/-- Whatever can be decomposed into actions consists of refinable tasks. -/
theorem decomposed_refinable {n acts : List Ground} (h : Relation.ReflTransGen (Decomposes d p) n acts)
    (ha : ∀ x ∈ acts, ActionName d x.1) : ∀ x ∈ n, Refinable d x.1 := by
  induction h using Relation.ReflTransGen.head_induction_on with
  | refl =>
    intro x hx
    obtain ⟨a, h1, h2⟩ := ha x hx
    exact h2 ▸ .action h1
  | head h1 _ ih =>
    cases h1 with
    | @mk before after m σ h2 h3 =>
      intro x hx
      rcases List.mem_append.mp hx with hx | hx
      · exact ih x (by simp [hx])
      · rcases List.mem_cons.mp hx with rfl | hx
        · refine .method h2 fun s hs => ?_
          exact ih (s.task.name, s.terms.map (value m.params σ)) (by
            simp only [List.mem_append, instances, List.mem_map]
            exact .inl (.inr ⟨s, hs, rfl⟩))
        · exact ih x (by simp [hx])

theorem decomposedInto_weeded (hW : ∀ x ∈ W, ¬ Refinable d x) {n acts : List Ground} :
    DecomposedInto (weeded W d) p n acts ↔ DecomposedInto d p n acts := by
  constructor
  · rintro ⟨h1, h2⟩
    exact ⟨Relation.ReflTransGen.mono (fun _ _ => decomposes_sub) _ _ h1, h2⟩
  · rintro ⟨h1, h2⟩
    refine ⟨?_, h2⟩
    induction h1 using Relation.ReflTransGen.head_induction_on with
    | refl => exact .refl
    | head h3 h4 ih =>
      have h5 := decomposed_refinable h4 h2
      have h6 := decomposed_refinable (h4.head h3) h2
      refine .head ?_ ih
      cases h3 with
      | @mk before after m σ h7 h8 =>
        refine .mk (d := weeded W d) (mem_weeded_methods.mpr ⟨h7, fun hm => ?_, fun s hs hm => ?_⟩) h8
        · exact hW _ hm (h6 (m.task.name, m.taskTerms.map (value m.params σ)) (by simp))
        · refine hW _ hm (h5 (s.task.name, s.terms.map (value m.params σ)) ?_)
          simp only [List.mem_append, instances, List.mem_map]
          exact .inl (.inr ⟨s, hs, rfl⟩)

/-! ### Lines have no effect -/

theorem hasType_lines {x : Name} {ty : Option Name} : HasType (rnDomain id d) (rnProblem id p) x ty ↔ HasType d p x ty := by
  have e : [(rnProblem id p).objects, constantsOf (rnDomain id d)] = [p.objects, constantsOf d].map (List.map (rnSymbol id)) := by
    rw [constantsOf_rn]; rfl
  unfold HasType
  rw [e, typesOf_rn]
  constructor
  · rintro ⟨t, h1, h2⟩
    obtain ⟨t', rfl, h3⟩ := (typeIn_rn Function.injective_id (x := x)).mp h1
    refine ⟨t', h3, (fits_rn Function.injective_id).mp ?_⟩
    simpa using h2
  · rintro ⟨t, h1, h2⟩
    refine ⟨t, (typeIn_rn Function.injective_id (x := x)).mpr ⟨t, by simp, h1⟩, ?_⟩
    have := (fits_rn Function.injective_id).mpr h2
    simpa using this

theorem respects_lines {l : List Symbol} {σ : Name → Name} :
    Respects (rnDomain id d) (rnProblem id p) (l.map (rnSymbol id)) σ ↔ Respects d p l σ := by
  simp [Respects, rnSymbol, hasType_lines]

theorem value_lines {l : List Symbol} {σ : Name → Name} {v : Symbol} :
    value (l.map (rnSymbol id)) σ (rnSymbol id v) = value l σ v := by
  simp [value, rnSymbol]

theorem instances_lines {l : List Symbol} {σ : Name → Name} {tn : HTN} :
    instances (l.map (rnSymbol id)) σ (rnHtn id tn) = instances l σ tn := by
  simp only [instances, rnHtn, List.map_map]
  refine List.map_congr_left fun s _ => ?_
  simp only [Function.comp, rnSubtask, List.map_map]
  refine Prod.ext rfl (List.map_congr_left fun v _ => ?_)
  exact value_lines

theorem decomposes_lines {n n' : List Ground} : Decomposes (rnDomain id d) (rnProblem id p) n n' ↔ Decomposes d p n n' := by
  have key : ∀ (m : Method) (σ : Name → Name), (rnMethod id m).taskTerms.map (value (rnMethod id m).params σ) =
      m.taskTerms.map (value m.params σ) := fun m σ => by
    simp only [rnMethod, List.map_map]
    exact List.map_congr_left fun v _ => value_lines
  constructor
  · intro h
    cases h with
    | @mk before after m σ h1 h2 =>
      obtain ⟨m, h3, rfl⟩ := List.mem_map.mp h1
      rw [key]
      have := Decomposes.mk (d := d) (p := p) (before := before) (after := after) h3 (respects_lines.mp h2)
      simpa only [rnMethod, instances_lines, show (rnSymbol id m.task).name = m.task.name from rfl] using this
  · intro h
    cases h with
    | @mk before after m σ h1 h2 =>
      have := Decomposes.mk (d := rnDomain id d) (p := rnProblem id p) (before := before) (after := after) (m := rnMethod id m)
        (List.mem_map_of_mem (f := rnMethod id) h1) (respects_lines.mpr h2)
      rw [key] at this
      simpa only [rnMethod, instances_lines, show (rnSymbol id m.task).name = m.task.name from rfl] using this

theorem decomposes_same (h : rnDomain id d = rnDomain id d') : Decomposes d p = Decomposes d' p := by
  funext n n'
  rw [eq_iff_iff, ← decomposes_lines, h, decomposes_lines]

theorem actionName_lines {x : Name} : ActionName (rnDomain id d) x ↔ ActionName d x := by
  simp [ActionName, rnDomain, rnAction]

theorem decomposedInto_same (h : rnDomain id d = rnDomain id d') {n acts : List Ground} :
    DecomposedInto d p n acts ↔ DecomposedInto d' p n acts := by
  unfold DecomposedInto
  rw [decomposes_same h]
  refine and_congr_right fun _ => ?_
  simp only [← actionName_lines (d := d), ← actionName_lines (d := d'), h]

theorem initial_same (h : rnDomain id d = rnDomain id d') {n : List Ground} : Initial d p n ↔ Initial d' p n := by
  have key : ∀ l σ, Respects d p l σ ↔ Respects d' p l σ := fun l σ => by
    rw [← respects_lines, h, respects_lines]
  exact ⟨fun ⟨h1, h2⟩ => ⟨h1, (key _ _).mp h2⟩, fun ⟨h1, h2⟩ => ⟨h1, (key _ _).mpr h2⟩⟩

theorem refinable_rn {x : Name} : Refinable (rnDomain id d) x ↔ Refinable d x := by
  constructor
  · intro h
    induction h with
    | action h =>
      obtain ⟨a, h1, rfl⟩ := List.mem_map.mp h
      exact (Refinable.action h1 : Refinable d a.name)
    | method h _ ih =>
      obtain ⟨m, h1, rfl⟩ := List.mem_map.mp h
      exact (Refinable.method h1 fun s hs => ih (rnSubtask id s) (List.mem_map_of_mem (f := rnSubtask id) hs) :
        Refinable d m.task.name)
  · intro h
    induction h with
    | @action a h => exact .action (d := rnDomain id d) (a := rnAction id a) (List.mem_map_of_mem (f := rnAction id) h)
    | @method m h _ ih =>
      refine .method (d := rnDomain id d) (m := rnMethod id m) (List.mem_map_of_mem (f := rnMethod id) h) fun s hs => ?_
      obtain ⟨s, h1, rfl⟩ := List.mem_map.mp hs
      exact ih s h1

theorem yields_same (h : rnDomain id d = rnDomain id d') {acts : List Ground} : Yields d p acts ↔ Yields d' p acts := by
  unfold Yields
  simp only [initial_same h, decomposedInto_same h]

theorem yields_weeded (hW : ∀ x ∈ W, ¬ Refinable d x) {acts : List Ground} : Yields (weeded W d) p acts ↔ Yields d p acts := by
  unfold Yields
  simp only [decomposedInto_weeded hW]
  refine exists_congr fun n => and_congr_left fun _ => ?_
  exact ⟨fun ⟨h1, h2⟩ => ⟨h1, h2⟩, fun ⟨h1, h2⟩ => ⟨h1, h2⟩⟩

end Verif
