import Verif.Spec.Instantiation
import Verif.Proofs.LocalNames
import Verif.Proofs.Subtyping

/-! Instances of accepted methods and initial task networks are accepted. -/

namespace Verif

open Spec

variable {d d' : DomainAST} {p p' : ProblemAST} {σ : Name → Name} {types constants : List Symbol}

/-- What a substitution has to do: names of the first scope become names of the second one, with types that fit. -/
def Carries (types : List Symbol) (σ : Name → Name) (scope scope' : List (List Symbol)) : Prop :=
  ∀ x ty, TypeIn scope x ty → ∃ ty', TypeIn scope' (σ x) ty' ∧ Fits types ty' ty

theorem argsFit_carried {scope scope' : List (List Symbol)} (h : Carries types σ scope scope') {args formals : List Symbol}
    (ha : ArgsFit types scope args formals) : ArgsFit types scope' (args.map (rvSymbol σ)) formals := by
  unfold ArgsFit at ha ⊢
  rw [List.forall₂_map_left_iff]
  refine forall₂_imp (fun a b hab => ?_) ha
  obtain ⟨ty, h1, h2⟩ := hab
  obtain ⟨ty', h3, h4⟩ := h _ _ h1
  exact ⟨ty', h3, fits_trans h4 h2⟩

theorem replaces_carries {params ps : List Symbol} (h : Replaces types constants σ params ps) :
    Carries types σ [params, constants] [ps, constants] := by
  intro x ty hx
  cases hx with
  | here h1 =>
    obtain ⟨pre, post, rfl, rfl, _⟩ := h1
    exact h.fits _ (by simp)
  | outer h1 h2 =>
    cases h2 with
    | here h3 =>
      have h4 := h3
      obtain ⟨pre, post, he, rfl, _⟩ := h4
      obtain ⟨h5, h6⟩ := h.kept _ (by rw [he]; simp) h1
      exact ⟨_, h5.symm ▸ .outer h6 (.here h3), fits_refl _⟩
    | outer _ h3 => cases h3

theorem formulaOk_carried {params ps : List Symbol} {f : Formula} (hc : Carries (typesOf d) σ [params, constantsOf d] [ps, constantsOf d])
    (hk : TypesKnown (typesOf d) ps) (h : FormulaOk d params f) : FormulaOk d ps (rvFormula σ f) where
  noExists he := h.noExists (hasExists_of_rv he)
  paramTypes := hk
  declared q hq := by
    obtain ⟨p, hp, rfl⟩ := occurs_of_rv hq
    obtain ⟨r, hr, h1, h2⟩ := h.declared p hp
    exact ⟨r, hr, h1, by simpa [rvPredicate] using h2⟩
  typed q hq r hr hn := by
    obtain ⟨p, hp, rfl⟩ := occursFree_of_rv hq
    exact argsFit_carried hc (h.typed p hp r hr hn)

theorem formulaOk_same (e : d' = { d with methods := d'.methods }) {params : List Symbol} {f : Formula} :
    FormulaOk d' params f ↔ FormulaOk d params f := by
  rw [e]
  exact ⟨fun h => ⟨h.1, h.2, h.3, h.4⟩, fun h => ⟨h.1, h.2, h.3, h.4⟩⟩

theorem callee_same (e : d' = { d with methods := d'.methods }) {x : Name} {ps : List Symbol} : Callee d' x ps ↔ Callee d x ps := by
  rw [e]
  constructor
  · rintro (⟨h1, h2⟩ | ⟨h1, h2, h3⟩)
    · exact .action h1 h2
    · exact .task h1 h2 h3
  · rintro (⟨h1, h2⟩ | ⟨h1, h2, h3⟩)
    · exact .action (d := { d with methods := d'.methods }) h1 h2
    · exact .task (d := { d with methods := d'.methods }) h1 h2 h3

theorem methodOk_instance {m m' : Method} (e : d' = { d with methods := d'.methods }) (hi : InstanceOf d m m') (h : MethodOk d m) :
    MethodOk d' m' := by
  obtain ⟨σ, ps, x, hr, hn, hk, rfl⟩ := hi
  have hc := replaces_carries hr
  have e1 : typesOf d' = typesOf d := by rw [e]; rfl
  have e2 : constantsOf d' = constantsOf d := by rw [e]; rfl
  have e3 : d'.tasks = d.tasks := by rw [e]
  refine ⟨hn, fun f hf => ?_, ?_, fun s hs => ?_, h.ordering⟩
  · obtain ⟨g, hg, rfl⟩ := Option.map_eq_some_iff.mp hf
    exact (formulaOk_same e).mpr (formulaOk_carried hc hk (h.pre g hg))
  · obtain ⟨t, ht, h1, h2⟩ := h.task
    rw [e1, e2, e3]
    exact ⟨t, ht, h1, argsFit_carried hc h2⟩
  · obtain ⟨s, hs', rfl⟩ := List.mem_map.mp hs
    obtain ⟨qs, h1, h2⟩ := h.subtasks s hs'
    rw [e1, e2]
    exact ⟨qs, (callee_same e).mpr h1, argsFit_carried hc h2⟩

theorem domainOk_instantiated (h : Instantiated d d') (hd : DomainOk d) : DomainOk d' := by
  have e := h.rest
  have e1 : typesOf d' = typesOf d := by rw [e]; rfl
  have e2 : d'.actions = d.actions := by rw [e]
  have e3 : d'.tasks = d.tasks := by rw [e]
  have e4 : d'.predicates = d.predicates := by rw [e]
  have e5 : d'.requirements = d.requirements := by rw [e]
  refine ⟨e5 ▸ hd.requirements, e1 ▸ hd.types, e4 ▸ hd.predicates, ?_, e3 ▸ hd.tasks, ?_, e2 ▸ hd.actionNames, ?_, h.names, ?_⟩
  · rw [e1, e4]; exact hd.predicateTypes
  · rw [e1, e3]; exact hd.taskTypes
  · rw [e2]
    intro a ha
    exact ⟨(hd.actions a ha).params, fun f hf => (formulaOk_same e).mpr ((hd.actions a ha).pre f hf),
      fun f hf => (formulaOk_same e).mpr ((hd.actions a ha).eff f hf)⟩
  · intro m' hm'
    obtain ⟨m, hm, hi⟩ := h.instances m' hm'
    exact methodOk_instance e hi (hd.methods m hm)

theorem instanceTn_ok {i i' : InitTN} (ho : p'.objects = p.objects) (h : InstanceTn d p.objects i i') (hi : InitTnOk d p i) :
    InitTnOk d p' i' := by
  obtain ⟨σ, h1, h2, h3, h4⟩ := h
  have hc : Carries (typesOf d) σ [p.objects, i.params.getD [], constantsOf d] [p'.objects, i'.params.getD [], constantsOf d] := by
    rw [ho]
    intro x ty hx
    cases hx with
    | here hf =>
      have hf' := hf
      obtain ⟨pre, post, he, rfl, _⟩ := hf'
      have hm : σ _ = _ := h2 _ (he ▸ List.mem_append_right pre List.mem_cons_self)
      exact ⟨_, hm.symm ▸ .here hf, fits_refl _⟩
    | outer hn hx =>
      cases hx with
      | here hf =>
        obtain ⟨pre, post, he, rfl, _⟩ := hf
        exact h3 _ (by rw [he]; simp) hn
      | outer hn' hx =>
        cases hx with
        | here hf =>
          have hf' := hf
          obtain ⟨pre, post, he, rfl, _⟩ := hf'
          obtain ⟨h5, h6⟩ := h4 _ (by rw [he]; simp) hn'
          exact ⟨_, h5.symm ▸ .outer hn (.outer h6 (.here hf)), fits_refl _⟩
        | outer _ hx => cases hx
  refine ⟨?_, fun s hs => ?_⟩
  · rw [h1]; exact hi.ordering
  · rw [h1] at hs
    obtain ⟨s, hs', rfl⟩ := List.mem_map.mp hs
    obtain ⟨qs, h5, h6⟩ := hi.subtasks s hs'
    exact ⟨qs, h5, argsFit_carried hc h6⟩

theorem problemOk_instantiated (h : InstantiatedP d p p') (hp : ProblemOk d p) : ProblemOk d p' := by
  have hfact {a : Predicate} : FactOk d p a → FactOk d p' a := fun ⟨q, hq, hn, h1⟩ => ⟨q, hq, hn, h.objects.symm ▸ h1⟩
  refine ⟨h.objects ▸ hp.objectTypes, h.objects ▸ hp.objects, fun a ha => hfact (hp.init a (h.init ▸ ha)), fun i' hi' => ?_,
    fun f hf a ha => hfact (hp.goal f (h.goal ▸ hf) a ha)⟩
  have := h.htn
  rw [hi'] at this
  generalize hi : p.initTn = o at this
  cases this with
  | some h1 => exact instanceTn_ok h.objects h1 (hp.htn _ hi)

end Verif
