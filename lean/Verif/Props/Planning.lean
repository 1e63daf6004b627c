import Verif.Spec.Planning
import Verif.Spec.Scoping
import Verif.Proofs.DecEq
import Verif.Props.Server

/-! C51: well-typed problems stay well-typed when they are planned. -/

namespace Verif

open Spec

variable [Env] {ord : HashOrd} {f g : Bytes} {d : DomainAST} {p : ProblemAST}

omit [Env] in
theorem Spec.Fits.trans {types : List Symbol} {a b c : Option Name} (h : Fits types a b) (h' : Fits types b c) :
    Fits types a c := by
  cases h with
  | untyped => exact h'
  | sub h1 => cases h' with | sub h2 => exact .sub (h1.trans h2)

omit [Env] in
theorem Spec.HasType.fits {x : Name} {a b : Option Name} (h : HasType d p x a) (h' : Fits (typesOf d) a b) :
    HasType d p x b := by
  obtain ⟨t, h1, h2⟩ := h
  exact ⟨t, h1, h2.trans h'⟩

omit [Env] in
theorem firstNamed_mem {l : List Symbol} {x : Name} {s : Symbol} (h : FirstNamed l x s) : s ∈ l ∧ s.name = x := by
  obtain ⟨a, b, rfl, h1, _⟩ := h
  exact ⟨by simp, h1⟩

omit [Env] in
/-- The value of a term that fits a formal parameter can be used for that parameter. -/
theorem value_hasType (ha : ∀ o ∈ p.objects, ∀ c ∈ constantsOf d, c.name ≠ o.name) {params : List Symbol}
    {σ : Name → Name} (hσ : Respects d p params σ) {v s : Symbol}
    (h : ArgFits (typesOf d) [params, constantsOf d] v s) : HasType d p (value params σ v) s.ty := by
  obtain ⟨ty, h1, h2⟩ := h
  cases h1 with
  | here h1 =>
    obtain ⟨h3, h4⟩ := firstNamed_mem h1
    have : value params σ v = σ v.name := by
      unfold value; rw [if_pos (h4 ▸ List.mem_map_of_mem h3)]
    rw [this]
    have := hσ _ h3
    rw [h4] at this
    exact this.fits h2
  | outer h1 h3 =>
    have : value params σ v = v.name := by
      unfold value
      rw [if_neg]
      intro h; obtain ⟨y, h4, h5⟩ := List.mem_map.mp h
      exact h1 y h4 h5
    rw [this]
    refine ⟨ty, .outer ?_ h3, h2⟩
    intro o ho he
    cases h3 with
    | here h3 =>
      obtain ⟨h4, h5⟩ := firstNamed_mem h3
      exact ha o ho _ h4 (h5.trans he.symm)
    | outer _ h4 => cases h4

omit [Env] in
theorem values_wellTyped (ha : ∀ o ∈ p.objects, ∀ c ∈ constantsOf d, c.name ≠ o.name) {params : List Symbol}
    {σ : Name → Name} (hσ : Respects d p params σ) {vs ss : List Symbol}
    (h : ArgsFit (typesOf d) [params, constantsOf d] vs ss) : WellTyped d p (vs.map (value params σ)) ss := by
  unfold WellTyped
  rw [List.forall₂_map_left_iff]
  exact h.imp fun _ _ h => value_hasType ha hσ h

omit [Env] in
theorem initial_wellTyped (ha : ObjectsApart d p) {h : InitTN} (hh : p.initTn = some h) {σ : Name → Name}
    (hσ : Respects d p (h.params.getD []) σ) {vs ss : List Symbol}
    (hf : ArgsFit (typesOf d) [p.objects, h.params.getD [], constantsOf d] vs ss) :
    WellTyped d p (vs.map (value (h.params.getD []) σ)) ss := by
  unfold WellTyped
  rw [List.forall₂_map_left_iff]
  refine hf.imp fun v s hvs => ?_
  obtain ⟨ty, h1, h2⟩ := hvs
  cases h1 with
  | here h1 =>
    have h3 := firstNamed_mem h1
    have : value (h.params.getD []) σ v = v.name := by
      unfold value
      rw [if_neg]
      intro hm; obtain ⟨y, h4, h5⟩ := List.mem_map.mp hm
      exact (ha _ h3.1).2 h hh y h4 (h5.trans h3.2.symm)
    rw [this]
    exact ⟨_, .here h1, h2⟩
  | outer h1 h3 =>
    exact value_hasType (fun o ho c hc => (ha o ho).1 c hc) hσ ⟨ty, h3, h2⟩

omit [Env] in
/-- In every network that can be obtained, every task is declared and its arguments fit. -/
theorem obtained_typed (hd : DomainOk d) (hp : ProblemOk d p) (ha : ObjectsApart d p) {n : List Ground}
    (hn : Obtained d p n) : ∀ t ∈ n, ∃ ps, Callee d t.1 ps ∧ WellTyped d p t.2 ps := by
  obtain ⟨n0, h0, hs⟩ := hn
  induction hs with
  | refl =>
    cases h0 with
    | @mk h σ hh hσ =>
      intro t ht
      obtain ⟨s, hs, rfl⟩ := List.mem_map.mp ht
      obtain ⟨ps, h1, h2⟩ := (hp.htn h hh).subtasks s hs
      exact ⟨ps, h1, initial_wellTyped ha hh hσ h2⟩
  | tail _ hstep ih =>
    cases hstep with
    | @mk before after m σ hm hσ =>
      intro t ht
      rcases List.mem_append.mp ht with ht | ht
      · rcases List.mem_append.mp ht with ht | ht
        · exact ih t (by simp [ht])
        · obtain ⟨s, hs, rfl⟩ := List.mem_map.mp ht
          obtain ⟨ps, h1, h2⟩ := (hd.methods m hm).subtasks s hs
          exact ⟨ps, h1, values_wellTyped (fun o ho c hc => (ha o ho).1 c hc) hσ h2⟩
      · exact ih t (by simp [ht])

omit [Env] in
/-- Parameters with different names can be given any values. -/
theorem exists_binding : ∀ {params : List Symbol} {args : List Name}, (params.map (·.name)).Nodup →
    args.length = params.length → ∃ σ : Name → Name, params.map (fun s => σ s.name) = args := by
  intro params
  induction params with
  | nil => intro args _ h; exact ⟨id, by simpa using (List.length_eq_zero_iff.mp h).symm⟩
  | cons s ss ih =>
    intro args hn hl
    cases args with
    | nil => simp at hl
    | cons a as =>
      simp only [List.map_cons, List.nodup_cons] at hn
      obtain ⟨σ, hσ⟩ := ih hn.2 (by simpa using hl)
      refine ⟨fun x => if x = s.name then a else σ x, ?_⟩
      simp only [List.map_cons, if_pos, ← hσ, List.cons.injEq, true_and]
      refine List.map_congr_left fun y hy => ?_
      rw [if_neg]
      intro h
      exact hn.1 (h ▸ List.mem_map_of_mem hy)

omit [Env] in
theorem respects_of_wellTyped {params : List Symbol} {σ : Name → Name}
    (h : WellTyped d p (params.map fun s => σ s.name) params) : Respects d p params σ := by
  unfold WellTyped at h
  rw [List.forall₂_map_left_iff, List.forall₂_same] at h
  exact h

/-- C51, tasks: in every task network that can be obtained by decomposing the initial network of an accepted problem,
in any order and with any well-typed values of the parameters, every task is declared and its arguments have the
declared types.  Missing: problems in which an object has the name of a constant or of a parameter of the initial
network, for which the claim is false (`C51_refuted`, `C51_parameter_refuted`). -/
theorem C51_tasks_partial (hf : Parses f (.domain d)) (hg : Parses g (.problem p))
    (h : ∃ ws, Returns ord f (some g) (.ok ws)) (ha : ObjectsApart d p) (n : List Ground) (hn : Obtained d p n) :
    ∀ t ∈ n, ∃ ps, Callee d t.1 ps ∧ WellTyped d p t.2 ps := by
  obtain ⟨ws, h⟩ := h
  obtain ⟨h1, h2⟩ := (returns_ok_some hf hg).mp h
  exact obtained_typed (accepts_iff.mp ⟨_, h1⟩) h2 ha hn

/-- C51, actions: every action in such a network is an instance of a declared action with well-typed values of its
parameters, and all atoms of its precondition and effect outside quantifiers are declared and well-typed in that
instance. -/
theorem C51_actions_partial (hf : Parses f (.domain d)) (hg : Parses g (.problem p))
    (h : ∃ ws, Returns ord f (some g) (.ok ws)) (ha : ObjectsApart d p) (n : List Ground) (hn : Obtained d p n)
    (a : Action) (haa : a ∈ d.actions) (args : List Name) (hx : (a.name, args) ∈ n) :
    ∃ σ, Respects d p a.params σ ∧ a.params.map (fun s => σ s.name) = args ∧
      ∀ fm, (a.pre = some fm ∨ a.eff = some fm) → ∀ q, OccursFree q fm →
        ∃ r ∈ d.predicates, r.name = q.name ∧ WellTyped d p (q.vars.map (value a.params σ)) r.vars := by
  obtain ⟨ws, h⟩ := h
  obtain ⟨h1, h2⟩ := (returns_ok_some hf hg).mp h
  have hd := accepts_iff.mp ⟨_, h1⟩
  obtain ⟨ps, h3, h4⟩ := obtained_typed hd h2 ha hn _ hx
  have hps : ps = a.params := by
    generalize hy : ((a.name, args) : Ground).1 = y at h3
    cases h3 with
    | action hb hbn =>
      rename_i b
      have : b = a := List.inj_on_of_nodup_map hd.actionNames hb haa (hbn.trans hy.symm)
      rw [this]
    | task hno _ _ => exact absurd hy (hno a haa)
  subst hps
  obtain ⟨σ, hσ⟩ := exists_binding (hd.actions a haa).params h4.length_eq
  have hr : Respects d p a.params σ := respects_of_wellTyped (by rw [hσ]; exact h4)
  refine ⟨σ, hr, hσ, ?_⟩
  intro fm hfm q hq
  have hok : FormulaOk d a.params fm := by
    rcases hfm with hfm | hfm
    · exact (hd.actions a haa).pre fm hfm
    · exact (hd.actions a haa).eff fm hfm
  obtain ⟨r, hr1, hr2, _⟩ := hok.declared q hq.occurs
  exact ⟨r, hr1, hr2, values_wellTyped (fun o ho c hc => (ha o ho).1 c hc) hr (hok.typed q hq r hr1 hr2)⟩

omit [Env] in
theorem occursFree_of_occurs {q : Predicate} {fm : Formula} (h : Occurs q fm) (hq : ¬ Quantified fm) :
    OccursFree q fm := by
  induction h with
  | atom => exact .atom
  | not _ ih => exact .not (ih fun h => hq (.not h))
  | and hm _ ih => exact .and hm (ih fun h => hq (.and hm h))
  | or hm _ ih => exact .or hm (ih fun h => hq (.or hm h))
  | xor hm _ ih => exact .xor hm (ih fun h => hq (.xor hm h))
  | left hm _ ih => exact .left hm (ih fun h => hq (.left hm h))
  | right hm _ ih => exact .right hm (ih fun h => hq (.right hm h))
  | weighted _ ih => exact .weighted (ih fun h => hq (.weighted h))
  | forall_ _ _ => exact absurd .forall_ hq
  | exists_ _ _ => exact absurd .exists_ hq

/-- C51, states: in every state that can be reached from the initial state of an accepted problem by actions with
well-typed parameters, every fact is declared and its arguments have the declared types.  Missing: as for
`C51_tasks_partial`, and effects with quantifiers, which are not checked completely (C47). -/
theorem C51_states_partial (hf : Parses f (.domain d)) (hg : Parses g (.problem p))
    (h : ∃ ws, Returns ord f (some g) (.ok ws)) (ha : ∀ o ∈ p.objects, ∀ c ∈ constantsOf d, c.name ≠ o.name)
    (hq : ∀ a ∈ d.actions, ∀ fm, a.eff = some fm → ¬ Quantified fm) (S : Ground → Prop) (hS : Reached d p S) :
    ∀ x, S x → ∃ r ∈ d.predicates, r.name = x.1 ∧ WellTyped d p x.2 r.vars := by
  obtain ⟨ws, h⟩ := h
  obtain ⟨h1, h2⟩ := (returns_ok_some hf hg).mp h
  have hd := accepts_iff.mp ⟨_, h1⟩
  induction hS with
  | init =>
    rintro x ⟨q, hq1, rfl⟩
    obtain ⟨r, h3, h4, h5⟩ := h2.init q hq1
    refine ⟨r, h3, h4, ?_⟩
    unfold WellTyped
    rw [List.forall₂_map_left_iff]
    exact h5
  | act _ hr hact ih =>
    cases hact with
    | @mk a σ S S' haa hx =>
      intro x hx'
      rcases hx x hx' with h3 | ⟨fm, q, h3, h4, rfl⟩
      · exact ih x h3
      · have hok := (hd.actions a haa).eff fm h3
        obtain ⟨r, hr1, hr2, _⟩ := hok.declared q h4
        exact ⟨r, hr1, hr2, values_wellTyped ha hr
          (hok.typed q (occursFree_of_occurs h4 (hq a haa fm h3)) r hr1 hr2)⟩

/-! ### Concrete problems -/

/-- `act` makes the constant `c` of type `a` satisfy `q`. -/
def constDomain : Bytes := b!"(define (domain d)\n(:types a b) (:constants c - a) (:predicates (q ?x - a))
(:task t :parameters (?x - a))
(:action act :parameters (?x - a) :precondition (q ?x) :effect (and (q ?x) (q c)))
(:method m :parameters (?x - a ?y - a) :task (t ?x) :ordered-subtasks (and (act ?x) (act ?y) (act c))))\n"

def constDomainAST : DomainAST where
  name := b!"d"
  types := some [⟨b!"a", 2, none, none⟩, ⟨b!"b", 2, none, none⟩]
  constants := some [⟨b!"c", 2, some b!"a", some 2⟩]
  requirements := []
  predicates := [⟨b!"q", 2, [⟨b!"x", 2, some b!"a", some 2⟩]⟩]
  tasks := [⟨b!"t", 3, [⟨b!"x", 3, some b!"a", some 3⟩]⟩]
  methods := [⟨⟨b!"m", 5, none, none⟩, ⟨b!"t", 5, none, none⟩, [⟨b!"x", 5, none, none⟩],
    [⟨b!"x", 5, some b!"a", some 5⟩, ⟨b!"y", 5, some b!"a", some 5⟩], none,
    ⟨[⟨none, ⟨b!"act", 5, none, none⟩, [⟨b!"x", 5, none, none⟩]⟩, ⟨none, ⟨b!"act", 5, none, none⟩, [⟨b!"y", 5, none, none⟩]⟩,
      ⟨none, ⟨b!"act", 5, none, none⟩, [⟨b!"c", 5, none, none⟩]⟩], none, .total, none⟩⟩]
  actions := [⟨b!"act", 4, [⟨b!"x", 4, some b!"a", some 4⟩], some (.atom ⟨b!"q", 4, [⟨b!"x", 4, none, none⟩]⟩),
    some (.and [.atom ⟨b!"q", 4, [⟨b!"x", 4, none, none⟩]⟩, .atom ⟨b!"q", 4, [⟨b!"c", 4, none, none⟩]⟩])⟩]
  functions := []

omit [Env] in
theorem constDomain_parses : @Parses Env.plain constDomain (.domain constDomainAST) :=
  @Parses.of_ok Env.plain 60 _ _ (by decide +kernel)

/-- One object of type `a`. -/
def objectProblem : Bytes :=
  b!"(define (problem p) (domain d) (:objects o - a) (:htn :parameters (?v - a) :subtasks (and (t o) (t ?v))))\n"

def objectProblemAST : ProblemAST where
  requirements := []
  initTn := some ⟨some [⟨b!"v", 1, some b!"a", some 1⟩],
    ⟨[⟨none, ⟨b!"t", 1, none, none⟩, [⟨b!"o", 1, none, none⟩]⟩, ⟨none, ⟨b!"t", 1, none, none⟩, [⟨b!"v", 1, none, none⟩]⟩],
      none, .partial_ [], none⟩⟩
  initState := []
  goal := none
  objects := [⟨b!"o", 1, some b!"a", some 1⟩]

omit [Env] in
theorem objectProblem_parses : @Parses Env.plain objectProblem (.problem objectProblemAST) :=
  @Parses.of_ok Env.plain 60 _ _ (by decide +kernel)

omit [Env] in
theorem constDomain_typeA {p : ProblemAST} {x : Name} (h : TypeIn [p.objects, constantsOf constDomainAST] x (some b!"a")) :
    HasType constDomainAST p x (some b!"a") := ⟨_, h, .sub .refl⟩

omit [Env] in
theorem constDomain_typeB {p : ProblemAST} {x : Name} (h : TypeIn [p.objects, constantsOf constDomainAST] x (some b!"b")) :
    ¬ HasType constDomainAST p x (some b!"a") := by
  rintro ⟨t, h1, h2⟩
  cases h1.det h
  cases h2 with
  | sub h2 =>
    rcases Relation.ReflTransGen.cases_head h2 with h3 | ⟨y, ⟨s, h3, h4, h5⟩, _⟩
    · exact absurd h3 (by decide)
    · have : ∀ s ∈ typesOf constDomainAST, s.ty = none := by decide
      rw [this s h3] at h5; cases h5

omit [Env] in
/-- Instance: a problem that meets the conditions of C51, and a network obtained by one decomposition. -/
theorem planning_instance : @Returns Env.plain HashOrd.id constDomain (some objectProblem) (.ok []) ∧
    ObjectsApart constDomainAST objectProblemAST ∧ (∀ a ∈ constDomainAST.actions, ∀ fm, a.eff = some fm → ¬ Quantified fm) ∧
    Obtained constDomainAST objectProblemAST [(b!"act", [b!"o"]), (b!"act", [b!"c"]), (b!"act", [b!"c"]), (b!"t", [b!"c"])] := by
  have ho : HasType constDomainAST objectProblemAST b!"o" (some b!"a") :=
    constDomain_typeA (.here (s := ⟨b!"o", 1, some b!"a", some 1⟩) ⟨[], [], rfl, rfl, by simp⟩)
  have hc : HasType constDomainAST objectProblemAST b!"c" (some b!"a") :=
    constDomain_typeA (.outer (by decide) (.here (s := ⟨b!"c", 2, some b!"a", some 2⟩) ⟨[], [], rfl, rfl, by simp⟩))
  refine ⟨@returns_run Env.plain _ _ _ 60 _ (by decide +kernel) (by simp), ?_, ?_, ?_⟩
  · unfold ObjectsApart
    simp only [constDomainAST, objectProblemAST, constantsOf]
    simp
  · simp only [constDomainAST, List.mem_singleton, forall_eq, Option.some.injEq, forall_eq']
    intro h
    cases h with
    | and hm h =>
      simp only [List.mem_cons, List.not_mem_nil, or_false] at hm
      rcases hm with rfl | rfl <;> cases h
  · refine ⟨_, .mk (h := ⟨_, _⟩) (σ := fun _ => b!"c") rfl ?_, .single ?_⟩
    · intro s hs
      simp only [Option.getD_some, List.mem_singleton] at hs
      subst hs
      exact hc
    · exact .mk (before := []) (after := [(b!"t", [b!"c"])])
        (σ := fun x => if x = b!"x" then b!"o" else b!"c") (m := constDomainAST.methods.head (by decide)) (by simp) (by
          intro s hs
          have : s ∈ [(⟨b!"x", 5, some b!"a", some 5⟩ : Symbol), ⟨b!"y", 5, some b!"a", some 5⟩] := hs
          simp only [List.mem_cons, List.not_mem_nil, or_false] at this
          rcases this with rfl | rfl
          · exact ho
          · exact hc)

/-- The constant `c` of type `a` is redeclared as an object of type `b`. -/
def shadowProblem : Bytes :=
  b!"(define (problem p) (domain d) (:objects o - a c - b) (:htn :subtasks (and (t o))))\n"

def shadowProblemAST : ProblemAST where
  requirements := []
  initTn := some ⟨none, ⟨[⟨none, ⟨b!"t", 1, none, none⟩, [⟨b!"o", 1, none, none⟩]⟩], none, .partial_ [], none⟩⟩
  initState := []
  goal := none
  objects := [⟨b!"o", 1, some b!"a", some 1⟩, ⟨b!"c", 1, some b!"b", some 1⟩]

/-- The parameter of the initial network has the name of an object of another type. -/
def paramProblem : Bytes :=
  b!"(define (problem p) (domain d) (:objects o - a u - b) (:htn :parameters (?o - b) :subtasks (and (t ?o))))\n"

def paramProblemAST : ProblemAST where
  requirements := []
  initTn := some ⟨some [⟨b!"o", 1, some b!"b", some 1⟩],
    ⟨[⟨none, ⟨b!"t", 1, none, none⟩, [⟨b!"o", 1, none, none⟩]⟩], none, .partial_ [], none⟩⟩
  initState := []
  goal := none
  objects := [⟨b!"o", 1, some b!"a", some 1⟩, ⟨b!"u", 1, some b!"b", some 1⟩]

omit [Env] in
theorem callee_act {ps : List Symbol} (h : Callee constDomainAST b!"act" ps) : ps = [⟨b!"x", 4, some b!"a", some 4⟩] := by
  generalize hy : b!"act" = y at h
  cases h with
  | action h1 _ => simp only [constDomainAST, List.mem_singleton] at h1; rw [h1]
  | task h1 h2 h3 =>
    simp only [constDomainAST, List.mem_singleton] at h2
    subst h2 h3; exact absurd hy (by decide)

omit [Env] in
theorem callee_t {ps : List Symbol} (h : Callee constDomainAST b!"t" ps) : ps = [⟨b!"x", 3, some b!"a", some 3⟩] := by
  generalize hy : b!"t" = y at h
  cases h with
  | action h1 h2 =>
    simp only [constDomainAST, List.mem_singleton] at h1
    subst h1 h2; exact absurd hy (by decide)
  | task _ h1 _ => simp only [constDomainAST, List.mem_singleton] at h1; rw [h1]

omit [Env] in
/-- C51 does not hold when the problem redeclares a constant: the action `(act c)` is obtained and the fact `(q c)` is
reached, although `c` now has a type that does not fit. -/
theorem C51_refuted : ∃ d p, @Parses Env.plain constDomain (.domain d) ∧ @Parses Env.plain shadowProblem (.problem p) ∧
    @Returns Env.plain HashOrd.id constDomain (some shadowProblem) (.ok []) ∧
    (∃ n, Obtained d p n ∧ (b!"act", [b!"c"]) ∈ n ∧ ∀ ps, Callee d b!"act" ps → ¬ WellTyped d p [b!"c"] ps) ∧
    ∃ S, Reached d p S ∧ S (b!"q", [b!"c"]) ∧ ∀ r ∈ d.predicates, r.name = b!"q" → ¬ WellTyped d p [b!"c"] r.vars := by
  have ho : HasType constDomainAST shadowProblemAST b!"o" (some b!"a") :=
    constDomain_typeA ((findScope_type _ _ _).mpr ⟨_, rfl, rfl⟩)
  have hc : ¬ HasType constDomainAST shadowProblemAST b!"c" (some b!"a") :=
    constDomain_typeB ((findScope_type _ _ _).mpr ⟨_, rfl, rfl⟩)
  refine ⟨constDomainAST, shadowProblemAST, constDomain_parses, @Parses.of_ok Env.plain 60 _ _ (by decide +kernel),
    @returns_run Env.plain _ _ _ 60 _ (by decide +kernel) (by simp),
    ⟨[(b!"act", [b!"o"]), (b!"act", [b!"o"]), (b!"act", [b!"c"])], ⟨_, .mk (σ := id) rfl ?_, .single ?_⟩, by simp, ?_⟩,
    fun x => x = (b!"q", [b!"c"]), ?_, rfl, ?_⟩
  · intro s hs; cases hs
  · exact .mk (before := []) (after := []) (σ := fun _ => b!"o") (m := constDomainAST.methods.head (by decide)) (by simp) (by
      intro s hs
      have : s ∈ [(⟨b!"x", 5, some b!"a", some 5⟩ : Symbol), ⟨b!"y", 5, some b!"a", some 5⟩] := hs
      simp only [List.mem_cons, List.not_mem_nil, or_false] at this
      rcases this with rfl | rfl <;> exact ho)
  · intro ps hps hw
    rw [callee_act hps] at hw
    cases hw with | cons h _ => exact hc h
  · refine .act .init (σ := fun _ => b!"o") (ps := [⟨b!"x", 4, some b!"a", some 4⟩]) ?_ ?_
    · intro s hs
      simp only [List.mem_singleton] at hs
      subst hs; exact ho
    · refine Acts.mk (a := constDomainAST.actions.head (by decide)) (by simp) ?_
      rintro x rfl
      exact .inr ⟨_, ⟨b!"q", 4, [⟨b!"c", 4, none, none⟩]⟩, rfl, .and (by simp) .atom, rfl⟩
  · intro r hr _ hw
    simp only [constDomainAST, List.mem_singleton] at hr
    subst hr
    cases hw with | cons h _ => exact hc h

omit [Env] in
/-- C51 does not hold when a parameter of the initial network has the name of an object: the type of the object is
checked, not that of the parameter. -/
theorem C51_parameter_refuted : ∃ d p, @Parses Env.plain constDomain (.domain d) ∧
    @Parses Env.plain paramProblem (.problem p) ∧
    @Returns Env.plain HashOrd.id constDomain (some paramProblem) (.ok []) ∧
    ∃ n, Obtained d p n ∧ (b!"t", [b!"u"]) ∈ n ∧ ∀ ps, Callee d b!"t" ps → ¬ WellTyped d p [b!"u"] ps := by
  have hu : TypeIn [paramProblemAST.objects, constantsOf constDomainAST] b!"u" (some b!"b") :=
    (findScope_type _ _ _).mpr ⟨_, rfl, rfl⟩
  refine ⟨constDomainAST, paramProblemAST, constDomain_parses, @Parses.of_ok Env.plain 60 _ _ (by decide +kernel),
    @returns_run Env.plain _ _ _ 60 _ (by decide +kernel) (by simp),
    [(b!"t", [b!"u"])], ⟨_, .mk (h := ⟨_, _⟩) (σ := fun _ => b!"u") rfl ?_, .refl⟩, by simp, ?_⟩
  · intro s hs
    simp only [Option.getD_some, List.mem_singleton] at hs
    subst hs
    exact ⟨_, hu, .sub .refl⟩
  · intro ps hps hw
    rw [callee_t hps] at hw
    cases hw with | cons h _ => exact constDomain_typeB hu h

end Verif
