import Verif.Proofs.Instantiation
import Verif.Props.Changes
import Verif.Props.Skeleton

/-! C101: instances of methods and of initial task networks. -/

namespace Verif

open Spec

variable [Env] {ord ord' : HashOrd} {f f' g g' : Bytes} {d d₁ d' : DomainAST} {p p₁ p' : ProblemAST}

/-- C101: if the methods of an accepted domain are replaced by instances, any number of each, the domain is still accepted. -/
theorem C101_methods (hf : Parses f (.domain d)) (h : Instantiated d d₁) (hf' : Parses f' (.domain d'))
    (hc : rnDomain id d' = rnDomain id d₁) (ha : ∃ ws, Returns ord f none (.ok ws)) : ∃ ws, Returns ord' f' none (.ok ws) := by
  rw [returns_domain_iff hf] at ha
  rw [returns_domain_iff hf', ← domainOk_lines, hc, domainOk_lines]
  exact domainOk_instantiated h ha

omit [Env] in
theorem skeleton_instances {ms ms' : List Method} (h : List.Forall₂ (fun m m' => m'.name.name = m.name.name ∧ InstanceOf d m m') ms ms') :
    ms'.map methodOnly = ms.map methodOnly := by
  refine forall₂_map_eq h fun m m' ⟨hn, σ, ps, x, _, _, _, e⟩ => ?_
  subst e
  have hx : nameOnly x = nameOnly m.name := by
    simp only at hn
    simp [nameOnly, hn]
  have (h : HTN) : orderOnly (rvHtn σ h) = orderOnly h := by
    rcases h with ⟨s, q, _ | os, c⟩ <;> simp [orderOnly, rvHtn, rvSubtask, subtaskOnly, Function.comp_def]
  simp [methodOnly, rvMethod, this, hx]

/-- C101: if each method is replaced by one instance, the metadata and the tasks that are warned about are the same. -/
theorem C101_metadata (hf : Parses f (.domain d)) (hr : d₁ = { d with methods := d₁.methods })
    (h : List.Forall₂ (fun m m' => m'.name.name = m.name.name ∧ InstanceOf d m m') d.methods d₁.methods)
    (hf' : Parses f' (.domain d')) (hc : rnDomain id d' = rnDomain id d₁) :
    (∀ md, Metadata ord f md ↔ Metadata ord f' md) ∧
    ∀ ws, Returns ord f none (.ok ws) → ∃ ws', Returns ord f' none (.ok ws') ∧ ws'.map (·.symbol) = ws.map (·.symbol) := by
  have hs : skeleton d = skeleton d' := by
    rw [← skeleton_rn (d := d'), hc, skeleton_rn, hr]
    simp only [skeleton]
    rw [skeleton_instances h]
  refine ⟨fun md => C82_metadata hf hf' hs, fun ws hw => ?_⟩
  have hi : Instantiated d d₁ := by
    refine ⟨hr, ?_, fun m' hm' => ?_⟩
    · rw [forall₂_map_eq (k := fun m : Method => m.name.name) (g := fun m : Method => m.name.name) h fun _ _ e => e.1]
      exact ((returns_domain_iff hf).mp ⟨ws, hw⟩).methodNames
    · obtain ⟨m, hm, _, h1⟩ := forall₂_source h m' hm'
      exact ⟨m, hm, h1⟩
  obtain ⟨ws', hw'⟩ := C101_methods (ord' := ord) hf hi hf' hc ⟨ws, hw⟩
  exact ⟨ws', hw', (C82_warnings hf hf' hs hw hw').symm⟩

/-- C101: if the initial task network of an accepted problem is replaced by an instance, the problem is still accepted, with the
same warnings. -/
theorem C101_network (hf : Parses f (.domain d)) (hg : Parses g (.problem p)) (h : InstantiatedP d p p₁)
    (hg' : Parses g' (.problem p')) (hc : rnProblem id p' = rnProblem id p₁) {ws : List Warning}
    (ha : Returns ord f (some g) (.ok ws)) : Returns ord f (some g') (.ok ws) := by
  obtain ⟨h1, h2⟩ := (returns_ok_some hf hg).mp ha
  refine (returns_ok_some hf hg').mpr ⟨h1, ?_⟩
  rw [← problemOk_lines, hc, problemOk_lines]
  exact problemOk_instantiated h h2

/-! ### Instances -/

def liftedMethods : Bytes := b!"(define (domain d) (:types a - b) (:constants k - a l - b) (:predicates (p ?x - b)) (:task t :parameters (?x - b))
 (:action m :parameters (?x - b))
 (:method n :parameters (?x ?y - b) :task (t ?x) :precondition (p ?y) :ordered-subtasks (and (m ?y) (t ?x))))\n"

/-- Three instances of the method: `?y` is `k`, `?x` and `?y` are the same and more special, and without parameters. -/
def groundMethods : Bytes := b!"(define (domain d) (:types a - b) (:constants k - a l - b) (:predicates (p ?x - b)) (:task t :parameters (?x - b))
 (:action m :parameters (?x - b))
 (:method n1 :parameters (?x - b) :task (t ?x) :precondition (p k) :ordered-subtasks (and (m k) (t ?x)))
 (:method n2 :parameters (?z - a) :task (t ?z) :precondition (p ?z) :ordered-subtasks (and (m ?z) (t ?z)))
 (:method n3 :parameters () :task (t l) :precondition (p k) :ordered-subtasks (and (m k) (t l))))\n"

/-- Replacing `x` and `y`. -/
def putXY (a b x : Name) : Name := if x = b!"x" then a else if x = b!"y" then b else x

def varOf (x t : Name) (l : Nat) : Symbol := ⟨x, l, some t, some l⟩

def threeInstances (m : Method) : List Method :=
  [{ rvMethod (putXY b!"x" b!"k") m with params := [varOf b!"x" b!"b" 3], name := ⟨b!"n1", 3, none, none⟩ },
   { rvMethod (putXY b!"z" b!"z") m with params := [varOf b!"z" b!"a" 3], name := ⟨b!"n2", 3, none, none⟩ },
   { rvMethod (putXY b!"l" b!"k") m with params := [], name := ⟨b!"n3", 3, none, none⟩ }]

def LiftedFacts (d : DomainAST) : Prop := typesOf d = [varOf b!"a" b!"b" 1] ∧
  constantsOf d = [varOf b!"k" b!"a" 1, varOf b!"l" b!"b" 1] ∧
  d.methods.map (·.params) = [[varOf b!"x" b!"b" 3, varOf b!"y" b!"b" 3]]

instance : DecidablePred LiftedFacts := fun d => by unfold LiftedFacts; infer_instance

omit [Env] in
theorem instantiated_three (h : LiftedFacts d) : Instantiated d { d with methods := d.methods.flatMap threeInstances } := by
  obtain ⟨h1, h2, h3⟩ := h
  obtain ⟨m, hm, hp⟩ : ∃ m, d.methods = [m] ∧ m.params = [varOf b!"x" b!"b" 3, varOf b!"y" b!"b" 3] := by
    cases hms : d.methods with
    | nil => rw [hms] at h3; cases h3
    | cons m ms =>
      rw [hms] at h3
      cases ms with
      | nil => exact ⟨m, rfl, by simpa using h3⟩
      | cons _ _ => simp at h3
  have hb : Fits (typesOf d) (some b!"b") (some b!"b") := fits_refl _
  have ha : Fits (typesOf d) (some b!"a") (some b!"b") :=
    .sub (.single ⟨_, by rw [h1]; exact List.mem_cons_self, rfl, rfl⟩)
  have kb : TypeKnown (typesOf d) b!"b" := by rw [h1]; exact ⟨_, List.mem_cons_self, .inr rfl⟩
  have ka : TypeKnown (typesOf d) b!"a" := by rw [h1]; exact ⟨_, List.mem_cons_self, .inl rfl⟩
  have first (s : Symbol) (l : List Symbol) : FirstNamed (s :: l) s.name s := ⟨[], l, rfl, rfl, fun _ h => nomatch h⟩
  have tk (ps : List Symbol) (hn : ∀ s ∈ ps, s.name ≠ b!"k") : TypeIn [ps, constantsOf d] b!"k" (some b!"a") := by
    rw [h2]; exact .outer hn (.here (s := varOf b!"k" b!"a" 1) (first _ _))
  have tl (ps : List Symbol) (hn : ∀ s ∈ ps, s.name ≠ b!"l") : TypeIn [ps, constantsOf d] b!"l" (some b!"b") := by
    rw [h2]
    exact .outer hn (.here (s := varOf b!"l" b!"b" 1) ⟨[varOf b!"k" b!"a" 1], [], rfl, rfl, by decide⟩)
  have tx (x t : Name) : TypeIn [[varOf x t 3], constantsOf d] x (some t) := .here (s := varOf x t 3) (first _ _)
  refine ⟨rfl, ?_, ?_⟩
  · simp only [hm]
    show ([b!"n1", b!"n2", b!"n3"] : List Name).Nodup
    decide
  · intro m' hm'
    refine ⟨m, by rw [hm]; exact List.mem_cons_self, ?_⟩
    simp only [hm, List.flatMap_cons, List.flatMap_nil, List.append_nil, threeInstances, List.mem_cons, List.not_mem_nil,
      or_false] at hm'
    rcases hm' with rfl | rfl | rfl
    · refine ⟨_, _, _, ⟨?_, ?_⟩, by decide, ?_, rfl⟩
      · rw [hp]
        rintro s hs
        simp only [List.mem_cons, List.not_mem_nil, or_false] at hs
        rcases hs with rfl | rfl
        · exact ⟨_, tx _ _, hb⟩
        · exact ⟨_, tk _ (by decide), ha⟩
      · rw [h2, hp]; decide
      · intro s hs t ht
        simp only [List.mem_cons, List.not_mem_nil, or_false] at hs
        subst hs; cases ht; exact kb
    · refine ⟨_, _, _, ⟨?_, ?_⟩, by decide, ?_, rfl⟩
      · rw [hp]
        rintro s hs
        simp only [List.mem_cons, List.not_mem_nil, or_false] at hs
        rcases hs with rfl | rfl
        · exact ⟨_, tx _ _, ha⟩
        · exact ⟨_, tx _ _, ha⟩
      · rw [h2, hp]; decide
      · intro s hs t ht
        simp only [List.mem_cons, List.not_mem_nil, or_false] at hs
        subst hs; cases ht; exact ka
    · refine ⟨_, _, _, ⟨?_, ?_⟩, by decide, ?_, rfl⟩
      · rw [hp]
        rintro s hs
        simp only [List.mem_cons, List.not_mem_nil, or_false] at hs
        rcases hs with rfl | rfl
        · exact ⟨_, tl _ (by decide), hb⟩
        · exact ⟨_, tk _ (by decide), ha⟩
      · rw [h2, hp]; decide
      · intro s hs
        cases hs

omit [Env] in
/-- Instance: a method is replaced by three instances, one of them without parameters. -/
example : ∃ d d₁ d', @Parses Env.plain liftedMethods (.domain d) ∧ Instantiated d d₁ ∧
    @Parses Env.plain groundMethods (.domain d') ∧ rnDomain id d' = rnDomain id d₁ ∧
    @Returns Env.plain HashOrd.id liftedMethods none (.ok []) ∧ @Returns Env.plain HashOrd.id groundMethods none (.ok []) := by
  let _ := Env.plain
  obtain ⟨d, d', h1, h2, h3, h4⟩ := parses_pair (f := liftedMethods) (f' := groundMethods) (n := 300)
    (r := fun d d' => LiftedFacts d ∧ rnDomain id d' = rnDomain id { d with methods := d.methods.flatMap threeInstances })
    (by decide +kernel)
  exact ⟨d, _, d', h1, instantiated_three h3, h2, h4, returns_run (n := 300) (by decide +kernel) (by decide),
    returns_run (n := 300) (by decide +kernel) (by decide)⟩

def liftedNetwork : Bytes := b!"(define (problem q) (domain d) (:objects i - a)
 (:htn :parameters (?x ?y - b) :ordered-subtasks (and (t ?x) (m ?y) (m l))))\n"

def groundNetwork : Bytes := b!"(define (problem q) (domain d) (:objects i - a)
 (:htn :parameters () :ordered-subtasks (and (t i)\n (m k) (m l))))\n"

def NetworkFacts (p : ProblemAST) : Prop := p.objects = [varOf b!"i" b!"a" 1] ∧
  p.initTn.map (·.params) = some (some [varOf b!"x" b!"b" 2, varOf b!"y" b!"b" 2])

instance : DecidablePred NetworkFacts := fun d => by unfold NetworkFacts; infer_instance

def groundTn (i : InitTN) : InitTN := ⟨some [], rvHtn (putXY b!"i" b!"k") i.tn⟩

omit [Env] in
theorem instantiated_network (h : LiftedFacts d) (hp : NetworkFacts p) :
    InstantiatedP d p { p with initTn := p.initTn.map groundTn } := by
  obtain ⟨h1, h2, _⟩ := h
  obtain ⟨h3, h4⟩ := hp
  obtain ⟨i, hi, h5⟩ := Option.map_eq_some_iff.mp h4
  have ha : Fits (typesOf d) (some b!"a") (some b!"b") :=
    .sub (.single ⟨_, by rw [h1]; exact List.mem_cons_self, rfl, rfl⟩)
  refine ⟨rfl, rfl, rfl, ?_⟩
  simp only [hi, Option.map_some]
  refine .some ⟨putXY b!"i" b!"k", rfl, ?_, ?_, ?_⟩
  · rw [h3]; decide
  · rw [h3, h5, h2]
    intro s hs _
    simp only [Option.getD_some, List.mem_cons, List.not_mem_nil, or_false] at hs
    rcases hs with rfl | rfl
    · exact ⟨some b!"a", .here (s := varOf b!"i" b!"a" 1) ⟨[], [], rfl, rfl, fun _ h => nomatch h⟩, ha⟩
    · exact ⟨some b!"a", .outer (by decide) (.outer (fun s hs => nomatch hs)
        (.here (s := varOf b!"k" b!"a" 1) ⟨[], _, rfl, rfl, fun _ h => nomatch h⟩)), ha⟩
  · have hg : (groundTn i).params.getD [] = [] := rfl
    rw [h2, h5, hg]; decide

omit [Env] in
/-- Instance: the parameters of an initial task network are replaced by an object and a constant. -/
example : ∃ d p p₁ p', @Parses Env.plain liftedMethods (.domain d) ∧ @Parses Env.plain liftedNetwork (.problem p) ∧
    InstantiatedP d p p₁ ∧ @Parses Env.plain groundNetwork (.problem p') ∧ rnProblem id p' = rnProblem id p₁ ∧
    @Returns Env.plain HashOrd.id liftedMethods (some liftedNetwork) (.ok []) ∧
    @Returns Env.plain HashOrd.id liftedMethods (some groundNetwork) (.ok []) := by
  let _ := Env.plain
  obtain ⟨d, _, h1, _, h3⟩ := parses_pair (f := liftedMethods) (f' := liftedMethods) (n := 300)
    (r := fun d _ => LiftedFacts d) (by decide +kernel)
  obtain ⟨p, p', h4, h5, h6, h7⟩ := parses_pairP (f := liftedNetwork) (f' := groundNetwork) (n := 300)
    (r := fun p p' => NetworkFacts p ∧ rnProblem id p' = rnProblem id { p with initTn := p.initTn.map groundTn })
    (by decide +kernel)
  exact ⟨d, p, _, p', h1, h4, instantiated_network h3 h6, h5, h7, returns_run (n := 300) (by decide +kernel) (by decide),
    returns_run (n := 300) (by decide +kernel) (by decide)⟩

/-- As `liftedMethods`, but the predicate wants an `a`. -/
def tooGeneral : Bytes := b!"(define (domain d) (:types a - b) (:constants k - a l - b) (:predicates (p ?x - a)) (:task t :parameters (?x - b))
 (:action m :parameters (?x - b))
 (:method n :parameters (?x ?y - b) :task (t ?x) :precondition (p ?y) :ordered-subtasks (and (m ?y) (t ?x))))\n"

/-- As `groundMethods`, but the predicate wants an `a`. -/
def specialEnough : Bytes := b!"(define (domain d) (:types a - b) (:constants k - a l - b) (:predicates (p ?x - a)) (:task t :parameters (?x - b))
 (:action m :parameters (?x - b))
 (:method n1 :parameters (?x - b) :task (t ?x) :precondition (p k) :ordered-subtasks (and (m k) (t ?x)))
 (:method n2 :parameters (?z - a) :task (t ?z) :precondition (p ?z) :ordered-subtasks (and (m ?z) (t ?z)))
 (:method n3 :parameters () :task (t l) :precondition (p k) :ordered-subtasks (and (m k) (t l))))\n"

omit [Env] in
/-- The converse does not hold: instances of a method that is rejected can be accepted. -/
theorem C101_converse : ∃ d d₁ d', @Parses Env.plain tooGeneral (.domain d) ∧ Instantiated d d₁ ∧
    @Parses Env.plain specialEnough (.domain d') ∧ rnDomain id d' = rnDomain id d₁ ∧
    @Returns Env.plain HashOrd.id tooGeneral none (.err (.semantic (.predArgType ⟨some b!"a", some b!"b", b!"y", 3⟩))) ∧
    @Returns Env.plain HashOrd.id specialEnough none (.ok []) := by
  let _ := Env.plain
  obtain ⟨d, d', h1, h2, h3, h4⟩ := parses_pair (f := tooGeneral) (f' := specialEnough) (n := 300)
    (r := fun d d' => LiftedFacts d ∧ rnDomain id d' = rnDomain id { d with methods := d.methods.flatMap threeInstances })
    (by decide +kernel)
  exact ⟨d, _, d', h1, instantiated_three h3, h2, h4, returns_run (n := 300) (by decide +kernel) (by decide),
    returns_run (n := 300) (by decide +kernel) (by decide)⟩

end Verif
