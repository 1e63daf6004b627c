import Verif.Props.Faults
import Verif.Props.Printing
import Verif.Props.Regrouped
import Verif.Proofs.Excerpt

/-!
C96: faults are local.  What is reported about a domain is reported about an excerpt of at most two declarations of one sort
with what these are checked against; and an excerpt of an accepted domain is accepted.
-/

namespace Verif

open Spec

variable {ord ord' : HashOrd} {d d' d'' : DomainAST} {p p' p'' : ProblemAST}

/-! ### Excerpts of parsed domains -/

/-- A domain with fewer declarations. -/
structure Fewer (d d' : DomainAST) : Prop where
  name : d'.name = d.name
  types : d'.types = none ∨ d'.types = d.types
  constants : d'.constants = none ∨ d'.constants = d.constants
  requirements : d'.requirements ⊆ d.requirements
  predicates : d'.predicates ⊆ d.predicates
  functions : d'.functions ⊆ d.functions
  tasks : d'.tasks ⊆ d.tasks
  actions : d'.actions ⊆ d.actions
  methods : d'.methods ⊆ d.methods

theorem fewer_excerpt (he : Excerpt d d') : Fewer d d' := by
  cases he with
  | requirements hs => constructor <;> simp [DomainAST.new, hs.subset]
  | types => constructor <;> simp [DomainAST.new]
  | predicates hs => constructor <;> simp [DomainAST.new, hs.subset]
  | tasks hs => constructor <;> simp [DomainAST.new, hs.subset]
  | actions hs => constructor <;> simp [DomainAST.new, hs.subset]
  | methods hs => constructor <;> simp [hs.subset]

theorem Fewer.typesOf (h : Fewer d d') : Spec.typesOf d' ⊆ Spec.typesOf d := by
  rcases h.types with h | h <;> simp [Spec.typesOf, h]

theorem Fewer.constantsOf (h : Fewer d d') : Spec.constantsOf d' ⊆ Spec.constantsOf d := by
  rcases h.constants with h | h <;> simp [Spec.constantsOf, h]

theorem positioned_excerpt (he : Excerpt d d') (h : Positioned d) : Positioned d' := by
  have hf := fewer_excerpt he
  refine ⟨fun l hl => ?_, fun m hm => h.orderings m (hf.methods hm)⟩
  cases hl with
  | predicate h' => exact h.params _ (.predicate (hf.predicates h'))
  | task h' => exact h.params _ (.task (hf.tasks h'))
  | action h' => exact h.params _ (.action (hf.actions h'))
  | method h' => exact h.params _ (.method (hf.methods h'))

theorem positioned_excerptP (he : ExcerptP p p') (h : PositionedP p) : PositionedP p' := by
  cases he with
  | objects hs => exact ⟨fun s hs' => h.objects s (hs.subset hs'), by simp [ProblemAST.new]⟩
  | fact => exact ⟨h.objects, by simp [ProblemAST.new]⟩
  | network => exact ⟨h.objects, h.ordering⟩
  | goal => exact ⟨h.objects, by simp [ProblemAST.new]⟩

theorem shape_excerpt (he : Excerpt d d') (h : DomainShape d) : DomainShape d' := by
  have hf := fewer_excerpt he
  refine ⟨?_, fun s hs => h.types s (hf.typesOf hs), ?_, fun s hs => h.constants s (hf.constantsOf hs),
    fun q hq => h.predicates q (hf.predicates hq), fun q hq => h.tasks q (hf.tasks hq), fun q hq => h.methods q (hf.methods hq),
    fun q hq => h.actions q (hf.actions hq), fun q hq => h.functions q (hf.functions hq)⟩
  · rcases hf.types with h' | h' <;> rw [h']
    · simp
    · exact h.noTypes
  · rcases hf.constants with h' | h' <;> rw [h']
    · simp
    · exact h.noConstants

theorem shape_excerptP (he : ExcerptP p p') (h : ProblemShape p) : ProblemShape p' := by
  cases he with
  | objects hs => exact ⟨fun s hs' => h.objects s (hs.subset hs'), by simp [ProblemAST.new], by simp [ProblemAST.new],
      by simp [ProblemAST.new], by simp [ProblemAST.new]⟩
  | fact ha => exact ⟨h.objects, by simpa using h.init _ ha, by simp [ProblemAST.new], by simp [ProblemAST.new],
      by simp [ProblemAST.new]⟩
  | network => exact ⟨h.objects, by simp [ProblemAST.new], by simp [ProblemAST.new], h.params, h.tn⟩
  | goal => exact ⟨h.objects, by simp [ProblemAST.new], h.goal, by simp [ProblemAST.new], by simp [ProblemAST.new]⟩

theorem blockToks_mono {k : Kw} {ts us : List Token} (h : ts ⊆ us) : blockToks k ts ⊆ blockToks k us := by
  intro t ht
  simp only [blockToks, List.mem_cons, List.mem_append] at ht ⊢
  rcases ht with h' | h' | h' | h'
  · exact .inl h'
  · exact .inr (.inl h')
  · exact .inr (.inr (.inl (h h')))
  · exact .inr (.inr (.inr h'))

theorem append_mono {α : Type} {a a' b b' : List α} (h : a ⊆ a') (h' : b ⊆ b') : a ++ b ⊆ a' ++ b' :=
  List.append_subset.2 ⟨fun _ hx => List.mem_append_left _ (h hx), fun _ hx => List.mem_append_right _ (h' hx)⟩

theorem flatMap_mono {α β : Type} {a a' : List α} (g : α → List β) (h : a ⊆ a') : a.flatMap g ⊆ a'.flatMap g := by
  intro x hx
  obtain ⟨y, hy, hx⟩ := List.mem_flatMap.1 hx
  exact List.mem_flatMap.2 ⟨y, h hy, hx⟩

/-- The words of an excerpt are words of the domain. -/
theorem toks_excerpt (he : Excerpt d d') (c : Bool) : domainToks c d' ⊆ domainToks c d := by
  have hf := fewer_excerpt he
  unfold domainToks
  rw [hf.name]
  refine append_mono (List.Subset.refl _) (append_mono (append_mono (append_mono (append_mono (append_mono (append_mono
    (append_mono (append_mono ?_ ?_) ?_) ?_) ?_) ?_) ?_) ?_) (List.Subset.refl _))
  · exact blockToks_mono (List.map_subset _ hf.requirements)
  · exact flatMap_mono _ hf.typesOf
  · exact flatMap_mono _ hf.constantsOf
  · exact blockToks_mono (flatMap_mono _ hf.predicates)
  · exact blockToks_mono (flatMap_mono _ hf.functions)
  · exact flatMap_mono _ hf.tasks
  · exact flatMap_mono _ hf.actions
  · exact flatMap_mono _ hf.methods

theorem toks_excerptP (he : ExcerptP p p') (c : Bool) (x y : Name) : problemToks c x y p' ⊆ problemToks c x y p := by
  have nil : ∀ {l : List Token}, [] ⊆ l := @fun l => List.nil_subset l
  have hb : blockToks .requirements (([] : List Req).map .req) ⊆ blockToks .requirements (p.requirements.map .req) :=
    blockToks_mono (by simp)
  have hi : blockToks .init (([] : List Predicate).flatMap predToks) ⊆ blockToks .init (p.initState.flatMap predToks) :=
    blockToks_mono (by simp)
  have rfl' : ∀ {l : List Token}, l ⊆ l := @fun l => List.Subset.refl l
  unfold problemToks
  cases he with
  | objects hs =>
    exact append_mono rfl' (append_mono (append_mono (append_mono (append_mono (append_mono hb (flatMap_mono _ hs.subset)) hi) nil)
      nil) rfl')
  | fact ha =>
    exact append_mono rfl' (append_mono (append_mono (append_mono (append_mono (append_mono hb rfl')
      (blockToks_mono (flatMap_mono _ (by simpa using ha)))) nil) nil) rfl')
  | network =>
    exact append_mono rfl' (append_mono (append_mono (append_mono (append_mono (append_mono hb rfl') hi) rfl') nil) rfl')
  | goal =>
    exact append_mono rfl' (append_mono (append_mono (append_mono (append_mono (append_mono hb rfl') hi) nil) rfl') rfl')

/-! ### Findings -/

theorem some_finding : ∀ {cs : List Check}, (¬ ∀ c ∈ cs, Passes c) → ∃ x, FirstFinding cs x
  | [], h => absurd (by simp) h
  | c :: cs, h => by
    by_cases hc : Passes c
    · obtain ⟨x, hx⟩ := some_finding (cs := cs) fun h' => h (passes_cons hc h')
      exact ⟨x, firstFinding_cons.2 (.inr ⟨hc, hx⟩)⟩
    · obtain ⟨x, hx⟩ := not_forall.1 hc
      exact ⟨x, firstFinding_cons.2 (.inl (not_not.1 hx))⟩

/-- What is answered on a finding. -/
def Spec.Finding.answer {α : Type} : Finding → R α
  | .error e => .err (.semantic e)
  | .crash => .panic .existsFormula

theorem meets_answer {α : Type} {r : R α} {cs : List Check} (h : Meets r cs) {x : Finding} :
    r = x.answer ↔ FirstFinding cs x := by
  cases x with
  | error e => exact h.err e
  | crash => exact h.crash

theorem meets_cases {α : Type} {r : R α} {cs : List Check} (h : Meets r cs) : (∃ a, r = .ok a) ∨ ∃ x, r = Finding.answer x := by
  by_cases hc : ∀ c ∈ cs, Passes c
  · exact .inl (h.ok.2 hc)
  · obtain ⟨x, hx⟩ := some_finding hc
    exact .inr ⟨x, (meets_answer h).2 hx⟩

/-! ### C96 -/

section

variable [Env] {f f' g g' : Bytes} {prob : Option Bytes} {Λ Μ : Nat → Nat → Prop}

/-- A file with a domain whose answer is known gets that answer, on its own lines. -/
theorem answer_corresponds {x : Finding} (h : checkDomain ord d' = x.answer) (hf : Parses f' (.domain d''))
    (hc : Corresponds Λ d' d'') : ∃ r', Returns ord f' prob r' ∧ SameAnswer id Λ Λ x.answer r' := by
  obtain ⟨D, l, l', rfl, rfl, hl⟩ := hc
  have h1 := checkDomain_mv (ord := ord) (d := D) (φ := l) (ρ := id) Function.injective_id
  have h2 := checkDomain_mv (ord := ord) (d := D) (φ := l') (ρ := id) Function.injective_id
  rw [h] at h1
  cases hr : checkDomain ord D with
  | ok u => rw [hr] at h1; cases x <;> cases h1
  | timeout => rw [hr] at h1; cases x <;> cases h1
  | err e =>
    rw [hr] at h1 h2
    refine ⟨_, returns_of_err hf h2, ?_⟩
    have := sameAnswer_mv (ρ := id) (Λ := Λ) (r := .err e) hl hl (by simp)
    cases x with
    | error y =>
      injection h1 with h1
      rw [Finding.answer, h1]
      exact this
    | crash => cases h1
  | panic e =>
    rw [hr] at h1 h2
    refine ⟨_, returns_of_panic hf h2, ?_⟩
    cases x with
    | error y => cases h1
    | crash => cases h1; exact .panic

/-- C96: if a domain is not accepted, then it has an excerpt about which the same is reported - in whatever file that excerpt
stands. -/
theorem C96_domain (hf : Parses f (.domain d)) {r : R (List Warning)} (hr : Returns ord f none r) (hne : ∀ ws, r ≠ .ok ws) :
    ∃ d', Excerpt d d' ∧ ∀ ord' prob f' d'' Λ, Parses f' (.domain d'') → Corresponds Λ d' d'' →
      ∃ r', Returns ord' f' prob r' ∧ SameAnswer id Λ Λ r r' := by
  have hp := parsed_positioned hf
  have hm := checkDomain_meets (ord := ord) hp
  obtain ⟨x, hx, rfl⟩ : ∃ x : Finding, FirstFinding (domainChecks d) x ∧ r = x.answer := by
    rcases meets_cases hm with ⟨_, h⟩ | ⟨x, h⟩
    · obtain ⟨ws, hw⟩ := accepts_iff.2 ((checkDomain_ok ord d).1 h)
      exact absurd (hr.det ((returns_ok_none hf).2 hw)) (hne ws)
    · refine ⟨x, (meets_answer hm).1 h, ?_⟩
      cases x with
      | error e => exact hr.det (returns_of_err hf h)
      | crash => exact hr.det (returns_of_panic hf h)
  obtain ⟨d', he, hx'⟩ := finding_excerpt hx
  exact ⟨d', he, fun ord' prob f' d'' Λ hf' hc =>
    answer_corresponds ((meets_answer (checkDomain_meets (positioned_excerpt he hp))).2 hx') hf' hc⟩

/-- C96: the excerpt can be written, if the domain can. -/
theorem C96_domain_file (hf : Parses f (.domain d)) (he : Excerpt d d') (hu : ∀ t ∈ domainToks false d, Utterable t) :
    ∃ f' d'', Parses f' (.domain d'') ∧ Corresponds (fun _ _ => True) d' d'' := by
  obtain ⟨f', d'', h1, h2⟩ := C81_domain_file (shape_excerpt he (C81_domain_shape hf)) fun t ht => hu t (toks_excerpt he _ ht)
  exact ⟨f', d'', h1, corresponds_iff.2 h2.symm⟩

/-- C96: excerpts of an accepted domain are accepted. -/
theorem C96_domain_ok (hf : Parses f (.domain d)) {ws : List Warning} (hr : Returns ord f none (.ok ws)) (he : Excerpt d d')
    (hf' : Parses f' (.domain d'')) (hc : Corresponds Λ d' d'') : ∃ ws', Returns ord' f' none (.ok ws') := by
  have hp := parsed_positioned hf
  have h1 := (C75_accepted (ord := ord) hf).1.1 ⟨ws, hr⟩
  obtain ⟨_, h2⟩ := (checkDomain_meets (ord := ord') (positioned_excerpt he hp)).ok.2 (passes_excerpt he h1)
  obtain ⟨D, l, l', rfl, rfl, hl⟩ := hc
  rw [checkDomain_mv Function.injective_id] at h2
  have h3 : checkDomain ord' (mvDomain id l' D) = .ok () := by
    rw [checkDomain_mv Function.injective_id]
    cases hr : checkDomain ord' D with
    | ok u => rfl
    | _ => rw [hr] at h2; cases h2
  obtain ⟨ws', hw⟩ := accepts_iff.2 ((checkDomain_ok ord' _).1 h3)
  exact ⟨ws', (returns_ok_none hf').2 hw⟩

/-- C96: a domain is accepted exactly if all its excerpts are. -/
theorem C96_verdict (hf : Parses f (.domain d)) (hu : ∀ t ∈ domainToks false d, Utterable t) :
    (∃ ws, Returns ord f none (.ok ws)) ↔ ∀ d' f' d'', Excerpt d d' → Parses f' (.domain d'') →
      Corresponds (fun _ _ => True) d' d'' → ∃ ws, Returns ord f' none (.ok ws) := by
  constructor
  · rintro ⟨ws, h⟩ d' f' d'' he hf' hc
    exact C96_domain_ok hf h he hf' hc
  · intro h
    rcases returns_none (ord := ord) hf with ⟨ws, _, h'⟩ | ⟨e, _, h'⟩ | ⟨x, _, h'⟩
    · exact ⟨ws, h'⟩
    all_goals
      obtain ⟨d', he, h1⟩ := C96_domain hf (h' none) (by simp)
      obtain ⟨f', d'', hf', hc⟩ := C96_domain_file hf he hu
      obtain ⟨r', h2, h3⟩ := h1 ord none f' d'' _ hf' hc
      obtain ⟨ws, h4⟩ := h d' f' d'' he hf' hc
      cases h2.det h4
      cases h3

/-- C96 for problems: if a problem is not accepted for an accepted domain, then it has an excerpt about which the same is
reported - in whatever files the domain and the excerpt stand. -/
theorem C96_problem (hf : Parses f (.domain d)) (hg : Parses g (.problem p)) {ws : List Warning}
    (hd : Returns ord f none (.ok ws)) {r : R (List Warning)} (hr : Returns ord f (some g) r) (hne : ∀ ws, r ≠ .ok ws) :
    ∃ p', ExcerptP p p' ∧ ∀ ord' f' d'' g' p'' Λ Μ, Parses f' (.domain d'') → Corresponds Λ d d'' → Parses g' (.problem p'') →
      CorrespondsP Μ p' p'' → ∃ r', Returns ord' f' (some g') r' ∧ SameAnswer id Λ Μ r r' := by
  have hac := (returns_ok_none hf).1 hd
  have hok := accepts_iff.1 ⟨ws, hac⟩
  have hp := parsed_positionedP hg
  have hm := verifyProblem_meets (ws := ws) hok hp
  have hr' := hr.det (returns_of_accepts hf hg hac)
  obtain ⟨x, hx, rfl⟩ : ∃ x : Finding, FirstFinding (problemChecks d p) x ∧ r = x.answer := by
    rcases meets_cases hm with ⟨a, h⟩ | ⟨x, h⟩
    · exact absurd (hr'.trans h) (hne a)
    · exact ⟨x, (meets_answer hm).1 h, hr'.trans h⟩
  obtain ⟨p', he, hx'⟩ := finding_excerptP hx
  refine ⟨p', he, fun ord' f' d'' g' p'' Λ Μ hf' hc hg' hc' => ?_⟩
  obtain ⟨D, l, l', rfl, rfl, hl⟩ := hc
  have hD : checkDomain ord' D = .ok () := by
    have h1 := (checkDomain_ok ord' _).2 hok
    rw [checkDomain_mv Function.injective_id] at h1
    cases hr : checkDomain ord' D with
    | ok u => rfl
    | _ => rw [hr] at h1; cases h1
  obtain ⟨ws0, hac0⟩ := accepts_iff.2 ((checkDomain_ok ord' D).1 hD)
  obtain ⟨h1, e1⟩ := accepts_mv (φ := l) (ρ := id) Function.injective_id hac0
  obtain ⟨h2, e2⟩ := accepts_mv (φ := l') (ρ := id) Function.injective_id hac0
  have h3 := (meets_answer (verifyProblem_meets (ws := ws0.map (mvWarning id l)) hok (positioned_excerptP he hp))).2 hx'
  obtain ⟨P, m, m', rfl, rfl, hm⟩ := hc'
  have h4 := returns_of_accepts hf' hg' h2
  rw [e1, verifyProblem_mv Function.injective_id] at h3
  rw [e2, verifyProblem_mv Function.injective_id] at h4
  refine ⟨_, h4, ?_⟩
  rw [← h3]
  exact sameAnswer_mv hl hm (verifyProblem_timeout _)

theorem C96_problem_file (hg : Parses g (.problem p)) (he : ExcerptP p p')
    (hu : ∀ t ∈ problemToks false b!"p" b!"d" p, Utterable t) :
    ∃ g' p'', Parses g' (.problem p'') ∧ CorrespondsP (fun _ _ => True) p' p'' := by
  obtain ⟨f', d'', h1, h2⟩ := C81_problem_file (shape_excerptP he (C81_problem_shape hg)) fun t ht => hu t (toks_excerptP he _ _ _ ht)
  exact ⟨f', d'', h1, correspondsP_iff.2 h2.symm⟩

/-- C96: excerpts of an accepted problem are accepted. -/
theorem C96_problem_ok (hf : Parses f (.domain d)) (hg : Parses g (.problem p)) {ws : List Warning}
    (hr : Returns ord f (some g) (.ok ws)) (he : ExcerptP p p') (hg' : Parses g' (.problem p''))
    (hc : CorrespondsP Μ p' p'') : Returns ord f (some g') (.ok ws) := by
  have hac := ((returns_ok_some hf hg).1 hr).1
  have hok := accepts_iff.1 ⟨ws, hac⟩
  have hp := parsed_positionedP hg
  have h1 : ∀ c ∈ problemChecks d p, Passes c := (passes_split ((C75_accepted (ord := ord) hf).2 hg |>.1 ⟨ws, hr⟩)).2
  obtain ⟨ws', h2⟩ := (verifyProblem_meets (ws := ws) hok (positioned_excerptP he hp)).ok.2 (passes_excerptP he h1)
  have h3 := ((verifyProblem_ok hok _).1 h2).1
  refine (returns_ok_some hf hg').2 ⟨hac, ?_⟩
  have h4 : rnProblem id p' = rnProblem id p'' := by
    obtain ⟨P, m, m', rfl, rfl, _⟩ := hc
    exact correspondsP_iff.1 ⟨P, m, m', rfl, rfl, fun _ => trivial⟩
  exact (problemOk_congr injective_id (rfl : rnDomain id d = rnDomain id d) h4).1 h3

end

/-! ### Instances -/

def faulty : Bytes := b!"(define (domain d) (:requirements :typing) (:types a b)
 (:predicates (p ?x - a)\n (q)\n (p ?y - b))\n (:task t :parameters ())
 (:action m :parameters () :precondition (r)))\n"

def faultyOnly : Bytes := b!"(define (domain d) (:types a b) (:predicates (p ?x - a) (p ?y - b)))\n"

/-- A file with a repeated predicate (and an unknown one), and a file with the excerpt that matters. -/
example : (∃ d d', @Parses Env.plain faulty (.domain d) ∧ @Parses Env.plain faultyOnly (.domain d') ∧
      d.predicates.length = 3 ∧
      rnDomain id { DomainAST.new d.name with types := d.types, predicates := d.predicates.eraseIdx 1 } = rnDomain id d') ∧
    @Returns Env.plain HashOrd.id faulty none (.err (.semantic (.dupPredicate ⟨b!"p", 2, 4⟩))) ∧
    @Returns Env.plain HashOrd.id faultyOnly none (.err (.semantic (.dupPredicate ⟨b!"p", 1, 1⟩))) :=
  ⟨@parses_pair Env.plain faulty faultyOnly 200 (fun d d' => d.predicates.length = 3 ∧
      rnDomain id { DomainAST.new d.name with types := d.types, predicates := d.predicates.eraseIdx 1 } = rnDomain id d') _
      (by decide +kernel),
    @returns_run Env.plain _ _ _ 200 _ (by decide +kernel) (by simp),
    @returns_run Env.plain _ _ _ 200 _ (by decide +kernel) (by simp)⟩

/-- The requirements of `C96_domain` are met by that file. -/
example : ∃ d d', @Parses Env.plain faulty (.domain d) ∧ Excerpt d d' ∧
    ∀ f' d'', @Parses Env.plain f' (.domain d'') → Corresponds (fun _ _ => True) d' d'' →
      ∃ r', @Returns Env.plain HashOrd.id f' none r' ∧
        SameAnswer id (fun _ _ => True) (fun _ _ => True) (.err (.semantic (.dupPredicate ⟨b!"p", 2, 4⟩))) r' := by
  obtain ⟨d, _, h, _⟩ := @parses_pair Env.plain faulty faultyOnly 200 (fun _ _ => True) _ (by decide +kernel)
  obtain ⟨d', h1, h2⟩ := @C96_domain HashOrd.id d Env.plain faulty h _
    (@returns_run Env.plain _ _ _ 200 (.err (.semantic (.dupPredicate ⟨b!"p", 2, 4⟩))) (by decide +kernel) (by simp)) (by simp)
  exact ⟨d, d', h, h1, fun f' d'' hf' hc => h2 _ _ f' d'' _ hf' hc⟩

def faultyProblem : Bytes := b!"(define (problem p) (:domain d) (:objects x y)
 (:init (q x)\n (q z)\n (q y)) (:goal (r)))\n"

def faultyFact : Bytes := b!"(define (problem p) (:domain d) (:objects x y) (:init (q z)))\n"

def faultless : Bytes := b!"(define (domain d) (:predicates (q ?x)))\n"

/-- A problem with an unknown object in a fact (and an unknown predicate in the goal), and the excerpt that matters. -/
example : (∃ p p', @Parses Env.plain faultyProblem (.problem p) ∧ @Parses Env.plain faultyFact (.problem p') ∧
      p.initState.length = 3 ∧
      rnProblem id { ProblemAST.new with objects := p.objects, initState := (p.initState.drop 1).take 1 } = rnProblem id p') ∧
    (∃ ws, @Returns Env.plain HashOrd.id faultless none (.ok ws)) ∧
    @Returns Env.plain HashOrd.id faultless (some faultyProblem) (.err (.semantic (.undefObject ⟨b!"z", 3⟩))) ∧
    @Returns Env.plain HashOrd.id faultless (some faultyFact) (.err (.semantic (.undefObject ⟨b!"z", 1⟩))) :=
  ⟨@parses_pairP Env.plain faultyProblem faultyFact 200 (fun p p' => p.initState.length = 3 ∧
      rnProblem id { ProblemAST.new with objects := p.objects, initState := (p.initState.drop 1).take 1 } = rnProblem id p') _
      (by decide +kernel),
    ⟨_, @returns_run Env.plain _ _ _ 200 (.ok []) (by decide +kernel) (by simp)⟩,
    @returns_run Env.plain _ _ _ 200 _ (by decide +kernel) (by simp),
    @returns_run Env.plain _ _ _ 200 _ (by decide +kernel) (by simp)⟩

end Verif
