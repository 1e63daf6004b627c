import Verif.Props.Excerpt
import Verif.Props.Interface
import Verif.Props.Skeleton
import Verif.Proofs.LocalNames

/-!
C97: names of parameters are local.  Renaming the variables of each action and each method by itself, and the variables in
the declarations of predicates and tasks in any way, changes nothing but the variables that are named in reports.
-/

namespace Verif

open Spec

variable {ord ord' : HashOrd} {d d' d₁ : DomainAST} {p p' p₁ : ProblemAST}

theorem located_otherNames {l l' : List Symbol} (hl : Located l) (h : OtherNames l l') : Located l' := by
  intro s' hs' ht
  obtain ⟨s, hs, e⟩ := forall₂_source h s' hs'
  rw [e] at ht ⊢
  exact hl s hs ht

theorem otherNames_rv {ρ : Name → Name} : ∀ l : List Symbol, OtherNames l (l.map (rvSymbol ρ))
  | [] => .nil
  | _ :: l => .cons rfl (otherNames_rv l)

theorem positioned_local (h : LocalNames d d₁) (hp : Positioned d) : Positioned d₁ := by
  refine ⟨fun l hl => ?_, fun m hm => ?_⟩
  · cases hl with
    | predicate hq =>
      obtain ⟨q, hq', vs, hv, rfl⟩ := forall₂_source h.predicates _ hq
      exact located_otherNames (hp.params _ (.predicate hq')) hv
    | task hq =>
      obtain ⟨q, hq', vs, hv, rfl⟩ := forall₂_source h.tasks _ hq
      exact located_otherNames (hp.params _ (.task hq')) hv
    | action hq =>
      obtain ⟨q, hq', ρ, _, rfl⟩ := forall₂_source h.actions _ hq
      exact located_otherNames (hp.params _ (.action hq')) (otherNames_rv _)
    | method hq =>
      obtain ⟨q, hq', ρ, _, rfl⟩ := forall₂_source h.methods _ hq
      exact located_otherNames (hp.params _ (.method hq')) (otherNames_rv _)
  · obtain ⟨m', hm', ρ, _, rfl⟩ := forall₂_source h.methods _ hm
    exact hp.orderings m' hm'

theorem positioned_localP (h : LocalNamesP d p p₁) (hp : PositionedP p) : PositionedP p₁ := by
  obtain ⟨ρ, _, e⟩ := h.initTn
  refine ⟨by rw [h.objects]; exact hp.objects, fun i hi os ho hn => ?_⟩
  rw [e] at hi
  cases hp' : p.initTn with
  | none => rw [hp'] at hi; cases hi
  | some j =>
    rw [hp'] at hi
    cases hi
    exact hp.ordering j hp' os ho hn

theorem skeleton_local (h : LocalNames d d₁) : skeleton d = skeleton d₁ := by
  have e1 : d₁.tasks.map (fun t => (⟨t.name, 0, []⟩ : Task)) = d.tasks.map fun t => ⟨t.name, 0, []⟩ :=
    forall₂_map_eq h.tasks fun a b ⟨_, _, e⟩ => by rw [e]
  have e2 : d₁.actions.map (fun a => (⟨a.name, 0, [], none, none⟩ : Action)) = d.actions.map fun a => ⟨a.name, 0, [], none, none⟩ :=
    forall₂_map_eq h.actions fun a b ⟨_, _, e⟩ => by rw [e]; rfl
  have e3 : d₁.methods.map methodOnly = d.methods.map methodOnly := by
    refine forall₂_map_eq h.methods fun a b ⟨ρ, _, e⟩ => ?_
    rw [e]
    unfold methodOnly orderOnly rvMethod rvHtn
    cases a.tn.orderings <;> simp [rvSubtask, subtaskOnly, Function.comp_def]
  unfold skeleton
  rw [e1, e2, e3]

theorem Spec.SameInterface.trans {d₂ : DomainAST} (h : SameInterface d d₁) (h' : SameInterface d₁ d₂) : SameInterface d d₂ :=
  ⟨fun t ty => (h.types t ty).trans (h'.types t ty), fun x ty => (h.constants x ty).trans (h'.constants x ty),
    fun x ts => (h.predicates x ts).trans (h'.predicates x ts), fun x ts => (h.callees x ts).trans (h'.callees x ts)⟩

theorem Spec.SameInterface.symm (h : SameInterface d d₁) : SameInterface d₁ d :=
  ⟨fun t ty => (h.types t ty).symm, fun x ty => (h.constants x ty).symm, fun x ts => (h.predicates x ts).symm,
    fun x ts => (h.callees x ts).symm⟩

theorem sameInterface_rn : SameInterface d (rnDomain id d) where
  types t ty := by
    rw [typesOf_rn]
    constructor
    · rintro ⟨s, hs, rfl, rfl⟩
      exact ⟨_, List.mem_map_of_mem hs, rfl, by simp [rnSymbol]⟩
    · rintro ⟨_, hs, rfl, rfl⟩
      obtain ⟨s, hs', rfl⟩ := List.mem_map.1 hs
      exact ⟨s, hs', rfl, by simp [rnSymbol]⟩
  constants x ty := by
    rw [constantsOf_rn]
    have := typeIn_rn (ρ := id) Function.injective_id (scope := [constantsOf d]) (x := x) (ty' := ty)
    simp only [List.map_cons, List.map_nil, id_eq, Option.map_id] at this
    rw [this]
    simp
  predicates x ts := by
    constructor
    · rintro ⟨q, hq, h1, h2⟩
      exact ⟨_, List.mem_map_of_mem hq, h1, by rw [← h2]; simp [rnPredicate, rnSymbol, Function.comp_def]⟩
    · rintro ⟨_, hq, h1, h2⟩
      obtain ⟨q, hq', rfl⟩ := List.mem_map.1 hq
      exact ⟨q, hq', h1, by rw [← h2]; simp [rnPredicate, rnSymbol, Function.comp_def]⟩
  callees x ts := by
    have hm : ∀ ps : List Symbol, (ps.map (rnSymbol id)).map (·.ty) = ps.map (·.ty) := fun ps => by
      simp [rnSymbol, Function.comp_def]
    constructor
    · rintro ⟨ps, h1, h2⟩
      exact ⟨_, (callee_rn (ρ := id) Function.injective_id (x := x)).2 ⟨ps, rfl, h1⟩, (hm ps).trans h2⟩
    · rintro ⟨ps', h1, h2⟩
      obtain ⟨ps, rfl, h3⟩ := (callee_rn (ρ := id) Function.injective_id (x := x)).1 h1
      exact ⟨ps, h3, (hm ps).symm.trans h2⟩

theorem sameInterface_lines (h : rnDomain id d₁ = rnDomain id d') : SameInterface d₁ d' :=
  sameInterface_rn.trans (h ▸ sameInterface_rn.symm)

/-! ### C97 -/

section

variable [Env] {f f' g g' : Bytes} {Λ Μ : Nat → Nat → Prop}

omit [Env] in
theorem corresponds_lines (h : Corresponds Λ d d') : rnDomain id d = rnDomain id d' := by
  obtain ⟨e, l, l', h1, h2, _⟩ := h
  exact corresponds_iff.1 ⟨e, l, l', h1, h2, fun _ => trivial⟩

omit [Env] in
theorem correspondsP_lines (h : CorrespondsP Λ p p') : rnProblem id p = rnProblem id p' := by
  obtain ⟨e, l, l', h1, h2, _⟩ := h
  exact correspondsP_iff.1 ⟨e, l, l', h1, h2, fun _ => trivial⟩

/-- C97: the verdict does not depend on names of parameters. -/
theorem C97_verdict (hf : Parses f (.domain d)) (h : LocalNames d d₁) (hf' : Parses f' (.domain d'))
    (hc : Corresponds Λ d₁ d') : (∃ ws, Returns ord f none (.ok ws)) ↔ ∃ ws, Returns ord' f' none (.ok ws) := by
  rw [C23_acceptance hf, C23_acceptance hf', domainOk_congr Function.injective_id (corresponds_lines hc).symm, domainOk_local h]

/-- C97: what is reported about a domain is reported about the other one, with the other name of a variable. -/
theorem C97_report (hf : Parses f (.domain d)) (h : LocalNames d d₁) (hf' : Parses f' (.domain d')) (hc : Corresponds Λ d₁ d')
    {r : R (List Warning)} (hr : Returns ord f none r) (hne : ∀ ws, r ≠ .ok ws) :
    ∃ ρ, NoCapture ρ (constantsOf d) ∧ ∀ prob, ∃ r', Returns ord' f' prob r' ∧ SameAnswer id Λ Λ (onError (rvError ρ) r) r' := by
  have hp := parsed_positioned hf
  have hm := checkDomain_meets (ord := ord) hp
  obtain ⟨x, hx, rfl⟩ : ∃ x : Finding, FirstFinding (domainChecks d) x ∧ r = x.answer := by
    rcases meets_cases hm with ⟨_, h⟩ | ⟨x, h⟩
    · obtain ⟨ws, hw⟩ := accepts_iff.2 ((checkDomain_ok ord d).1 h)
      exact absurd (hr.det ((returns_ok_none hf).2 hw)) (hne ws)
    · refine ⟨x, (meets_answer hm).1 h, ?_⟩
      cases x with
      | error e => exact hr.det (returns_of_err hf h)
      | crash => exact hr.det (returns_of_panic hf h)
  obtain ⟨_, ⟨ρ, hρ, rfl⟩, hx'⟩ := firstFinding_mirrors (domainChecks_local h) hx
  refine ⟨ρ, hρ, fun prob => ?_⟩
  have h1 := (meets_answer (checkDomain_meets (ord := ord') (positioned_local h hp))).2 hx'
  obtain ⟨r', h2, h3⟩ := answer_corresponds (prob := prob) h1 hf' hc
  refine ⟨r', h2, ?_⟩
  cases x <;> exact h3

/-- C97: the metadata and the tasks that are warned about are the same. -/
theorem C97_metadata (hf : Parses f (.domain d)) (h : LocalNames d d₁) (hf' : Parses f' (.domain d')) (hc : Corresponds Λ d₁ d') :
    (∀ md, Metadata ord f md ↔ Metadata ord f' md) ∧ ∀ ws ws', Returns ord f none (.ok ws) → Returns ord f' none (.ok ws') →
      ws.map (·.symbol) = ws'.map (·.symbol) := by
  have hs : skeleton d = skeleton d' := by
    rw [skeleton_local h, ← skeleton_rn (d := d₁), corresponds_lines hc, skeleton_rn]
  exact ⟨fun md => C82_metadata hf hf' hs, fun ws ws' => C82_warnings hf hf' hs⟩

/-- C97: problems cannot tell the domains apart. -/
theorem C97_problems (hf : Parses f (.domain d)) (h : LocalNames d d₁) (hf' : Parses f' (.domain d')) (hc : Corresponds Λ d₁ d')
    {ws : List Warning} (hr : Returns ord f none (.ok ws)) (g : Bytes) :
    (∀ e, Returns ord f (some g) (.err e) ↔ Returns ord' f' (some g) (.err e)) ∧
    (∀ x, Returns ord f (some g) (.panic x) ↔ Returns ord' f' (some g) (.panic x)) ∧
    ((∃ ws, Returns ord f (some g) (.ok ws)) ↔ ∃ ws, Returns ord' f' (some g) (.ok ws)) := by
  have hok := (C23_acceptance hf).1 ⟨ws, hr⟩
  have hok' := (C23_acceptance hf').1 ((C97_verdict (ord' := ord') hf h hf' hc).1 ⟨ws, hr⟩)
  obtain ⟨h1, h2, h3, _⟩ := C90_same (ord := ord) (ord' := ord') hf hf' hok hok'
    ((sameInterface_local h).trans (sameInterface_lines (corresponds_lines hc))) g
  exact ⟨h1, h2, h3⟩

/-- C97 for the parameters of initial task networks: the verdict. -/
theorem C97_network (hf : Parses f (.domain d)) (hg : Parses g (.problem p)) (h : LocalNamesP d p p₁)
    (hg' : Parses g' (.problem p')) (hc : CorrespondsP Μ p₁ p') (ws : List Warning) :
    Returns ord f (some g) (.ok ws) ↔ Returns ord f (some g') (.ok ws) := by
  rw [returns_ok_some hf hg, returns_ok_some hf hg',
    problemOk_congr Function.injective_id (rfl : rnDomain id d = rnDomain id d) (correspondsP_lines hc).symm, problemOk_local h]

/-- C97 for the parameters of initial task networks: what is reported. -/
theorem C97_network_report (hf : Parses f (.domain d)) (hg : Parses g (.problem p)) (h : LocalNamesP d p p₁)
    (hg' : Parses g' (.problem p')) (hc : CorrespondsP Μ p₁ p') {ws : List Warning} (hd : Returns ord f none (.ok ws))
    {r : R (List Warning)} (hr : Returns ord f (some g) r) (hne : ∀ ws, r ≠ .ok ws) :
    ∃ ρ, NoCapture ρ (p.objects ++ constantsOf d) ∧
      ∃ r', Returns ord f (some g') r' ∧ SameAnswer id Eq Μ (onError (rvErrorP ρ) r) r' := by
  have hac := (returns_ok_none hf).1 hd
  have hok := accepts_iff.1 ⟨ws, hac⟩
  have hp := parsed_positionedP hg
  have hm := verifyProblem_meets (ws := ws) hok hp
  have hr' := hr.det (returns_of_accepts hf hg hac)
  obtain ⟨x, hx, rfl⟩ : ∃ x : Finding, FirstFinding (problemChecks d p) x ∧ r = x.answer := by
    rcases meets_cases hm with ⟨a, h⟩ | ⟨x, h⟩
    · exact absurd (hr'.trans h) (hne a)
    · exact ⟨x, (meets_answer hm).1 h, hr'.trans h⟩
  obtain ⟨_, ⟨ρ, hρ, rfl⟩, hx'⟩ := firstFinding_mirrors (problemChecks_local h) hx
  refine ⟨ρ, hρ, ?_⟩
  have h3 := (meets_answer (verifyProblem_meets (ws := ws) hok (positioned_localP h hp))).2 hx'
  obtain ⟨P, m, m', rfl, rfl, hm⟩ := hc
  have h4 := returns_of_accepts hf hg' hac
  have e0 : ws.map (mvWarning id id) = ws := by
    rw [show mvWarning id id = id from rfl, List.map_id]
  have e1 : tableOf ws d = (tableOf ws d).mv id id := by
    have := (accepts_mv (φ := id) (ρ := id) Function.injective_id hac).2
    rwa [mvDomain_id, e0] at this
  rw [e1, verifyProblem_mv Function.injective_id] at h3
  rw [e1, verifyProblem_mv Function.injective_id] at h4
  refine ⟨_, h4, ?_⟩
  have h5 := sameAnswer_mv (ρ := id) (Λ := Eq) (Μ := Μ) (φ₁ := id) (φ₂ := id) (fun _ => rfl) hm
    (verifyProblem_timeout (st := tableOf ws d) (p := P))
  rw [h3] at h5
  cases x <;> exact h5

end

/-! ### Instances -/

/-- Exchanging two names. -/
def exchange (a b x : Name) : Name := if x = a then b else if x = b then a else x

theorem exchange_injective (a b : Name) : Function.Injective (exchange a b) := by
  have h : ∀ x, exchange a b (exchange a b x) = x := by
    intro x
    unfold exchange
    split_ifs <;> simp_all
  intro x y hxy
  rw [← h x, hxy, h]

/-- One renaming for all actions, one for all methods, and one name for all variables of predicates and tasks. -/
def rvDomain (σ τ : Name → Name) (v : Name) (d : DomainAST) : DomainAST :=
  { d with
    predicates := d.predicates.map fun p => { p with vars := p.vars.map (rvSymbol fun _ => v) }
    tasks := d.tasks.map fun t => { t with params := t.params.map (rvSymbol fun _ => v) }
    actions := d.actions.map (rvAction σ), methods := d.methods.map (rvMethod τ) }

theorem localNames_rvDomain {σ τ : Name → Name} {v : Name} (hσ : NoCapture σ (constantsOf d)) (hτ : NoCapture τ (constantsOf d)) :
    LocalNames d (rvDomain σ τ v d) where
  types := rfl
  constants := rfl
  requirements := rfl
  predicates := forall₂_imp (fun _ _ h => ⟨_, otherNames_rv _, h⟩) (forall₂_graph _ _)
  tasks := forall₂_imp (fun _ _ h => ⟨_, otherNames_rv _, h⟩) (forall₂_graph _ _)
  actions := forall₂_imp (fun _ _ h => ⟨σ, hσ, h⟩) (forall₂_graph _ _)
  methods := forall₂_imp (fun _ _ h => ⟨τ, hτ, h⟩) (forall₂_graph _ _)

theorem corresponds_refl (d : DomainAST) : Corresponds Eq d d :=
  ⟨d, id, id, (mvDomain_id d).symm, (mvDomain_id d).symm, fun _ => rfl⟩

def varsX : Bytes := b!"(define (domain d) (:types t u) (:constants c - u) (:predicates (p ?x - t ?y - u))
 (:task k :parameters (?x - t ?y - u))
 (:method m :parameters (?x - t) :task (k ?x c) :ordered-subtasks (and (a ?x c)))
 (:action a :parameters (?x - t ?y - u) :precondition (p ?x c)\n :effect (and (p ?x ?y) (forall (?z - t) (p ?z ?y)))))\n"

/-- The same with other names of variables. -/
def varsY : Bytes := b!"(define (domain d) (:types t u) (:constants c - u) (:predicates (p ?v - t ?v - u))
 (:task k :parameters (?v - t ?v - u))
 (:method m :parameters (?w - t) :task (k ?w c) :ordered-subtasks (and (a ?w c)))
 (:action a :parameters (?y - t ?x - u) :precondition (p ?y c)\n :effect (and (p ?y ?x) (forall (?z - t) (p ?z ?x)))))\n"

def varsWrongX : Bytes := b!"(define (domain d) (:types t u) (:predicates (p ?x - t))
 (:action a :parameters (?x - t) :precondition (p ?x))
 (:action b :parameters (?x - t ?y - u) :precondition (and (p ?x)\n (p ?y))))\n"

def varsWrongY : Bytes := b!"(define (domain d) (:types t u) (:predicates (p ?v - t))
 (:action a :parameters (?y - t) :precondition (p ?y))
 (:action b :parameters (?y - t ?x - u) :precondition (and (p ?y)\n (p ?x))))\n"

/-- A parameter with the name of a constant: the question mark does not belong to the name. -/
def varsCaught : Bytes := b!"(define (domain d) (:types t u) (:constants c - u) (:predicates (p ?x - t ?y - u))
 (:task k :parameters (?x - t ?y - u))
 (:method m :parameters (?x - t) :task (k ?x c) :ordered-subtasks (and (a ?x c)))
 (:action a :parameters (?c - t ?y - u) :precondition (p ?c c)\n :effect (and (p ?c ?y) (forall (?z - t) (p ?z ?y)))))\n"

/-- The requirements of the theorems for domains are met by these files. -/
example : ∃ d d', @Parses Env.plain varsX (.domain d) ∧ @Parses Env.plain varsY (.domain d') ∧ LocalNames d d' ∧
    Corresponds Eq d' d' ∧ d.actions ≠ d'.actions ∧ d.methods ≠ d'.methods ∧ constantsOf d ≠ [] ∧
    @Returns Env.plain HashOrd.id varsX none (.ok []) := by
  obtain ⟨d, d', h1, h2, h3, h4, h5, h6, h7⟩ := @parses_pair Env.plain varsX varsY 200 (fun d d' =>
    d' = rvDomain (exchange b!"x" b!"y") (exchange b!"x" b!"w") b!"v" d ∧ d.actions ≠ d'.actions ∧ d.methods ≠ d'.methods ∧
      constantsOf d ≠ [] ∧ ∀ c ∈ constantsOf d, exchange b!"x" b!"y" c.name = c.name ∧ exchange b!"x" b!"w" c.name = c.name) _
    (by decide +kernel)
  refine ⟨d, d', h1, h2, ?_, corresponds_refl d', h4, h5, h6, @returns_run Env.plain _ _ _ 200 _ (by decide +kernel) (by simp)⟩
  rw [h3]
  exact localNames_rvDomain ⟨exchange_injective _ _, fun c hc => (h7 c hc).1⟩ ⟨exchange_injective _ _, fun c hc => (h7 c hc).2⟩

/-- And by these, where an argument has a wrong type. -/
example : ∃ d d', @Parses Env.plain varsWrongX (.domain d) ∧ @Parses Env.plain varsWrongY (.domain d') ∧ LocalNames d d' ∧
    @Returns Env.plain HashOrd.id varsWrongX none (.err (.semantic (.predArgType ⟨some b!"t", some b!"u", b!"y", 4⟩))) ∧
    @Returns Env.plain HashOrd.id varsWrongY none (.err (.semantic (.predArgType ⟨some b!"t", some b!"u", b!"x", 4⟩))) := by
  obtain ⟨d, d', h1, h2, h3, h7⟩ := @parses_pair Env.plain varsWrongX varsWrongY 200 (fun d d' =>
    d' = rvDomain (exchange b!"x" b!"y") id b!"v" d ∧ ∀ c ∈ constantsOf d, exchange b!"x" b!"y" c.name = c.name) _
    (by decide +kernel)
  refine ⟨d, d', h1, h2, ?_, @returns_run Env.plain _ _ _ 200 _ (by decide +kernel) (by simp),
    @returns_run Env.plain _ _ _ 200 _ (by decide +kernel) (by simp)⟩
  rw [h3]
  exact localNames_rvDomain ⟨exchange_injective _ _, h7⟩ ⟨Function.injective_id, fun _ _ => rfl⟩

/-- One name for another. -/
def oneFor (a b x : Name) : Name := if x = a then b else x

/-- C97: that constants are left alone cannot be dispensed with.  Variables and constants share their names: a parameter that is
renamed to the name of a constant hides it, even if no two parameters have the same name. -/
theorem C97_capture : ∃ d d', @Parses Env.plain varsX (.domain d) ∧ @Parses Env.plain varsCaught (.domain d') ∧
    d' = { d with actions := d.actions.map (rvAction (oneFor b!"x" b!"c")) } ∧
    (∀ a ∈ d'.actions, (a.params.map (·.name)).Nodup) ∧
    @Returns Env.plain HashOrd.id varsX none (.ok []) ∧
    @Returns Env.plain HashOrd.id varsCaught none (.err (.semantic (.predArgType ⟨some b!"u", some b!"t", b!"c", 4⟩))) := by
  obtain ⟨d, d', h1, h2, h3, h4⟩ := @parses_pair Env.plain varsX varsCaught 200 (fun d d' =>
    d' = { d with actions := d.actions.map (rvAction (oneFor b!"x" b!"c")) } ∧
      ∀ a ∈ d'.actions, (a.params.map (·.name)).Nodup) _ (by decide +kernel)
  exact ⟨d, d', h1, h2, h3, h4, @returns_run Env.plain _ _ _ 200 _ (by decide +kernel) (by simp),
    @returns_run Env.plain _ _ _ 200 _ (by decide +kernel) (by simp)⟩

def netX : Bytes := b!"(define (problem q) (:domain d) (:objects o - t)
 (:htn :parameters (?x - u) :ordered-subtasks (and (k o ?x)\n (a o ?z))))\n"

def netY : Bytes := b!"(define (problem q) (:domain d) (:objects o - t)
 (:htn :parameters (?y - u) :ordered-subtasks (and (k o ?y)\n (a o ?z))))\n"

/-- The requirements for problems are met by these files, with an argument that is declared nowhere. -/
example : ∃ d p p', @Parses Env.plain varsX (.domain d) ∧ @Parses Env.plain netX (.problem p) ∧ @Parses Env.plain netY (.problem p') ∧
    LocalNamesP d p p' ∧ p.initTn ≠ p'.initTn ∧
    @Returns Env.plain HashOrd.id varsX (some netX) (.err (.semantic (.undefObject ⟨b!"z", 3⟩))) := by
  obtain ⟨d, _, h1, _, h2⟩ := @parses_pair Env.plain varsX varsX 200 (fun d _ =>
    ∀ c ∈ constantsOf d, exchange b!"x" b!"y" c.name = c.name) _ (by decide +kernel)
  obtain ⟨p, p', h3, h4, h5, h6, h7, h8, h9, h10⟩ := @parses_pairP Env.plain netX netY 200 (fun p p' =>
    p'.objects = p.objects ∧ p'.initState = p.initState ∧ p'.goal = p.goal ∧
    (p'.initTn = p.initTn.map fun i => ⟨i.params.map (List.map (rvSymbol (exchange b!"x" b!"y"))), rvHtn (exchange b!"x" b!"y") i.tn⟩) ∧
    (∀ c ∈ p.objects, exchange b!"x" b!"y" c.name = c.name) ∧ p.initTn ≠ p'.initTn) _ (by decide +kernel)
  refine ⟨d, p, p', h1, h3, h4, ⟨h5, h6, h7, exchange b!"x" b!"y", ⟨exchange_injective _ _, fun c hc => ?_⟩, h8⟩, h10,
    @returns_run Env.plain _ _ _ 200 _ (by decide +kernel) (by simp)⟩
  rcases List.mem_append.1 hc with hc | hc
  · exact h9 c hc
  · exact h2 c hc

end Verif
