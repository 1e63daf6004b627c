import Verif.Props.LocalNames
import Verif.Props.Printing
import Verif.Proofs.Subtyping
import Verif.Proofs.Repair

/-!
C98: each faulty action or method takes one repair.  What is reported is about the first faulty action, or, if there is none, about
the first faulty method; what comes after it does not matter.
-/

namespace Verif

open Spec

variable {ord ord' : HashOrd} {d d' d₁ : DomainAST} {n : Nat}

/-- C98: every repair lowers the number of faulty actions and methods by one. -/
theorem C98_count (h : Repairs d n d') : faults d' + n = faults d := (repairs_count h).1

section

variable [Env] {f f' g : Bytes} {prob prob' : Option Bytes} {Λ : Nat → Nat → Prop}

/-- C98: if the rest of the domain is fine, then it is accepted after exactly as many repairs as it has faulty actions and methods. -/
theorem C98_accepted (hh : HeaderOk d) (h : Repairs d n d') (hf' : Parses f' (.domain d')) :
    (∃ ws, Returns ord f' none (.ok ws)) ↔ n = faults d := by
  have := repairs_count h
  rw [C23_acceptance hf', domainOk_faults, this.2]
  simp only [hh, true_and]
  omega

/-- C98: otherwise, it is never accepted. -/
theorem C98_header (hh : ¬ HeaderOk d) (h : Repairs d n d') (hf' : Parses f' (.domain d')) (ws : List Warning) :
    ¬ Returns ord f' prob (.ok ws) := by
  intro hr
  rcases returns_none (ord := ord) hf' with ⟨ws', h', _⟩ | ⟨e, _, h'⟩ | ⟨x, _, h'⟩
  · exact hh ((repairs_count h).2.1 (domainOk_faults.1 (accepts_iff.1 ⟨ws', h'⟩)).1)
  · cases hr.det (h' prob)
  · cases hr.det (h' prob)

/-- C98: what is reported. -/
theorem C98_reported (hf : Parses f (.domain d)) (hh : HeaderOk d) {r : R (List Warning)} (hr : Returns ord f none r)
    (hne : ∀ ws, r ≠ .ok ws) : ∃ x : Finding, r = x.answer ∧
    ((∃ as a bs, d.actions = as ++ a :: bs ∧ (∀ b ∈ as, ActionOk d b) ∧ ¬ ActionOk d a ∧ FirstFinding (actionChecks d a) x) ∨
     ((∀ a ∈ d.actions, ActionOk d a) ∧ ∃ as m bs, d.methods = as ++ m :: bs ∧ (∀ b ∈ as, MethodOk d b) ∧ ¬ MethodOk d m ∧
       FirstFinding (methodChecks d m) x)) := by
  have hp := parsed_positioned hf
  have hm := checkDomain_meets (ord := ord) hp
  rcases meets_cases hm with ⟨_, h⟩ | ⟨x, h⟩
  · obtain ⟨ws, hw⟩ := accepts_iff.2 ((checkDomain_ok ord d).1 h)
    exact absurd (hr.det ((returns_ok_none hf).2 hw)) (hne ws)
  · refine ⟨x, ?_, finding_header hh hp ord ((meets_answer hm).1 h)⟩
    cases x with
    | error e => exact hr.det (returns_of_err hf h)
    | crash => exact hr.det (returns_of_panic hf h)

theorem same_answer_prefix (hf : Parses f (.domain d)) (hf' : Parses f' (.domain d')) (hc : Corresponds Λ d₁ d')
    (hn : ¬ DomainOk d) (he : ∀ x, FirstFinding (domainChecks d) x → FirstFinding (domainChecks d₁) x) {r : R (List Warning)}
    (hr : Returns ord f prob r) : ∃ r', Returns ord' f' prob' r' ∧ SameAnswer id Λ Λ r r' := by
  have hm := checkDomain_meets (ord := ord) (parsed_positioned hf)
  rcases meets_cases hm with ⟨_, h⟩ | ⟨x, h⟩
  · exact absurd ((checkDomain_ok ord d).1 h) hn
  · have e : r = x.answer := by
      cases x with
      | error e => exact hr.det (returns_of_err hf h)
      | crash => exact hr.det (returns_of_panic hf h)
    subst e
    have hp₁ := (positioned_lines (corresponds_lines hc)).2 (parsed_positioned hf')
    exact answer_corresponds ((meets_answer (checkDomain_meets (ord := ord') hp₁)).2 (he x ((meets_answer hm).1 h))) hf' hc

/-- C98: if an action is faulty, then the actions after it and the methods can be anything: the answer is the same. -/
theorem C98_after_action (hf : Parses f (.domain d)) (hs : SameHeader d d₁) {as bs bs' : List Action} {a : Action}
    (e : d.actions = as ++ a :: bs) (e' : d₁.actions = as ++ a :: bs') (ha : ¬ ActionOk d a) (hf' : Parses f' (.domain d'))
    (hc : Corresponds Λ d₁ d') {r : R (List Warning)} (hr : Returns ord f prob r) :
    ∃ r', Returns ord' f' prob' r' ∧ SameAnswer id Λ Λ r r' := by
  refine same_answer_prefix hf hf' hc (fun h => ha (h.actions a (by simp [e]))) (fun x hx => ?_) hr
  have hp₁ := (positioned_lines (corresponds_lines hc)).2 (parsed_positioned hf')
  have ha' : ¬ ActionOk d₁ a := by
    intro h
    refine ha ⟨h.params, fun g hg => ?_, fun g hg => ?_⟩
    · obtain ⟨h1, h2, h3, h4⟩ := h.pre g hg
      simp only [typesOf, constantsOf, hs.types, hs.constants, hs.predicates] at h2 h3 h4
      exact ⟨h1, h2, h3, h4⟩
    · obtain ⟨h1, h2, h3, h4⟩ := h.eff g hg
      simp only [typesOf, constantsOf, hs.types, hs.constants, hs.predicates] at h2 h3 h4
      exact ⟨h1, h2, h3, h4⟩
  rw [actions_prefix (parsed_positioned hf) (as := as ++ [a]) (bs := bs) (by simp [e]) (by simp) ha] at hx
  rw [actions_prefix hp₁ (as := as ++ [a]) (bs := bs') (by simp [e']) (by simp) ha', hs.checks]
  unfold allActionChecks at *
  simpa only [hs.actionChecks] using hx

/-- C98: if a method is faulty, then the methods after it can be anything. -/
theorem C98_after_method (hf : Parses f (.domain d)) (hs : SameHeader d d₁) (hact : d₁.actions = d.actions)
    {as bs bs' : List Method} {m : Method} (e : d.methods = as ++ m :: bs) (e' : d₁.methods = as ++ m :: bs') (hm : ¬ MethodOk d m)
    (hf' : Parses f' (.domain d')) (hc : Corresponds Λ d₁ d') {r : R (List Warning)} (hr : Returns ord f prob r) :
    ∃ r', Returns ord' f' prob' r' ∧ SameAnswer id Λ Λ r r' := by
  refine same_answer_prefix hf hf' hc (fun h => hm (h.methods m (by simp [e]))) (fun x hx => ?_) hr
  have hp₁ := (positioned_lines (corresponds_lines hc)).2 (parsed_positioned hf')
  have hso : SameOutside d d₁ := ⟨hs.types, hs.constants, hs.predicates, hs.tasks, by rw [hact]; exact sameSignature_refl _⟩
  have hm' : ¬ MethodOk d₁ m := fun h => hm (hso.method.1 h)
  rw [methods_prefix ord (parsed_positioned hf) (as := as ++ [m]) (bs := bs) (by simp [e]) (by simp) hm] at hx
  rw [methods_prefix ord hp₁ (as := as ++ [m]) (bs := bs') (by simp [e']) (by simp) hm', hs.checks]
  unfold allActionChecks allMethodChecks at *
  simpa only [hs.actionChecks, hact, hs.methodChecks hact] using hx

end

/-! ### Repairs are possible -/

/-- New names `x`, `xx`, … for the symbols. -/
def freshFrom : Nat → List Symbol → List Symbol
  | _, [] => []
  | k, s :: ss => { s with name := List.replicate (k + 1) 120 } :: freshFrom (k + 1) ss

theorem freshFrom_types : ∀ (k : Nat) (l : List Symbol), (freshFrom k l).map (·.ty) = l.map (·.ty)
  | _, [] => rfl
  | k, s :: ss => by simp [freshFrom, freshFrom_types]

theorem freshFrom_shapes : ∀ (k : Nat) (l : List Symbol),
    (freshFrom k l).map (fun s => (s.ty, s.tyPos)) = l.map fun s => (s.ty, s.tyPos)
  | _, [] => rfl
  | k, s :: ss => by simp [freshFrom, freshFrom_shapes]

theorem freshFrom_names : ∀ (k : Nat) (l : List Symbol), ∀ s ∈ freshFrom k l, ∃ j, k ≤ j ∧ s.name = List.replicate (j + 1) 120
  | _, [] => by simp [freshFrom]
  | k, s :: ss => by
    intro t ht
    rcases List.mem_cons.1 ht with rfl | ht
    · exact ⟨k, Nat.le_refl _, rfl⟩
    · obtain ⟨j, h1, h2⟩ := freshFrom_names (k + 1) ss t ht
      exact ⟨j, by omega, h2⟩

theorem freshFrom_nodup : ∀ (k : Nat) (l : List Symbol), ((freshFrom k l).map (·.name)).Nodup
  | _, [] => by simp [freshFrom]
  | k, s :: ss => by
    rw [freshFrom, List.map_cons, List.nodup_cons]
    refine ⟨fun h => ?_, freshFrom_nodup _ ss⟩
    obtain ⟨t, ht, e⟩ := List.mem_map.1 h
    obtain ⟨j, h1, h2⟩ := freshFrom_names _ _ t ht
    have := congrArg List.length (h2.symm.trans e)
    simp only [List.length_replicate] at this
    omega

theorem typeIn_nodup {l : List Symbol} (hn : (l.map (·.name)).Nodup) {s : Symbol} (hs : s ∈ l) {rest : List (List Symbol)} :
    TypeIn (l :: rest) s.name s.ty := by
  obtain ⟨pre, post, rfl⟩ := List.append_of_mem hs
  refine .here ⟨pre, post, rfl, rfl, fun y hy e => ?_⟩
  rw [List.map_append, List.nodup_append] at hn
  exact hn.2.2 _ (List.mem_map_of_mem hy) _ (List.mem_map_of_mem List.mem_cons_self) e

/-- A use of a symbol. -/
def useOf (s : Symbol) : Symbol := ⟨s.name, s.pos, none, none⟩

theorem argsFit_fresh {types : List Symbol} {scope : List (List Symbol)} : ∀ (l : List Symbol) (k : Nat),
    (∀ s ∈ freshFrom k l, TypeIn scope s.name s.ty) → ArgsFit types scope ((freshFrom k l).map useOf) l
  | [], _, _ => .nil
  | s :: ss, k, h => .cons ⟨s.ty, h _ List.mem_cons_self, fits_refl _⟩
      (argsFit_fresh ss (k + 1) fun t ht => h t (List.mem_cons_of_mem _ ht))

/-- An action with the same name and parameters of the same types, and nothing else. -/
def plainAction (a : Action) : Action := ⟨a.name, a.pos, freshFrom 0 a.params, none, none⟩

/-- A method with the same name for the given task without any subtasks. -/
def plainMethod (t : Task) (m : Method) : Method :=
  ⟨m.name, ⟨t.name, 0, none, none⟩, (freshFrom 0 t.params).map useOf, freshFrom 0 t.params, none, ⟨[], none, .total, none⟩⟩

theorem plainAction_ok (a : Action) : ActionOk d (plainAction a) :=
  ⟨freshFrom_nodup _ _, fun _ h => (by cases h), fun _ h => (by cases h)⟩

theorem plainMethod_ok {t : Task} (ht : t ∈ d.tasks) (m : Method) : MethodOk d (plainMethod t m) where
  params := freshFrom_nodup _ _
  pre := fun _ h => (by cases h)
  task := ⟨t, ht, rfl, argsFit_fresh _ 0 fun _ hs => typeIn_nodup (freshFrom_nodup 0 t.params) hs⟩
  subtasks := fun s h => (by cases h)
  ordering := by
    intro x hx
    have : ∀ {a b}, Before (plainMethod t m).tn a b → False := by
      rintro a b ⟨os, h, _⟩
      cases h
    cases hx with
    | single h => exact this h
    | tail _ h => exact this h

theorem listShape_shapes {l l' : List Symbol} (h : l'.map (fun s => (s.ty, s.tyPos)) = l.map fun s => (s.ty, s.tyPos))
    (hl : ListShape l) : ListShape l' := by
  have e1 : ∀ k : List Symbol, (∀ s ∈ k, SymbolShape s) ↔ ∀ q ∈ k.map (fun s => (s.ty, s.tyPos)), q.2.isSome = q.1.isSome := by
    intro k
    unfold SymbolShape
    simp only [List.mem_map, forall_exists_index, and_imp, forall_apply_eq_imp_iff₂]
  have e2 : ∀ k : List Symbol, k.Pairwise (fun a b => a.ty = none → b.ty = none) ↔
      (k.map fun s => (s.ty, s.tyPos)).Pairwise fun a b => a.1 = none → b.1 = none := by
    intro k
    rw [List.pairwise_map]
  unfold ListShape at *
  rw [e1, e2] at *
  rwa [h]

theorem listShape_uses (l : List Symbol) : ListShape (l.map useOf) := by
  refine ⟨fun s hs => ?_, ?_⟩
  · obtain ⟨t, _, rfl⟩ := List.mem_map.1 hs
    rfl
  · rw [List.pairwise_map]
    exact List.pairwise_of_forall_mem_list fun _ _ _ _ _ => rfl

theorem toks_symbols {l : List Symbol} {t : Token} (h : t ∈ symbolToks l) :
    (∃ s ∈ l, t = .ident s.name) ∨ t = .punct .dash ∨ ∃ s ∈ l, ∃ y, s.ty = some y ∧ t = .ident y := by
  induction l with
  | nil => simp [symbolToks] at h
  | cons s ss ih =>
    rw [symbolToks, List.mem_cons, List.mem_append] at h
    rcases h with rfl | h | h
    · exact .inl ⟨s, List.mem_cons_self, rfl⟩
    · cases hy : s.ty with
      | none => simp [hy] at h
      | some y =>
        simp only [hy, List.mem_cons, List.not_mem_nil, or_false] at h
        rcases h with rfl | rfl
        · exact .inr (.inl rfl)
        · exact .inr (.inr ⟨s, List.mem_cons_self, y, hy, rfl⟩)
    · rcases ih h with ⟨s, hs, e⟩ | e | ⟨s, hs, y, e⟩
      · exact .inl ⟨s, List.mem_cons_of_mem _ hs, e⟩
      · exact .inr (.inl e)
      · exact .inr (.inr ⟨s, List.mem_cons_of_mem _ hs, y, e⟩)

theorem toks_types {l : List Symbol} {s : Symbol} (hs : s ∈ l) {y : Name} (h : s.ty = some y) : .ident y ∈ symbolToks l := by
  induction l with
  | nil => cases hs
  | cons t ts ih =>
    rw [symbolToks]
    rcases List.mem_cons.1 hs with rfl | hs
    · simp [h]
    · simp [ih hs]

theorem toks_fresh {l : List Symbol} (h : ∀ t ∈ symbolToks l, Utterable t) (k : Nat) : ∀ t ∈ symbolToks (freshFrom k l), Utterable t := by
  have hw : ∀ s ∈ freshFrom k l, Utterable (.ident s.name) := by
    intro s hs c hc
    obtain ⟨j, _, e⟩ := freshFrom_names k l s hs
    rw [e] at hc
    rw [(List.mem_replicate.1 hc).2]
    decide
  intro t ht
  rcases toks_symbols ht with ⟨s, hs, rfl⟩ | rfl | ⟨s, hs, y, hy, rfl⟩
  · exact hw s hs
  · trivial
  · have h1 : some y ∈ (freshFrom k l).map (·.ty) := List.mem_map.2 ⟨s, hs, hy⟩
    rw [freshFrom_types] at h1
    obtain ⟨s', hs', hy'⟩ := List.mem_map.1 h1
    exact h _ (toks_types hs' hy')

theorem toks_uses {l : List Symbol} (h : ∀ t ∈ symbolToks l, Utterable t) : ∀ t ∈ symbolToks (l.map useOf), Utterable t := by
  intro t ht
  rcases toks_symbols ht with ⟨s, hs, rfl⟩ | rfl | ⟨s, hs, y, hy, rfl⟩
  · obtain ⟨s, hs', rfl⟩ := List.mem_map.1 hs
    refine h _ ?_
    clear ht h hs
    induction l with
    | nil => cases hs'
    | cons a as ih =>
      rw [symbolToks]
      rcases List.mem_cons.1 hs' with rfl | hs'
      · simp [useOf]
      · simp [ih hs']
  · trivial
  · obtain ⟨s, hs, rfl⟩ := List.mem_map.1 hs
    cases hy

theorem toks_plainAction {a : Action} (h : ∀ t ∈ actionToks a, Utterable t) : ∀ t ∈ actionToks (plainAction a), Utterable t := by
  have h1 := toks_fresh (l := a.params) (fun t ht => h t (by simp [actionToks, taskToks, ht])) 0
  have h2 : Utterable (.ident a.name) := h _ (by simp [actionToks, taskToks])
  intro t ht
  simp only [actionToks, taskToks, plainAction, optToks, List.mem_cons, List.mem_append, List.not_mem_nil, or_false] at ht
  rcases ht with rfl | rfl | (rfl | rfl | rfl | ht | rfl) | rfl
  all_goals first | trivial | exact h2 | exact h1 t ht

theorem toks_plainMethod {t : Task} {m : Method} (ht : ∀ u ∈ taskToks t.name t.params, Utterable u)
    (hm : Utterable (.ident m.name.name)) : ∀ u ∈ methodToks false (plainMethod t m), Utterable u := by
  have h1 := toks_fresh (l := t.params) (fun u hu => ht u (by simp [taskToks, hu])) 0
  have h2 := toks_uses h1
  have h3 : Utterable (.ident t.name) := ht _ (by simp [taskToks])
  intro u hu
  simp only [methodToks, plainMethod, optToks, htnToks, andToks, List.flatMap_nil, List.nil_append, List.mem_cons, List.mem_append,
    List.not_mem_nil, or_false] at hu
  rcases hu with rfl | rfl | rfl | rfl | rfl | hu | rfl | rfl | rfl | rfl | hu | rfl | rfl | (rfl | rfl | rfl) | rfl
  all_goals first | trivial | exact hm | exact h3 | exact h1 u hu | exact h2 u hu

/-- What is needed of a domain for its repair. -/
structure Ready (d : DomainAST) : Prop where
  tasks : d.methods = [] ∨ d.tasks ≠ []
  shape : DomainShape d
  toks : ∀ t ∈ domainToks false d, Utterable t

theorem toks_action (h : ∀ t ∈ domainToks false d, Utterable t) {a : Action} (ha : a ∈ d.actions) : ∀ t ∈ actionToks a, Utterable t :=
  fun t ht => h t (by
    have : t ∈ d.actions.flatMap actionToks := List.mem_flatMap.2 ⟨a, ha, ht⟩
    simp only [domainToks, List.mem_append, this, true_or, or_true])

theorem toks_method (h : ∀ t ∈ domainToks false d, Utterable t) {m : Method} (hm : m ∈ d.methods) :
    ∀ t ∈ methodToks false m, Utterable t :=
  fun t ht => h t (by
    have : t ∈ d.methods.flatMap (methodToks false) := List.mem_flatMap.2 ⟨m, hm, ht⟩
    simp only [domainToks, List.mem_append, this, true_or, or_true])

theorem toks_task (h : ∀ t ∈ domainToks false d, Utterable t) {u : Task} (hu : u ∈ d.tasks) :
    ∀ t ∈ taskToks u.name u.params, Utterable t :=
  fun t ht => h t (by
    have : t ∈ d.tasks.flatMap (fun t => blockToks .task (taskToks t.name t.params)) :=
      List.mem_flatMap.2 ⟨u, hu, by simp [blockToks, ht]⟩
    simp only [domainToks, List.mem_append, this, true_or, or_true])

theorem ready_step (h : Ready d) (hf : 0 < faults d) : ∃ d₁, Repair d d₁ ∧ Ready d₁ := by
  classical
  by_cases ha : ∃ a ∈ d.actions, ¬ ActionOk d a
  · obtain ⟨a, ha, hn⟩ := ha
    obtain ⟨as, bs, e⟩ := List.append_of_mem ha
    have hs : ListShape (freshFrom 0 a.params) := listShape_shapes (freshFrom_shapes _ _) (h.shape.actions a ha).params
    refine ⟨_, .action (a' := plainAction a) e rfl (freshFrom_types _ _) hn (plainAction_ok a), h.tasks, ?_, ?_⟩
    · refine { h.shape with actions := fun b hb => ?_ }
      rcases List.mem_append.1 hb with hb | hb
      · exact h.shape.actions b (by simp [e, hb])
      · rcases List.mem_cons.1 hb with rfl | hb
        · exact ⟨hs, fun _ h => (by cases h), fun _ h => (by cases h)⟩
        · exact h.shape.actions b (by simp [e, hb])
    · intro t ht
      have key : t ∈ domainToks false d ∨ t ∈ actionToks (plainAction a) := by
        simp only [domainToks, List.mem_append, e, List.flatMap_append, List.flatMap_cons, typesOf, constantsOf] at ht ⊢
        tauto
      rcases key with h1 | h1
      · exact h.toks t h1
      · exact toks_plainAction (toks_action h.toks ha) t h1
  · have hm : ∃ m ∈ d.methods, ¬ MethodOk d m := by
      by_contra hm
      push Not at ha hm
      unfold faults at hf
      rw [List.countP_eq_zero.2 (by simpa using ha), List.countP_eq_zero.2 (by simpa using hm)] at hf
      exact absurd hf (by decide)
    obtain ⟨m, hm, hn⟩ := hm
    obtain ⟨as, bs, e⟩ := List.append_of_mem hm
    obtain ⟨t, ht⟩ := List.exists_mem_of_ne_nil _ (h.tasks.resolve_left (by rw [e]; simp))
    have hs : ListShape (freshFrom 0 t.params) := listShape_shapes (freshFrom_shapes _ _) (h.shape.tasks t ht)
    refine ⟨_, .method (m' := plainMethod t m) e rfl hn (plainMethod_ok ht m), .inr (List.ne_nil_of_mem ht), ?_, ?_⟩
    · refine { h.shape with methods := fun b hb => ?_ }
      rcases List.mem_append.1 hb with hb | hb
      · exact h.shape.methods b (by simp [e, hb])
      · rcases List.mem_cons.1 hb with rfl | hb
        · exact ⟨(h.shape.methods m hm).name, ⟨rfl, rfl⟩, listShape_uses _, hs, fun _ h => (by cases h),
            ⟨fun _ h => (by cases h), fun _ => rfl, fun _ h => (by cases h)⟩⟩
        · exact h.shape.methods b (by simp [e, hb])
    · intro u hu
      have key : u ∈ domainToks false d ∨ u ∈ methodToks false (plainMethod t m) := by
        simp only [domainToks, List.mem_append, e, List.flatMap_append, List.flatMap_cons, typesOf, constantsOf] at hu ⊢
        tauto
      rcases key with h1 | h1
      · exact h.toks u h1
      · exact toks_plainMethod (toks_task h.toks ht) (toks_method h.toks hm _ (by simp [methodToks])) u h1

theorem ready_repairs (h : Ready d) : ∀ n, n ≤ faults d → ∃ d', Repairs d n d' ∧ Ready d'
  | 0, _ => ⟨d, .none rfl, h⟩
  | n + 1, hn => by
    obtain ⟨d₁, h1, h2⟩ := ready_repairs h n (by omega)
    have := C98_count h1
    obtain ⟨d₂, h3, h4⟩ := ready_step h2 (by omega)
    exact ⟨d₂, .more h1 h3 rfl, h4⟩

theorem repairs_lines {n : Nat} (h : Repairs d n d') (e : rnDomain id d₁ = rnDomain id d') : Repairs d n d₁ := by
  cases h with
  | none h => exact .none (e.trans h)
  | more h1 h2 h3 => exact .more h1 h2 (e.trans h3)

theorem repairs_kept {n : Nat} (h : Repairs d n d') : d'.tasks.length = d.tasks.length ∧ d'.methods.length = d.methods.length := by
  have lines : ∀ {d₁ d₂ : DomainAST}, rnDomain id d₁ = rnDomain id d₂ →
      d₁.tasks.length = d₂.tasks.length ∧ d₁.methods.length = d₂.methods.length := fun e =>
    ⟨by simpa [rnDomain] using congrArg (fun d => d.tasks.length) e, by simpa [rnDomain] using congrArg (fun d => d.methods.length) e⟩
  induction h with
  | none h => exact lines h
  | more _ h1 h2 ih =>
    have := lines h2
    cases h1 with
    | action => exact ⟨this.1.trans ih.1, this.2.trans ih.2⟩
    | method e =>
      simp only [e, List.length_append, List.length_cons] at this ih ⊢
      exact ⟨this.1.trans ih.1, this.2.trans ih.2⟩

section

variable [Env] {f : Bytes}

/-- C98: if the rest of the domain is fine, then it can be repaired. -/
theorem C98_possible (hf : Parses f (.domain d)) (hu : ∀ t ∈ domainToks false d, Utterable t) (hh : HeaderOk d)
    (ht : d.methods = [] ∨ d.tasks ≠ []) :
    ∃ f' d', Parses f' (.domain d') ∧ Repairs d (faults d) d' ∧ ∀ ord, ∃ ws, Returns ord f' none (.ok ws) := by
  obtain ⟨d', h1, h2⟩ := ready_repairs ⟨ht, C81_domain_shape hf, hu⟩ _ (Nat.le_refl _)
  obtain ⟨f', d'', h3, h4⟩ := C81_domain_file h2.shape h2.toks
  have h5 := repairs_lines h1 h4
  exact ⟨f', d'', h3, h5, fun ord => (C98_accepted hh h5 h3).2 rfl⟩

/-- C98: methods without any task to be for cannot be repaired. -/
theorem C98_impossible (hm : d.methods ≠ []) (ht : d.tasks = []) {n : Nat} (h : Repairs d n d') {f' : Bytes}
    (hf' : Parses f' (.domain d')) (ord : HashOrd) (ws : List Warning) : ¬ Returns ord f' none (.ok ws) := by
  intro hr
  have hok := (C23_acceptance hf').1 ⟨ws, hr⟩
  obtain ⟨h1, h2⟩ := repairs_kept h
  obtain ⟨m, hm'⟩ := List.exists_mem_of_length_pos (l := d'.methods) (by rw [h2]; exact List.length_pos_of_ne_nil hm)
  obtain ⟨t, ht', _⟩ := (hok.methods m hm').task
  rw [ht, List.length_nil, List.length_eq_zero_iff] at h1
  rw [h1] at ht'
  cases ht'

end

/-! ### Instances -/

def brokenTwice : Bytes := b!"(define (domain d) (:types t) (:predicates (p ?x - t)) (:task k :parameters (?x - t))
 (:method m :parameters (?x - t ?x - t) :task (k ?x) :ordered-subtasks (and (a ?x ?x) (b ?x)))
 (:action a :parameters (?x - t ?x - t) :precondition (p ?x))
 (:action b :parameters (?x - t) :precondition (p ?x)))\n"

def repairedTwice : Bytes := b!"(define (domain d) (:types t) (:predicates (p ?x - t)) (:task k :parameters (?x - t))
 (:method m :parameters (?x - t) :task (k ?x) :ordered-subtasks (and (a ?x ?x) (b ?x)))
 (:action a :parameters (?x - t ?y - t) :precondition (p ?y))
 (:action b :parameters (?x - t) :precondition (p ?x)))\n"

/-- The first action, which has a parameter twice, is replaced. -/
def firstAction (d d' : DomainAST) : Prop := ∃ a ∈ d.actions.head?, ∃ a' ∈ d'.actions.head?, a'.name = a.name ∧
  a'.params.map (·.ty) = a.params.map (·.ty) ∧ ¬ (a.params.map (·.name)).Nodup

/-- The first method, which has a parameter twice, is replaced. -/
def firstMethod (d d' : DomainAST) : Prop := ∃ m ∈ d.methods.head?, ∃ m' ∈ d'.methods.head?, m'.name.name = m.name.name ∧
  ¬ (m.params.map (·.name)).Nodup

instance (d d' : DomainAST) : Decidable (firstAction d d') := by unfold firstAction; infer_instance
instance (d d' : DomainAST) : Decidable (firstMethod d d') := by unfold firstMethod; infer_instance

/-- The requirements of the theorems are met by these files: two repairs, and there were two faults. -/
example : ∃ d d', @Parses Env.plain brokenTwice (.domain d) ∧ @Parses Env.plain repairedTwice (.domain d') ∧ HeaderOk d ∧
    Repairs d 2 d' ∧ faults d = 2 ∧ (∀ t ∈ domainToks false d, Utterable t) ∧ d.tasks ≠ [] ∧
    @Returns Env.plain HashOrd.id brokenTwice none (.err (.semantic (.dupParameter ⟨b!"x", 3, 3⟩))) ∧
    @Returns Env.plain HashOrd.id repairedTwice none (.ok []) := by
  obtain ⟨d, d', h1, h2, h3, ⟨a, ha, a', ha', h4, h5, h6⟩, ⟨m, hm, m', hm', h7, h8⟩, h9, h10, h11, h12⟩ :=
    @parses_pair Env.plain brokenTwice repairedTwice 200 (fun d d' =>
      d' = { d with actions := d'.actions, methods := d'.methods } ∧
      firstAction d d' ∧ firstMethod d d' ∧
      d'.actions.tail = d.actions.tail ∧ d'.methods.tail = d.methods.tail ∧ d.tasks ≠ [] ∧
      ∀ t ∈ domainToks false d, spellable t = true) _ (by decide +kernel)
  have hr' : @Returns Env.plain HashOrd.id repairedTwice none (.ok []) :=
    @returns_run Env.plain _ _ _ 200 _ (by decide +kernel) (by simp)
  have hok := (@C23_acceptance Env.plain HashOrd.id _ _ h2).1 ⟨_, hr'⟩
  have ea : d.actions = [] ++ a :: d.actions.tail := (List.cons_head?_tail ha).symm
  have ea' : d'.actions = [] ++ a' :: d.actions.tail := by rw [← h9]; exact (List.cons_head?_tail ha').symm
  have em : d.methods = [] ++ m :: d.methods.tail := (List.cons_head?_tail hm).symm
  have em' : d'.methods = [] ++ m' :: d.methods.tail := by rw [← h10]; exact (List.cons_head?_tail hm').symm
  have hso : SameOutside { d with actions := [] ++ a' :: d.actions.tail } d' := by
    rw [h3, ea']
    exact ⟨rfl, rfl, rfl, rfl, sameSignature_refl _⟩
  have hso' : SameOutside d d' :=
    ⟨by rw [h3], by rw [h3], by rw [h3], by rw [h3], by
      rw [ea, ea']
      exact sameSignature_one h4 h5 [] _⟩
  have r1 : Repair d { d with actions := [] ++ a' :: d.actions.tail } :=
    .action ea h4 h5 (fun h => h6 h.params) (hso'.action.1 (hok.actions a' (by simp [ea'])))
  have r2 : Repair { d with actions := [] ++ a' :: d.actions.tail } d' := by
    have : d' = { { d with actions := [] ++ a' :: d.actions.tail } with methods := [] ++ m' :: d.methods.tail } := by
      rw [h3, ea', em']
    rw [this]
    exact .method em h7 (fun h => h8 h.params) (hso.method.1 (hok.methods m' (by simp [em'])))
  have hreps : Repairs d 2 d' := .more (.more (.none rfl) r1 rfl) r2 rfl
  have hh : HeaderOk d := (repairs_count hreps).2.1 (domainOk_faults.1 hok).1
  refine ⟨d, d', h1, h2, hh, hreps, ?_, fun t ht => spellable_sound (h12 t ht), h11, @returns_run Env.plain _ _ _ 200 _ (by decide +kernel) (by simp), hr'⟩
  exact ((@C98_accepted HashOrd.id _ _ _ Env.plain _ hh hreps h2).1 ⟨_, hr'⟩).symm

def brokenOther : Bytes := b!"(define (domain d) (:types t) (:predicates (p ?x - t)) (:task k :parameters (?x - t))

 (:action a :parameters (?x - t ?x - t) :precondition (p ?x))
 (:method m :parameters (?x - t) :task (q ?x ?x) :subtasks (and ))
 (:action b :parameters (?x - t ?y) :effect (r ?y)))\n"

/-- The requirements of `C98_after_action` are met by these files. -/
example : ∃ d d' a bs bs', @Parses Env.plain brokenTwice (.domain d) ∧ @Parses Env.plain brokenOther (.domain d') ∧ SameHeader d d' ∧
    d.actions = [] ++ a :: bs ∧ d'.actions = [] ++ a :: bs' ∧ ¬ ActionOk d a ∧ bs ≠ bs' ∧ d.methods ≠ d'.methods := by
  obtain ⟨d, d', h1, h2, h3, h4, ⟨a, ha, _, _, _, _, h5⟩, h6, h7⟩ :=
    @parses_pair Env.plain brokenTwice brokenOther 200 (fun d d' =>
      d' = { d with actions := d'.actions, methods := d'.methods } ∧ d.actions.head? = d'.actions.head? ∧ firstAction d d' ∧
      d.actions.tail ≠ d'.actions.tail ∧ d.methods ≠ d'.methods) _ (by decide +kernel)
  exact ⟨d, d', a, d.actions.tail, d'.actions.tail, h1, h2, ⟨by rw [h3], by rw [h3], by rw [h3], by rw [h3], by rw [h3]⟩,
    (List.cons_head?_tail ha).symm, (List.cons_head?_tail (h4 ▸ ha)).symm, fun h => h5 h.params, h6, h7⟩

end Verif
