import Verif.Spec.Repair
import Verif.Proofs.LocalNames
import Verif.Proofs.Excerpt
import Verif.Proofs.Renaming

/-! Actions and methods are checked one by one. -/

namespace Verif

open Spec

variable {d d₁ d₂ : DomainAST}

theorem argsFit_formals {types : List Symbol} {scope : List (List Symbol)} {args formals formals' : List Symbol}
    (h : formals'.map (·.ty) = formals.map (·.ty)) : ArgsFit types scope args formals' ↔ ArgsFit types scope args formals := by
  have e : rvSymbol id = id := by funext s; rfl
  simpa [e] using argsFit_rv (types := types) (scope := scope) (args := args) Function.injective_id h

/-- The domains differ at most in the insides of actions, and in methods. -/
structure SameOutside (d d₁ : DomainAST) : Prop where
  types : d₁.types = d.types
  constants : d₁.constants = d.constants
  predicates : d₁.predicates = d.predicates
  tasks : d₁.tasks = d.tasks
  actions : List.Forall₂ (fun a b : Action => b.name = a.name ∧ b.params.map (·.ty) = a.params.map (·.ty)) d.actions d₁.actions

theorem forall₂_flip {α β : Type} {R : α → β → Prop} {as : List α} {bs : List β} (h : List.Forall₂ R as bs) :
    List.Forall₂ (fun b a => R a b) bs as := by
  induction h with
  | nil => exact .nil
  | cons h _ ih => exact .cons h ih

theorem SameOutside.symm (h : SameOutside d d₁) : SameOutside d₁ d :=
  ⟨h.types.symm, h.constants.symm, h.predicates.symm, h.tasks.symm,
    forall₂_imp (fun _ _ ⟨h1, h2⟩ => ⟨h1.symm, h2.symm⟩) (forall₂_flip h.actions)⟩

theorem SameOutside.callee (h : SameOutside d d₁) {x : Name} {ps : List Symbol} (hc : Callee d x ps) :
    ∃ ps', Callee d₁ x ps' ∧ ps'.map (·.ty) = ps.map (·.ty) := by
  cases hc with
  | @action a ha hn =>
    obtain ⟨b, hb, h1, h2⟩ := forall₂_image h.actions a ha
    exact ⟨_, .action hb (h1.trans hn), h2⟩
  | @task t hna ht hn =>
    refine ⟨_, .task (fun b hb => ?_) (h.tasks ▸ ht) hn, rfl⟩
    obtain ⟨a, ha, h1, _⟩ := forall₂_source h.actions b hb
    exact h1 ▸ hna a ha

theorem SameOutside.formula (h : SameOutside d d₁) {ps : List Symbol} {f : Formula} (hf : FormulaOk d ps f) : FormulaOk d₁ ps f := by
  obtain ⟨h1, h2, h3, h4⟩ := hf
  refine ⟨h1, ?_, ?_, ?_⟩
  · simpa [typesOf, h.types] using h2
  · simpa [h.predicates] using h3
  · simpa [typesOf, constantsOf, h.types, h.constants, h.predicates] using h4

theorem SameOutside.action_of (h : SameOutside d d₁) {a : Action} (ha : ActionOk d a) : ActionOk d₁ a :=
  ⟨ha.params, fun f hf => h.formula (ha.pre f hf), fun f hf => h.formula (ha.eff f hf)⟩

theorem SameOutside.method_of (h : SameOutside d d₁) {m : Method} (hm : MethodOk d m) : MethodOk d₁ m := by
  obtain ⟨h1, h2, ⟨t, ht, h3, h4⟩, h5, h6⟩ := hm
  have et : typesOf d₁ = typesOf d := by simp [typesOf, h.types]
  have ec : constantsOf d₁ = constantsOf d := by simp [constantsOf, h.constants]
  refine ⟨h1, fun f hf => h.formula (h2 f hf), ⟨t, h.tasks ▸ ht, h3, ?_⟩, fun s hs => ?_, h6⟩
  · rw [et, ec]; exact h4
  · obtain ⟨ps, h7, h8⟩ := h5 s hs
    obtain ⟨ps', h9, h10⟩ := h.callee h7
    exact ⟨ps', h9, by rw [et, ec]; exact (argsFit_formals h10).2 h8⟩

theorem SameOutside.action (h : SameOutside d d₁) {a : Action} : ActionOk d₁ a ↔ ActionOk d a :=
  ⟨h.symm.action_of, h.action_of⟩

theorem SameOutside.method (h : SameOutside d d₁) {m : Method} : MethodOk d₁ m ↔ MethodOk d m :=
  ⟨h.symm.method_of, h.method_of⟩

theorem sameSignature_refl : ∀ as : List Action,
    List.Forall₂ (fun a b : Action => b.name = a.name ∧ b.params.map (·.ty) = a.params.map (·.ty)) as as
  | [] => .nil
  | _ :: as => .cons ⟨rfl, rfl⟩ (sameSignature_refl as)

theorem sameSignature_one {a a' : Action} (hn : a'.name = a.name) (ht : a'.params.map (·.ty) = a.params.map (·.ty)) :
    ∀ (as bs : List Action), List.Forall₂ (fun a b : Action => b.name = a.name ∧ b.params.map (·.ty) = a.params.map (·.ty))
      (as ++ a :: bs) (as ++ a' :: bs)
  | [], bs => .cons ⟨hn, ht⟩ (sameSignature_refl bs)
  | _ :: as, bs => .cons ⟨rfl, rfl⟩ (sameSignature_one hn ht as bs)

theorem sameOutside_repair (h : Repair d d₁) : SameOutside d d₁ := by
  cases h with
  | action e hn ht _ _ => exact ⟨rfl, rfl, rfl, rfl, by rw [e]; exact sameSignature_one hn ht _ _⟩
  | method => exact ⟨rfl, rfl, rfl, rfl, sameSignature_refl _⟩

/-! ### Counting -/

open Classical in
theorem faults_repair (h : Repair d d₁) : faults d₁ + 1 = faults d := by
  have hs := sameOutside_repair h
  unfold faults
  simp only [hs.action, hs.method]
  cases h with
  | action e _ _ h1 h2 => simp [e, List.countP_append, h1, h2]; omega
  | method e _ h1 h2 => simp [e, List.countP_append, h1, h2]; omega

theorem header_repair (h : Repair d d₁) : HeaderOk d₁ ↔ HeaderOk d := by
  cases h with
  | action e hn _ _ _ =>
    constructor
    · rintro ⟨h1, h2, h3, h4, h5, h6, h7, h8⟩
      exact ⟨h1, h2, h3, h4, h5, h6, by simpa [e, hn] using h7, h8⟩
    · rintro ⟨h1, h2, h3, h4, h5, h6, h7, h8⟩
      exact ⟨h1, h2, h3, h4, h5, h6, by simpa [e, hn] using h7, h8⟩
  | method e hn _ _ =>
    constructor
    · rintro ⟨h1, h2, h3, h4, h5, h6, h7, h8⟩
      exact ⟨h1, h2, h3, h4, h5, h6, h7, by simpa [e, hn] using h8⟩
    · rintro ⟨h1, h2, h3, h4, h5, h6, h7, h8⟩
      exact ⟨h1, h2, h3, h4, h5, h6, h7, by simpa [e, hn] using h8⟩

open Classical in
theorem faults_rn : faults (rnDomain id d) = faults d := by
  unfold faults
  rw [show (rnDomain id d).actions = d.actions.map (rnAction id) from rfl,
    show (rnDomain id d).methods = d.methods.map (rnMethod id) from rfl, List.countP_map, List.countP_map]
  simp only [Function.comp_def, actionOk_rn Function.injective_id, methodOk_rn Function.injective_id]

theorem faults_lines (h : rnDomain id d₁ = rnDomain id d₂) : faults d₁ = faults d₂ := by
  rw [← faults_rn, h, faults_rn]

/-- The domain without its actions and methods. -/
def bare (d : DomainAST) : DomainAST := { d with actions := [], methods := [] }

theorem header_iff : HeaderOk d ↔ DomainOk (bare d) ∧ (d.actions.map (·.name)).Nodup ∧ (d.methods.map (·.name.name)).Nodup :=
  ⟨fun ⟨h1, h2, h3, h4, h5, h6, h7, h8⟩ => ⟨⟨h1, h2, h3, h4, h5, h6, by simp [bare], by simp [bare], by simp [bare], by simp [bare]⟩, h7, h8⟩,
   fun ⟨h, h7, h8⟩ => ⟨h.requirements, h.types, h.predicates, h.predicateTypes, h.tasks, h.taskTypes, h7, h8⟩⟩

theorem header_rn : HeaderOk (rnDomain id d) ↔ HeaderOk d := by
  rw [header_iff, header_iff, show bare (rnDomain id d) = rnDomain id (bare d) from rfl, domainOk_rn Function.injective_id]
  simp [rnDomain, rnAction, rnMethod, rnSymbol, Function.comp_def]

theorem header_lines (h : rnDomain id d₁ = rnDomain id d₂) : HeaderOk d₁ ↔ HeaderOk d₂ := by
  rw [← header_rn, h, header_rn]

open Classical in
theorem domainOk_faults : DomainOk d ↔ HeaderOk d ∧ faults d = 0 := by
  unfold faults
  rw [Nat.add_eq_zero_iff, List.countP_eq_zero, List.countP_eq_zero]
  simp only [decide_not, Bool.not_eq_true', decide_eq_false_iff_not, not_not]
  exact ⟨fun h => ⟨⟨h.requirements, h.types, h.predicates, h.predicateTypes, h.tasks, h.taskTypes, h.actionNames, h.methodNames⟩,
      h.actions, h.methods⟩,
    fun ⟨⟨h1, h2, h3, h4, h5, h6, h7, h8⟩, h9, h10⟩ => ⟨h1, h2, h3, h4, h5, h6, h7, h9, h8, h10⟩⟩

theorem repairs_count {n : Nat} (h : Repairs d n d₁) : faults d₁ + n = faults d ∧ (HeaderOk d₁ ↔ HeaderOk d) := by
  induction h with
  | none h => exact ⟨faults_lines h, header_lines h⟩
  | more _ h1 h2 ih =>
    have := faults_repair h1
    have := faults_lines h2
    exact ⟨by omega, (header_lines h2).trans ((header_repair h1).trans ih.2)⟩

/-! ### The first fault -/

theorem firstFinding_forEach_named {α : Type} {kp : α → Name × Nat} {mk : DupErr → SemErr} {cs : α → List Check} {x : Finding} :
    ∀ (l before : List α), ((before ++ l).map fun a => (kp a).1).Nodup →
      FirstFinding (forEach (fun b a => nameAgain mk kp b a :: cs a) before l) x →
      ∃ as a bs, l = as ++ a :: bs ∧ (∀ b ∈ as, ∀ c ∈ cs b, Passes c) ∧ FirstFinding (cs a) x
  | [], _, _, h => absurd h not_firstFinding_nil
  | a :: l, before, hn, h => by
    rw [forEach, List.cons_append, firstFinding_cons] at h
    have hp : Passes (nameAgain mk kp before a) := by
      rintro x ⟨b, hb, e, _⟩
      rw [List.map_append, List.nodup_append] at hn
      exact hn.2.2 _ (List.mem_map_of_mem hb) _ (List.mem_map_of_mem List.mem_cons_self) e
    rcases h with h | ⟨_, h⟩
    · exact absurd h (hp x)
    · rcases firstFinding_append.1 h with h | ⟨h1, h⟩
      · exact ⟨[], a, l, rfl, by simp, h⟩
      · obtain ⟨as, b, bs, rfl, h2, h3⟩ := firstFinding_forEach_named l (before ++ [a]) (by simpa using hn) h
        exact ⟨a :: as, b, bs, rfl, by simpa using ⟨h1, h2⟩, h3⟩

theorem forEach_append {α : Type} (f : List α → α → List Check) : ∀ (as bs before : List α),
    forEach f before (as ++ bs) = forEach f before as ++ forEach f (before ++ as) bs
  | [], bs, before => by simp [forEach]
  | a :: as, bs, before => by simp [forEach, forEach_append f as bs]

/-- What is checked before the actions. -/
def headerChecks (d : DomainAST) : List Check :=
  forEach (fun b r => [reqAgain b r]) [] d.requirements ++ (typeCycle d ::
  (forEach (fun b p => nameAgain .dupPredicate (fun p : Predicate => (p.name, p.pos)) b p :: p.vars.map (typeUnknown d)) []
    d.predicates ++
  forEach (fun b t => nameAgain .dupTask (fun t : Task => (t.name, t.pos)) b t :: t.params.map (typeUnknown d)) [] d.tasks))

def allActionChecks (d : DomainAST) (before as : List Action) : List Check :=
  forEach (fun b a => nameAgain .dupAction (fun a : Action => (a.name, a.pos)) b a :: actionChecks d a) before as

def allMethodChecks (d : DomainAST) (before ms : List Method) : List Check :=
  forEach (fun b m => nameAgain .dupMethod (fun m : Method => symLine m.name) b m :: methodChecks d m) before ms

theorem domainChecks_parts : domainChecks d = headerChecks d ++ (allActionChecks d [] d.actions ++ allMethodChecks d [] d.methods) := by
  simp [domainChecks, headerChecks, allActionChecks, allMethodChecks]

theorem actionOk_passes (hn : (d.predicates.map (·.name)).Nodup) {a : Action} (hl : Located a.params) :
    ActionOk d a ↔ ∀ c ∈ actionChecks d a, Passes c := by
  rw [← checkAction_ok d hn, ← (checkAction_meets hn hl).ok]
  exact ⟨fun h => ⟨(), h⟩, fun ⟨_, h⟩ => h⟩

theorem methodOk_passes (ord : HashOrd) (hn : (d.predicates.map (·.name)).Nodup) (ha : (d.actions.map (·.name)).Nodup)
    (ht : (d.tasks.map (·.name)).Nodup) {m : Method} (hl : Located m.params) (ho : OrderLocated m.tn) :
    MethodOk d m ↔ ∀ c ∈ methodChecks d m, Passes c := by
  rw [← checkMethod_ok d ord hn ha ht, ← (checkMethod_meets (ord := ord) hn ha ht hl ho).ok]
  exact ⟨fun h => ⟨(), h⟩, fun ⟨_, h⟩ => h⟩

/-! ### What comes after the first fault -/

theorem located_rn {l : List Symbol} : Located (l.map (rnSymbol id)) ↔ Located l := by
  unfold Located
  simp [rnSymbol]

theorem positioned_rn : Positioned (rnDomain id d) ↔ Positioned d := by
  constructor
  · intro h
    refine ⟨fun l hl => ?_, fun m hm os ho hn => ?_⟩
    · cases hl with
      | predicate hq => exact located_rn.1 (h.params _ (ParamsOf.predicate (d := rnDomain id d) (List.mem_map_of_mem (f := rnPredicate id) hq) :))
      | task hq => exact located_rn.1 (h.params _ (ParamsOf.task (d := rnDomain id d) (List.mem_map_of_mem (f := rnTask id) hq) :))
      | action hq => exact located_rn.1 (h.params _ (ParamsOf.action (d := rnDomain id d) (List.mem_map_of_mem (f := rnAction id) hq) :))
      | method hq => exact located_rn.1 (h.params _ (ParamsOf.method (d := rnDomain id d) (List.mem_map_of_mem (f := rnMethod id) hq) :))
    · have := h.orderings _ (List.mem_map_of_mem (f := rnMethod id) hm) (os.map (Prod.map id id)) (by simp [rnMethod, rnHtn, ho, rnOrdering]) (by simpa using hn)
      simpa [rnMethod, rnHtn] using this
  · intro h
    refine ⟨fun l hl => ?_, fun m hm os ho hn => ?_⟩
    · cases hl with
      | predicate hq => obtain ⟨q, hq', rfl⟩ := List.mem_map.1 hq; exact located_rn.2 (h.params _ (.predicate hq'))
      | task hq => obtain ⟨q, hq', rfl⟩ := List.mem_map.1 hq; exact located_rn.2 (h.params _ (.task hq'))
      | action hq => obtain ⟨q, hq', rfl⟩ := List.mem_map.1 hq; exact located_rn.2 (h.params _ (.action hq'))
      | method hq => obtain ⟨q, hq', rfl⟩ := List.mem_map.1 hq; exact located_rn.2 (h.params _ (.method hq'))
    · obtain ⟨m, hm0, rfl⟩ := List.mem_map.1 hm
      cases hm' : m.tn.orderings with
      | total => simp [rnMethod, rnHtn, hm', rnOrdering] at ho
      | partial_ ps =>
        simp only [rnMethod, rnHtn, hm', rnOrdering, Ordering.partial_.injEq] at ho
        have := h.orderings m hm0 ps hm' (by rintro rfl; exact hn ho.symm)
        simpa [rnMethod, rnHtn] using this

theorem positioned_lines (h : rnDomain id d₁ = rnDomain id d₂) : Positioned d₁ ↔ Positioned d₂ := by
  rw [← positioned_rn, h, positioned_rn]

theorem Spec.SameHeader.checks (h : SameHeader d d₁) : headerChecks d₁ = headerChecks d := by
  unfold headerChecks typeCycle typeUnknown typesOf
  rw [h.requirements, h.types, h.predicates, h.tasks]

theorem Spec.SameHeader.actionChecks (h : SameHeader d d₁) {a : Action} : Spec.actionChecks d₁ a = Spec.actionChecks d a := by
  have e : optFormulaChecks d₁ = optFormulaChecks d := by
    funext ps o
    cases o with
    | none => rfl
    | some f =>
      have e1 : pieceWrong d₁ = pieceWrong d := by
        funext o
        cases o <;> (unfold pieceWrong atomWrong; rw [h.predicates])
      have e2 : typeUnknown d₁ = typeUnknown d := by
        unfold typeUnknown typesOf
        rw [h.types]
      have e3 : atomArgs d₁ = atomArgs d := by
        unfold atomArgs argMisfit DeclaredFor typesOf constantsOf
        rw [h.types, h.constants, h.predicates]
      simp only [optFormulaChecks, formulaChecks, e1, e2, e3]
  unfold Spec.actionChecks
  rw [e]

theorem Spec.SameHeader.callee (h : SameHeader d d₁) (ha : d₁.actions = d.actions) : Callee d₁ = Callee d := by
  funext x ps
  apply propext
  constructor
  · rintro (⟨h1, h2⟩ | ⟨h1, h2, h3⟩)
    · exact .action (ha ▸ h1) h2
    · exact .task (ha ▸ h1) (h.tasks ▸ h2) h3
  · rintro (⟨h1, h2⟩ | ⟨h1, h2, h3⟩)
    · exact .action (ha ▸ h1) h2
    · exact .task (ha ▸ h1) (h.tasks ▸ h2) h3

theorem Spec.SameHeader.methodChecks (h : SameHeader d d₁) (ha : d₁.actions = d.actions) {m : Method} :
    Spec.methodChecks d₁ m = Spec.methodChecks d m := by
  have e1 : Spec.actionChecks d₁ ⟨m.name.name, 0, m.params, m.pre, none⟩ = Spec.actionChecks d ⟨m.name.name, 0, m.params, m.pre, none⟩ :=
    h.actionChecks
  have e2 : optFormulaChecks d₁ m.params m.pre = optFormulaChecks d m.params m.pre := by
    simpa [Spec.actionChecks, optFormulaChecks] using e1
  have e3 : subtaskChecks d₁ = subtaskChecks d := by
    unfold subtaskChecks argMisfit calleeWrong typesOf constantsOf
    rw [h.callee ha, h.types, h.constants]
  have e4 : methodTaskWrong d₁ = methodTaskWrong d := by
    unfold methodTaskWrong
    rw [h.tasks]
  unfold Spec.methodChecks
  rw [e2, e3, e4]
  unfold argMisfit typesOf constantsOf
  rw [h.types, h.constants, h.tasks]

/-- If one of the first actions is faulty, then only what stands before is looked at. -/
theorem actions_prefix (hp : Positioned d) {as bs : List Action} (e : d.actions = as ++ bs) {a : Action} (ha : a ∈ as)
    (hf : ¬ ActionOk d a) {x : Finding} :
    FirstFinding (domainChecks d) x ↔ FirstFinding (headerChecks d ++ allActionChecks d [] as) x := by
  have hn : ¬ ∀ c ∈ headerChecks d ++ allActionChecks d [] as, Passes c := by
    intro h
    obtain ⟨h1, h2⟩ := passes_split h
    have hpn : (d.predicates.map (·.name)).Nodup :=
      forEach_nodup_nil (kp := fun p : Predicate => (p.name, p.pos)) (mk := .dupPredicate) (cs := fun p => p.vars.map (typeUnknown d))
        fun c hc => h1 c (by unfold headerChecks; simp [hc])
    refine hf ((actionOk_passes hpn (hp.params _ (.action (e ▸ List.mem_append_left _ ha)))).2 fun c hc => ?_)
    obtain ⟨l1, l2, rfl⟩ := List.append_of_mem ha
    refine h2 c ?_
    unfold allActionChecks
    rw [forEach_append, forEach]
    simp [hc]
  rw [domainChecks_parts, e, show allActionChecks d [] (as ++ bs) = allActionChecks d [] as ++ allActionChecks d as bs from
    forEach_append _ as bs [], List.append_assoc, ← List.append_assoc, firstFinding_append]
  exact or_iff_left fun h => hn h.1

theorem methods_prefix (ord : HashOrd) (hp : Positioned d) {as bs : List Method} (e : d.methods = as ++ bs) {m : Method} (ha : m ∈ as)
    (hf : ¬ MethodOk d m) {x : Finding} :
    FirstFinding (domainChecks d) x ↔
      FirstFinding (headerChecks d ++ (allActionChecks d [] d.actions ++ allMethodChecks d [] as)) x := by
  have hn : ¬ ∀ c ∈ headerChecks d ++ (allActionChecks d [] d.actions ++ allMethodChecks d [] as), Passes c := by
    intro h
    obtain ⟨h1, h2⟩ := passes_split h
    obtain ⟨h2, h3⟩ := passes_split h2
    have hpn : (d.predicates.map (·.name)).Nodup :=
      forEach_nodup_nil (kp := fun p : Predicate => (p.name, p.pos)) (mk := .dupPredicate) (cs := fun p => p.vars.map (typeUnknown d))
        fun c hc => h1 c (by unfold headerChecks; simp [hc])
    have htn : (d.tasks.map (·.name)).Nodup :=
      forEach_nodup_nil (kp := fun p : Task => (p.name, p.pos)) (mk := .dupTask) (cs := fun p => p.params.map (typeUnknown d))
        fun c hc => h1 c (by unfold headerChecks; simp [hc])
    have han : (d.actions.map (·.name)).Nodup :=
      forEach_nodup_nil (kp := fun p : Action => (p.name, p.pos)) (mk := .dupAction) (cs := Spec.actionChecks d) h2
    have hm : m ∈ d.methods := e ▸ List.mem_append_left _ ha
    refine hf ((methodOk_passes ord hpn han htn (hp.params _ (.method hm)) (hp.orderings m hm)).2 fun c hc => ?_)
    obtain ⟨l1, l2, rfl⟩ := List.append_of_mem ha
    refine h3 c ?_
    unfold allMethodChecks
    rw [forEach_append, forEach]
    simp [hc]
  rw [domainChecks_parts, e, show allMethodChecks d [] (as ++ bs) = allMethodChecks d [] as ++ allMethodChecks d as bs from
    forEach_append _ as bs [], ← List.append_assoc (allActionChecks d [] d.actions), ← List.append_assoc, firstFinding_append]
  exact or_iff_left fun h => hn h.1

theorem finding_header (h : HeaderOk d) (hp : Positioned d) (ord : HashOrd) {x : Finding} (hx : FirstFinding (domainChecks d) x) :
    (∃ as a bs, d.actions = as ++ a :: bs ∧ (∀ b ∈ as, ActionOk d b) ∧ ¬ ActionOk d a ∧ FirstFinding (Spec.actionChecks d a) x) ∨
    ((∀ a ∈ d.actions, ActionOk d a) ∧ ∃ as m bs, d.methods = as ++ m :: bs ∧ (∀ b ∈ as, MethodOk d b) ∧ ¬ MethodOk d m ∧
      FirstFinding (Spec.methodChecks d m) x) := by
  have hb : ∀ c ∈ headerChecks d, Passes c := by
    have hpb : Positioned (bare d) := by
      refine ⟨fun l hl => ?_, fun m hm => absurd hm (by simp [bare])⟩
      cases hl with
      | predicate hq => exact hp.params _ (.predicate hq)
      | task hq => exact hp.params _ (.task hq)
      | action hq => exact absurd hq (by simp [bare])
      | method hq => exact absurd hq (by simp [bare])
    have h1 := (checkDomain_meets (ord := ord) hpb).ok.1 ⟨(), (checkDomain_ok ord _).2 (header_iff.1 h).1⟩
    rw [domainChecks_parts, show headerChecks (bare d) = headerChecks d from rfl] at h1
    exact (passes_split h1).1
  have ok_a : ∀ a ∈ d.actions, (∀ c ∈ Spec.actionChecks d a, Passes c) → ActionOk d a := fun a ha =>
    (actionOk_passes h.predicates (hp.params _ (.action ha))).2
  have ok_m : ∀ m ∈ d.methods, (∀ c ∈ Spec.methodChecks d m, Passes c) → MethodOk d m := fun m hm =>
    (methodOk_passes ord h.predicates h.actionNames h.tasks (hp.params _ (.method hm)) (hp.orderings m hm)).2
  rw [domainChecks_parts, firstFinding_append] at hx
  rcases hx with ⟨pre, c, post, e, h1, h2⟩ | ⟨_, hx⟩
  · exact absurd h2 (hb c (e ▸ by simp) x)
  rcases firstFinding_append.1 hx with hx | ⟨h0, hx⟩
  · obtain ⟨as, a, bs, e, h1, h2⟩ := firstFinding_forEach_named d.actions [] (by simpa using h.actionNames) hx
    refine .inl ⟨as, a, bs, e, fun b hb => ok_a b (e ▸ by simp [hb]) (h1 b hb), fun ha => ?_, h2⟩
    obtain ⟨pre, c, post, e', _, h3⟩ := h2
    exact (actionOk_passes h.predicates (hp.params _ (.action (e ▸ by simp)))).1 ha c (e' ▸ by simp) x h3
  · obtain ⟨as, m, bs, e, h1, h2⟩ := firstFinding_forEach_named d.methods [] (by simpa [symLine] using h.methodNames) hx
    refine .inr ⟨fun a ha => ok_a a ha fun c hc => h0 c ?_, as, m, bs, e, fun b hb => ok_m b (e ▸ by simp [hb]) (h1 b hb),
      fun hm => ?_, h2⟩
    · obtain ⟨l1, l2, e'⟩ := List.append_of_mem ha
      unfold allActionChecks
      rw [e', forEach_append, forEach]
      simp [hc]
    · obtain ⟨pre, c, post, e', _, h3⟩ := h2
      exact (methodOk_passes ord h.predicates h.actionNames h.tasks (hp.params _ (.method (e ▸ by simp)))
        (hp.orderings m (e ▸ by simp))).1 hm c (e' ▸ by simp) x h3

end Verif
