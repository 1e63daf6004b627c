import Verif.Proofs.Reports

/-! Semantic analysis of problems: acceptance, reports, panics. -/

namespace Verif

open Spec

/-- The symbol table of a domain. -/
abbrev tableOf (ws : List Warning) (d : DomainAST) : SymbolTable :=
  ⟨ws, constantsOf d, d.predicates, d.tasks, d.actions, TypeGraph.new d.types⟩

variable {ws : List Warning} {d : DomainAST} {p : ProblemAST}

/-! ### Arguments -/

theorem checkPredArgs_step {objects : List Symbol} (ho : (objects.map (·.name)).Nodup) (x : Name) (e f : Symbol)
    (es fs : List Symbol) : checkPredArgs (tableOf ws d) objects x (e :: es) (f :: fs) =
      match findSym objects f.name with
      | some o => if (TypeGraph.new d.types).consistent o.ty e.ty then checkPredArgs (tableOf ws d) objects x es fs
          else semErr (.predArgType ⟨e.ty, f.ty, x, f.pos⟩)
      | none => match findSym (constantsOf d) f.name with
        | some c => if (TypeGraph.new d.types).consistent c.ty e.ty then checkPredArgs (tableOf ws d) objects x es fs
            else semErr (.predArgType ⟨e.ty, c.ty, x, f.pos⟩)
        | none => semErr (.undefObject ⟨f.name, f.pos⟩) := by
  rw [checkPredArgs, findParam_eq ho]
  rfl

theorem argFits_find {scope : List (List Symbol)} {v f : Symbol} :
    ArgFits (typesOf d) scope v f ↔ ∃ s, findScope scope v.name = some s ∧ Fits (typesOf d) s.ty f.ty := by
  unfold ArgFits
  constructor
  · rintro ⟨ty, h1, h2⟩
    obtain ⟨s, h3, rfl⟩ := (findScope_type _ _ _).mp h1
    exact ⟨s, h3, h2⟩
  · rintro ⟨s, h1, h2⟩
    exact ⟨s.ty, (findScope_type _ _ _).mpr ⟨s, h1, rfl⟩, h2⟩

theorem checkPredArgs_ok {objects : List Symbol} (ho : (objects.map (·.name)).Nodup) (x : Name) :
    ∀ es fs : List Symbol, es.length = fs.length →
      (checkPredArgs (tableOf ws d) objects x es fs = .ok () ↔
        ArgsFit (typesOf d) [objects, constantsOf d] fs es) := by
  intro es
  induction es with
  | nil => intro fs hl; cases fs with
    | nil => simp [checkPredArgs, ArgsFit]
    | cons => simp at hl
  | cons e es ih =>
    intro fs hl
    cases fs with
    | nil => simp at hl
    | cons f fs =>
      have ih := ih fs (by simpa using hl)
      rw [checkPredArgs_step ho]
      unfold ArgsFit at ih ⊢
      rw [List.forall₂_cons, ← ih, argFits_find]
      simp only [findScope, ← consistent_iff]
      cases findSym objects f.name with
      | some o =>
        simp only [Option.some.injEq, exists_eq_left']
        cases (TypeGraph.new d.types).consistent o.ty e.ty <;> simp
      | none =>
        cases findSym (constantsOf d) f.name with
        | some o =>
          simp only [Option.some.injEq, exists_eq_left']
          cases (TypeGraph.new d.types).consistent o.ty e.ty <;> simp
        | none => simp

theorem typeIn_one {l : List Symbol} {x : Name} {s : Symbol} (h : findSym l x = some s) : TypeIn [l] x s.ty :=
  .here (findSym_some.mp h)

theorem checkPredArgs_err {objects : List Symbol} (ho : (objects.map (·.name)).Nodup) (x : Name) {er : PErr} :
    ∀ es fs : List Symbol, checkPredArgs (tableOf ws d) objects x es fs = .err er →
      (∃ v ∈ fs, Unbound [objects, constantsOf d] v.name ∧ er = .semantic (.undefObject ⟨v.name, v.pos⟩)) ∨
      (∃ (i : Nat) (v f : Symbol) (ty : Option Name), fs[i]? = some v ∧ es[i]? = some f ∧
        TypeIn [objects] v.name ty ∧ ¬ Fits (typesOf d) ty f.ty ∧
        er = .semantic (.predArgType ⟨f.ty, v.ty, x, v.pos⟩)) ∨
      (∃ (i : Nat) (v f : Symbol) (ty : Option Name), fs[i]? = some v ∧ es[i]? = some f ∧
        (∀ o ∈ objects, o.name ≠ v.name) ∧ TypeIn [constantsOf d] v.name ty ∧ ¬ Fits (typesOf d) ty f.ty ∧
        er = .semantic (.predArgType ⟨f.ty, ty, x, v.pos⟩)) := by
  intro es
  induction es with
  | nil => intro fs h; simp [checkPredArgs] at h
  | cons e es ih =>
    intro fs h
    cases fs with
    | nil => simp [checkPredArgs] at h
    | cons f fs =>
      have lift : checkPredArgs (tableOf ws d) objects x es fs = .err er → _ := fun h => ih fs h
      have up : checkPredArgs (tableOf ws d) objects x es fs = .err er →
          (∃ v ∈ f :: fs, Unbound [objects, constantsOf d] v.name ∧ er = .semantic (.undefObject ⟨v.name, v.pos⟩)) ∨
          (∃ (i : Nat) (v g : Symbol) (ty : Option Name), (f :: fs)[i]? = some v ∧ (e :: es)[i]? = some g ∧
            TypeIn [objects] v.name ty ∧ ¬ Fits (typesOf d) ty g.ty ∧
            er = .semantic (.predArgType ⟨g.ty, v.ty, x, v.pos⟩)) ∨
          (∃ (i : Nat) (v g : Symbol) (ty : Option Name), (f :: fs)[i]? = some v ∧ (e :: es)[i]? = some g ∧
            (∀ o ∈ objects, o.name ≠ v.name) ∧ TypeIn [constantsOf d] v.name ty ∧ ¬ Fits (typesOf d) ty g.ty ∧
            er = .semantic (.predArgType ⟨g.ty, ty, x, v.pos⟩)) := by
        intro h
        rcases ih fs h with ⟨v, h1, h2⟩ | ⟨i, v, g, ty, h1, h2⟩ | ⟨i, v, g, ty, h1, h2⟩
        · exact .inl ⟨v, List.mem_cons_of_mem _ h1, h2⟩
        · exact .inr (.inl ⟨i + 1, v, g, ty, by simpa using h1, by simpa using h2⟩)
        · exact .inr (.inr ⟨i + 1, v, g, ty, by simpa using h1, by simpa using h2⟩)
      rw [checkPredArgs_step ho] at h
      cases hs : findSym objects f.name with
      | some o =>
        rw [hs] at h
        simp only at h
        split at h
        · exact up h
        · rename_i hc
          simp only [R.err.injEq] at h
          exact .inr (.inl ⟨0, f, e, o.ty, by simp, by simp, typeIn_one hs, by rw [← consistent_iff]; exact hc, h.symm⟩)
      | none =>
        rw [hs] at h
        simp only at h
        cases hc : findSym (constantsOf d) f.name with
        | some c =>
          rw [hc] at h
          simp only at h
          split at h
          · exact up h
          · rename_i hcc
            simp only [R.err.injEq] at h
            exact .inr (.inr ⟨0, f, e, c.ty, by simp, by simp, findSym_none.mp hs, typeIn_one hc,
              by rw [← consistent_iff]; exact hcc, h.symm⟩)
        | none =>
          rw [hc] at h
          simp only [R.err.injEq] at h
          refine .inl ⟨f, List.mem_cons_self .., ?_, h.symm⟩
          rw [← findScope_none]; simp [findScope, hs, hc]

theorem checkPredArgs_nopanic (st : SymbolTable) (objects : List Symbol) (x : Name) (q : Panic) :
    ∀ es fs : List Symbol, checkPredArgs st objects x es fs ≠ .panic q ∧ checkPredArgs st objects x es fs ≠ .timeout := by
  intro es
  induction es with
  | nil => intro fs; simp [checkPredArgs]
  | cons e es ih =>
    intro fs
    cases fs with
    | nil => simp [checkPredArgs]
    | cons f fs =>
      rw [checkPredArgs]
      split
      · split
        · exact ih fs
        · simp
      · split
        · split
          · exact ih fs
          · simp
        · simp

/-! ### Facts -/

theorem checkPredInst_ok (hn : (d.predicates.map (·.name)).Nodup) (ho : (p.objects.map (·.name)).Nodup)
    (a : Predicate) : checkPredInst (tableOf ws d) p.objects a = .ok () ↔ FactOk d p a := by
  unfold checkPredInst FactOk
  simp only
  cases h : d.predicates.find? (fun q => decide (q.name = a.name)) with
  | some q =>
    have hq := (find_unique hn).mp h
    simp only
    constructor
    · intro h'
      split at h'
      · cases h'
      · rename_i hl
        exact ⟨q, hq.1, hq.2, (checkPredArgs_ok ho _ _ _ (not_not.mp hl)).mp h'⟩
    · rintro ⟨q', h1, h2, h3⟩
      rw [(find_unique hn).mpr ⟨h1, h2⟩] at h; cases h
      have hl := (List.Forall₂.length_eq h3).symm
      rw [if_neg (not_not.mpr hl)]
      exact (checkPredArgs_ok ho _ _ _ hl).mpr h3
  | none =>
    simp only
    constructor
    · intro h'; cases h'
    · rintro ⟨q, hq, he, _⟩; exact absurd he (find_none.mp h q hq)

theorem checkPredInst_err (ho : (p.objects.map (·.name)).Nodup) {a : Predicate} (ha : FactOf p a) {e : PErr}
    (h : checkPredInst (tableOf ws d) p.objects a = .err e) : ∃ se, e = .semantic se ∧ ProblemReport d p se ∧
      isDup se = false := by
  unfold checkPredInst at h
  simp only at h
  cases hf : d.predicates.find? (fun q => decide (q.name = a.name)) with
  | some q =>
    have hq := List.mem_of_find?_eq_some hf
    have he : q.name = a.name := by simpa using List.find?_some hf
    rw [hf] at h
    simp only at h
    split at h
    · rename_i hl
      simp only [R.err.injEq] at h
      subst h
      exact ⟨_, rfl, .predArity ha hq he (fun h => hl h.symm), rfl⟩
    · rcases checkPredArgs_err ho _ _ _ h with ⟨v, h1, h2, rfl⟩ | ⟨i, v, f, ty, h1, h2, h3, h4, rfl⟩ |
        ⟨i, v, f, ty, h1, h2, h3, h4, h5, rfl⟩
      · exact ⟨_, rfl, .undefObject ha h1 h2, rfl⟩
      · exact ⟨_, rfl, .objectType ha hq he h1 h2 h3 h4, rfl⟩
      · exact ⟨_, rfl, .constantType ha hq he h1 h2 h3 h4 h5, rfl⟩
  | none =>
    rw [hf] at h
    simp only [R.err.injEq] at h
    subst h
    exact ⟨_, rfl, .undefPredicate ha (find_none.mp hf), rfl⟩

theorem checkPredInst_nopanic (st : SymbolTable) (objects : List Symbol) (a : Predicate) (q : Panic) :
    checkPredInst st objects a ≠ .panic q ∧ checkPredInst st objects a ≠ .timeout := by
  unfold checkPredInst
  split
  · split
    · simp
    · exact checkPredArgs_nopanic ..
  · simp

theorem checkPredInsts_ok (st : SymbolTable) (objects : List Symbol) : ∀ l : List Predicate,
    checkPredInsts st objects l = .ok () ↔ ∀ a ∈ l, checkPredInst st objects a = .ok ()
  | [] => by simp [checkPredInsts]
  | a :: l => by rw [checkPredInsts, bindU_ok, checkPredInsts_ok st objects l]; simp

theorem checkPredInsts_err (st : SymbolTable) (objects : List Symbol) {e : PErr} : ∀ l : List Predicate,
    checkPredInsts st objects l = .err e → ∃ a ∈ l, checkPredInst st objects a = .err e
  | [] => by simp [checkPredInsts]
  | a :: l => by
    intro h
    rw [checkPredInsts, bindU_err] at h
    rcases h with h | ⟨_, h⟩
    · exact ⟨a, List.mem_cons_self .., h⟩
    · obtain ⟨b, hb, h⟩ := checkPredInsts_err st objects l h
      exact ⟨b, List.mem_cons_of_mem _ hb, h⟩

theorem checkPredInsts_nopanic (st : SymbolTable) (objects : List Symbol) (q : Panic) : ∀ l : List Predicate,
    checkPredInsts st objects l ≠ .panic q ∧ checkPredInsts st objects l ≠ .timeout
  | [] => by simp [checkPredInsts]
  | a :: l => by
    have h1 := checkPredInst_nopanic st objects a
    have h2 := checkPredInsts_nopanic st objects q l
    rw [checkPredInsts]
    cases h : checkPredInst st objects a with
    | ok => exact h2
    | err => simp
    | panic x => exact absurd h (h1 x).1
    | timeout => exact absurd h (h1 q).2

/-! ### Subtasks -/

theorem checkSubtaskArgs_step {objects : List Symbol} (ho : (objects.map (·.name)).Nodup)
    (params : Option (List Symbol)) (x : Name) (e f : Symbol)
    (es fs : List Symbol) : checkSubtaskArgs (tableOf ws d) objects params x (e :: es) (f :: fs) =
      match findSym objects f.name with
      | some o => if (TypeGraph.new d.types).consistent o.ty e.ty then
            checkSubtaskArgs (tableOf ws d) objects params x es fs
          else semErr (.taskArgType ⟨e.ty, o.ty, x, f.pos⟩)
      | none => match findSym (params.getD []) f.name with
        | some c => if (TypeGraph.new d.types).consistent c.ty e.ty then
              checkSubtaskArgs (tableOf ws d) objects params x es fs
            else semErr (.taskArgType ⟨e.ty, c.ty, x, f.pos⟩)
        | none => match findSym (constantsOf d) f.name with
          | some c => if (TypeGraph.new d.types).consistent c.ty e.ty then
                checkSubtaskArgs (tableOf ws d) objects params x es fs
              else semErr (.predArgType ⟨e.ty, c.ty, x, f.pos⟩)
          | none => semErr (.undefObject ⟨f.name, f.pos⟩) := by
  rw [checkSubtaskArgs, findParam_eq ho]
  rfl

theorem checkSubtaskArgs_ok {objects : List Symbol} (ho : (objects.map (·.name)).Nodup)
    (params : Option (List Symbol)) (x : Name) :
    ∀ es fs : List Symbol, es.length = fs.length →
      (checkSubtaskArgs (tableOf ws d) objects params x es fs = .ok () ↔
        ArgsFit (typesOf d) [objects, params.getD [], constantsOf d] fs es) := by
  intro es
  induction es with
  | nil => intro fs hl; cases fs with
    | nil => simp [checkSubtaskArgs, ArgsFit]
    | cons => simp at hl
  | cons e es ih =>
    intro fs hl
    cases fs with
    | nil => simp at hl
    | cons f fs =>
      have ih := ih fs (by simpa using hl)
      rw [checkSubtaskArgs_step ho]
      unfold ArgsFit at ih ⊢
      rw [List.forall₂_cons, ← ih, argFits_find]
      simp only [findScope, ← consistent_iff]
      cases findSym objects f.name with
      | some o =>
        simp only [Option.some.injEq, exists_eq_left']
        cases (TypeGraph.new d.types).consistent o.ty e.ty <;> simp
      | none =>
        cases findSym (params.getD []) f.name with
        | some o =>
          simp only [Option.some.injEq, exists_eq_left']
          cases (TypeGraph.new d.types).consistent o.ty e.ty <;> simp
        | none =>
          cases findSym (constantsOf d) f.name with
          | some o =>
            simp only [Option.some.injEq, exists_eq_left']
            cases (TypeGraph.new d.types).consistent o.ty e.ty <;> simp
          | none => simp

/-- What is wrong with the terms of a subtask. -/
def BadTerm (d : DomainAST) (objects params : List Symbol) (x : Name) (es fs : List Symbol) (er : PErr) : Prop :=
  (∃ v ∈ fs, Unbound [objects, params, constantsOf d] v.name ∧ er = .semantic (.undefObject ⟨v.name, v.pos⟩)) ∨
  (∃ (i : Nat) (v f : Symbol) (ty : Option Name), fs[i]? = some v ∧ es[i]? = some f ∧
    TypeIn [objects, params] v.name ty ∧ ¬ Fits (typesOf d) ty f.ty ∧
    er = .semantic (.taskArgType ⟨f.ty, ty, x, v.pos⟩)) ∨
  (∃ (i : Nat) (v f : Symbol) (ty : Option Name), fs[i]? = some v ∧ es[i]? = some f ∧
    (∀ l ∈ [objects, params], ∀ o ∈ l, o.name ≠ v.name) ∧ TypeIn [constantsOf d] v.name ty ∧
    ¬ Fits (typesOf d) ty f.ty ∧ er = .semantic (.predArgType ⟨f.ty, ty, x, v.pos⟩))

theorem BadTerm.cons {objects params : List Symbol} {x : Name} {e f : Symbol} {es fs : List Symbol} {er : PErr}
    (h : BadTerm d objects params x es fs er) : BadTerm d objects params x (e :: es) (f :: fs) er := by
  rcases h with ⟨v, h1, h2⟩ | ⟨i, v, g, ty, h1, h2⟩ | ⟨i, v, g, ty, h1, h2⟩
  · exact .inl ⟨v, List.mem_cons_of_mem _ h1, h2⟩
  · exact .inr (.inl ⟨i + 1, v, g, ty, by simpa using h1, by simpa using h2⟩)
  · exact .inr (.inr ⟨i + 1, v, g, ty, by simpa using h1, by simpa using h2⟩)

theorem checkSubtaskArgs_err {objects : List Symbol} (ho : (objects.map (·.name)).Nodup)
    (params : Option (List Symbol)) (x : Name) {er : PErr} :
    ∀ es fs : List Symbol, checkSubtaskArgs (tableOf ws d) objects params x es fs = .err er →
      BadTerm d objects (params.getD []) x es fs er := by
  intro es
  induction es with
  | nil => intro fs h; simp [checkSubtaskArgs] at h
  | cons e es ih =>
    intro fs h
    cases fs with
    | nil => simp [checkSubtaskArgs] at h
    | cons f fs =>
      rw [checkSubtaskArgs_step ho] at h
      cases hs : findSym objects f.name with
      | some o =>
        rw [hs] at h
        simp only at h
        split at h
        · exact (ih fs h).cons
        · rename_i hc
          simp only [R.err.injEq] at h
          exact .inr (.inl ⟨0, f, e, o.ty, by simp, by simp, .here (findSym_some.mp hs),
            by rw [← consistent_iff]; exact hc, h.symm⟩)
      | none =>
        rw [hs] at h
        simp only at h
        cases hq : findSym (params.getD []) f.name with
        | some o =>
          rw [hq] at h
          simp only at h
          split at h
          · exact (ih fs h).cons
          · rename_i hc
            simp only [R.err.injEq] at h
            exact .inr (.inl ⟨0, f, e, o.ty, by simp, by simp,
              .outer (findSym_none.mp hs) (.here (findSym_some.mp hq)), by rw [← consistent_iff]; exact hc, h.symm⟩)
        | none =>
          rw [hq] at h
          simp only at h
          cases hc : findSym (constantsOf d) f.name with
          | some c =>
            rw [hc] at h
            simp only at h
            split at h
            · exact (ih fs h).cons
            · rename_i hcc
              simp only [R.err.injEq] at h
              refine .inr (.inr ⟨0, f, e, c.ty, by simp, by simp, ?_, typeIn_one hc,
                by rw [← consistent_iff]; exact hcc, h.symm⟩)
              intro l hl
              simp only [List.mem_cons, List.not_mem_nil, or_false] at hl
              rcases hl with rfl | rfl
              · exact findSym_none.mp hs
              · exact findSym_none.mp hq
          | none =>
            rw [hc] at h
            simp only [R.err.injEq] at h
            refine .inl ⟨f, List.mem_cons_self .., ?_, h.symm⟩
            rw [← findScope_none]; simp [findScope, hs, hc, hq]

theorem checkSubtaskArgs_nopanic (st : SymbolTable) (objects : List Symbol) (params : Option (List Symbol)) (x : Name)
    (q : Panic) : ∀ es fs : List Symbol, checkSubtaskArgs st objects params x es fs ≠ .panic q ∧
      checkSubtaskArgs st objects params x es fs ≠ .timeout := by
  intro es
  induction es with
  | nil => intro fs; simp [checkSubtaskArgs]
  | cons e es ih =>
    intro fs
    cases fs with
    | nil => simp [checkSubtaskArgs]
    | cons f fs =>
      rw [checkSubtaskArgs]
      split
      · split
        · exact ih fs
        · simp
      · split
        · split
          · exact ih fs
          · simp
        · split
          · split
            · exact ih fs
            · simp
          · simp

/-- The check of a call, once the declaration is known. -/
theorem checkSubtaskInst_callee (hd : DomainOk d) {objects : List Symbol} {params : Option (List Symbol)} {s : Subtask}
    {ps : List Symbol} (h : Callee d s.task.name ps) : checkSubtaskInst (tableOf ws d) objects params s =
      if ps.length ≠ s.terms.length then semErr (.taskArity ⟨s.task.name, ps.length, s.terms.length, s.task.pos⟩)
      else checkSubtaskArgs (tableOf ws d) objects params s.task.name ps s.terms := by
  unfold checkSubtaskInst
  rcases (callee_iff hd.actionNames hd.tasks).mp h with ⟨a, h1, rfl⟩ | ⟨h1, t, h2, rfl⟩
  · simp only [h1]
  · simp only [h1, h2]

theorem checkSubtaskInst_none (hd : DomainOk d) {objects : List Symbol} {params : Option (List Symbol)} {s : Subtask}
    (h : ∀ ps, ¬ Callee d s.task.name ps) : checkSubtaskInst (tableOf ws d) objects params s =
      semErr (.undefSubtask ⟨s.task.name, s.task.pos⟩) := by
  unfold checkSubtaskInst
  simp only
  cases h1 : d.actions.find? (fun a => decide (a.name = s.task.name)) with
  | some a => exact absurd ((callee_iff hd.actionNames hd.tasks).mpr (.inl ⟨a, h1, rfl⟩)) (h _)
  | none =>
    cases h2 : d.tasks.find? (fun a => decide (a.name = s.task.name)) with
    | some t => exact absurd ((callee_iff hd.actionNames hd.tasks).mpr (.inr ⟨h1, t, h2, rfl⟩)) (h _)
    | none => rfl

theorem callee_det (hd : DomainOk d) {x : Name} {ps qs : List Symbol} (h : Callee d x ps) (h' : Callee d x qs) :
    ps = qs := by
  rcases (callee_iff hd.actionNames hd.tasks).mp h with ⟨a, h1, rfl⟩ | ⟨h1, t, h2, rfl⟩
  · rcases (callee_iff hd.actionNames hd.tasks).mp h' with ⟨b, h3, rfl⟩ | ⟨h3, _⟩
    · rw [h1] at h3; cases h3; rfl
    · rw [h1] at h3; cases h3
  · rcases (callee_iff hd.actionNames hd.tasks).mp h' with ⟨b, h3, rfl⟩ | ⟨_, u, h3, rfl⟩
    · rw [h1] at h3; cases h3
    · rw [h2] at h3; cases h3; rfl

theorem checkSubtaskInst_ok (hd : DomainOk d) {objects : List Symbol} (ho : (objects.map (·.name)).Nodup)
    (params : Option (List Symbol)) (s : Subtask) :
    checkSubtaskInst (tableOf ws d) objects params s = .ok () ↔
      ∃ ps, Callee d s.task.name ps ∧ ArgsFit (typesOf d) [objects, params.getD [], constantsOf d] s.terms ps := by
  by_cases hc : ∃ ps, Callee d s.task.name ps
  · obtain ⟨ps, hc⟩ := hc
    rw [checkSubtaskInst_callee hd hc]
    constructor
    · intro h
      split at h
      · cases h
      · rename_i hl
        exact ⟨ps, hc, (checkSubtaskArgs_ok ho _ _ _ _ (not_not.mp hl)).mp h⟩
    · rintro ⟨qs, h1, h2⟩
      cases callee_det hd hc h1
      have hl := (List.Forall₂.length_eq h2).symm
      rw [if_neg (not_not.mpr hl)]
      exact (checkSubtaskArgs_ok ho _ _ _ _ hl).mpr h2
  · rw [checkSubtaskInst_none hd (fun ps h => hc ⟨ps, h⟩)]
    constructor
    · intro h; cases h
    · rintro ⟨ps, h, _⟩; exact absurd ⟨ps, h⟩ hc

theorem checkSubtaskInst_err (hd : DomainOk d) (ho : (p.objects.map (·.name)).Nodup) {h : InitTN}
    (hh : p.initTn = some h) {s : Subtask} (hs : s ∈ h.tn.subtasks) {e : PErr}
    (he : checkSubtaskInst (tableOf ws d) p.objects h.params s = .err e) :
    ∃ se, e = .semantic se ∧ ProblemReport d p se ∧ isDup se = false := by
  by_cases hc : ∃ ps, Callee d s.task.name ps
  · obtain ⟨ps, hc⟩ := hc
    rw [checkSubtaskInst_callee hd hc] at he
    split at he
    · rename_i hl
      simp only [R.err.injEq] at he
      subst he
      exact ⟨_, rfl, .taskArity hh hs hc (fun h => hl h.symm), rfl⟩
    · rcases checkSubtaskArgs_err ho _ _ _ _ he with ⟨v, h1, h2, rfl⟩ | ⟨i, v, f, ty, h1, h2, h3, h4, rfl⟩ |
        ⟨i, v, f, ty, h1, h2, h3, h4, h5, rfl⟩
      · exact ⟨_, rfl, .undefTerm hh hs h1 h2, rfl⟩
      · exact ⟨_, rfl, .termType hh hs hc h1 h2 h3 h4, rfl⟩
      · exact ⟨_, rfl, .termConstantType hh hs hc h1 h2 h3 h4 h5, rfl⟩
  · rw [checkSubtaskInst_none hd (fun ps h => hc ⟨ps, h⟩)] at he
    simp only [R.err.injEq] at he
    subst he
    exact ⟨_, rfl, .undefSubtask hh hs (fun ps h => hc ⟨ps, h⟩), rfl⟩

theorem checkSubtaskInst_nopanic (st : SymbolTable) (objects : List Symbol) (params : Option (List Symbol))
    (s : Subtask) (q : Panic) :
    checkSubtaskInst st objects params s ≠ .panic q ∧ checkSubtaskInst st objects params s ≠ .timeout := by
  unfold checkSubtaskInst
  split
  · split
    · simp
    · exact checkSubtaskArgs_nopanic ..
  · split
    · split
      · simp
      · exact checkSubtaskArgs_nopanic ..
    · simp

theorem checkSubtaskInsts_ok (st : SymbolTable) (objects : List Symbol) (params : Option (List Symbol)) :
    ∀ l : List Subtask, checkSubtaskInsts st objects params l = .ok () ↔
      ∀ a ∈ l, checkSubtaskInst st objects params a = .ok ()
  | [] => by simp [checkSubtaskInsts]
  | a :: l => by rw [checkSubtaskInsts, bindU_ok, checkSubtaskInsts_ok st objects params l]; simp

theorem checkSubtaskInsts_err (st : SymbolTable) (objects : List Symbol) (params : Option (List Symbol)) {e : PErr} :
    ∀ l : List Subtask, checkSubtaskInsts st objects params l = .err e →
      ∃ a ∈ l, checkSubtaskInst st objects params a = .err e
  | [] => by simp [checkSubtaskInsts]
  | a :: l => by
    intro h
    rw [checkSubtaskInsts, bindU_err] at h
    rcases h with h | ⟨_, h⟩
    · exact ⟨a, List.mem_cons_self .., h⟩
    · obtain ⟨b, hb, h⟩ := checkSubtaskInsts_err st objects params l h
      exact ⟨b, List.mem_cons_of_mem _ hb, h⟩

theorem checkSubtaskInsts_nopanic (st : SymbolTable) (objects : List Symbol) (params : Option (List Symbol))
    (q : Panic) : ∀ l : List Subtask,
    checkSubtaskInsts st objects params l ≠ .panic q ∧ checkSubtaskInsts st objects params l ≠ .timeout
  | [] => by simp [checkSubtaskInsts]
  | a :: l => by
    have h1 := checkSubtaskInst_nopanic st objects params a
    have h2 := checkSubtaskInsts_nopanic st objects params q l
    rw [checkSubtaskInsts]
    cases h : checkSubtaskInst st objects params a with
    | ok => exact h2
    | err => simp
    | panic x => exact absurd h (h1 x).1
    | timeout => exact absurd h (h1 q).2

/-! ### Problems -/

theorem checkDupObjects_ok (l : List Symbol) : checkDupObjects [] l = .ok () ↔ (l.map (·.name)).Nodup := by
  rw [checkDupObjects_scan, scanDup_ok_nil]; simp

/-- Repetitions in the two formulations. -/
theorem repeats_iff {α : Type} (kp : α → Name × Nat) (l : List α) (e : DupErr) :
    RepeatsAfter kp (fun _ => True) l e ↔ Repeats (l.map kp) e := by
  constructor
  · exact fun h => h.repeats
  · rintro ⟨a, x, b, y, c, h1, h2, h3, h4⟩
    obtain ⟨l1, l2, hl, ha, hc⟩ := List.map_eq_append_iff.mp h1
    obtain ⟨l3, l4, hl1, ha1, hb1⟩ := List.map_eq_append_iff.mp ha
    obtain ⟨x', l5, rfl, hx, hb⟩ := List.map_eq_cons_iff.mp hb1
    obtain ⟨y', l6, rfl, hy, _⟩ := List.map_eq_cons_iff.mp hc
    subst hl hl1 ha1 hx hy hb
    exact ⟨l3, x', l5, y', l6, by simp, by simpa [List.map_map, Function.comp_def] using h2, by simp, h3, h4⟩

theorem checkDupObjects_err (l : List Symbol) (e : PErr) : checkDupObjects [] l = .err e ↔
    ∃ de, e = .semantic (.dupObject de) ∧ Repeats (l.map fun s => (s.name, s.pos)) de := by
  rw [checkDupObjects_scan]
  constructor
  · intro h
    rcases scan_kind h with ⟨de, h1, h2⟩ | ⟨_, _, _, _, _, _, h⟩
    · exact ⟨de, h1, h2.repeats⟩
    · cases h
  · rintro ⟨de, rfl, h⟩
    rw [scanDup_dup _ SemErr.dupObject (by intro a b h; cases h; rfl) _ _ _ (by simp)]
    exact (RepeatsAfter.congr (by simp)).mp ((repeats_iff _ _ _).mpr h)

theorem checkDupObjects_nopanic (l : List Symbol) (q : Panic) :
    checkDupObjects [] l ≠ .panic q ∧ checkDupObjects [] l ≠ .timeout := by
  rw [checkDupObjects_scan]
  refine ⟨fun h => ?_, scanDup_timeout _ _ _ (by simp) _ _⟩
  obtain ⟨x, _, h⟩ := scanDup_panic _ _ _ _ _ h
  cases h

/-- A problem is accepted iff it is well-formed; the warnings are those of the domain. -/
theorem verifyProblem_ok (hd : DomainOk d) (ws' : List Warning) :
    verifyProblem (tableOf ws d) p = .ok ws' ↔ ProblemOk d p ∧ ws' = ws := by
  unfold verifyProblem
  simp only [bindU_ok, checkDecls_ok, checkDupObjects_ok, R.ok.injEq, checkPredInsts_ok]
  constructor
  · rintro ⟨h1, h2, h3, h4, h5, rfl⟩
    refine ⟨⟨h1, h2, fun a ha => (checkPredInst_ok hd.predicates h2 a).mp (h3 a ha), ?_, ?_⟩, rfl⟩
    · intro h hh
      rw [hh] at h4
      simp only [checkInitTn, bindU_ok, checkOrdering_ok, checkSubtaskInsts_ok] at h4
      exact ⟨h4.1, fun s hs => (checkSubtaskInst_ok hd h2 _ s).mp (h4.2 s hs)⟩
    · intro f hf a ha
      rw [hf] at h5
      simp only [checkGoal, checkPredInsts_ok, mem_propPreds] at h5
      exact (checkPredInst_ok hd.predicates h2 a).mp (h5 a ha)
  · rintro ⟨⟨h1, h2, h3, h4, h5⟩, rfl⟩
    refine ⟨h1, h2, fun a ha => (checkPredInst_ok hd.predicates h2 a).mpr (h3 a ha), ?_, ?_, rfl⟩
    · cases hh : p.initTn with
      | none => rfl
      | some h =>
        simp only [checkInitTn, bindU_ok, checkOrdering_ok, checkSubtaskInsts_ok]
        have := h4 h hh
        exact ⟨this.ordering, fun s hs => (checkSubtaskInst_ok hd h2 _ s).mpr (this.subtasks s hs)⟩
    · cases hf : p.goal with
      | none => rfl
      | some f =>
        simp only [checkGoal, checkPredInsts_ok, mem_propPreds]
        exact fun a ha => (checkPredInst_ok hd.predicates h2 a).mpr (h5 f hf a ha)

/-- Every error of a problem is true of the problem. -/
theorem verifyProblem_report (hd : DomainOk d) {e : PErr} (h : verifyProblem (tableOf ws d) p = .err e) :
    ∃ se, e = .semantic se ∧ ProblemReport d p se := by
  unfold verifyProblem at h
  rcases bindU_err.mp h with h | ⟨_, h⟩
  · obtain ⟨s, hs, t, pos, h1, h2, h3, rfl⟩ := checkDecls_err d _ e h
    exact ⟨_, rfl, .undefType hs h1 h2 h3⟩
  rcases bindU_err.mp h with h | ⟨ho, h⟩
  · obtain ⟨de, rfl, hr⟩ := (checkDupObjects_err _ _).mp h
    exact ⟨_, rfl, .dupObject hr⟩
  rw [checkDupObjects_ok] at ho
  rcases bindU_err.mp h with h | ⟨_, h⟩
  · obtain ⟨a, ha, h⟩ := checkPredInsts_err _ _ _ h
    obtain ⟨se, h1, h2, _⟩ := checkPredInst_err ho (.init ha) h
    exact ⟨se, h1, h2⟩
  rcases bindU_err.mp h with h | ⟨_, h⟩
  · cases hh : p.initTn with
    | none => rw [hh] at h; cases h
    | some t =>
      rw [hh] at h
      rcases bindU_err.mp h with h | ⟨_, h⟩
      · obtain ⟨h1, pos, h2, rfl⟩ := (checkOrdering_err _ _).mp h
        obtain ⟨x, hx⟩ := cyclic_of_not h1
        exact ⟨_, rfl, .cyclicOrdering hh hx h2⟩
      · obtain ⟨s, hs, h⟩ := checkSubtaskInsts_err _ _ _ _ h
        obtain ⟨se, h1, h2, _⟩ := checkSubtaskInst_err hd ho hh hs h
        exact ⟨se, h1, h2⟩
  rcases bindU_err.mp h with h | ⟨_, h⟩
  · cases hf : p.goal with
    | none => rw [hf] at h; cases h
    | some f =>
      rw [hf] at h
      obtain ⟨a, ha, h⟩ := checkPredInsts_err _ _ _ h
      rw [mem_propPreds] at ha
      obtain ⟨se, h1, h2, _⟩ := checkPredInst_err ho (.goal hf ha) h
      exact ⟨se, h1, h2⟩
  · cases h

/-- Object types have positions and so has the ordering of the initial task network. -/
structure PositionedP (p : ProblemAST) : Prop where
  objects : Located p.objects
  ordering : ∀ h, p.initTn = some h → ∀ os, h.tn.orderings = .partial_ os → os ≠ [] → h.tn.orderingPos.isSome

theorem verifyProblem_nopanic (st : SymbolTable) (hp : PositionedP p) (x : Panic) : verifyProblem st p ≠ .panic x := by
  unfold verifyProblem
  intro h
  rcases bindU_panic.mp h with h | ⟨_, h⟩
  · exact checkDecls_panic _ _ hp.objects x h
  rcases bindU_panic.mp h with h | ⟨ho, h⟩
  · exact (checkDupObjects_nopanic _ x).1 h
  rcases bindU_panic.mp h with h | ⟨_, h⟩
  · exact (checkPredInsts_nopanic _ _ x _).1 h
  rcases bindU_panic.mp h with h | ⟨_, h⟩
  · cases hh : p.initTn with
    | none => rw [hh] at h; cases h
    | some t =>
      rw [hh] at h
      rcases bindU_panic.mp h with h | ⟨_, h⟩
      · exact checkOrdering_panic _ (hp.ordering t hh) x h
      · exact (checkSubtaskInsts_nopanic _ _ _ x _).1 h
  rcases bindU_panic.mp h with h | ⟨_, h⟩
  · cases hf : p.goal with
    | none => rw [hf] at h; cases h
    | some f => rw [hf] at h; exact (checkPredInsts_nopanic _ _ x _).1 h
  · cases h

theorem verifyProblem_timeout (st : SymbolTable) : verifyProblem st p ≠ .timeout := by
  unfold verifyProblem
  intro h
  rcases R.bind_timeout_iff.mp h with h | ⟨_, _, h⟩
  · exact checkDecls_timeout _ _ h
  rcases R.bind_timeout_iff.mp h with h | ⟨_, _, h⟩
  · exact (checkDupObjects_nopanic _ .utf8).2 h
  rcases R.bind_timeout_iff.mp h with h | ⟨_, _, h⟩
  · exact (checkPredInsts_nopanic _ _ .utf8 _).2 h
  rcases R.bind_timeout_iff.mp h with h | ⟨_, _, h⟩
  · cases hh : p.initTn with
    | none => rw [hh] at h; cases h
    | some t =>
      rw [hh] at h
      rcases R.bind_timeout_iff.mp h with h | ⟨_, _, h⟩
      · exact checkOrdering_timeout _ h
      · exact (checkSubtaskInsts_nopanic _ _ _ .utf8 _).2 h
  rcases R.bind_timeout_iff.mp h with h | ⟨_, _, h⟩
  · cases hf : p.goal with
    | none => rw [hf] at h; cases h
    | some f => rw [hf] at h; exact (checkPredInsts_nopanic _ _ .utf8 _).2 h
  · cases h

/-- When a repeated object is reported. -/
theorem dupObject_iff (hd : DomainOk d) {e : DupErr} :
    verifyProblem (tableOf ws d) p = .err (.semantic (.dupObject e)) ↔
      TypesKnown (typesOf d) p.objects ∧ Repeats (p.objects.map fun s => (s.name, s.pos)) e := by
  unfold verifyProblem
  rw [bindU_err, checkDecls_ok, bindU_err, checkDupObjects_err]
  constructor
  · rintro (h | ⟨h1, (⟨de, h, h2⟩ | ⟨ho, h⟩)⟩)
    · obtain ⟨_, _, _, _, _, _, _, h⟩ := checkDecls_err d _ _ h; cases h
    · cases h; exact ⟨h1, h2⟩
    · exfalso
      rw [checkDupObjects_ok] at ho
      rcases bindU_err.mp h with h | ⟨_, h⟩
      · obtain ⟨a, ha, h⟩ := checkPredInsts_err _ _ _ h
        obtain ⟨se, h1, _, h2⟩ := checkPredInst_err ho (.init ha) h
        cases h1; cases h2
      rcases bindU_err.mp h with h | ⟨_, h⟩
      · cases hh : p.initTn with
        | none => rw [hh] at h; cases h
        | some t =>
          rw [hh] at h
          rcases bindU_err.mp h with h | ⟨_, h⟩
          · obtain ⟨_, _, _, h⟩ := (checkOrdering_err _ _).mp h; cases h
          · obtain ⟨s, hs, h⟩ := checkSubtaskInsts_err _ _ _ _ h
            obtain ⟨se, h1, _, h2⟩ := checkSubtaskInst_err hd ho hh hs h
            cases h1; cases h2
      rcases bindU_err.mp h with h | ⟨_, h⟩
      · cases hf : p.goal with
        | none => rw [hf] at h; cases h
        | some f =>
          rw [hf] at h
          obtain ⟨a, ha, h⟩ := checkPredInsts_err _ _ _ h
          rw [mem_propPreds] at ha
          obtain ⟨se, h1, _, h2⟩ := checkPredInst_err ho (.goal hf ha) h
          cases h1; cases h2
      · cases h
  · rintro ⟨h1, h2⟩; exact .inr ⟨h1, .inl ⟨e, rfl, h2⟩⟩

/-- When a cyclic ordering of the initial task network is reported. -/
theorem cyclicInit_iff (hd : DomainOk d) {pos : Nat} :
    verifyProblem (tableOf ws d) p = .err (.semantic (.cyclicOrdering pos)) ↔
      TypesKnown (typesOf d) p.objects ∧ (p.objects.map (·.name)).Nodup ∧ (∀ a ∈ p.initState, FactOk d p a) ∧
      ∃ h, p.initTn = some h ∧ ¬ Acyclic (Before h.tn) ∧ h.tn.orderingPos = some pos := by
  unfold verifyProblem
  rw [bindU_err, checkDecls_ok, bindU_err, checkDupObjects_err, checkDupObjects_ok, bindU_err]
  constructor
  · rintro (h | ⟨h1, (⟨de, h, h2⟩ | ⟨ho, (h | ⟨h3, h⟩)⟩)⟩)
    · obtain ⟨_, _, _, _, _, _, _, h⟩ := checkDecls_err d _ _ h; cases h
    · cases h
    · obtain ⟨a, ha, h⟩ := checkPredInsts_err _ _ _ h
      obtain ⟨se, h1, _, h2⟩ := checkPredInst_err ho (.init ha) h
      cases h1; cases h2
    · rw [checkPredInsts_ok] at h3
      refine ⟨h1, ho, fun a ha => (checkPredInst_ok hd.predicates ho a).mp (h3 a ha), ?_⟩
      rcases bindU_err.mp h with h | ⟨_, h⟩
      · cases hh : p.initTn with
        | none => rw [hh] at h; cases h
        | some t =>
          rw [hh] at h
          rcases bindU_err.mp h with h | ⟨_, h⟩
          · obtain ⟨h1, pos, h2, h⟩ := (checkOrdering_err _ _).mp h; cases h
            exact ⟨t, rfl, h1, h2⟩
          · obtain ⟨s, hs, h⟩ := checkSubtaskInsts_err _ _ _ _ h
            obtain ⟨se, h1, _, h2⟩ := checkSubtaskInst_err hd ho hh hs h
            cases h1; cases h2
      rcases bindU_err.mp h with h | ⟨_, h⟩
      · cases hf : p.goal with
        | none => rw [hf] at h; cases h
        | some f =>
          rw [hf] at h
          obtain ⟨a, ha, h⟩ := checkPredInsts_err _ _ _ h
          rw [mem_propPreds] at ha
          obtain ⟨se, h1, _, h2⟩ := checkPredInst_err ho (.goal hf ha) h
          cases h1; cases h2
      · cases h
  · rintro ⟨h1, h2, h3, h, h4, h5, h6⟩
    refine .inr ⟨h1, .inr ⟨h2, .inr ⟨?_, ?_⟩⟩⟩
    · rw [checkPredInsts_ok]; exact fun a ha => (checkPredInst_ok hd.predicates h2 a).mpr (h3 a ha)
    · rw [h4]
      simp only [checkInitTn, (checkOrdering_err _ _).mpr ⟨h5, pos, h6, rfl⟩, R.bind_err]

end Verif
