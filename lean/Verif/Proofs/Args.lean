import Verif.Proofs.Typing

/-! Atoms, formulas and calls. -/

namespace Verif

open Spec

/-! ### Arguments -/

theorem argTypes_step {params : List Symbol} (hp : (params.map (·.name)).Nodup) (constants : List Symbol) (v : Symbol)
    (vs : List Symbol) : argTypes params constants (v :: vs) =
      match findScope [params, constants] v.name with
      | some s => (argTypes params constants vs).bind fun r => .ok ((v, s.ty) :: r)
      | none => semErr (.undefParameter ⟨v.name, v.pos⟩) := by
  rw [argTypes, findParam_eq hp]
  unfold findScope
  cases findSym params v.name with
  | some s => rfl
  | none => unfold findScope; cases findSym constants v.name <;> rfl

theorem argTypes_ok {params constants : List Symbol} (hp : (params.map (·.name)).Nodup) :
    ∀ {vs : List Symbol} {r : List (Symbol × Option Name)}, argTypes params constants vs = .ok r ↔
      List.Forall₂ (fun v q => q.1 = v ∧ TypeIn [params, constants] v.name q.2) vs r := by
  intro vs
  induction vs with
  | nil => intro r; simp [argTypes, eq_comm]
  | cons v vs ih =>
    intro r
    rw [argTypes_step hp]
    cases h : findScope [params, constants] v.name with
    | none =>
      simp only
      constructor
      · intro h'; cases h'
      · intro h'
        cases h' with
        | cons hd _ => exact absurd ((findScope_none _ _).mp h) hd.2.bound
    | some s =>
      simp only [R.bind_ok_iff]
      constructor
      · rintro ⟨r', h1, h2⟩
        cases h2
        exact .cons ⟨rfl, (findScope_type _ _ _).mpr ⟨s, h, rfl⟩⟩ (ih.mp h1)
      · intro h'
        cases h' with
        | @cons _ q _ r' hd tl =>
          refine ⟨r', ih.mpr tl, ?_⟩
          obtain ⟨s', h1, h2⟩ := (findScope_type _ _ _).mp hd.2
          rw [h] at h1; cases h1
          rw [h2, ← hd.1]

theorem argTypes_err {params constants : List Symbol} (hp : (params.map (·.name)).Nodup) {e : PErr} :
    ∀ {vs : List Symbol}, argTypes params constants vs = .err e →
      ∃ v ∈ vs, Unbound [params, constants] v.name ∧ e = .semantic (.undefParameter ⟨v.name, v.pos⟩) := by
  intro vs
  induction vs with
  | nil => intro h; simp [argTypes] at h
  | cons v vs ih =>
    intro h
    rw [argTypes_step hp] at h
    cases hs : findScope [params, constants] v.name with
    | none =>
      rw [hs] at h
      simp only [R.err.injEq] at h
      exact ⟨v, List.mem_cons_self .., (findScope_none _ _).mp hs, h.symm⟩
    | some s =>
      rw [hs] at h
      simp only [R.bind_err_iff] at h
      rcases h with h | ⟨_, _, h⟩
      · obtain ⟨w, hw, h'⟩ := ih h
        exact ⟨w, List.mem_cons_of_mem _ hw, h'⟩
      · cases h

theorem argTypes_nopanic (params constants : List Symbol) : ∀ (vs : List Symbol) (p : Panic),
    argTypes params constants vs ≠ .panic p ∧ argTypes params constants vs ≠ .timeout := by
  intro vs
  induction vs with
  | nil => intro p; simp [argTypes]
  | cons v vs ih =>
    intro p
    obtain ⟨h1, h2⟩ := ih p
    rw [argTypes]
    split
    · cases h : argTypes params constants vs <;> simp_all
    · split
      · cases h : argTypes params constants vs <;> simp_all
      · simp

theorem checkArgTypes_ok (d : DomainAST) (mk : TypeErr → SemErr) {params constants : List Symbol} :
    ∀ {vs : List Symbol} {r : List (Symbol × Option Name)} {fs : List Symbol},
      List.Forall₂ (fun v q => q.1 = v ∧ TypeIn [params, constants] v.name q.2) vs r → r.length = fs.length →
      (checkArgTypes (TypeGraph.new d.types) mk r (fs.map (·.ty)) = .ok () ↔
        ArgsFit (typesOf d) [params, constants] vs fs) := by
  intro vs r fs h
  induction h generalizing fs with
  | nil => intro hl; cases fs with
    | nil => simp [checkArgTypes, ArgsFit]
    | cons => simp at hl
  | @cons v q vs r hd tl ih =>
    intro hl
    cases fs with
    | nil => simp at hl
    | cons f fs =>
      rw [List.map_cons, checkArgTypes]
      have hl' : r.length = fs.length := by simpa using hl
      unfold ArgsFit
      rw [List.forall₂_cons]
      have h1 : ArgFits (typesOf d) [params, constants] v f ↔
          (TypeGraph.new d.types).consistent q.2 f.ty = true := by
        rw [consistent_iff]
        exact ⟨fun ⟨ty, h1, h2⟩ => by rw [hd.2.det h1]; exact h2, fun h => ⟨q.2, hd.2, h⟩⟩
      rw [h1]
      have ih := ih hl'
      unfold ArgsFit at ih
      rw [← ih]
      cases (TypeGraph.new d.types).consistent q.2 f.ty <;> simp

theorem checkArgTypes_err (d : DomainAST) (mk : TypeErr → SemErr) {params constants : List Symbol} {e : PErr} :
    ∀ {vs : List Symbol} {r : List (Symbol × Option Name)} {fs : List Symbol},
      List.Forall₂ (fun v q => q.1 = v ∧ TypeIn [params, constants] v.name q.2) vs r →
      checkArgTypes (TypeGraph.new d.types) mk r (fs.map (·.ty)) = .err e →
      ∃ te, e = .semantic (mk te) ∧ Misfit (typesOf d) [params, constants] vs fs te := by
  intro vs r fs h
  induction h generalizing fs with
  | nil => intro h; simp [checkArgTypes] at h
  | @cons v q vs r hd tl ih =>
    intro h
    cases fs with
    | nil => simp [checkArgTypes] at h
    | cons f fs =>
      rw [List.map_cons, checkArgTypes] at h
      split at h
      · obtain ⟨te, h1, i, w, g, h2⟩ := ih h
        exact ⟨te, h1, i + 1, w, g, by simpa using h2⟩
      · rename_i hc
        simp only [R.err.injEq] at h
        refine ⟨_, h.symm, 0, v, f, by simp, by simp, by simp [hd.1], by simp [hd.1], rfl, hd.2, ?_⟩
        rw [← consistent_iff]; exact hc

theorem checkArgTypes_nopanic (g : TypeGraph) (mk : TypeErr → SemErr) : ∀ (r : List (Symbol × Option Name))
    (es : List (Option Name)) (p : Panic),
    checkArgTypes g mk r es ≠ .panic p ∧ checkArgTypes g mk r es ≠ .timeout := by
  intro r
  induction r with
  | nil => intro es p; simp [checkArgTypes]
  | cons q r ih =>
    intro es p
    cases es with
    | nil => simp [checkArgTypes]
    | cons e es =>
      rw [checkArgTypes]
      split
      · exact ih es p
      · simp

/-- Looking up and checking all arguments, as both checks do it. -/
def checkArgs (g : TypeGraph) (mk : TypeErr → SemErr) (arity : SemErr) (params constants args formals : List Symbol) :
    R Unit :=
  (argTypes params constants args).bind fun found =>
    if found.length ≠ formals.length then semErr arity else checkArgTypes g mk found (formals.map (·.ty))

theorem checkArgs_ok (d : DomainAST) (mk : TypeErr → SemErr) (arity : SemErr) {params : List Symbol}
    (hp : (params.map (·.name)).Nodup) (constants args formals : List Symbol) :
    checkArgs (TypeGraph.new d.types) mk arity params constants args formals = .ok () ↔
      ArgsFit (typesOf d) [params, constants] args formals := by
  unfold checkArgs
  rw [R.bind_ok_iff]
  constructor
  · rintro ⟨r, h1, h2⟩
    have h1 := (argTypes_ok hp).mp h1
    split at h2
    · cases h2
    · rename_i hl
      exact (checkArgTypes_ok d mk h1 (by simpa using hl)).mp h2
  · intro h
    have hex : ∃ r, List.Forall₂ (fun v (q : Symbol × Option Name) => q.1 = v ∧ TypeIn [params, constants] v.name q.2)
        args r := by
      clear hp mk
      unfold ArgsFit at h
      induction h with
      | nil => exact ⟨[], .nil⟩
      | cons hd _ ih =>
        obtain ⟨r, hr⟩ := ih
        obtain ⟨ty, h1, _⟩ := hd
        exact ⟨(_, ty) :: r, .cons ⟨rfl, h1⟩ hr⟩
    obtain ⟨r, hr⟩ := hex
    refine ⟨r, (argTypes_ok hp).mpr hr, ?_⟩
    have hl : r.length = formals.length := by rw [← hr.length_eq]; exact List.Forall₂.length_eq h
    rw [if_neg (by simpa using hl)]
    exact (checkArgTypes_ok d mk hr hl).mpr h

theorem checkArgs_err (d : DomainAST) (mk : TypeErr → SemErr) (arity : SemErr) {params : List Symbol}
    (hp : (params.map (·.name)).Nodup) {constants args formals : List Symbol} {e : PErr}
    (h : checkArgs (TypeGraph.new d.types) mk arity params constants args formals = .err e) :
    (∃ v ∈ args, Unbound [params, constants] v.name ∧ e = .semantic (.undefParameter ⟨v.name, v.pos⟩)) ∨
    (e = .semantic arity ∧ args.length ≠ formals.length) ∨
    (∃ te, e = .semantic (mk te) ∧ Misfit (typesOf d) [params, constants] args formals te) := by
  unfold checkArgs at h
  rw [R.bind_err_iff] at h
  rcases h with h | ⟨r, h1, h2⟩
  · exact .inl (argTypes_err hp h)
  · have h1 := (argTypes_ok hp).mp h1
    split at h2
    · rename_i hl
      simp only [R.err.injEq] at h2
      exact .inr (.inl ⟨h2.symm, by rw [h1.length_eq]; exact hl⟩)
    · exact .inr (.inr (checkArgTypes_err d mk h1 h2))

theorem checkArgs_nopanic (g : TypeGraph) (mk : TypeErr → SemErr) (arity : SemErr)
    (params constants args formals : List Symbol) (p : Panic) :
    checkArgs g mk arity params constants args formals ≠ .panic p ∧
      checkArgs g mk arity params constants args formals ≠ .timeout := by
  unfold checkArgs
  have h := argTypes_nopanic params constants args p
  cases hr : argTypes params constants args with
  | ok r =>
    rw [R.bind_ok]
    split
    · simp
    · exact checkArgTypes_nopanic g mk r _ p
  | err e => simp
  | panic p' => exact absurd hr (argTypes_nopanic params constants args p').1
  | timeout => exact absurd hr h.2

/-! ### Lookups of declarations -/

theorem find_unique {α : Type} {f : α → Name} {l : List α} (hl : (l.map f).Nodup) {x : Name} {a : α} :
    l.find? (fun y => decide (f y = x)) = some a ↔ a ∈ l ∧ f a = x := by
  constructor
  · intro h
    exact ⟨List.mem_of_find?_eq_some h, by simpa using List.find?_some h⟩
  · rintro ⟨hm, rfl⟩
    cases hf : l.find? (fun y => decide (f y = f a)) with
    | none => have := List.find?_eq_none.mp hf a hm; simp at this
    | some b =>
      have hb := List.mem_of_find?_eq_some hf
      have he : f b = f a := by simpa using List.find?_some hf
      rw [List.inj_on_of_nodup_map hl hb hm he]

theorem find_none {α : Type} {f : α → Name} {l : List α} {x : Name} :
    l.find? (fun y => decide (f y = x)) = none ↔ ∀ a ∈ l, f a ≠ x := by
  rw [List.find?_eq_none]; simp

theorem find_swap {α : Type} (f : α → Name) (l : List α) (x : Name) :
    l.find? (fun y => decide (x = f y)) = l.find? (fun y => decide (f y = x)) := by
  congr 1; funext y; simp [eq_comm]

/-! ### Atoms and formulas -/

mutual

theorem checkPredDecls_ok {ps : List Predicate} (hn : (ps.map (·.name)).Nodup) : ∀ f : Formula,
    checkPredDecls ps f = .ok () ↔ ¬ HasExists f ∧
      ∀ p, Occurs p f → ∃ q ∈ ps, q.name = p.name ∧ p.vars.length = q.vars.length
  | .empty => by
    rw [checkPredDecls]
    exact ⟨fun _ => ⟨fun h => (nomatch h), fun p h => (nomatch h)⟩, fun _ => rfl⟩
  | .atom p => by
    rw [checkPredDecls, find_swap]
    have e : (¬ HasExists (.atom p) ∧
        ∀ p', Occurs p' (.atom p) → ∃ q ∈ ps, q.name = p'.name ∧ p'.vars.length = q.vars.length) ↔
        ∃ q ∈ ps, q.name = p.name ∧ p.vars.length = q.vars.length :=
      ⟨fun h => h.2 p .atom, fun h => ⟨fun h' => (nomatch h'), fun p' h' => by cases h'; exact h⟩⟩
    rw [e]
    cases hf : ps.find? (fun q => decide (q.name = p.name)) with
    | none =>
      simp only
      refine ⟨fun h => (by cases h), ?_⟩
      rintro ⟨q, hq, he, _⟩
      exact absurd he (find_none.mp hf q hq)
    | some q =>
      have hq := (find_unique hn).mp hf
      simp only
      constructor
      · intro h
        split at h
        · rename_i hl; exact ⟨q, hq.1, hq.2, hl⟩
        · cases h
      · rintro ⟨q', h1, h2, h3⟩
        rw [(find_unique hn).mpr ⟨h1, h2⟩] at hf
        cases hf
        rw [if_pos h3]
  | .not f => by
    rw [checkPredDecls, checkPredDecls_ok hn f]
    exact ⟨fun h => ⟨fun h' => by cases h'; exact h.1 ‹_›, fun p h' => by cases h'; exact h.2 p ‹_›⟩,
      fun h => ⟨fun h' => h.1 (.not h'), fun p h' => h.2 p (.not h')⟩⟩
  | .and fs => by
    rw [checkPredDecls, checkPredDeclsList_ok hn fs]
    exact ⟨fun h => ⟨fun h' => by cases h' with | and hm h' => exact (h _ hm).1 h',
        fun p h' => by cases h' with | and hm h' => exact (h _ hm).2 p h'⟩,
      fun h f hm => ⟨fun h' => h.1 (.and hm h'), fun p h' => h.2 p (.and hm h')⟩⟩
  | .or fs => by
    rw [checkPredDecls, checkPredDeclsList_ok hn fs]
    exact ⟨fun h => ⟨fun h' => by cases h' with | or hm h' => exact (h _ hm).1 h',
        fun p h' => by cases h' with | or hm h' => exact (h _ hm).2 p h'⟩,
      fun h f hm => ⟨fun h' => h.1 (.or hm h'), fun p h' => h.2 p (.or hm h')⟩⟩
  | .xor fs => by
    rw [checkPredDecls, checkPredDeclsList_ok hn fs]
    exact ⟨fun h => ⟨fun h' => by cases h' with | xor hm h' => exact (h _ hm).1 h',
        fun p h' => by cases h' with | xor hm h' => exact (h _ hm).2 p h'⟩,
      fun h f hm => ⟨fun h' => h.1 (.xor hm h'), fun p h' => h.2 p (.xor hm h')⟩⟩
  | .forall_ vs f => by
    rw [checkPredDecls, checkPredDecls_ok hn f]
    exact ⟨fun h => ⟨fun h' => by cases h'; exact h.1 ‹_›, fun p h' => by cases h'; exact h.2 p ‹_›⟩,
      fun h => ⟨fun h' => h.1 (.forall_ h'), fun p h' => h.2 p (.forall_ h')⟩⟩
  | .equals a b => by
    rw [checkPredDecls]
    exact ⟨fun _ => ⟨fun h => (nomatch h), fun p h => (nomatch h)⟩, fun _ => rfl⟩
  | .weighted w f => by
    rw [checkPredDecls, checkPredDecls_ok hn f]
    exact ⟨fun h => ⟨fun h' => by cases h'; exact h.1 ‹_›, fun p h' => by cases h'; exact h.2 p ‹_›⟩,
      fun h => ⟨fun h' => h.1 (.weighted h'), fun p h' => h.2 p (.weighted h')⟩⟩
  | .imply _ _ => by
    rw [checkPredDecls]
    exact ⟨fun h => by simp at h, fun h => absurd .imply h.1⟩
  | .exists_ _ _ => by
    rw [checkPredDecls]
    exact ⟨fun h => by simp at h, fun h => absurd .exists_ h.1⟩

theorem checkPredDeclsList_ok {ps : List Predicate} (hn : (ps.map (·.name)).Nodup) : ∀ fs : List Formula,
    checkPredDeclsList ps fs = .ok () ↔ ∀ f ∈ fs, ¬ HasExists f ∧
      ∀ p, Occurs p f → ∃ q ∈ ps, q.name = p.name ∧ p.vars.length = q.vars.length
  | [] => by simp [checkPredDeclsList]
  | f :: fs => by
    rw [checkPredDeclsList, bindU_ok, checkPredDecls_ok hn f, checkPredDeclsList_ok hn fs]
    simp only [List.mem_cons, forall_eq_or_imp]

end

/-- What a failing check of the declarations reports. -/
def PredReport (ps : List Predicate) (occ : Predicate → Prop) (e : PErr) : Prop :=
  ∃ p, occ p ∧ ((e = .semantic (.undefPredicate ⟨p.name, p.pos⟩) ∧ ∀ q ∈ ps, q.name ≠ p.name) ∨
    ∃ q ∈ ps, q.name = p.name ∧ p.vars.length ≠ q.vars.length ∧
      e = .semantic (.predArity ⟨p.name, q.vars.length, p.vars.length, p.pos⟩))

theorem PredReport.mono {ps : List Predicate} {o o' : Predicate → Prop} {e : PErr} (h : PredReport ps o e)
    (hm : ∀ p, o p → o' p) : PredReport ps o' e :=
  let ⟨p, h1, h2⟩ := h
  ⟨p, hm p h1, h2⟩

mutual

theorem checkPredDecls_err {ps : List Predicate} {e : PErr} : ∀ f : Formula, checkPredDecls ps f = .err e →
    PredReport ps (Occurs · f) e
  | .empty => by simp [checkPredDecls]
  | .atom p => by
    intro h
    rw [checkPredDecls, find_swap] at h
    cases hf : ps.find? (fun q => decide (q.name = p.name)) with
    | none =>
      rw [hf] at h
      simp only [R.err.injEq] at h
      exact ⟨p, .atom, .inl ⟨h.symm, find_none.mp hf⟩⟩
    | some q =>
      rw [hf] at h
      simp only at h
      split at h
      · cases h
      · rename_i hl
        simp only [R.err.injEq] at h
        exact ⟨p, .atom, .inr ⟨q, List.mem_of_find?_eq_some hf, by simpa using List.find?_some hf, hl, h.symm⟩⟩
  | .not f => fun h => by
    rw [checkPredDecls] at h; exact (checkPredDecls_err f h).mono fun _ => .not
  | .and fs => fun h => by
    rw [checkPredDecls] at h
    exact (checkPredDeclsList_err fs h).mono fun _ ⟨_, hm, h⟩ => .and hm h
  | .or fs => fun h => by
    rw [checkPredDecls] at h
    exact (checkPredDeclsList_err fs h).mono fun _ ⟨_, hm, h⟩ => .or hm h
  | .xor fs => fun h => by
    rw [checkPredDecls] at h
    exact (checkPredDeclsList_err fs h).mono fun _ ⟨_, hm, h⟩ => .xor hm h
  | .forall_ vs f => fun h => by
    rw [checkPredDecls] at h; exact (checkPredDecls_err f h).mono fun _ => .forall_
  | .equals a b => by simp [checkPredDecls]
  | .weighted w f => fun h => by
    rw [checkPredDecls] at h; exact (checkPredDecls_err f h).mono fun _ => .weighted
  | .imply _ _ => by simp [checkPredDecls]
  | .exists_ _ _ => by simp [checkPredDecls]

theorem checkPredDeclsList_err {ps : List Predicate} {e : PErr} : ∀ fs : List Formula,
    checkPredDeclsList ps fs = .err e → PredReport ps (fun p => ∃ f ∈ fs, Occurs p f) e
  | [] => by simp [checkPredDeclsList]
  | f :: fs => fun h => by
    rw [checkPredDeclsList, bindU_err] at h
    rcases h with h | ⟨_, h⟩
    · exact (checkPredDecls_err f h).mono fun p hp => ⟨f, List.mem_cons_self .., hp⟩
    · exact (checkPredDeclsList_err fs h).mono fun p ⟨g, hg, hp⟩ => ⟨g, List.mem_cons_of_mem _ hg, hp⟩

end

mutual

theorem checkPredDecls_panic {ps : List Predicate} {x : Panic} : ∀ f : Formula, checkPredDecls ps f = .panic x →
    x = .existsFormula ∧ HasExists f
  | .empty => by simp [checkPredDecls]
  | .atom p => by
    intro h
    rw [checkPredDecls] at h
    split at h
    · split at h <;> cases h
    · cases h
  | .not f => fun h => by
    rw [checkPredDecls] at h; exact ⟨(checkPredDecls_panic f h).1, .not (checkPredDecls_panic f h).2⟩
  | .and fs => fun h => by
    rw [checkPredDecls] at h
    obtain ⟨h1, f, hm, h2⟩ := checkPredDeclsList_panic fs h
    exact ⟨h1, .and hm h2⟩
  | .or fs => fun h => by
    rw [checkPredDecls] at h
    obtain ⟨h1, f, hm, h2⟩ := checkPredDeclsList_panic fs h
    exact ⟨h1, .or hm h2⟩
  | .xor fs => fun h => by
    rw [checkPredDecls] at h
    obtain ⟨h1, f, hm, h2⟩ := checkPredDeclsList_panic fs h
    exact ⟨h1, .xor hm h2⟩
  | .forall_ vs f => fun h => by
    rw [checkPredDecls] at h; exact ⟨(checkPredDecls_panic f h).1, .forall_ (checkPredDecls_panic f h).2⟩
  | .equals a b => by simp [checkPredDecls]
  | .weighted w f => fun h => by
    rw [checkPredDecls] at h; exact ⟨(checkPredDecls_panic f h).1, .weighted (checkPredDecls_panic f h).2⟩
  | .imply _ _ => fun h => by
    rw [checkPredDecls] at h; cases h; exact ⟨rfl, .imply⟩
  | .exists_ _ _ => fun h => by
    rw [checkPredDecls] at h; cases h; exact ⟨rfl, .exists_⟩

theorem checkPredDeclsList_panic {ps : List Predicate} {x : Panic} : ∀ fs : List Formula,
    checkPredDeclsList ps fs = .panic x → x = .existsFormula ∧ ∃ f ∈ fs, HasExists f
  | [] => by simp [checkPredDeclsList]
  | f :: fs => fun h => by
    rw [checkPredDeclsList, bindU_panic] at h
    rcases h with h | ⟨_, h⟩
    · exact ⟨(checkPredDecls_panic f h).1, f, List.mem_cons_self .., (checkPredDecls_panic f h).2⟩
    · obtain ⟨h1, g, hm, h2⟩ := checkPredDeclsList_panic fs h
      exact ⟨h1, g, List.mem_cons_of_mem _ hm, h2⟩

end

mutual

theorem checkPredDecls_timeout {ps : List Predicate} : ∀ f : Formula, checkPredDecls ps f ≠ .timeout
  | .empty => by simp [checkPredDecls]
  | .atom p => by
    rw [checkPredDecls]
    split
    · split <;> simp
    · simp
  | .not f => by rw [checkPredDecls]; exact checkPredDecls_timeout f
  | .and fs => by rw [checkPredDecls]; exact checkPredDeclsList_timeout fs
  | .or fs => by rw [checkPredDecls]; exact checkPredDeclsList_timeout fs
  | .xor fs => by rw [checkPredDecls]; exact checkPredDeclsList_timeout fs
  | .forall_ vs f => by rw [checkPredDecls]; exact checkPredDecls_timeout f
  | .equals a b => by simp [checkPredDecls]
  | .weighted w f => by rw [checkPredDecls]; exact checkPredDecls_timeout f
  | .imply _ _ => by simp [checkPredDecls]
  | .exists_ _ _ => by simp [checkPredDecls]

theorem checkPredDeclsList_timeout {ps : List Predicate} : ∀ fs : List Formula, checkPredDeclsList ps fs ≠ .timeout
  | [] => by simp [checkPredDeclsList]
  | f :: fs => by
    rw [checkPredDeclsList]
    cases h : checkPredDecls ps f with
    | ok => exact checkPredDeclsList_timeout fs
    | timeout => exact absurd h (checkPredDecls_timeout f)
    | err => simp
    | panic => simp

end

mutual

/-- The atoms that are type checked are those outside quantifiers. -/
theorem mem_propPreds (p : Predicate) : ∀ f : Formula, p ∈ f.propPreds ↔ OccursFree p f
  | .empty => by simp only [Formula.propPreds, List.not_mem_nil, false_iff]; intro h; nomatch h
  | .atom q => by
    simp only [Formula.propPreds, List.mem_singleton]
    exact ⟨fun h => by rw [h]; exact .atom, fun h => by cases h; rfl⟩
  | .not f => by
    rw [Formula.propPreds, mem_propPreds p f]
    exact ⟨.not, fun h => by cases h; assumption⟩
  | .and fs => by
    rw [Formula.propPreds, mem_propPredsList p fs]
    exact ⟨fun ⟨_, hm, h⟩ => .and hm h, fun h => by cases h with | and hm h => exact ⟨_, hm, h⟩⟩
  | .or fs => by
    rw [Formula.propPreds, mem_propPredsList p fs]
    exact ⟨fun ⟨_, hm, h⟩ => .or hm h, fun h => by cases h with | or hm h => exact ⟨_, hm, h⟩⟩
  | .xor fs => by
    rw [Formula.propPreds, mem_propPredsList p fs]
    exact ⟨fun ⟨_, hm, h⟩ => .xor hm h, fun h => by cases h with | xor hm h => exact ⟨_, hm, h⟩⟩
  | .imply ps qs => by
    rw [Formula.propPreds, List.mem_append, mem_propPredsList p ps, mem_propPredsList p qs]
    constructor
    · rintro (⟨_, hm, h⟩ | ⟨_, hm, h⟩)
      · exact .left hm h
      · exact .right hm h
    · intro h
      cases h with
      | left hm h => exact .inl ⟨_, hm, h⟩
      | right hm h => exact .inr ⟨_, hm, h⟩
  | .weighted w f => by
    rw [Formula.propPreds, mem_propPreds p f]
    exact ⟨.weighted, fun h => by cases h; assumption⟩
  | .equals a b => by simp only [Formula.propPreds, List.not_mem_nil, false_iff]; intro h; nomatch h
  | .exists_ _ _ => by simp only [Formula.propPreds, List.not_mem_nil, false_iff]; intro h; nomatch h
  | .forall_ _ _ => by simp only [Formula.propPreds, List.not_mem_nil, false_iff]; intro h; nomatch h

theorem mem_propPredsList (p : Predicate) : ∀ fs : List Formula,
    p ∈ Formula.propPredsList fs ↔ ∃ f ∈ fs, OccursFree p f
  | [] => by simp [Formula.propPredsList]
  | f :: fs => by
    rw [Formula.propPredsList, List.mem_append, mem_propPreds p f, mem_propPredsList p fs]
    simp

end

theorem Spec.OccursFree.occurs {p : Predicate} {f : Formula} (h : OccursFree p f) : Occurs p f := by
  induction h with
  | atom => exact .atom
  | not _ ih => exact .not ih
  | and hm _ ih => exact .and hm ih
  | or hm _ ih => exact .or hm ih
  | xor hm _ ih => exact .xor hm ih
  | left hm _ ih => exact .left hm ih
  | right hm _ ih => exact .right hm ih
  | weighted _ ih => exact .weighted ih

/-! ### Atoms -/

theorem checkAtom_eq (g : TypeGraph) (params constants : List Symbol) (ps : List Predicate) (p : Predicate) :
    checkAtom g params constants ps p =
      match ps.find? fun d => d.name = p.name with
      | some q => (argTypes params constants p.vars).bind fun found =>
          if found.length ≠ q.vars.length then
            semErr (.predArity ⟨p.name, q.vars.length, found.length, p.pos⟩)
          else checkArgTypes g .predArgType found (q.vars.map (·.ty))
      | none => semErr (.undefPredicate ⟨p.name, p.pos⟩) := rfl

theorem argTypes_length {params constants : List Symbol} {vs : List Symbol} {r : List (Symbol × Option Name)}
    (h : argTypes params constants vs = .ok r) : r.length = vs.length := by
  induction vs generalizing r with
  | nil => simp [argTypes] at h; simp [← h]
  | cons v vs ih =>
    rw [argTypes] at h
    split at h
    · obtain ⟨r', h1, h2⟩ := R.bind_ok_iff.mp h
      cases h2; simp [ih h1]
    · split at h
      · obtain ⟨r', h1, h2⟩ := R.bind_ok_iff.mp h
        cases h2; simp [ih h1]
      · cases h

theorem checkAtom_args (g : TypeGraph) (params constants : List Symbol) (ps : List Predicate) (p q : Predicate)
    (h : ps.find? (fun d => decide (d.name = p.name)) = some q) :
    checkAtom g params constants ps p =
      checkArgs g .predArgType (.predArity ⟨p.name, q.vars.length, p.vars.length, p.pos⟩) params constants
        p.vars q.vars := by
  rw [checkAtom_eq, h]
  unfold checkArgs
  simp only
  cases hr : argTypes params constants p.vars with
  | ok r => simp only [R.bind_ok, argTypes_length hr]
  | err => rfl
  | panic => rfl
  | timeout => rfl

/-! ### Calls -/

theorem taskConsistent_action (g : TypeGraph) (task : Symbol) (terms params constants : List Symbol)
    (tasks : List Task) (actions : List Action) (a : Action)
    (h : actions.find? (fun a => decide (a.name = task.name)) = some a) :
    taskConsistent g task terms params constants tasks actions =
      checkArgs g .taskArgType (.taskArity ⟨task.name, a.params.length, terms.length, task.pos⟩) params constants
        terms a.params := by
  unfold taskConsistent checkArgs
  cases hr : argTypes params constants terms with
  | ok r => simp only [R.bind_ok, argTypes_length hr, h]
  | err => rfl
  | panic => rfl
  | timeout => rfl

theorem taskConsistent_task (g : TypeGraph) (task : Symbol) (terms params constants : List Symbol)
    (tasks : List Task) (actions : List Action) (t : Task)
    (h : actions.find? (fun a => decide (a.name = task.name)) = none)
    (h' : tasks.find? (fun a => decide (a.name = task.name)) = some t) :
    taskConsistent g task terms params constants tasks actions =
      checkArgs g .taskArgType (.taskArity ⟨task.name, t.params.length, terms.length, task.pos⟩) params constants
        terms t.params := by
  unfold taskConsistent checkArgs
  cases hr : argTypes params constants terms with
  | ok r => simp only [R.bind_ok, argTypes_length hr, h, h']
  | err => rfl
  | panic => rfl
  | timeout => rfl

theorem taskConsistent_undef (g : TypeGraph) (task : Symbol) (terms params constants : List Symbol)
    (tasks : List Task) (actions : List Action)
    (h : actions.find? (fun a => decide (a.name = task.name)) = none)
    (h' : tasks.find? (fun a => decide (a.name = task.name)) = none) :
    taskConsistent g task terms params constants tasks actions =
      (argTypes params constants terms).bind fun _ => semErr (.undefSubtask ⟨task.name, task.pos⟩) := by
  unfold taskConsistent
  simp only [h, h']

end Verif
