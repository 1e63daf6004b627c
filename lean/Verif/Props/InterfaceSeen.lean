import Verif.Props.Interface
import Verif.Props.Printing

/-! C90: all that matters of the interface of a domain can be found out with problem files. -/

namespace Verif

open Spec

/-! ### Problem files with one fact or one task -/

/-- What is asked about: a predicate, or a task or action. -/
inductive Ask
  | fact
  | task

/-- The types of the parameters. -/
def Ask.Types : Ask → DomainAST → Name → List (Option Name) → Prop
  | .fact => PredicateTypes
  | .task => CalleeTypes

/-- Names of objects. -/
def objName (m j : Nat) : Name := List.replicate (m + j + 1) 97

theorem objName_inj {m i j : Nat} (h : objName m i = objName m j) : i = j := by
  have := congrArg List.length h
  simp only [objName, List.length_replicate] at this
  omega

theorem objName_word (m j : Nat) : Word (objName m j) := by
  intro c hc
  rw [List.eq_of_mem_replicate hc]
  decide

def plainSym (x : Name) : Symbol := ⟨x, 0, none, none⟩

def typedSym (x : Name) (ty : Option Name) : Symbol := ⟨x, 0, ty, ty.map fun _ => 0⟩

/-- One object of each type in the list. -/
def askObjects (m : Nat) (tys : List (Option Name)) : List Symbol :=
  (List.range tys.length).map fun j => typedSym (objName m j) (tys[j]?.getD none)

/-- The objects as arguments, except that one of them may be replaced. -/
def askArg (m : Nat) (c : Option (Nat × Name)) (j : Nat) : Name :=
  match c with
  | some (i, y) => if i = j then y else objName m j
  | none => objName m j

def askArgs (m n : Nat) (c : Option (Nat × Name)) : List Symbol := (List.range n).map fun j => plainSym (askArg m c j)

def askProblem (k : Ask) (x : Name) (m : Nat) (tys : List (Option Name)) (c : Option (Nat × Name)) : ProblemAST :=
  match k with
  | .fact => ⟨[], none, [⟨x, 0, askArgs m tys.length c⟩], none, askObjects m tys⟩
  | .task => ⟨[], some ⟨none, [⟨none, plainSym x, askArgs m tys.length c⟩], none, .partial_ [], none⟩, [], none, askObjects m tys⟩

/-- The reports for such a problem. -/
structure AskReports where
  undef : SemErr
  arity : Nat → SemErr
  object : Nat → Option Name → Option Name → SemErr
  constant : Nat → Option Name → Option Name → SemErr
  unbound : Nat → SemErr

structure AskReports.Distinct (E : AskReports) : Prop where
  arity : ∀ n m, E.arity n = E.arity m → n = m
  undef : ∀ n, E.undef ≠ E.arity n
  object : ∀ i t u t' u', E.object i t u = E.object i t' u' → t = t'
  constant : ∀ i t u t' u', E.constant i t u = E.constant i t' u' → t = t' ∧ u = u'
  unbound : ∀ i t u, E.unbound i ≠ E.constant i t u
  other : ∀ u, E.undef ≠ .undefType u ∧ (∀ n, E.arity n ≠ .undefType u) ∧ (∀ i t v, E.object i t v ≠ .undefType u) ∧
    (∀ i t v, E.constant i t v ≠ .undefType u) ∧ ∀ i, E.unbound i ≠ .undefType u

/-- The checks that matter. -/
def askFirst (k : Ask) (d : DomainAST) (x : Name) (E : AskReports) (n : Nat) : Check := fun y =>
  ((∀ ts, ¬ k.Types d x ts) ∧ y = .error E.undef) ∨ ∃ ts, k.Types d x ts ∧ n ≠ ts.length ∧ y = .error (E.arity ts.length)

def askObject (k : Ask) (d : DomainAST) (x : Name) (E : AskReports) (i : Nat) (ty : Option Name) : Check := fun y =>
  ∃ ts fty, k.Types d x ts ∧ ts[i]? = some fty ∧ ¬ Fits (typesOf d) ty fty ∧ y = .error (E.object i fty ty)

def askConstant (k : Ask) (d : DomainAST) (x : Name) (E : AskReports) (i : Nat) (c : Name) : Check := fun y =>
  (Unbound [constantsOf d] c ∧ y = .error (E.unbound i)) ∨
  ∃ ts fty ty, k.Types d x ts ∧ ts[i]? = some fty ∧ ¬ Fits (typesOf d) ty fty ∧ TypeIn [constantsOf d] c ty ∧
    y = .error (E.constant i fty ty)

def askCheck (k : Ask) (d : DomainAST) (x : Name) (E : AskReports) (tys : List (Option Name)) (c : Option (Nat × Name)) (j : Nat) :
    Check :=
  match c with
  | some (i, y) => if i = j then askConstant k d x E j y else askObject k d x E j (tys[j]?.getD none)
  | none => askObject k d x E j (tys[j]?.getD none)

def askChecks (k : Ask) (d : DomainAST) (x : Name) (E : AskReports) (tys : List (Option Name)) (c : Option (Nat × Name)) : List Check :=
  askFirst k d x E tys.length :: (List.range tys.length).map (askCheck k d x E tys c)

theorem rnSymbol_id_name {s t : Symbol} (h : rnSymbol id s = t) : s.name = t.name ∧ s.ty = t.ty := by
  subst h
  simp [rnSymbol]

theorem typeIn_objects {os : List Symbol} {m : Nat} {tys : List (Option Name)} (h : os.map (rnSymbol id) = askObjects m tys) :
    (∀ j < tys.length, ∀ ty, TypeIn [os] (objName m j) ty ↔ ty = tys[j]?.getD none) ∧
    (∀ x, (∀ j, x ≠ objName m j) → Unbound [os] x) ∧ (os.map (·.name)).Nodup ∧ ∀ s ∈ os, s.ty ∈ tys := by
  have hn : os.map (fun s => (s.name, s.ty)) = (List.range tys.length).map fun j => (objName m j, tys[j]?.getD none) := by
    have := congrArg (List.map fun s : Symbol => (s.name, s.ty)) h
    simpa [askObjects, List.map_map, Function.comp_def, rnSymbol, typedSym] using this
  have hnd : (os.map (·.name)).Nodup := by
    have := congrArg (List.map Prod.fst) hn
    simp only [List.map_map, Function.comp_def] at this
    rw [this]
    exact List.nodup_range.map fun i j h => objName_inj h
  have hmem : ∀ y ty, (∃ s ∈ os, s.name = y ∧ s.ty = ty) ↔ ∃ j < tys.length, objName m j = y ∧ tys[j]?.getD none = ty := by
    intro y ty
    have h1 : (y, ty) ∈ os.map (fun s => (s.name, s.ty)) ↔ (y, ty) ∈ (List.range tys.length).map fun j => (objName m j, tys[j]?.getD none) := by
      rw [hn]
    simpa only [List.mem_map, Prod.mk.injEq, List.mem_range] using h1
  refine ⟨fun j hj ty => ?_, fun x hx => ?_, hnd, fun s hs => ?_⟩
  · obtain ⟨s, h1, h2, h3⟩ := (hmem (objName m j) (tys[j]?.getD none)).mpr ⟨j, hj, rfl, rfl⟩
    have h4 : TypeIn [os] (objName m j) (tys[j]?.getD none) := h3 ▸ .here ((firstNamed_iff hnd).mpr ⟨h1, h2⟩)
    exact ⟨fun h5 => typeIn_det h5 h4, fun h5 => h5 ▸ h4⟩
  · intro l hl s hs hsx
    rw [List.mem_singleton] at hl
    subst hl
    obtain ⟨j, _, h2, _⟩ := (hmem s.name s.ty).mp ⟨s, hs, rfl, rfl⟩
    exact hx j (hsx ▸ h2.symm)
  · obtain ⟨j, hj, _, h3⟩ := (hmem s.name s.ty).mp ⟨s, hs, rfl, rfl⟩
    rw [← h3, List.getElem?_eq_getElem hj]
    exact List.getElem_mem hj

theorem forEach_passes {l before : List Symbol} (h : ((before ++ l).map (·.name)).Nodup) :
    ∀ c ∈ forEach (fun b o => [nameAgain .dupObject symLine b o]) before l, Passes c := by
  induction l generalizing before with
  | nil => simp [forEach]
  | cons a as ih =>
    intro c hc
    rw [forEach, List.mem_append, List.mem_singleton] at hc
    rcases hc with rfl | hc
    · rintro x ⟨b, hb, he, _⟩
      rw [List.map_append, List.nodup_append] at h
      exact h.2.2 b.name (List.mem_map.mpr ⟨b, hb, rfl⟩) a.name (by simp) he
    · exact ih (by simpa using h) c hc

theorem FindAlike.skip {A B C : List Check} (h : ∀ c ∈ A, Passes c) (h1 : FindAlike B C) : FindAlike (A ++ B) C := by
  intro x
  rw [firstFinding_append, ← h1 x]
  constructor
  · rintro (h2 | ⟨_, h2⟩)
    · exact absurd h2 (passes_iff.mp h x)
    · exact h2
  · exact fun h2 => .inr ⟨h, h2⟩

theorem problem_prefix {d : DomainAST} {p : ProblemAST} {m : Nat} {tys : List (Option Name)}
    (h : p.objects.map (rnSymbol id) = askObjects m tys) (hk : ∀ t, some t ∈ tys → TypeKnown (typesOf d) t) {C : List Check}
    (hc : FindAlike (p.initState.flatMap (factChecks d p) ++ (initTnChecks d p p.initTn ++ goalChecks d p p.goal)) C) :
    FindAlike (problemChecks d p) C := by
  obtain ⟨_, _, h1, h2⟩ := typeIn_objects h
  unfold problemChecks
  refine .skip (fun c hc => ?_) (.skip (forEach_passes (by simpa using h1)) hc)
  obtain ⟨s, hs, rfl⟩ := List.mem_map.mp hc
  rintro x ⟨t, l, h3, _, h4, _⟩
  exact h4 (hk t (h3 ▸ h2 s hs))

/-- An argument: in terms of the objects and the constants. -/
theorem ask_arg {k : Ask} {d : DomainAST} {x : Name} {E : AskReports} {os : List Symbol} {m : Nat} {tys : List (Option Name)}
    {c : Option (Nat × Name)} (h : os.map (rnSymbol id) = askObjects m tys) (hc : ∀ i y, c = some (i, y) → ∀ j, y ≠ objName m j)
    {j : Nat} (hj : j < tys.length) (y : Finding) :
    ((Unbound [os, constantsOf d] (askArg m c j) ∧ y = .error (E.unbound j)) ∨
      ∃ ts fty, k.Types d x ts ∧ ts[j]? = some fty ∧ ∃ ty : Option Name, ¬ Fits (typesOf d) ty fty ∧
        ((TypeIn [os] (askArg m c j) ty ∧ y = .error (E.object j fty ty)) ∨
         (Unbound [os] (askArg m c j) ∧ TypeIn [constantsOf d] (askArg m c j) ty ∧ y = .error (E.constant j fty ty)))) ↔
      askCheck k d x E tys c j y := by
  obtain ⟨h1, h2, _, _⟩ := typeIn_objects h
  have hu : ∀ z, Unbound [os, constantsOf d] z ↔ Unbound [os] z ∧ Unbound [constantsOf d] z := by
    intro z; simp [Unbound]
  have hobj : ((Unbound [os, constantsOf d] (objName m j) ∧ y = .error (E.unbound j)) ∨
      ∃ ts fty, k.Types d x ts ∧ ts[j]? = some fty ∧ ∃ ty : Option Name, ¬ Fits (typesOf d) ty fty ∧
        ((TypeIn [os] (objName m j) ty ∧ y = .error (E.object j fty ty)) ∨
         (Unbound [os] (objName m j) ∧ TypeIn [constantsOf d] (objName m j) ty ∧ y = .error (E.constant j fty ty)))) ↔
      askObject k d x E j (tys[j]?.getD none) y := by
    have hb : ¬ Unbound [os] (objName m j) := ((h1 j hj _).mpr rfl).bound
    constructor
    · rintro (⟨h3, _⟩ | ⟨ts, fty, h3, h4, ty, h5, ⟨h6, h7⟩ | ⟨h6, _⟩⟩)
      · exact absurd ((hu _).mp h3).1 hb
      · rw [h1 j hj] at h6
        subst h6
        exact ⟨ts, fty, h3, h4, h5, h7⟩
      · exact absurd h6 hb
    · rintro ⟨ts, fty, h3, h4, h5, h6⟩
      exact .inr ⟨ts, fty, h3, h4, _, h5, .inl ⟨(h1 j hj _).mpr rfl, h6⟩⟩
  cases c with
  | none => exact hobj
  | some iy =>
    obtain ⟨i, z⟩ := iy
    by_cases hij : i = j
    · subst hij
      simp only [askArg, askCheck, if_true]
      have hz := h2 z (hc i z rfl)
      have hz' : ∀ ty, ¬ TypeIn [os] z ty := (unbound_iff_typeIn _ _).mp hz
      unfold askConstant
      rw [hu]
      constructor
      · rintro (⟨h3, h4⟩ | ⟨ts, fty, h3, h4, ty, h5, ⟨h6, _⟩ | ⟨_, h6, h7⟩⟩)
        · exact .inl ⟨h3.2, h4⟩
        · exact absurd h6 (hz' ty)
        · exact .inr ⟨ts, fty, ty, h3, h4, h5, h6, h7⟩
      · rintro (⟨h3, h4⟩ | ⟨ts, fty, ty, h3, h4, h5, h6, h7⟩)
        · exact .inl ⟨⟨hz, h3⟩, h4⟩
        · exact .inr ⟨ts, fty, h3, h4, ty, h5, .inr ⟨hz, h6, h7⟩⟩
    · simp only [askArg, askCheck, if_neg hij]
      exact hobj

def factReports (a : Predicate) (arg : Nat → Name) (n : Nat) : AskReports where
  undef := .undefPredicate ⟨a.name, a.pos⟩
  arity k := .predArity ⟨a.name, k, n, a.pos⟩
  object j t _ := .predArgType ⟨t, none, a.name, ((a.vars.map (·.pos))[j]?).getD 0⟩
  constant j t u := .predArgType ⟨t, u, a.name, ((a.vars.map (·.pos))[j]?).getD 0⟩
  unbound j := .undefObject ⟨arg j, ((a.vars.map (·.pos))[j]?).getD 0⟩

def taskReports (a : Subtask) (arg : Nat → Name) (n : Nat) : AskReports where
  undef := .undefSubtask ⟨a.task.name, a.task.pos⟩
  arity k := .taskArity ⟨a.task.name, k, n, a.task.pos⟩
  object j t u := .taskArgType ⟨t, u, a.task.name, ((a.terms.map (·.pos))[j]?).getD 0⟩
  constant j t u := .predArgType ⟨t, u, a.task.name, ((a.terms.map (·.pos))[j]?).getD 0⟩
  unbound j := .undefObject ⟨arg j, ((a.terms.map (·.pos))[j]?).getD 0⟩

/-- What is read of the file with that problem. -/
theorem ask_checks {k : Ask} {x : Name} {m : Nat} {tys : List (Option Name)} {c : Option (Nat × Name)} {p : ProblemAST}
    (hp : rnProblem id p = askProblem k x m tys c) (hc : ∀ i y, c = some (i, y) → ∀ j, y ≠ objName m j) :
    ∃ E : AskReports, E.Distinct ∧ ∀ d, (∀ t, some t ∈ tys → TypeKnown (typesOf d) t) →
      FindAlike (problemChecks d p) (askChecks k d x E tys c) := by
  have hargs : ∀ {vs : List Symbol}, vs.map (rnSymbol id) = askArgs m tys.length c → vs.length = tys.length ∧
      ∀ j, ∀ h : j < vs.length, vs[j].name = askArg m c j ∧ vs[j].ty = none := by
    intro vs hvs
    have hl := congrArg List.length hvs
    simp only [List.length_map, askArgs, List.length_range] at hl
    refine ⟨hl, fun j hj => ?_⟩
    have := congrArg (fun l => l[j]?) hvs
    simp only [askArgs, List.getElem?_map, List.getElem?_eq_getElem hj, Option.map_some,
      List.getElem?_eq_getElem (show j < (List.range tys.length).length by simpa using hl ▸ hj), List.getElem_range] at this
    exact rnSymbol_id_name (Option.some.inj this)
  have hline : ∀ {vs : List Symbol} {j : Nat} (h : j < vs.length), vs[j].pos = ((vs.map (·.pos))[j]?).getD 0 := by
    intro vs j h
    simp [h]
  cases k with
  | fact =>
    simp only [rnProblem, askProblem, ProblemAST.mk.injEq, Option.map_eq_none_iff] at hp
    obtain ⟨_, h1, h2, h3, h4⟩ := hp
    obtain ⟨a, h5, h6⟩ : ∃ a, p.initState = [a] ∧ rnPredicate id a = ⟨x, 0, askArgs m tys.length c⟩ := by
      cases hi : p.initState with
      | nil => simp [hi] at h2
      | cons a as =>
        cases as with
        | cons b bs => simp [hi] at h2
        | nil => exact ⟨a, rfl, by simpa [hi] using h2⟩
    simp only [rnPredicate, Predicate.mk.injEq, id] at h6
    obtain ⟨rfl, _, h7⟩ := h6
    obtain ⟨hl, hv⟩ := hargs h7
    refine ⟨factReports a (askArg m c) tys.length,
      ⟨by simp [factReports], by simp [factReports], by simp [factReports], by simp [factReports], by simp [factReports], by simp [factReports]⟩, fun d hk => problem_prefix h4 hk ?_⟩
    have hz : p.initState.flatMap (factChecks d p) ++ (initTnChecks d p p.initTn ++ goalChecks d p p.goal) = factChecks d p a := by
      rw [h5, h1, h3]
      simp [initTnChecks, goalChecks]
    rw [hz]
    have he : factChecks d p a = askChecks .fact d a.name (factReports a (askArg m c) tys.length) tys c := by
      unfold factChecks askChecks
      congr 1
      · funext y
        rw [atomWrong_types, hl]
        rfl
      · refine List.ext_getElem (by simp [hl]) fun j hj hj' => ?_
        simp only [List.length_map, List.length_range] at hj'
        simp only [List.getElem_map, List.getElem_zipIdx, List.getElem_range, Nat.zero_add]
        funext y
        have hj2 : j < a.vars.length := hl ▸ hj'
        rw [factArg_types, (hv j hj2).1, (hv j hj2).2, hline hj2]
        exact propext (ask_arg (k := .fact) (x := a.name) (E := factReports a (askArg m c) tys.length) h4 hc hj' y)
    rw [he]
    exact .refl _
  | task =>
    simp only [rnProblem, askProblem, ProblemAST.mk.injEq, List.map_eq_nil_iff, Option.map_eq_none_iff] at hp
    obtain ⟨_, h1, h2, h3, h4⟩ := hp
    obtain ⟨t, h5, h6⟩ := Option.map_eq_some_iff.mp h1
    simp only [rnInitTn, rnHtn, InitTN.mk.injEq, HTN.mk.injEq, Option.map_eq_none_iff] at h6
    obtain ⟨ht, h6, ho, _, _⟩ := h6
    obtain ⟨a, h8, h9⟩ : ∃ a, t.tn.subtasks = [a] ∧ rnSubtask id a = ⟨none, plainSym x, askArgs m tys.length c⟩ := by
      cases hi : t.tn.subtasks with
      | nil => simp [hi] at h6
      | cons a as =>
        cases as with
        | cons b bs => simp [hi] at h6
        | nil => exact ⟨a, rfl, by simpa [hi] using h6⟩
    simp only [rnSubtask, Subtask.mk.injEq] at h9
    obtain ⟨_, h10, h7⟩ := h9
    have hx : a.task.name = x := (rnSymbol_id_name h10).1
    subst hx
    obtain ⟨hl, hv⟩ := hargs h7
    refine ⟨taskReports a (askArg m c) tys.length,
      ⟨by simp [taskReports], by simp [taskReports], by simp +contextual [taskReports], by simp [taskReports], by simp [taskReports], by simp [taskReports]⟩, fun d hk => problem_prefix h4 hk ?_⟩
    have hz : p.initState.flatMap (factChecks d p) ++ (initTnChecks d p p.initTn ++ goalChecks d p p.goal) =
        [orderCycle t.tn] ++ initTaskChecks d p t a := by
      rw [h5, h2, h3]
      simp [initTnChecks, goalChecks, h8]
    rw [hz]
    refine .skip (fun c hc => ?_) ?_
    · rw [List.mem_singleton] at hc
      subst hc
      rintro y ⟨l, hl, _⟩
      rw [ho] at hl
      cases hl
    have he : initTaskChecks d p t a = askChecks .task d a.task.name (taskReports a (askArg m c) tys.length) tys c := by
      unfold initTaskChecks askChecks
      congr 1
      · funext y
        rw [calleeWrong_types, hl]
        rfl
      · refine List.ext_getElem (by simp [hl]) fun j hj hj' => ?_
        simp only [List.length_map, List.length_range] at hj'
        simp only [List.getElem_map, List.getElem_zipIdx, List.getElem_range, Nat.zero_add]
        funext y
        have hj2 : j < a.terms.length := hl ▸ hj'
        have hu1 : ∀ z, Unbound [p.objects, [], constantsOf d] z ↔ Unbound [p.objects, constantsOf d] z := by
          intro z; simp [Unbound]
        have hu2 : ∀ z, Unbound [p.objects, []] z ↔ Unbound [p.objects] z := by
          intro z; simp [Unbound]
        have ht2 : ∀ z ty, TypeIn [p.objects, []] z ty ↔ TypeIn [p.objects] z ty := by
          intro z ty
          rw [findScope_type, findScope_type]
          simp [findScope, findSym]
        rw [initArg_types, (hv j hj2).1, hline hj2, ht]
        simp only [Option.getD_none, hu1, hu2, ht2]
        exact propext (ask_arg (k := .task) (x := a.task.name) (E := taskReports a (askArg m c) tys.length) h4 hc hj' y)
    rw [he]
    exact .refl _

variable [Env]

omit [Env] in
theorem askProblem_lines (k : Ask) (x : Name) (m : Nat) (tys : List (Option Name)) (c : Option (Nat × Name)) :
    rnProblem id (askProblem k x m tys c) = askProblem k x m tys c := by
  have h1 : (askObjects m tys).map (rnSymbol id) = askObjects m tys := by
    simp [askObjects, rnSymbol, typedSym, Function.comp_def]
  have h2 : (askArgs m tys.length c).map (rnSymbol id) = askArgs m tys.length c := by
    simp [askArgs, rnSymbol, plainSym, Function.comp_def]
  cases k <;> simp [rnProblem, askProblem, rnPredicate, rnInitTn, rnHtn, rnSubtask, rnOrdering, h1, h2, rnSymbol, plainSym]

omit [Env] in
theorem mem_symbolToks {t : Token} : ∀ {ss : List Symbol}, t ∈ symbolToks ss →
    t = .punct .dash ∨ ∃ s ∈ ss, t = .ident s.name ∨ ∃ ty, s.ty = some ty ∧ t = .ident ty
  | [], h => by simp [symbolToks] at h
  | s :: ss, h => by
    rw [symbolToks, List.mem_cons, List.mem_append] at h
    rcases h with h | h | h
    · exact .inr ⟨s, by simp, .inl h⟩
    · cases hty : s.ty with
      | none => simp [hty] at h
      | some ty =>
        simp only [hty, List.mem_cons, List.not_mem_nil, or_false] at h
        rcases h with h | h
        · exact .inl h
        · exact .inr ⟨s, by simp, .inr ⟨ty, hty, h⟩⟩
    · rcases mem_symbolToks h with h | ⟨s', h1, h2⟩
      · exact .inl h
      · exact .inr ⟨s', by simp [h1], h2⟩

/-- There is such a file. -/
theorem ask_file (k : Ask) {x : Name} (hx : Word x) (m : Nat) {tys : List (Option Name)} (ht : ∀ t, some t ∈ tys → Word t)
    {c : Option (Nat × Name)} (hw : ∀ i y, c = some (i, y) → Word y) :
    ∃ g p, Parses g (.problem p) ∧ rnProblem id p = askProblem k x m tys c := by
  have hob : ∀ s ∈ askObjects m tys, SymbolShape s ∧ Word s.name ∧ ∀ t, s.ty = some t → Word t := by
    intro s hs
    obtain ⟨j, hj, rfl⟩ := List.mem_map.mp hs
    rw [List.mem_range] at hj
    refine ⟨by simp [SymbolShape, typedSym], objName_word m j, fun t h => ht t ?_⟩
    simp only [typedSym, List.getElem?_eq_getElem hj, Option.getD_some] at h
    exact h ▸ List.getElem_mem hj
  have har : ∀ s ∈ askArgs m tys.length c, Untyped s ∧ Word s.name := by
    intro s hs
    obtain ⟨j, hj, rfl⟩ := List.mem_map.mp hs
    refine ⟨⟨rfl, rfl⟩, ?_⟩
    simp only [plainSym, askArg]
    cases c with
    | none => exact objName_word m j
    | some iy =>
      simp only
      split
      · exact hw _ _ rfl
      · exact objName_word m j
  have hargs : ∀ t ∈ symbolToks (askArgs m tys.length c), Utterable t := by
    intro t h
    rcases mem_symbolToks h with rfl | ⟨s, h1, rfl | ⟨ty, h2, rfl⟩⟩
    · trivial
    · exact (har s h1).2
    · rw [(har s h1).1.1] at h2; cases h2
  have hobjs : ∀ s ∈ askObjects m tys, ∀ t ∈ blockToks .objects (symbolToks [s]), Utterable t := by
    intro s hs t h
    simp only [blockToks, List.mem_cons, List.mem_append, List.not_mem_nil, or_false] at h
    rcases h with rfl | rfl | h | rfl
    · trivial
    · trivial
    · rcases mem_symbolToks h with rfl | ⟨s', h1, h2⟩
      · trivial
      · rw [List.mem_singleton] at h1
        subst h1
        rcases h2 with rfl | ⟨ty, h2, rfl⟩
        · exact (hob _ hs).2.1
        · exact (hob _ hs).2.2 ty h2
    · trivial
  have hshape : ProblemShape (askProblem k x m tys c) := by
    cases k with
    | fact =>
      refine ⟨fun s hs => (hob s hs).1, fun a ha => ?_, by simp [askProblem], by simp [askProblem], by simp [askProblem]⟩
      simp only [askProblem, List.mem_singleton] at ha
      subst ha
      refine ⟨fun s hs => ?_, ?_⟩
      · obtain ⟨h1, h2⟩ := (har s hs).1
        simp [SymbolShape, h1, h2]
      · exact List.pairwise_of_forall_mem_list fun a ha b hb _ => (har b hb).1.1
    | task =>
      refine ⟨fun s hs => (hob s hs).1, by simp [askProblem], by simp [askProblem], ?_, ?_⟩
      · intro i hi ps hps
        simp only [askProblem, Option.some.injEq] at hi
        subst hi
        cases hps
      · intro i hi
        simp only [askProblem, Option.some.injEq] at hi
        subst hi
        refine ⟨fun s hs => ?_, by simp, by simp⟩
        simp only [List.mem_singleton] at hs
        subst hs
        exact ⟨by simp, ⟨rfl, rfl⟩, fun t h => (har t h).1⟩
  have hu : ∀ t ∈ problemToks false b!"p" b!"d" (askProblem k x m tys c), Utterable t := by
    have hobj' : ∀ t ∈ (askObjects m tys).flatMap (fun s => blockToks .objects (symbolToks [s])), Utterable t := by
      intro t h
      obtain ⟨s, hs, h⟩ := List.mem_flatMap.mp h
      exact hobjs s hs t h
    have hterm : ∀ t ∈ termToks (askArgs m tys.length c), Utterable t := by
      intro t h
      obtain ⟨s, hs, rfl⟩ := List.mem_map.mp h
      exact (har s hs).2
    have hp : Utterable (.ident b!"p") := by show Word _; decide
    have hd : Utterable (.ident b!"d") := by show Word _; decide
    have hx' : Utterable (.ident x) := hx
    have hpu : ∀ q, Utterable (.punct q) := fun _ => trivial
    have hkw : ∀ q, Utterable (.kw q) := fun _ => trivial
    have hop : ∀ q, Utterable (.op q) := fun _ => trivial
    simp only [blockToks] at hobj'
    cases k with
    | fact =>
      simp only [problemToks, askProblem, List.forall_mem_append, List.forall_mem_cons, List.map_nil, List.nil_append,
        List.flatMap_cons, List.flatMap_nil, List.append_nil, predToks, hp, hd, hx', blockToks, lpar, rpar, hpu, hkw,
        true_and, and_true, List.not_mem_nil, false_implies, implies_true]
      exact ⟨hobj', hargs⟩
    | task =>
      simp only [problemToks, askProblem, List.forall_mem_append, List.forall_mem_cons, List.map_nil, List.nil_append,
        List.flatMap_cons, List.flatMap_nil, List.append_nil, htnToks, andToks, subtaskToks, hp, hd, blockToks,
        plainSym, hx', lpar, rpar, hpu, hkw, hop, true_and, and_true, List.not_mem_nil, false_implies, implies_true]
      exact ⟨hobj', hterm⟩
  obtain ⟨g, p, h1, h2⟩ := C81_problem_file hshape hu
  exact ⟨g, p, h1, by rw [h2, askProblem_lines]⟩

/-! ### Asking -/

section asking

variable {d d' : DomainAST}

omit [Env] in
theorem Ask.det (hd : DomainOk d) {k : Ask} {x : Name} {ts ts' : List (Option Name)} (h : k.Types d x ts) (h' : k.Types d x ts') :
    ts = ts' := by
  cases k with
  | fact =>
    obtain ⟨q, hq, hn, rfl⟩ := h
    obtain ⟨q', hq', hn', rfl⟩ := h'
    rw [List.inj_on_of_nodup_map hd.predicates hq hq' (hn.trans hn'.symm)]
  | task =>
    obtain ⟨ps, hp, rfl⟩ := h
    obtain ⟨ps', hp', rfl⟩ := h'
    cases hp with
    | @action a ha hn =>
      cases hp' with
      | action ha' hn' => rw [List.inj_on_of_nodup_map hd.actionNames ha ha' (hn.trans hn'.symm)]
      | task hno _ _ => exact absurd hn (hno _ ha)
    | task hno ht hn =>
      cases hp' with
      | action ha hn' => exact absurd hn' (hno _ ha)
      | task _ ht' hn' => rw [List.inj_on_of_nodup_map hd.tasks ht ht' (hn.trans hn'.symm)]

omit [Env] in
/-- A finding at one argument, the others being right. -/
theorem ask_at {k : Ask} {x : Name} {E : AskReports} {tys : List (Option Name)} {c : Option (Nat × Name)} {i : Nat}
    (hi : i < tys.length) (h0 : Passes (askFirst k d x E tys.length)) {y : Finding} :
    ((∀ j < i, Passes (askCheck k d x E tys c j)) → askCheck k d x E tys c i y → FirstFinding (askChecks k d x E tys c) y) ∧
    ((∀ j < tys.length, j ≠ i → Passes (askCheck k d x E tys c j)) → FirstFinding (askChecks k d x E tys c) y →
      askCheck k d x E tys c i y) := by
  constructor
  · intro h1 h2
    refine ⟨askFirst k d x E tys.length :: (List.range i).map (askCheck k d x E tys c), askCheck k d x E tys c i,
      ((List.range' (i + 1) (tys.length - i - 1)).map (askCheck k d x E tys c)), ?_, ?_, h2⟩
    · rw [askChecks, List.cons_append, ← List.map_cons (f := askCheck k d x E tys c), ← List.map_append]
      congr 2
      rw [List.range_eq_range', List.range_eq_range', ← List.range'_succ, Nat.sub_add_cancel (by omega)]
      conv => lhs; rw [show tys.length = i + (tys.length - i) by omega]
      rw [List.range'_append_1 |>.symm]
      simp
    · intro z hz
      rw [List.mem_cons] at hz
      rcases hz with rfl | hz
      · exact h0
      · obtain ⟨j, hj, rfl⟩ := List.mem_map.mp hz
        exact h1 j (List.mem_range.mp hj)
  · rintro h1 ⟨pre, z, post, he, hp, hz⟩
    have hm : z ∈ askChecks k d x E tys c := by rw [he]; simp
    rw [askChecks, List.mem_cons] at hm
    rcases hm with rfl | hm
    · exact absurd hz (h0 y)
    · obtain ⟨j, hj, rfl⟩ := List.mem_map.mp hm
      by_cases hij : j = i
      · exact hij ▸ hz
      · exact absurd hz (h1 j (List.mem_range.mp hj) hij y)

/-- Two domains that answer all such questions alike. -/
def AnswersAlike (d d' : DomainAST) : Prop := ∀ (k : Ask) (x : Name) (tys : List (Option Name)) (c : Option (Nat × Name)), Word x →
  (∀ t, some t ∈ tys → TypeKnown (typesOf d) t ∧ TypeKnown (typesOf d') t ∧ Word t) → (∀ i y, c = some (i, y) → Word y) →
  ∃ E : AskReports, E.Distinct ∧ FindAlike (askChecks k d x E tys c) (askChecks k d' x E tys c)

omit [Env] in
theorem AnswersAlike.symm (h : AnswersAlike d d') : AnswersAlike d' d := fun k x tys c h1 h2 h3 => by
  obtain ⟨E, h4, h5⟩ := h k x tys c h1 (fun t ht => ⟨(h2 t ht).2.1, (h2 t ht).1, (h2 t ht).2.2⟩) h3
  exact ⟨E, h4, fun y => (h5 y).symm⟩

/-- Names that can be written and types that are known. -/
structure Asked (d : DomainAST) : Prop where
  ok : DomainOk d
  word : ∀ {k : Ask} {x : Name} {ts : List (Option Name)}, k.Types d x ts → Word x
  known : ∀ {k : Ask} {x : Name} {ts : List (Option Name)}, k.Types d x ts → ∀ t, some t ∈ ts → TypeKnown (typesOf d) t
  typeWord : ∀ {t}, TypeKnown (typesOf d) t → Word t
  constant : ∀ {x}, ¬ Unbound [constantsOf d] x → Word x

omit [Env] in
theorem ask_exists (ha : Asked d) (ha' : Asked d') (hs : AnswersAlike d d') {k : Ask} {x : Name} {ts : List (Option Name)}
    (h : k.Types d x ts) : ∃ ts', k.Types d' x ts' ∧ ts'.length = ts.length := by
  obtain ⟨E, hE, hf⟩ := hs k x [] none (ha.word h) (by simp) (by simp)
  have hone : ∀ y, askFirst k d x E 0 y ↔ askFirst k d' x E 0 y := by
    intro y
    have := hf y
    simpa [askChecks, firstFinding_one] using this
  have hex : ∃ ts', k.Types d' x ts' := by
    by_contra hc
    push Not at hc
    rcases (hone _).mpr (.inl ⟨hc, rfl⟩) with ⟨h1, _⟩ | ⟨ts1, _, _, h1⟩
    · exact h1 ts h
    · exact hE.undef _ (Finding.error.inj h1)
  obtain ⟨ts', h'⟩ := hex
  refine ⟨ts', h', ?_⟩
  by_cases h0 : ts.length = 0
  · by_contra hc
    rcases (hone _).mpr (.inr ⟨ts', h', by omega, rfl⟩) with ⟨h1, _⟩ | ⟨ts1, h1, h2, _⟩
    · exact h1 ts h
    · rw [Ask.det ha.ok h1 h] at h2
      omega
  · rcases (hone _).mp (.inr ⟨ts, h, by omega, rfl⟩) with ⟨h1, _⟩ | ⟨ts1, h1, h2, h3⟩
    · exact absurd h' (h1 ts')
    · rw [Ask.det ha'.ok h' h1]
      exact (hE.arity _ _ (Finding.error.inj h3)).symm

omit [Env] in
theorem askFirst_passes (hd : DomainOk d) {k : Ask} {x : Name} {ts : List (Option Name)} (h : k.Types d x ts) {E : AskReports} {n : Nat}
    (hn : n = ts.length) : Passes (askFirst k d x E n) := by
  rintro y (⟨h1, _⟩ | ⟨ts1, h1, h2, _⟩)
  · exact h1 ts h
  · rw [Ask.det hd h1 h] at h2
    exact h2 hn

omit [Env] in
theorem askObject_passes (hd : DomainOk d) {k : Ask} {x : Name} {ts : List (Option Name)} (h : k.Types d x ts) {E : AskReports} {j : Nat}
    {ty : Option Name} (hj : ts[j]? = some ty) : Passes (askObject k d x E j ty) := by
  rintro y ⟨ts1, fty, h1, h2, h3, _⟩
  rw [Ask.det hd h1 h, hj] at h2
  cases h2
  exact h3 (fits_refl _)

omit [Env] in
theorem ask_next (ha : Asked d) (ha' : Asked d') (ht : ∀ t, TypeKnown (typesOf d) t ↔ TypeKnown (typesOf d') t)
    (hs : AnswersAlike d d') {k : Ask} {x : Name} {ts ts' : List (Option Name)} (h : k.Types d x ts) (h' : k.Types d' x ts')
    (hl : ts.length = ts'.length) {i : Nat} (hb : ∀ j < i, ts[j]? = ts'[j]?) {t : Name} (hi : ts[i]? = some (some t)) :
    ts'[i]? = some (some t) := by
  have hi2 : i < ts.length := (List.getElem?_eq_some_iff.mp hi).1
  obtain ⟨E, hE, hf⟩ := hs k x (ts'.set i none) none (ha.word h) (fun u hu => by
    have hu : some u ∈ ts' := by
      rcases List.mem_or_eq_of_mem_set hu with hu | hu
      · exact hu
      · cases hu
    have := ha'.known h' u hu
    exact ⟨(ht u).mpr this, this, ha'.typeWord this⟩) (by simp)
  have hset : ∀ j, j ≠ i → ∀ (hj : j < ts'.length), ts'[j]? = some ((ts'.set i none)[j]?.getD none) := by
    intro j hj hj2
    rw [List.getElem?_set_ne (Ne.symm hj), List.getElem?_eq_getElem hj2]
    rfl
  have hat : ∀ d : DomainAST, askCheck k d x E (ts'.set i none) none i = askObject k d x E i none := by
    intro d
    simp [askCheck, show i < ts'.length by omega]
  have h1 := (ask_at (d := d) (E := E) (tys := ts'.set i none) (c := none) (i := i) (y := .error (E.object i (some t) none)) (by simp; omega)
    (askFirst_passes ha.ok h (by simp [hl]))).1 (fun j hj => askObject_passes ha.ok h
      (by rw [hb j hj]; exact hset j (by omega) (by omega)))
    (by rw [hat]; exact ⟨ts, some t, h, hi, (fun h => by cases h), rfl⟩)
  have h2 := (ask_at (d := d') (E := E) (tys := ts'.set i none) (c := none) (i := i) (y := .error (E.object i (some t) none)) (by simp; omega)
    (askFirst_passes ha'.ok h' (by simp))).2 (fun j hj hji => askObject_passes ha'.ok h'
      (hset j hji (by simpa using hj))) ((hf _).mp h1)
  rw [hat] at h2
  obtain ⟨ts1, fty, h3, h4, _, h5⟩ := h2
  rw [Ask.det ha'.ok h3 h'] at h4
  rw [h4, hE.object _ _ _ _ _ (Finding.error.inj h5)]

omit [Env] in
theorem ask_types (ha : Asked d) (ha' : Asked d') (ht : ∀ t, TypeKnown (typesOf d) t ↔ TypeKnown (typesOf d') t)
    (hs : AnswersAlike d d') {k : Ask} {x : Name} {ts : List (Option Name)} (h : k.Types d x ts) : k.Types d' x ts := by
  obtain ⟨ts', h', hl⟩ := ask_exists ha ha' hs h
  suffices he : ∀ i, ts[i]? = ts'[i]? by
    rw [List.ext_getElem? he]
    exact h'
  intro i
  induction i using Nat.strong_induction_on with
  | _ i ih =>
    by_cases hi : i < ts.length
    · cases h1 : ts[i] with
      | some t =>
        have h2 : ts[i]? = some (some t) := by rw [List.getElem?_eq_getElem hi, h1]
        rw [h2, ask_next ha ha' ht hs h h' hl.symm ih h2]
      | none =>
        have hi' : i < ts'.length := by omega
        cases h3 : ts'[i] with
        | none => rw [List.getElem?_eq_getElem hi, List.getElem?_eq_getElem hi', h1, h3]
        | some t =>
          have h2 : ts'[i]? = some (some t) := by rw [List.getElem?_eq_getElem hi', h3]
          rw [h2, ask_next ha' ha (fun t => (ht t).symm) hs.symm h' h hl (fun j hj => (ih j hj).symm) h2]
    · rw [List.getElem?_eq_none (by omega), List.getElem?_eq_none (by omega)]

omit [Env] in
theorem ask_fits (ha : Asked d) (ha' : Asked d') (ht : ∀ t, TypeKnown (typesOf d) t ↔ TypeKnown (typesOf d') t)
    (hs : AnswersAlike d d') {k : Ask} {x : Name} {ts : List (Option Name)} (h : k.Types d x ts) (h' : k.Types d' x ts) {i : Nat}
    {ft ty : Option Name} (hi : ts[i]? = some ft) (hty : ∀ t, ty = some t → TypeKnown (typesOf d) t)
    (hn : ¬ Fits (typesOf d) ty ft) : ¬ Fits (typesOf d') ty ft := by
  have hi2 : i < ts.length := (List.getElem?_eq_some_iff.mp hi).1
  obtain ⟨E, hE, hf⟩ := hs k x (ts.set i ty) none (ha.word h) (fun u hu => by
    have hu : TypeKnown (typesOf d) u := by
      rcases List.mem_or_eq_of_mem_set hu with hu | hu
      · exact ha.known h u hu
      · exact hty u hu.symm
    exact ⟨hu, (ht u).mp hu, ha.typeWord hu⟩) (by simp)
  have hset : ∀ j, j ≠ i → ∀ (hj : j < ts.length), ts[j]? = some ((ts.set i ty)[j]?.getD none) := by
    intro j hj hj2
    rw [List.getElem?_set_ne (Ne.symm hj), List.getElem?_eq_getElem hj2]
    rfl
  have hat : ∀ d : DomainAST, askCheck k d x E (ts.set i ty) none i = askObject k d x E i ty := by
    intro d
    simp [askCheck, hi2]
  have h1 := (ask_at (d := d) (E := E) (tys := ts.set i ty) (c := none) (i := i) (y := .error (E.object i ft ty)) (by simpa using hi2)
    (askFirst_passes ha.ok h (by simp))).1 (fun j hj => askObject_passes ha.ok h (hset j (by omega) (by omega)))
    (by rw [hat]; exact ⟨ts, ft, h, hi, hn, rfl⟩)
  have h2 := (ask_at (d := d') (E := E) (tys := ts.set i ty) (c := none) (i := i) (y := .error (E.object i ft ty)) (by simpa using hi2)
    (askFirst_passes ha'.ok h' (by simp))).2 (fun j hj hji => askObject_passes ha'.ok h'
      (hset j hji (by simpa using hj))) ((hf _).mp h1)
  rw [hat] at h2
  obtain ⟨ts1, fty, h3, h4, h5, _⟩ := h2
  rw [Ask.det ha'.ok h3 h', hi] at h4
  cases h4
  exact h5

omit [Env] in
theorem ask_constant (ha : Asked d) (ha' : Asked d') (ht : ∀ t, TypeKnown (typesOf d) t ↔ TypeKnown (typesOf d') t)
    (hs : AnswersAlike d d') {k : Ask} {x : Name} {ts : List (Option Name)} (h : k.Types d x ts) (h' : k.Types d' x ts) {i : Nat}
    {ft : Option Name} (hi : ts[i]? = some ft) {y : Name} (hy : Word y) :
    (Unbound [constantsOf d] y → Unbound [constantsOf d'] y) ∧
    ∀ ty, TypeIn [constantsOf d] y ty → ¬ Fits (typesOf d) ty ft →
      TypeIn [constantsOf d'] y ty ∧ ¬ Fits (typesOf d') ty ft := by
  have hi2 : i < ts.length := (List.getElem?_eq_some_iff.mp hi).1
  obtain ⟨E, hE, hf⟩ := hs k x ts (some (i, y)) (ha.word h) (fun u hu => by
    have hu := ha.known h u hu
    exact ⟨hu, (ht u).mp hu, ha.typeWord hu⟩) (fun i' y' he => by cases he; exact hy)
  have hset : ∀ j, ∀ (hj : j < ts.length), ts[j]? = some (ts[j]?.getD none) := by
    intro j hj2
    rw [List.getElem?_eq_getElem hj2]
    rfl
  have hat : ∀ d : DomainAST, askCheck k d x E ts (some (i, y)) i = askConstant k d x E i y := by
    intro d
    simp [askCheck]
  have hoth : ∀ d : DomainAST, ∀ j, j ≠ i → askCheck k d x E ts (some (i, y)) j = askObject k d x E j (ts[j]?.getD none) := by
    intro d j hj
    simp [askCheck, Ne.symm hj]
  have key : ∀ z, askConstant k d x E i y z → askConstant k d' x E i y z := by
    intro z hz
    have h1 := (ask_at (d := d) (E := E) (tys := ts) (c := some (i, y)) (i := i) (y := z) hi2
      (askFirst_passes ha.ok h rfl)).1 (fun j hj => by rw [hoth _ j (by omega)]; exact askObject_passes ha.ok h (hset j (by omega)))
      (by rw [hat]; exact hz)
    have h2 := (ask_at (d := d') (E := E) (tys := ts) (c := some (i, y)) (i := i) (y := z) hi2
      (askFirst_passes ha'.ok h' rfl)).2 (fun j hj hji => by rw [hoth _ j hji]; exact askObject_passes ha'.ok h' (hset j hj))
      ((hf _).mp h1)
    rwa [hat] at h2
  constructor
  · intro hu
    rcases key _ (.inl ⟨hu, rfl⟩) with ⟨h1, _⟩ | ⟨_, _, _, _, _, _, _, h1⟩
    · exact h1
    · exact absurd (Finding.error.inj h1) (hE.unbound _ _ _)
  · intro ty h1 h2
    rcases key _ (.inr ⟨ts, ft, ty, h, hi, h2, h1, rfl⟩) with ⟨_, h3⟩ | ⟨ts1, fty, ty1, _, _, h5, h6, h7⟩
    · exact absurd (Finding.error.inj h3).symm (hE.unbound _ _ _)
    · obtain ⟨rfl, rfl⟩ := hE.constant _ _ _ _ _ (Finding.error.inj h7)
      exact ⟨h6, h5⟩

omit [Env] in
theorem view_of_answers (ha : Asked d) (ha' : Asked d') (ht : ∀ t, TypeKnown (typesOf d) t ↔ TypeKnown (typesOf d') t)
    (hs : AnswersAlike d d') : SameView d d' := by
  have htypes : ∀ k x ts, Ask.Types k d x ts ↔ Ask.Types k d' x ts := fun k x ts =>
    ⟨ask_types ha ha' ht hs, ask_types ha' ha (fun t => (ht t).symm) hs.symm⟩
  have hslot : ∀ ft, Slot d ft → ∃ (k : Ask) (x : Name) (ts : List (Option Name)) (i : Nat), k.Types d x ts ∧ k.Types d' x ts ∧ ts[i]? = some ft := by
    rintro ft ⟨x, ts, h | h, hm⟩
    · obtain ⟨i, hi⟩ := List.mem_iff_getElem?.mp hm
      exact ⟨.fact, x, ts, i, h, (htypes .fact x ts).mp h, hi⟩
    · obtain ⟨i, hi⟩ := List.mem_iff_getElem?.mp hm
      exact ⟨.task, x, ts, i, h, (htypes .task x ts).mp h, hi⟩
  refine ⟨ht, htypes .fact, htypes .task, fun ft hsl ty => ?_, fun ft hsl y => ?_, fun ft hsl y ty ty' h1 h2 => ?_⟩
  · obtain ⟨k, x, ts, i, h, h', hi⟩ := hslot ft hsl
    by_cases hk : ∀ t, ty = some t → TypeKnown (typesOf d) t
    · rw [← not_iff_not]
      exact ⟨ask_fits ha ha' ht hs h h' hi hk,
        ask_fits ha' ha (fun t => (ht t).symm) hs.symm h' h hi fun t h => (ht t).mp (hk t h)⟩
    · push Not at hk
      obtain ⟨t, rfl, hk⟩ := hk
      have key : ∀ d : DomainAST, ¬ TypeKnown (typesOf d) t → (Fits (typesOf d) (some t) ft ↔ ft = some t) := by
        intro d hk
        constructor
        · intro h
          cases h with
          | sub h =>
            rcases Relation.ReflTransGen.cases_head h with h | ⟨b, ⟨s, hs, hn, _⟩, _⟩
            · rw [h]
            · exact absurd ⟨s, hs, .inl hn⟩ hk
        · rintro rfl
          exact fits_refl _
      rw [key d hk, key d' (fun h => hk ((ht t).mpr h))]
  · obtain ⟨k, x, ts, i, h, h', hi⟩ := hslot ft hsl
    by_cases hw : Word y
    · exact ⟨(ask_constant ha ha' ht hs h h' hi hw).1, (ask_constant ha' ha (fun t => (ht t).symm) hs.symm h' h hi hw).1⟩
    · have h1 : Unbound [constantsOf d] y := by
        by_contra hc
        exact hw (ha.constant hc)
      have h2 : Unbound [constantsOf d'] y := by
        by_contra hc
        exact hw (ha'.constant hc)
      exact ⟨fun _ => h2, fun _ => h1⟩
  · obtain ⟨k, x, ts, i, h, h', hi⟩ := hslot ft hsl
    have hw : Word y := ha.constant h1.bound
    have h3 := (ask_constant ha ha' ht hs h h' hi hw).2
    have h4 := (ask_constant ha' ha (fun t => (ht t).symm) hs.symm h' h hi hw).2
    refine ⟨?_, fun hn => typeIn_det (h3 ty h1 hn).1 h2⟩
    rw [← not_iff_not]
    constructor
    · intro hn
      obtain ⟨h5, h6⟩ := h3 ty h1 hn
      rwa [typeIn_det h2 h5]
    · intro hn
      obtain ⟨h5, h6⟩ := h4 ty' h2 hn
      rwa [typeIn_det h1 h5]

omit [Env] in
theorem mem_symbolToks_of {s : Symbol} {ss : List Symbol} (h : s ∈ ss) :
    .ident s.name ∈ symbolToks ss ∧ ∀ t, s.ty = some t → .ident t ∈ symbolToks ss := by
  induction ss with
  | nil => cases h
  | cons a as ih =>
    rw [symbolToks]
    rcases List.mem_cons.mp h with rfl | h
    · refine ⟨by simp, fun t ht => ?_⟩
      simp [ht]
    · obtain ⟨h1, h2⟩ := ih h
      exact ⟨by simp [h1], fun t ht => by simp [h2 t ht]⟩

omit [Env] in
/-- In a right domain with writable names, the questions can be written. -/
theorem asked_of (hok : DomainOk d) (hw : ∀ t ∈ domainToks true d, Utterable t)
    (hk : ∀ a ∈ d.actions, TypesKnown (typesOf d) a.params) : Asked d := by
  have hty : ∀ s ∈ typesOf d, Word s.name ∧ ∀ t, s.ty = some t → Word t := by
    intro s hs
    have hm : ∀ t ∈ symbolToks [s], t ∈ domainToks true d := by
      intro t ht
      have : t ∈ (typesOf d).flatMap (fun s => blockToks .types (symbolToks [s])) :=
        List.mem_flatMap.mpr ⟨s, hs, by simp [blockToks, ht]⟩
      simp only [domainToks, List.mem_append, this, true_or, or_true]
    obtain ⟨h1, h2⟩ := mem_symbolToks_of (s := s) (ss := [s]) (by simp)
    exact ⟨hw _ (hm _ h1), fun t ht => hw _ (hm _ (h2 t ht))⟩
  refine ⟨hok, fun {k x ts} h => ?_, fun {k x ts} h => ?_, fun {t} h => ?_, fun {x} h => ?_⟩
  · cases k with
    | fact =>
      obtain ⟨q, hq, rfl, _⟩ := h
      have : Token.ident q.name ∈ d.predicates.flatMap predToks := List.mem_flatMap.mpr ⟨q, hq, by simp [predToks]⟩
      exact hw (.ident q.name) (by simp only [domainToks, blockToks, List.mem_append, List.mem_cons, this, true_or, or_true])
    | task =>
      obtain ⟨ps, hp, _⟩ := h
      cases hp with
      | @action a ha hn =>
        subst hn
        have : Token.ident a.name ∈ d.actions.flatMap actionToks := List.mem_flatMap.mpr ⟨a, ha, by simp [actionToks, taskToks]⟩
        exact hw (.ident a.name) (by simp only [domainToks, List.mem_append, this, true_or, or_true])
      | @task t _ ht hn =>
        subst hn
        have : Token.ident t.name ∈ d.tasks.flatMap (fun t => blockToks .task (taskToks t.name t.params)) :=
          List.mem_flatMap.mpr ⟨t, ht, by simp [blockToks, taskToks]⟩
        exact hw (.ident t.name) (by simp only [domainToks, List.mem_append, this, true_or, or_true])
  · intro t ht
    have key : ∀ {l : List Symbol}, TypesKnown (typesOf d) l → some t ∈ l.map (·.ty) → TypeKnown (typesOf d) t := by
      intro l hl hm
      obtain ⟨s, hs, he⟩ := List.mem_map.mp hm
      exact hl s hs t he
    cases k with
    | fact =>
      obtain ⟨q, hq, _, rfl⟩ := h
      exact key (hok.predicateTypes q hq) ht
    | task =>
      obtain ⟨ps, hp, rfl⟩ := h
      cases hp with
      | action ha _ => exact key (hk _ ha) ht
      | task _ htk _ => exact key (hok.taskTypes _ htk) ht
  · obtain ⟨s, hs, rfl | h⟩ := h
    · exact (hty s hs).1
    · exact (hty s hs).2 t h
  · unfold Unbound at h
    push Not at h
    obtain ⟨l, hl, s, hs, rfl⟩ := h
    rw [List.mem_singleton] at hl
    subst hl
    have : Token.ident s.name ∈ (constantsOf d).flatMap (fun s => blockToks .constants (symbolToks [s])) :=
      List.mem_flatMap.mpr ⟨s, hs, by simp [blockToks, symbolToks]⟩
    exact hw (.ident s.name) (by simp only [domainToks, List.mem_append, this, true_or, or_true])

end asking

/-! ### The theorem -/

section seen

variable {ord ord' : HashOrd} {f f' : Bytes} {d d' : DomainAST}

/-- What is reported for a problem, if the domain is right. -/
theorem returns_findings (hf : Parses f (.domain d)) (hok : DomainOk d) {g : Bytes} {p : ProblemAST} (hg : Parses g (.problem p))
    (e : SemErr) : Returns ord f (some g) (.err (.semantic e)) ↔ FirstFinding (problemChecks d p) (.error e) := by
  rw [C75_problem hf hg, firstFinding_append]
  have hp := (C75_accepted (ord := ord) hf).1.mp ((returns_domain_iff hf).mpr hok)
  constructor
  · rintro (h | ⟨_, h⟩)
    · exact absurd h (passes_iff.mp hp _)
    · exact h
  · exact fun h => .inr ⟨hp, h⟩

omit [Env] in
theorem askChecks_error {k : Ask} {x : Name} {E : AskReports} {tys : List (Option Name)} {c : Option (Nat × Name)} {y : Finding}
    (h : FirstFinding (askChecks k d x E tys c) y) : ∃ e, y = .error e ∧ (e = E.undef ∨ (∃ n, e = E.arity n) ∨
      (∃ i t u, e = E.object i t u) ∨ (∃ i t u, e = E.constant i t u) ∨ ∃ i, e = E.unbound i) := by
  obtain ⟨pre, z, post, he, _, hz⟩ := h
  have hm : z ∈ askChecks k d x E tys c := by rw [he]; simp
  rw [askChecks, List.mem_cons] at hm
  rcases hm with rfl | hm
  · rcases hz with ⟨_, h⟩ | ⟨ts, _, _, h⟩
    · exact ⟨_, h, .inl rfl⟩
    · exact ⟨_, h, .inr (.inl ⟨_, rfl⟩)⟩
  · obtain ⟨j, _, rfl⟩ := List.mem_map.mp hm
    have hobj : ∀ {ty}, askObject k d x E j ty y → ∃ e, y = .error e ∧ (e = E.undef ∨ (∃ n, e = E.arity n) ∨
      (∃ i t u, e = E.object i t u) ∨ (∃ i t u, e = E.constant i t u) ∨ ∃ i, e = E.unbound i) := by
      rintro ty ⟨_, _, _, _, _, h⟩
      exact ⟨_, h, .inr (.inr (.inl ⟨_, _, _, rfl⟩))⟩
    cases c with
    | none => exact hobj hz
    | some iy =>
      obtain ⟨i, w⟩ := iy
      simp only [askCheck] at hz
      split at hz
      · rcases hz with ⟨_, h⟩ | ⟨_, _, _, _, _, _, _, h⟩
        · exact ⟨_, h, .inr (.inr (.inr (.inr ⟨_, rfl⟩)))⟩
        · exact ⟨_, h, .inr (.inr (.inr (.inl ⟨_, _, _, rfl⟩)))⟩
      · exact hobj hz

theorem answers_of_returns (hf : Parses f (.domain d)) (hf' : Parses f' (.domain d')) (hok : DomainOk d) (hok' : DomainOk d')
    (h : ∀ g e, Returns ord f (some g) (.err e) ↔ Returns ord' f' (some g) (.err e)) : AnswersAlike d d' := by
  intro k x tys c hx ht hc
  obtain ⟨m, hm⟩ : ∃ m, ∀ i y, c = some (i, y) → ∀ j, y ≠ objName m j := by
    cases c with
    | none => exact ⟨0, by simp⟩
    | some iy =>
      refine ⟨iy.2.length, fun i y he j hy => ?_⟩
      cases he
      have := congrArg List.length hy
      simp only [objName, List.length_replicate] at this
      omega
  obtain ⟨g, p, hg, hp⟩ := ask_file k hx m (fun t h => (ht t h).2.2) hc
  obtain ⟨E, hE, h1⟩ := ask_checks hp hm
  refine ⟨E, hE, fun y => ?_⟩
  have key : ∀ e, FirstFinding (askChecks k d x E tys c) (.error e) ↔ FirstFinding (askChecks k d' x E tys c) (.error e) := by
    intro e
    rw [← h1 d (fun t h => (ht t h).1), ← h1 d' (fun t h => (ht t h).2.1), ← returns_findings (ord := ord) hf hok hg,
      ← returns_findings (ord := ord') hf' hok' hg]
    exact h g _
  constructor
  · intro hy
    obtain ⟨e, rfl, _⟩ := askChecks_error hy
    exact (key e).mp hy
  · intro hy
    obtain ⟨e, rfl, _⟩ := askChecks_error hy
    exact (key e).mpr hy

theorem types_of_returns (hf : Parses f (.domain d)) (hf' : Parses f' (.domain d')) (hok : DomainOk d) (hok' : DomainOk d')
    (h : ∀ g e, Returns ord f (some g) (.err e) → Returns ord' f' (some g) (.err e)) {t : Name} (hw : Word t)
    (hk : TypeKnown (typesOf d') t) : TypeKnown (typesOf d) t := by
  by_contra hn
  obtain ⟨g, p, hg, hp⟩ := ask_file .fact (x := b!"p") (by decide) 0 (tys := [some t]) (c := none)
    (fun u hu => by simp only [List.mem_singleton, Option.some.injEq] at hu; exact hu ▸ hw) (by simp)
  obtain ⟨E, hE, h1⟩ := ask_checks hp (by simp)
  have ho : p.objects.map (rnSymbol id) = askObjects 0 [some t] := congrArg ProblemAST.objects hp
  obtain ⟨s, hs, hst⟩ : ∃ s, p.objects = [s] ∧ rnSymbol id s = typedSym (objName 0 0) (some t) := by
    cases hi : p.objects with
    | nil => simp [hi, askObjects] at ho
    | cons a as =>
      cases as with
      | cons b bs => simp [hi, askObjects] at ho
      | nil => exact ⟨a, rfl, by simpa [hi, askObjects] using ho⟩
  simp only [rnSymbol, typedSym, Symbol.mk.injEq, Option.map_some, Option.map_eq_some_iff] at hst
  obtain ⟨_, _, ⟨t', ht', ht2⟩, l, hl, _⟩ := hst
  have ht2 : t' = t := ht2
  subst ht2
  have h2 : FirstFinding (problemChecks d p) (.error (.undefType ⟨t', l⟩)) := by
    unfold problemChecks
    rw [hs]
    exact ⟨[], typeUnknown d s, _, rfl, by simp, ⟨t', l, ht', hl, hn, rfl⟩⟩
  have h3 := (returns_findings (ord := ord') hf' hok' hg _).mp (h g _ ((returns_findings (ord := ord) hf hok hg _).mpr h2))
  rw [h1 d' (fun u hu => by simp only [List.mem_singleton, Option.some.injEq] at hu; exact hu ▸ hk)] at h3
  obtain ⟨e, he, h4⟩ := askChecks_error h3
  cases he
  obtain ⟨e1, e2, e3, e4, e5⟩ := hE.other ⟨t', l⟩
  rcases h4 with h4 | ⟨n, h4⟩ | ⟨i, u, v, h4⟩ | ⟨i, u, v, h4⟩ | ⟨i, h4⟩
  · exact e1 h4.symm
  · exact e2 n h4.symm
  · exact e3 i u v h4.symm
  · exact e4 i u v h4.symm
  · exact e5 i h4.symm

/-- C90.  Two accepted domains report the same errors for all problem files if and only if they look the same to problems:
what `SameView` leaves out cannot be found out, and all that it mentions can.  (The names are supposed to be writable in
ASCII, and the parameters of actions to have known types, which is not checked for actions without precondition and
effect.) -/
theorem C90_exact (hf : Parses f (.domain d)) (hf' : Parses f' (.domain d')) (hok : DomainOk d) (hok' : DomainOk d')
    (hw : ∀ t ∈ domainToks true d, Utterable t) (hw' : ∀ t ∈ domainToks true d', Utterable t)
    (hk : ∀ a ∈ d.actions, TypesKnown (typesOf d) a.params) (hk' : ∀ a ∈ d'.actions, TypesKnown (typesOf d') a.params) :
    (∀ g e, Returns ord f (some g) (.err e) ↔ Returns ord' f' (some g) (.err e)) ↔ SameView d d' := by
  constructor
  · intro h
    have ha := asked_of hok hw hk
    have ha' := asked_of hok' hw' hk'
    exact view_of_answers ha ha' (fun t =>
      ⟨fun h1 => types_of_returns (ord := ord') (ord' := ord) hf' hf hok' hok (fun g e => (h g e).mpr) (ha.typeWord h1) h1,
        fun h1 => types_of_returns (ord := ord) (ord' := ord') hf hf' hok hok' (fun g e => (h g e).mp) (ha'.typeWord h1) h1⟩)
      (answers_of_returns hf hf' hok hok' h)
  · exact fun h g => (C90_view hf hf' hok hok' h g).1

end seen

/-! ### Instances -/

def hierarchyOne : Bytes := b!"(define (domain d) (:types a - b) (:constants c - a) (:predicates (q)))\n"

def hierarchyTwo : Bytes := b!"(define (domain d) (:types b - a) (:constants e - b) (:predicates (q)))\n"

def hierarchyThree : Bytes := b!"(define (domain d) (:types a - b) (:constants c - a) (:predicates (q ?x - a)))\n"

omit [Env] in
/-- The first two domains differ in their type hierarchies and their constants, but no problem can tell them apart. -/
example (ord ord' : HashOrd) : ∃ d d', @Parses Env.plain hierarchyOne (.domain d) ∧ @Parses Env.plain hierarchyTwo (.domain d') ∧
    ¬ SameInterface d d' ∧
    ∀ g e, @Returns Env.plain ord hierarchyOne (some g) (.err e) ↔ @Returns Env.plain ord' hierarchyTwo (some g) (.err e) := by
  obtain ⟨d, d', h1, h2, h3⟩ := @parses_pair Env.plain hierarchyOne hierarchyTwo 60
    (fun d d' => (typesOf d).map (fun s => (s.name, s.ty)) = [(b!"a", some b!"b")] ∧
      (typesOf d').map (fun s => (s.name, s.ty)) = [(b!"b", some b!"a")] ∧
      d.predicates.map (fun q => (q.name, q.vars.map (·.ty))) = [(b!"q", [])] ∧
      d'.predicates.map (fun q => (q.name, q.vars.map (·.ty))) = [(b!"q", [])] ∧
      d.actions = [] ∧ d'.actions = [] ∧ d.tasks = [] ∧ d'.tasks = [])
    (fun d d' => by infer_instance) (by decide +kernel)
  obtain ⟨t1, t2, p1, p2, a1, a2, k1, k2⟩ := h3
  have hok : DomainOk d := (@returns_domain_iff Env.plain HashOrd.id _ _ h1).mp
    ⟨[], @returns_run Env.plain _ _ _ 60 _ (by decide +kernel) (by simp)⟩
  have hok' : DomainOk d' := (@returns_domain_iff Env.plain HashOrd.id _ _ h2).mp
    ⟨[], @returns_run Env.plain _ _ _ 60 _ (by decide +kernel) (by simp)⟩
  have htypes : ∀ {d : DomainAST} {l}, (typesOf d).map (fun s => (s.name, s.ty)) = l → ∀ t ty,
      (∃ s ∈ typesOf d, s.name = t ∧ s.ty = ty) ↔ (t, ty) ∈ l := by
    rintro d l rfl t ty
    simp only [List.mem_map, Prod.mk.injEq]
  have hknown : ∀ {d : DomainAST} {l}, (typesOf d).map (fun s => (s.name, s.ty)) = l → ∀ t,
      TypeKnown (typesOf d) t ↔ ∃ x ∈ l, x.1 = t ∨ x.2 = some t := by
    rintro d l rfl t
    simp [TypeKnown]
  have hpred : ∀ {d : DomainAST}, d.predicates.map (fun q => (q.name, q.vars.map (·.ty))) = [(b!"q", [])] → ∀ x ts,
      PredicateTypes d x ts ↔ x = b!"q" ∧ ts = [] := by
    intro d hp x ts
    have : (x, ts) ∈ d.predicates.map (fun q => (q.name, q.vars.map (·.ty))) ↔ (x, ts) ∈ [(b!"q", ([] : List (Option Name)))] := by
      rw [hp]
    simpa only [List.mem_map, Prod.mk.injEq, List.mem_singleton, PredicateTypes] using this
  have hcall : ∀ {d : DomainAST}, d.actions = [] → d.tasks = [] → ∀ x ts, ¬ CalleeTypes d x ts := by
    rintro d ha hk x ts ⟨ps, hp, _⟩
    cases hp with
    | action h _ => rw [ha] at h; cases h
    | task _ h _ => rw [hk] at h; cases h
  have hslot : ∀ ft, ¬ Slot d ft := by
    rintro ft ⟨x, ts, h | h, hm⟩
    · rw [((hpred p1 x ts).mp h).2] at hm; cases hm
    · exact hcall a1 k1 x ts h
  refine ⟨d, d', h1, h2, fun hs => ?_, fun g => (@C90_view Env.plain ord ord' _ _ _ _ h1 h2 hok hok' ?_ g).1⟩
  · have := (hs.types b!"a" (some b!"b")).mp ((htypes t1 _ _).mpr (by simp))
    rw [htypes t2] at this
    revert this
    decide
  · refine ⟨fun t => ?_, fun x ts => ?_, fun x ts => ?_, fun ft h => absurd h (hslot ft), fun ft h => absurd h (hslot ft),
      fun ft h => absurd h (hslot ft)⟩
    · rw [hknown t1, hknown t2]
      simp [or_comm]
    · rw [hpred p1, hpred p2]
    · exact ⟨fun h => absurd h (hcall a1 k1 x ts), fun h => absurd h (hcall a2 k2 x ts)⟩

omit [Env] in
/-- The first and the third domain declare `q` with different parameters, so that there is a problem that tells them apart. -/
example : ∃ g e, ¬ (@Returns Env.plain HashOrd.id hierarchyOne (some g) (.err e) ↔
    @Returns Env.plain HashOrd.id hierarchyThree (some g) (.err e)) := by
  obtain ⟨d, d', h1, h2, h3⟩ := @parses_pair Env.plain hierarchyOne hierarchyThree 60
    (fun d d' => d.predicates.map (fun q => (q.name, q.vars.map (·.ty))) = [(b!"q", [])] ∧
      d'.predicates.map (fun q => (q.name, q.vars.map (·.ty))) = [(b!"q", [some b!"a"])] ∧
      d.actions = [] ∧ d'.actions = [] ∧ (∀ t ∈ domainToks true d, spellable t = true) ∧
      ∀ t ∈ domainToks true d', spellable t = true)
    (fun d d' => by infer_instance) (by decide +kernel)
  obtain ⟨p1, p2, a1, a2, w1, w2⟩ := h3
  have hok : DomainOk d := (@returns_domain_iff Env.plain HashOrd.id _ _ h1).mp
    ⟨[], @returns_run Env.plain _ _ _ 60 _ (by decide +kernel) (by simp)⟩
  have hok' : DomainOk d' := (@returns_domain_iff Env.plain HashOrd.id _ _ h2).mp
    ⟨[], @returns_run Env.plain _ _ _ 60 _ (by decide +kernel) (by simp)⟩
  by_contra hc
  push Not at hc
  have hv := (@C90_exact Env.plain HashOrd.id HashOrd.id _ _ d d' h1 h2 hok hok' (fun t h => spellable_sound (w1 t h))
    (fun t h => spellable_sound (w2 t h)) (by simp [a1]) (by simp [a2])).mp hc
  have hmem : ∀ {d : DomainAST} {l}, d.predicates.map (fun q => (q.name, q.vars.map (·.ty))) = l → ∀ x ts,
      PredicateTypes d x ts ↔ (x, ts) ∈ l := by
    rintro d l rfl x ts
    simp only [List.mem_map, Prod.mk.injEq, PredicateTypes]
  have := (hv.predicates b!"q" []).mp ((hmem p1 _ _).mpr (by simp))
  rw [hmem p2] at this
  revert this
  decide

end Verif
