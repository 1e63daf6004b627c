import Verif.Proofs.Order
import Verif.Proofs.Located

/-! Replacing the existential quantifiers of a domain by empty formulas. -/

namespace Verif

open Spec

mutual

/-- The formula with `()` in place of every existential quantifier (and implication). -/
def Formula.strike : Formula → Formula
  | .exists_ _ _ => .empty
  | .imply _ _ => .empty
  | .not f => .not f.strike
  | .and fs => .and (Formula.strikes fs)
  | .or fs => .or (Formula.strikes fs)
  | .xor fs => .xor (Formula.strikes fs)
  | .weighted w f => .weighted w f.strike
  | .forall_ vs f => .forall_ vs f.strike
  | .empty => .empty
  | .atom p => .atom p
  | .equals a b => .equals a b

def Formula.strikes : List Formula → List Formula
  | [] => []
  | f :: fs => f.strike :: Formula.strikes fs

end

def Action.strike (a : Action) : Action := { a with pre := a.pre.map (·.strike), eff := a.eff.map (·.strike) }

def Method.strike (m : Method) : Method := { m with pre := m.pre.map (·.strike) }

/-- The domain with `()` in place of every existential quantifier. -/
def DomainAST.strike (d : DomainAST) : DomainAST :=
  { d with actions := d.actions.map (·.strike), methods := d.methods.map (·.strike) }

mutual

theorem strike_id : ∀ f : Formula, ¬ HasExists f → f.strike = f
  | .exists_ _ _, h => absurd .exists_ h
  | .imply _ _, h => absurd .imply h
  | .not f, h => by rw [Formula.strike, strike_id f fun h' => h (.not h')]
  | .and fs, h => by rw [Formula.strike, strikes_id fs fun f hf h' => h (.and hf h')]
  | .or fs, h => by rw [Formula.strike, strikes_id fs fun f hf h' => h (.or hf h')]
  | .xor fs, h => by rw [Formula.strike, strikes_id fs fun f hf h' => h (.xor hf h')]
  | .weighted w f, h => by rw [Formula.strike, strike_id f fun h' => h (.weighted h')]
  | .forall_ vs f, h => by rw [Formula.strike, strike_id f fun h' => h (.forall_ h')]
  | .empty, _ => by rw [Formula.strike]
  | .atom _, _ => by rw [Formula.strike]
  | .equals _ _, _ => by rw [Formula.strike]

theorem strikes_id : ∀ fs : List Formula, (∀ f ∈ fs, ¬ HasExists f) → Formula.strikes fs = fs
  | [], _ => by rw [Formula.strikes]
  | f :: fs, h => by
    rw [Formula.strikes, strike_id f (h f (by simp)), strikes_id fs fun f hf => h f (by simp [hf])]

end

/-- The same result, unless the first one is the panic on existential quantifiers. -/
def SameOrPanic {α : Type} (r r' : R α) : Prop := r = .panic .existsFormula ∨ r = r'

theorem SameOrPanic.refl {α : Type} (r : R α) : SameOrPanic r r := .inr rfl

theorem SameOrPanic.bind {α β : Type} {r r' : R α} {f f' : α → R β} (h : SameOrPanic r r')
    (hf : ∀ x, r = .ok x → SameOrPanic (f x) (f' x)) : SameOrPanic (r.bind f) (r'.bind f') := by
  rcases h with rfl | rfl
  · exact .inl rfl
  · cases r with
    | ok x => exact hf x rfl
    | err e => exact .inr rfl
    | panic x => exact .inr rfl
    | timeout => exact .inr rfl

mutual

theorem checkPredDecls_strike (ps : List Predicate) : ∀ f : Formula,
    SameOrPanic (checkPredDecls ps f) (checkPredDecls ps f.strike)
  | .exists_ _ _ => .inl (by rw [checkPredDecls])
  | .imply _ _ => .inl (by rw [checkPredDecls])
  | .not f => by rw [Formula.strike, checkPredDecls, checkPredDecls]; exact checkPredDecls_strike ps f
  | .and fs => by rw [Formula.strike, checkPredDecls, checkPredDecls]; exact checkPredDeclsList_strike ps fs
  | .or fs => by rw [Formula.strike, checkPredDecls, checkPredDecls]; exact checkPredDeclsList_strike ps fs
  | .xor fs => by rw [Formula.strike, checkPredDecls, checkPredDecls]; exact checkPredDeclsList_strike ps fs
  | .weighted w f => by rw [Formula.strike, checkPredDecls, checkPredDecls]; exact checkPredDecls_strike ps f
  | .forall_ vs f => by rw [Formula.strike, checkPredDecls, checkPredDecls]; exact checkPredDecls_strike ps f
  | .empty => by rw [Formula.strike]; exact .refl _
  | .atom _ => by rw [Formula.strike]; exact .refl _
  | .equals _ _ => by rw [Formula.strike]; exact .refl _

theorem checkPredDeclsList_strike (ps : List Predicate) : ∀ fs : List Formula,
    SameOrPanic (checkPredDeclsList ps fs) (checkPredDeclsList ps (Formula.strikes fs))
  | [] => by rw [Formula.strikes]; exact .refl _
  | f :: fs => by
    rw [Formula.strikes, checkPredDeclsList, checkPredDeclsList]
    exact (checkPredDecls_strike ps f).bind fun _ _ => checkPredDeclsList_strike ps fs

end

theorem checkPredDeclsList_mem {ps : List Predicate} : ∀ {fs : List Formula}, checkPredDeclsList ps fs = .ok () →
    ∀ f ∈ fs, checkPredDecls ps f = .ok ()
  | [], _, _, h => by cases h
  | g :: fs, h, f, hf => by
    rw [checkPredDeclsList] at h
    obtain ⟨h1, h2⟩ := bindU_ok.1 h
    rcases List.mem_cons.1 hf with rfl | hf
    · exact h1
    · exact checkPredDeclsList_mem h2 f hf

theorem hasExists_not_ok {ps : List Predicate} {f : Formula} (h : HasExists f) : checkPredDecls ps f ≠ .ok () := by
  induction h with
  | exists_ => rw [checkPredDecls]; simp
  | imply => rw [checkPredDecls]; simp
  | not _ ih => rw [checkPredDecls]; exact ih
  | weighted _ ih => rw [checkPredDecls]; exact ih
  | forall_ _ ih => rw [checkPredDecls]; exact ih
  | and hm _ ih => rw [checkPredDecls]; exact fun h => ih (checkPredDeclsList_mem h _ hm)
  | or hm _ ih => rw [checkPredDecls]; exact fun h => ih (checkPredDeclsList_mem h _ hm)
  | xor hm _ ih => rw [checkPredDecls]; exact fun h => ih (checkPredDeclsList_mem h _ hm)

theorem checkOptFormula_strike (g : TypeGraph) (ps : List Predicate) (params constants : List Symbol)
    (f : Option Formula) :
    SameOrPanic (checkOptFormula g ps params constants f) (checkOptFormula g ps params constants (f.map (·.strike))) := by
  cases f with
  | none => exact .refl _
  | some f =>
    refine (checkPredDecls_strike ps f).bind fun _ h => ?_
    simp only [strike_id f fun hx => hasExists_not_ok hx h]
    exact .refl _

theorem scanDup_strike {α : Type} {kp : α → Name × Nat} {mk : DupErr → SemErr} {check check' : α → R Unit} {φ : α → α}
    (hk : ∀ x, kp (φ x) = kp x) (hc : ∀ x, SameOrPanic (check x) (check' (φ x))) :
    ∀ (l : List α) (seen : List (Name × Nat)),
      SameOrPanic (scanDup kp mk check seen l) (scanDup kp mk check' seen (l.map φ))
  | [], _ => .refl _
  | x :: l, seen => by
    rw [List.map_cons, scanDup, scanDup, hk]
    cases seenPos seen (kp x).1 with
    | some q => exact .refl _
    | none => exact (hc x).bind fun _ _ => scanDup_strike hk hc l _

theorem checkAction_strike (g : TypeGraph) (ps : List Predicate) (constants : List Symbol) (a : Action) :
    SameOrPanic (checkAction g ps constants a) (checkAction g ps constants a.strike) :=
  (SameOrPanic.refl _).bind fun _ _ => (checkOptFormula_strike ..).bind fun _ _ => checkOptFormula_strike ..

theorem find_strike (x : Name) : ∀ l : List Action, (l.map (·.strike)).find? (fun a => decide (a.name = x)) =
    (l.find? fun a => decide (a.name = x)).map (·.strike)
  | [] => rfl
  | a :: l => by
    rw [List.map_cons, List.find?_cons, List.find?_cons]
    by_cases h : a.name = x
    · simp [Action.strike, h]
    · have : (a.strike.name = x) ↔ a.name = x := Iff.rfl
      simp only [this, h, decide_false]
      exact find_strike x l

theorem arrange_map {α β : Type} (ord : HashOrd) (s : Site) (f : α → β) (l : List α) :
    arrange ord s (l.map f) = (arrange ord s l).map f := by
  unfold arrange
  rw [List.length_map, List.map_filterMap]
  congr 1
  funext i
  simp

theorem taskConsistent_strike (g : TypeGraph) (t : Symbol) (terms params constants : List Symbol) (ts : List Task)
    (l : List Action) :
    taskConsistent g t terms params constants ts (l.map (·.strike)) =
      taskConsistent g t terms params constants ts l := by
  unfold taskConsistent
  rw [find_strike]
  cases l.find? fun a => decide (a.name = t.name) with
  | none => rfl
  | some a => rfl

theorem checkSubtasks_strike (g : TypeGraph) (params constants : List Symbol) (ts : List Task) (l : List Action) :
    ∀ ss : List Subtask, checkSubtasks g params constants ts (l.map (·.strike)) ss =
      checkSubtasks g params constants ts l ss
  | [] => rfl
  | s :: ss => by rw [checkSubtasks, checkSubtasks, taskConsistent_strike, checkSubtasks_strike g _ _ _ _ ss]

theorem methodCheck_strike (ord : HashOrd) (d : DomainAST) (m : Method) :
    SameOrPanic (methodCheck ord d m) (methodCheck ord d.strike m.strike) := by
  unfold methodCheck checkMethod
  have e : arrange ord [11] d.strike.actions = (arrange ord [11] d.actions).map (·.strike) := arrange_map ..
  rw [e]
  simp only [checkSubtasks_strike]
  refine (SameOrPanic.refl _).bind fun _ _ => ?_
  refine (checkOptFormula_strike ..).bind fun _ _ => ?_
  exact .refl _

/-- The checks of a domain give the same result without the existential quantifiers, or panic on one of them. -/
theorem checkDomain_strike (ord : HashOrd) (d : DomainAST) :
    SameOrPanic (checkDomain ord d) (checkDomain ord d.strike) := by
  rw [checkDomain_eq, checkDomain_eq]
  refine (SameOrPanic.refl _).bind fun _ _ => ?_
  refine (SameOrPanic.refl _).bind fun _ _ => ?_
  refine (SameOrPanic.refl _).bind fun _ _ => ?_
  refine (SameOrPanic.refl _).bind fun _ _ => ?_
  refine (scanDup_strike (φ := Action.strike) (fun _ => rfl) (checkAction_strike _ _ _) d.actions []).bind
    fun _ _ => ?_
  exact scanDup_strike (φ := Method.strike) (fun _ => rfl) (methodCheck_strike ord d) d.methods []

/-- An accepted domain has no existential quantifiers. -/
theorem domainOk_noExists {d : DomainAST} (h : DomainOk d) {l f} (hf : FormulaOf d l f) : ¬ HasExists f := by
  cases hf with
  | pre ha hf => exact ((h.actions _ ha).pre _ hf).noExists
  | eff ha hf => exact ((h.actions _ ha).eff _ hf).noExists
  | method hm hf => exact ((h.methods _ hm).pre _ hf).noExists

end Verif
