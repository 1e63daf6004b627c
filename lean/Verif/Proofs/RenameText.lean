import Verif.Proofs.Renaming

/-! Renaming of texts: the renamed text denotes the renamed syntax tree. -/

namespace Verif

open Spec

variable {ρ : Name → Name}

theorem Spec.Renamed.unnil {ts' : List Tk} (h : Renamed ρ [] ts') : ts' = [] := by cases h; rfl

theorem Spec.Renamed.uncons {t : Token} {l : Nat} {ts ts' : List Tk} (h : Renamed ρ ((t, l) :: ts) ts') :
    ∃ l' us, ts' = (rnToken ρ t, l') :: us ∧ Renamed ρ ts us := by
  cases h with
  | @cons _ b _ us h1 h2 =>
    obtain ⟨b, l'⟩ := b
    exact ⟨l', us, by rw [← h1], h2⟩

theorem Spec.Renamed.unappend {a b ts' : List Tk} (h : Renamed ρ (a ++ b) ts') :
    ∃ a' b', ts' = a' ++ b' ∧ Renamed ρ a a' ∧ Renamed ρ b b' := by
  induction a generalizing ts' with
  | nil => exact ⟨[], ts', rfl, .nil, h⟩
  | cons t a ih =>
    cases h with
    | cons h1 h2 =>
      obtain ⟨a', b', rfl, h3, h4⟩ := ih h2
      exact ⟨_ :: a', b', rfl, .cons h1 h3, h4⟩

/-! ### Lists of names -/

theorem items_rn {ts ts' : List Tk} (h : Items ts) (hr : Renamed ρ ts ts') :
    Items ts' ∧ (firstType ts').map (·.1) = (firstType ts).map (fun x => ρ x.1) ∧
      (firstType ts').isSome = (firstType ts).isSome ∧ (symbolsOf ts').map (rnSymbol id) = (symbolsOf ts).map (rnSymbol ρ) := by
  induction h generalizing ts' with
  | nil => cases hr.unnil; exact ⟨.nil, rfl, rfl, rfl⟩
  | @name x l ts _ ih =>
    obtain ⟨l', us, rfl, h2⟩ := hr.uncons
    obtain ⟨i1, i2, i3, i4⟩ := ih h2
    refine ⟨.name i1, ?_, ?_, ?_⟩
    · simpa [firstType, rnToken] using i2
    · simpa [firstType, rnToken] using i3
    · simp only [rnToken, symbolsOf, List.map_cons, i4, rnSymbol, List.cons.injEq, and_true, id]
      cases h1 : firstType us <;> cases h2 : firstType ts <;> simp_all
  | @type l t l' ts _ ih =>
    obtain ⟨l1, us, rfl, h2⟩ := hr.uncons
    obtain ⟨l2, us, rfl, h3⟩ := h2.uncons
    obtain ⟨i1, i2, i3, i4⟩ := ih h3
    exact ⟨.type i1, by simp [firstType, rnToken], by simp [firstType, rnToken], by simpa [symbolsOf, rnToken] using i4⟩

theorem typedList_rn {ss : List Symbol} {ts ts' : List Tk} (h : TypedList ss ts) (hr : Renamed ρ ts ts') :
    ∃ ss', TypedList ss' ts' ∧ ss'.map (rnSymbol id) = ss.map (rnSymbol ρ) := by
  obtain ⟨h1, rfl⟩ := h
  obtain ⟨i1, _, _, i4⟩ := items_rn h1 hr
  exact ⟨_, ⟨i1, rfl⟩, i4⟩

theorem nameToks_rn {xs : List (Name × Nat)} {ts' : List Tk} (hr : Renamed ρ (nameToks xs) ts') :
    ∃ xs', ts' = nameToks xs' ∧ xs'.map (·.1) = xs.map (fun x => ρ x.1) := by
  induction xs generalizing ts' with
  | nil => cases hr.unnil; exact ⟨[], rfl, rfl⟩
  | cons x xs ih =>
    obtain ⟨l', us, rfl, h2⟩ := hr.uncons
    obtain ⟨xs', rfl, h3⟩ := ih h2
    exact ⟨(ρ x.1, l') :: xs', rfl, by simp [h3]⟩

theorem nameSyms_rn {xs xs' : List (Name × Nat)} (h : xs'.map (·.1) = xs.map (fun x => ρ x.1)) :
    (nameSyms xs').map (rnSymbol id) = (nameSyms xs).map (rnSymbol ρ) := by
  have : (xs'.map (·.1)).map (fun n : Name => (⟨n, 0, none, none⟩ : Symbol)) =
      (xs.map (fun x => ρ x.1)).map (fun n : Name => (⟨n, 0, none, none⟩ : Symbol)) := by rw [h]
  simpa [nameSyms, rnSymbol, Function.comp_def] using this

/-! ### Predicates, formulas -/

theorem predicates_rn {ps : List Predicate} {ts ts' : List Tk} (h : Predicates ps ts) (hr : Renamed ρ ts ts') :
    ∃ ps', Predicates ps' ts' ∧ ps'.map (rnPredicate id) = ps.map (rnPredicate ρ) := by
  induction h generalizing ts' with
  | nil => cases hr.unnil; exact ⟨[], .nil, rfl⟩
  | cons h1 _ ih =>
    obtain ⟨m1, us, rfl, h2⟩ := hr.uncons
    obtain ⟨m2, us, rfl, h3⟩ := h2.uncons
    obtain ⟨a, b, rfl, h4, h5⟩ := h3.unappend
    obtain ⟨m3, us, rfl, h6⟩ := h5.uncons
    obtain ⟨vs, h7, h8⟩ := typedList_rn h1 h4
    obtain ⟨ps, h9, h10⟩ := ih h6
    exact ⟨_, .cons h7 h9, by simp [rnPredicate, h8, h10]⟩

theorem rnFormula_empty {f : Formula} : rnFormula ρ f = .empty ↔ f = .empty := by
  cases f <;> simp [rnFormula]

theorem ne_empty_rn {f f' : Formula} (h : rnFormula id f' = rnFormula ρ f) (hf : f ≠ .empty) : f' ≠ .empty := by
  rintro rfl
  rw [rnFormula] at h
  exact hf (rnFormula_empty.mp h.symm)

mutual

theorem formula_rn {q : Bool} : ∀ {f : Formula} {ts ts' : List Tk}, FormulaText q f ts → Renamed ρ ts ts' →
    ∃ f', FormulaText q f' ts' ∧ rnFormula id f' = rnFormula ρ f
  | _, _, _, .empty, hr => by
    obtain ⟨m1, us, rfl, h2⟩ := hr.uncons
    obtain ⟨m2, us, rfl, h3⟩ := h2.uncons
    cases h3.unnil
    exact ⟨_, .empty, by simp [rnFormula]⟩
  | _, _, _, .missing h, hr => by
    obtain ⟨m1, us, rfl, h2⟩ := hr.uncons
    cases h2.unnil
    exact ⟨_, .missing h, by simp [rnFormula]⟩
  | _, _, _, .atom h1, hr => by
    obtain ⟨m1, us, rfl, h2⟩ := hr.uncons
    obtain ⟨m2, us, rfl, h3⟩ := h2.uncons
    obtain ⟨a, b, rfl, h4, h5⟩ := h3.unappend
    obtain ⟨m3, us, rfl, h6⟩ := h5.uncons
    cases h6.unnil
    obtain ⟨vs, h7, h8⟩ := typedList_rn h1 h4
    exact ⟨_, .atom h7, by simp [rnFormula, rnPredicate, h8]⟩
  | _, _, _, .not h1, hr => by
    obtain ⟨m1, us, rfl, h2⟩ := hr.uncons
    obtain ⟨m2, us, rfl, h3⟩ := h2.uncons
    obtain ⟨a, b, rfl, h4, h5⟩ := h3.unappend
    obtain ⟨m3, us, rfl, h6⟩ := h5.uncons
    cases h6.unnil
    obtain ⟨f, h7, h8⟩ := formula_rn h1 h4
    exact ⟨_, .not h7, by simp [rnFormula, h8]⟩
  | _, _, _, .and h1, hr => by
    obtain ⟨m1, us, rfl, h2⟩ := hr.uncons
    obtain ⟨m2, us, rfl, h3⟩ := h2.uncons
    obtain ⟨f, h7, h8⟩ := formulas_rn h1 h3
    exact ⟨_, .and h7, by simp [rnFormula, h8]⟩
  | _, _, _, .or h1, hr => by
    obtain ⟨m1, us, rfl, h2⟩ := hr.uncons
    obtain ⟨m2, us, rfl, h3⟩ := h2.uncons
    obtain ⟨f, h7, h8⟩ := formulas_rn h1 h3
    exact ⟨_, .or h7, by simp [rnFormula, h8]⟩
  | _, _, _, .xor h1, hr => by
    obtain ⟨m1, us, rfl, h2⟩ := hr.uncons
    obtain ⟨m2, us, rfl, h3⟩ := h2.uncons
    obtain ⟨f, h7, h8⟩ := formulas_rn h1 h3
    exact ⟨_, .xor h7, by simp [rnFormula, h8]⟩
  | _, _, _, .equals, hr => by
    obtain ⟨m1, us, rfl, h2⟩ := hr.uncons
    obtain ⟨m2, us, rfl, h3⟩ := h2.uncons
    obtain ⟨m3, us, rfl, h4⟩ := h3.uncons
    obtain ⟨m4, us, rfl, h5⟩ := h4.uncons
    obtain ⟨m5, us, rfl, h6⟩ := h5.uncons
    cases h6.unnil
    exact ⟨_, .equals, by simp [rnFormula]⟩
  | _, _, _, .forall_ h0 h1, hr => by
    obtain ⟨m1, us, rfl, h2⟩ := hr.uncons
    obtain ⟨m2, us, rfl, h3⟩ := h2.uncons
    obtain ⟨m3, us, rfl, h4⟩ := h3.uncons
    obtain ⟨a, b, rfl, h5, h6⟩ := h4.unappend
    obtain ⟨m4, us, rfl, h7⟩ := h6.uncons
    obtain ⟨c, d, rfl, h8, h9⟩ := h7.unappend
    obtain ⟨m5, us, rfl, h10⟩ := h9.uncons
    cases h10.unnil
    obtain ⟨vs, h11, h12⟩ := typedList_rn h0 h5
    obtain ⟨f, h13, h14⟩ := formula_rn h1 h8
    exact ⟨_, .forall_ h11 h13, by simp [rnFormula, h12, h14]⟩
  | _, _, _, .exists_ h0 h1, hr => by
    obtain ⟨m1, us, rfl, h2⟩ := hr.uncons
    obtain ⟨m2, us, rfl, h3⟩ := h2.uncons
    obtain ⟨m3, us, rfl, h4⟩ := h3.uncons
    obtain ⟨a, b, rfl, h5, h6⟩ := h4.unappend
    obtain ⟨m4, us, rfl, h7⟩ := h6.uncons
    obtain ⟨c, d, rfl, h8, h9⟩ := h7.unappend
    obtain ⟨m5, us, rfl, h10⟩ := h9.uncons
    cases h10.unnil
    obtain ⟨vs, h11, h12⟩ := typedList_rn h0 h5
    obtain ⟨f, h13, h14⟩ := formula_rn h1 h8
    exact ⟨_, .exists_ h11 h13, by simp [rnFormula, h12, h14]⟩
  | _, _, _, .probabilistic h1, hr => by
    obtain ⟨m1, us, rfl, h2⟩ := hr.uncons
    obtain ⟨m2, us, rfl, h3⟩ := h2.uncons
    obtain ⟨f, h7, h8⟩ := branches_rn h1 h3
    exact ⟨_, .probabilistic h7, by simp [rnFormula, h8]⟩

theorem formulas_rn {q : Bool} : ∀ {fs : List Formula} {ts ts' : List Tk}, FormulasText q fs ts → Renamed ρ ts ts' →
    ∃ fs', FormulasText q fs' ts' ∧ rnFormulas id fs' = rnFormulas ρ fs
  | _, _, _, .nil, hr => by
    obtain ⟨m1, us, rfl, h2⟩ := hr.uncons
    cases h2.unnil
    exact ⟨_, .nil, by simp [rnFormulas]⟩
  | _, _, _, .unclosed h, hr => by
    obtain ⟨m1, us, rfl, h2⟩ := hr.uncons
    obtain ⟨m2, us, rfl, h3⟩ := h2.uncons
    cases h3.unnil
    exact ⟨_, .unclosed h, by simp [rnFormulas]⟩
  | _, _, _, .cons h1 hne h2, hr => by
    obtain ⟨a, b, rfl, h3, h4⟩ := hr.unappend
    obtain ⟨f, h5, h6⟩ := formula_rn h1 h3
    obtain ⟨fs, h7, h8⟩ := formulas_rn h2 h4
    exact ⟨_, .cons h5 (ne_empty_rn h6 hne) h7, by simp [rnFormulas, h6, h8]⟩

theorem branches_rn {q : Bool} : ∀ {fs : List Formula} {ts ts' : List Tk}, BranchesText q fs ts → Renamed ρ ts ts' →
    ∃ fs', BranchesText q fs' ts' ∧ rnFormulas id fs' = rnFormulas ρ fs
  | _, _, _, .nil, hr => by
    obtain ⟨m1, us, rfl, h2⟩ := hr.uncons
    cases h2.unnil
    exact ⟨_, .nil, by simp [rnFormulas]⟩
  | _, _, _, .cons h1 hne h2, hr => by
    obtain ⟨m1, us, rfl, hr1⟩ := hr.uncons
    obtain ⟨a, b, rfl, h3, h4⟩ := hr1.unappend
    obtain ⟨f, h5, h6⟩ := formula_rn h1 h3
    obtain ⟨fs, h7, h8⟩ := branches_rn h2 h4
    exact ⟨_, .cons h5 (ne_empty_rn h6 hne) h7, by simp [rnFormulas, rnFormula, h6, h8]⟩

end

theorem optFormula_rn {q : Bool} {k : Kw} {o : Option Formula} {ts ts' : List Tk} (h : OptFormula q k o ts)
    (hr : Renamed ρ ts ts') : ∃ o', OptFormula q k o' ts' ∧ o'.map (rnFormula id) = o.map (rnFormula ρ) := by
  cases h with
  | none => cases hr.unnil; exact ⟨_, .none, rfl⟩
  | some h =>
    obtain ⟨m1, us, rfl, hr1⟩ := hr.uncons
    obtain ⟨f, h1, h2⟩ := formula_rn h hr1
    exact ⟨_, .some h1, by simp [h2]⟩

/-! ### Tasks and actions -/

theorem task_rn {t : Task} {ts ts' : List Tk} (h : TaskText t ts) (hr : Renamed ρ ts ts') :
    ∃ t', TaskText t' ts' ∧ rnTask id t' = rnTask ρ t := by
  cases h with
  | mk h =>
    obtain ⟨m1, us, rfl, hr1⟩ := hr.uncons
    obtain ⟨m2, us, rfl, hr2⟩ := hr1.uncons
    obtain ⟨m3, us, rfl, hr3⟩ := hr2.uncons
    obtain ⟨a, b, rfl, h3, hr4⟩ := hr3.unappend
    obtain ⟨m4, us, rfl, hr5⟩ := hr4.uncons
    cases hr5.unnil
    obtain ⟨ps, h1, h2⟩ := typedList_rn h h3
    exact ⟨_, .mk h1, by simp [rnTask, h2]⟩

theorem action_rn {q : Bool} {x : Action} {ts ts' : List Tk} (h : ActionText q x ts) (hr : Renamed ρ ts ts') :
    ∃ x', ActionText q x' ts' ∧ rnAction id x' = rnAction ρ x := by
  cases h with
  | mk h1 h2 h3 =>
    obtain ⟨abc, d, rfl, hr1, hd1⟩ := hr.unappend
    obtain ⟨ab, c, rfl, hr2, hc⟩ := hr1.unappend
    obtain ⟨a, b, rfl, ha, hb⟩ := hr2.unappend
    obtain ⟨m4, us, rfl, hd2⟩ := hd1.uncons
    cases hd2.unnil
    obtain ⟨⟨n, l, ps⟩, i1, i2⟩ := task_rn h1 ha
    obtain ⟨pre, i3, i4⟩ := optFormula_rn h2 hb
    obtain ⟨eff, i5, i6⟩ := optFormula_rn h3 hc
    simp only [rnTask, Task.mk.injEq, id] at i2
    exact ⟨_, .mk i1 i3 i5, by simp [rnAction, i2, i4, i6]⟩

/-! ### Task networks -/

theorem subtask_rn {t : Subtask} {ts ts' : List Tk} (h : SubtaskText t ts) (hr : Renamed ρ ts ts') :
    ∃ t', SubtaskText t' ts' ∧ rnSubtask id t' = rnSubtask ρ t := by
  cases h with
  | plain =>
    obtain ⟨m1, us, rfl, hr1⟩ := hr.uncons
    obtain ⟨a, b, rfl, h3, hr2⟩ := hr1.unappend
    obtain ⟨m2, us, rfl, hr3⟩ := hr2.uncons
    cases hr3.unnil
    obtain ⟨xs, rfl, h4⟩ := nameToks_rn h3
    exact ⟨_, .plain, by simp [rnSubtask, nameSyms_rn h4, rnSymbol]⟩
  | labelled =>
    obtain ⟨m1, us, rfl, hr1⟩ := hr.uncons
    obtain ⟨m2, us, rfl, hr2⟩ := hr1.uncons
    obtain ⟨m3, us, rfl, hr3⟩ := hr2.uncons
    obtain ⟨a, b, rfl, h3, hr4⟩ := hr3.unappend
    obtain ⟨m4, us, rfl, hr5⟩ := hr4.uncons
    obtain ⟨m5, us, rfl, hr6⟩ := hr5.uncons
    cases hr6.unnil
    obtain ⟨xs, rfl, h4⟩ := nameToks_rn h3
    exact ⟨_, .labelled, by simp [rnSubtask, nameSyms_rn h4, rnSymbol]⟩

theorem subtaskList_rn {l : List Subtask} {ts ts' : List Tk} (h : SubtaskList l ts) (hr : Renamed ρ ts ts') :
    ∃ l', SubtaskList l' ts' ∧ l'.map (rnSubtask id) = l.map (rnSubtask ρ) := by
  induction h generalizing ts' with
  | nil => cases hr.unnil; exact ⟨[], .nil, rfl⟩
  | cons h1 _ ih =>
    obtain ⟨m1, us, rfl, hr1⟩ := hr.uncons
    obtain ⟨a, b, rfl, ha, hb⟩ := hr1.unappend
    obtain ⟨t, i1, i2⟩ := subtask_rn h1 ha
    obtain ⟨l, i3, i4⟩ := ih hb
    exact ⟨_, .cons i1 i3, by simp [i2, i4]⟩

theorem subtasks_rn {l : List Subtask} {ts ts' : List Tk} (h : SubtasksText l ts) (hr : Renamed ρ ts ts') :
    ∃ l', SubtasksText l' ts' ∧ l'.map (rnSubtask id) = l.map (rnSubtask ρ) := by
  cases h with
  | none =>
    obtain ⟨m1, us, rfl, hr1⟩ := hr.uncons
    obtain ⟨m2, us, rfl, hr2⟩ := hr1.uncons
    cases hr2.unnil
    exact ⟨_, .none, rfl⟩
  | one h =>
    obtain ⟨m1, us, rfl, hr1⟩ := hr.uncons
    obtain ⟨t, i1, i2⟩ := subtask_rn h hr1
    exact ⟨_, .one i1, by simp [i2]⟩
  | many h =>
    obtain ⟨m1, us, rfl, hr1⟩ := hr.uncons
    obtain ⟨m2, us, rfl, hr2⟩ := hr1.uncons
    obtain ⟨a, b, rfl, ha, hr3⟩ := hr2.unappend
    obtain ⟨m3, us, rfl, hr4⟩ := hr3.uncons
    cases hr4.unnil
    obtain ⟨l, i1, i2⟩ := subtaskList_rn h ha
    exact ⟨_, .many i1, i2⟩

theorem order_rn {o : List (Name × Name)} {ts ts' : List Tk} (h : OrderText o ts) (hr : Renamed ρ ts ts') :
    OrderText (o.map (Prod.map ρ ρ)) ts' := by
  cases h with
  | @mk l1 a l2 l3 bs =>
    obtain ⟨m1, us, rfl, hr1⟩ := hr.uncons
    obtain ⟨m2, us, rfl, hr2⟩ := hr1.uncons
    obtain ⟨c, b, rfl, h3, hr3⟩ := hr2.unappend
    obtain ⟨m3, us, rfl, hr4⟩ := hr3.uncons
    cases hr4.unnil
    obtain ⟨xs, rfl, h4⟩ := nameToks_rn h3
    have e : (bs.map fun b => (a, b.1)).map (Prod.map ρ ρ) = xs.map fun b => (ρ a, b.1) := by
      have : (xs.map (·.1)).map (fun n => (ρ a, n)) = (bs.map fun x => ρ x.1).map (fun n => (ρ a, n)) := by rw [h4]
      simpa [Function.comp_def] using this.symm
    rw [e]
    exact .mk

theorem orderList_rn {o : List (Name × Name)} {ts ts' : List Tk} (h : OrderList o ts) (hr : Renamed ρ ts ts') :
    OrderList (o.map (Prod.map ρ ρ)) ts' := by
  induction h generalizing ts' with
  | nil => cases hr.unnil; exact .nil
  | cons h1 _ ih =>
    obtain ⟨m1, us, rfl, hr1⟩ := hr.uncons
    obtain ⟨a, b, rfl, ha, hb⟩ := hr1.unappend
    rw [List.map_append]
    exact .cons (order_rn h1 ha) (ih hb)

theorem orders_rn {o : List (Name × Name)} {ts ts' : List Tk} (h : OrdersText o ts) (hr : Renamed ρ ts ts') :
    OrdersText (o.map (Prod.map ρ ρ)) ts' := by
  cases h with
  | none =>
    obtain ⟨m1, us, rfl, hr1⟩ := hr.uncons
    obtain ⟨m2, us, rfl, hr2⟩ := hr1.uncons
    cases hr2.unnil
    exact .none
  | one h =>
    obtain ⟨m1, us, rfl, hr1⟩ := hr.uncons
    exact .one (order_rn h hr1)
  | many h =>
    obtain ⟨m1, us, rfl, hr1⟩ := hr.uncons
    obtain ⟨m2, us, rfl, hr2⟩ := hr1.uncons
    obtain ⟨a, b, rfl, ha, hr3⟩ := hr2.unappend
    obtain ⟨m3, us, rfl, hr4⟩ := hr3.uncons
    cases hr4.unnil
    exact .many (orderList_rn h ha)

theorem constraint_rn {c : Constraint} {ts ts' : List Tk} (h : ConstraintText c ts) (hr : Renamed ρ ts ts') :
    ConstraintText (rnConstraint ρ c) ts' := by
  cases h with
  | equal =>
    obtain ⟨m1, us, rfl, hr1⟩ := hr.uncons
    obtain ⟨m2, us, rfl, hr2⟩ := hr1.uncons
    obtain ⟨m3, us, rfl, hr3⟩ := hr2.uncons
    obtain ⟨m4, us, rfl, hr4⟩ := hr3.uncons
    cases hr4.unnil
    exact .equal
  | notEqual =>
    obtain ⟨m1, us, rfl, hr1⟩ := hr.uncons
    obtain ⟨m2, us, rfl, hr2⟩ := hr1.uncons
    obtain ⟨m3, us, rfl, hr3⟩ := hr2.uncons
    obtain ⟨m4, us, rfl, hr4⟩ := hr3.uncons
    obtain ⟨m5, us, rfl, hr5⟩ := hr4.uncons
    obtain ⟨m6, us, rfl, hr6⟩ := hr5.uncons
    obtain ⟨m7, us, rfl, hr7⟩ := hr6.uncons
    cases hr7.unnil
    exact .notEqual

theorem constraintList_rn {c : List Constraint} {ts ts' : List Tk} (h : ConstraintList c ts) (hr : Renamed ρ ts ts') :
    ConstraintList (c.map (rnConstraint ρ)) ts' := by
  induction h generalizing ts' with
  | nil => cases hr.unnil; exact .nil
  | cons h1 _ ih =>
    obtain ⟨m1, us, rfl, hr1⟩ := hr.uncons
    obtain ⟨a, b, rfl, ha, hb⟩ := hr1.unappend
    exact .cons (constraint_rn h1 ha) (ih hb)

theorem constraints_rn {c : List Constraint} {ts ts' : List Tk} (h : ConstraintsText c ts) (hr : Renamed ρ ts ts') :
    ConstraintsText (c.map (rnConstraint ρ)) ts' := by
  cases h with
  | none =>
    obtain ⟨m1, us, rfl, hr1⟩ := hr.uncons
    obtain ⟨m2, us, rfl, hr2⟩ := hr1.uncons
    cases hr2.unnil
    exact .none
  | one h =>
    obtain ⟨m1, us, rfl, hr1⟩ := hr.uncons
    exact .one (constraint_rn h hr1)
  | many h =>
    obtain ⟨m1, us, rfl, hr1⟩ := hr.uncons
    obtain ⟨m2, us, rfl, hr2⟩ := hr1.uncons
    obtain ⟨a, b, rfl, ha, hr3⟩ := hr2.unappend
    obtain ⟨m3, us, rfl, hr4⟩ := hr3.uncons
    cases hr4.unnil
    exact .many (constraintList_rn h ha)

theorem rnConstraint_id (c : Constraint) : rnConstraint id c = c := by cases c <;> rfl

theorem constraints_id (c : List Constraint) : c.map (rnConstraint id) = c := by
  rw [show rnConstraint id = id from funext rnConstraint_id, List.map_id]

theorem pairs_id (c : List (Name × Name)) : c.map (Prod.map id id) = c := by simp

/-- The items of a renamed network. -/
def rnItem (ρ : Name → Name) : TnItem → TnItem
  | .ordering _ ps => .ordering 0 (ps.map (Prod.map ρ ρ))
  | .constraints cs => .constraints (cs.map (rnConstraint ρ))

theorem tnItems_rn {is : List TnItem} {ts ts' : List Tk} (h : TnItems is ts) (hr : Renamed ρ ts ts') :
    ∃ is', TnItems is' ts' ∧ is'.map (rnItem id) = is.map (rnItem ρ) := by
  induction h generalizing ts' with
  | nil => cases hr.unnil; exact ⟨[], .nil, rfl⟩
  | ordering h1 _ ih =>
    obtain ⟨m1, us, rfl, hr1⟩ := hr.uncons
    obtain ⟨a, b, rfl, ha, hb⟩ := hr1.unappend
    obtain ⟨is, h3, h4⟩ := ih hb
    exact ⟨_, .ordering (orders_rn h1 ha) h3, by simp [rnItem, h4]⟩
  | constraints h1 _ ih =>
    obtain ⟨m1, us, rfl, hr1⟩ := hr.uncons
    obtain ⟨a, b, rfl, ha, hb⟩ := hr1.unappend
    obtain ⟨is, h3, h4⟩ := ih hb
    refine ⟨_, .constraints (constraints_rn h1 ha) h3, ?_⟩
    simp only [List.map_cons, rnItem, h4, constraints_id]

theorem items_lines (is : List TnItem) : (is.map (rnItem ρ)).filterMap TnItem.line? =
    (is.filterMap TnItem.line?).map fun _ => 0 := by
  induction is with
  | nil => rfl
  | cons i is ih => cases i <;> simp only [List.map_cons, rnItem, List.filterMap_cons, TnItem.line?, ih]

theorem items_pairs (is : List TnItem) : (is.map (rnItem ρ)).flatMap TnItem.pairs =
    (is.flatMap TnItem.pairs).map (Prod.map ρ ρ) := by
  induction is with
  | nil => rfl
  | cons i is ih => cases i <;> simp_all [rnItem, TnItem.pairs]

theorem items_constraints (is : List TnItem) : (is.map (rnItem ρ)).filterMap TnItem.constraints? =
    (is.filterMap TnItem.constraints?).map (List.map (rnConstraint ρ)) := by
  induction is with
  | nil => rfl
  | cons i is ih => cases i <;> simp only [List.map_cons, rnItem, List.filterMap_cons, TnItem.constraints?, ih]

theorem htn_rn {h : HTN} {ts ts' : List Tk} {e : Ending} (ht : HtnText h ts e) (hr : Renamed ρ ts ts') :
    ∃ h', HtnText h' ts' e ∧ rnHtn id h' = rnHtn ρ h := by
  cases ht with
  | empty => cases hr.unnil; exact ⟨_, .empty, rfl⟩
  | @partial_ l1 l2 sts is a b h1 h2 =>
    obtain ⟨m1, us, rfl, hr1⟩ := hr.uncons
    obtain ⟨ab, d, rfl, hr2, hd1⟩ := hr1.unappend
    obtain ⟨a', b', rfl, ha, hb⟩ := hr2.unappend
    obtain ⟨m2, us, rfl, hd2⟩ := hd1.uncons
    cases hd2.unnil
    obtain ⟨l, i1, i2⟩ := subtasks_rn h1 ha
    obtain ⟨is', i3, i4⟩ := tnItems_rn h2 hb
    refine ⟨_, .partial_ i1 i3, ?_⟩
    have e1 := (items_lines (ρ := id) is').symm.trans ((congrArg _ i4).trans (items_lines is))
    have e2 := (items_pairs (ρ := id) is').symm.trans ((congrArg _ i4).trans (items_pairs is))
    have e3 := (items_constraints (ρ := id) is').symm.trans ((congrArg _ i4).trans (items_constraints is))
    simp only [rnHtn, i2, rnOrdering, e2, ← List.getLast?_map, e1, e3]
  | total h1 =>
    obtain ⟨m1, us, rfl, hr1⟩ := hr.uncons
    obtain ⟨a', b', rfl, ha, hb⟩ := hr1.unappend
    obtain ⟨m2, us, rfl, hd1⟩ := hb.uncons
    cases hd1.unnil
    obtain ⟨l, i1, i2⟩ := subtasks_rn h1 ha
    exact ⟨_, .total i1, by simp [rnHtn, i2, rnOrdering]⟩
  | constrained h1 h2 =>
    obtain ⟨m1, us, rfl, hr1⟩ := hr.uncons
    obtain ⟨a', b', rfl, ha, hb⟩ := hr1.unappend
    obtain ⟨m2, us, rfl, hd1⟩ := hb.uncons
    obtain ⟨l, i1, i2⟩ := subtasks_rn h1 ha
    refine ⟨_, .constrained i1 (constraints_rn h2 hd1), ?_⟩
    simp only [rnHtn, i2, rnOrdering, Option.map_some, Option.map_none, constraints_id]

theorem renamed_ne_nil {ts ts' : List Tk} (h : Renamed ρ ts ts') (hn : ts ≠ []) : ts' ≠ [] := by
  rintro rfl
  cases h
  exact hn rfl

theorem method_rn {q : Bool} {m : Method} {ts ts' : List Tk} {e : Ending} (h : MethodText q m ts e) (hr : Renamed ρ ts ts') :
    ∃ m', MethodText q m' ts' e ∧ rnMethod id m' = rnMethod ρ m := by
  cases h with
  | mk h1 h2 h3 h4 h5 =>
    obtain ⟨m1, us, rfl, hr1⟩ := hr.uncons
    obtain ⟨m2, us, rfl, hr2⟩ := hr1.uncons
    obtain ⟨m3, us, rfl, hr3⟩ := hr2.uncons
    obtain ⟨a, b, rfl, ha, hr4⟩ := hr3.unappend
    obtain ⟨m4, us, rfl, hr5⟩ := hr4.uncons
    obtain ⟨m5, us, rfl, hr6⟩ := hr5.uncons
    obtain ⟨m6, us, rfl, hr7⟩ := hr6.uncons
    obtain ⟨m7, us, rfl, hr8⟩ := hr7.uncons
    obtain ⟨c, d, rfl, hc, hr9⟩ := hr8.unappend
    obtain ⟨m8, us, rfl, hr10⟩ := hr9.uncons
    obtain ⟨x, y, rfl, hx, hy⟩ := hr10.unappend
    obtain ⟨ps, i1, i2⟩ := typedList_rn h1 ha
    obtain ⟨trs, i3, i4⟩ := typedList_rn h2 hc
    obtain ⟨pre, i5, i6⟩ := optFormula_rn h3 hx
    obtain ⟨tn, i7, i8⟩ := htn_rn h4 hy
    refine ⟨_, .mk i1 i3 i5 i7 ?_, by simp [rnMethod, i2, i4, i6, i8, rnSymbol]⟩
    rintro rfl
    exact renamed_ne_nil hy (h5 (Option.map_eq_none_iff.mp i6.symm))

theorem initTn_rn {t : InitTN} {ts ts' : List Tk} {e : Ending} (h : InitTnText t ts e) (hr : Renamed ρ ts ts') :
    ∃ t', InitTnText t' ts' e ∧ rnInitTn id t' = rnInitTn ρ t := by
  cases h with
  | plain h =>
    obtain ⟨tn, i7, i8⟩ := htn_rn h hr
    exact ⟨_, .plain i7, by simp [rnInitTn, i8]⟩
  | params h1 h =>
    obtain ⟨m1, us, rfl, hr1⟩ := hr.uncons
    obtain ⟨m2, us, rfl, hr2⟩ := hr1.uncons
    obtain ⟨a, b, rfl, ha, hr3⟩ := hr2.unappend
    obtain ⟨m4, us, rfl, hr4⟩ := hr3.uncons
    obtain ⟨ps, i1, i2⟩ := typedList_rn h1 ha
    obtain ⟨tn, i7, i8⟩ := htn_rn h hr4
    exact ⟨_, .params i1 i7, by simp [rnInitTn, i2, i8]⟩

/-! ### Blocks and files -/

theorem reqToks_rn {rs : List (Req × Nat)} {ts' : List Tk} (hr : Renamed ρ (reqToks rs) ts') :
    ∃ rs', ts' = reqToks rs' ∧ rs'.map Prod.fst = rs.map Prod.fst := by
  induction rs generalizing ts' with
  | nil => cases hr.unnil; exact ⟨[], rfl, rfl⟩
  | cons x xs ih =>
    obtain ⟨l', us, rfl, h2⟩ := hr.uncons
    obtain ⟨xs', rfl, h3⟩ := ih h2
    exact ⟨(x.1, l') :: xs', rfl, by simp [h3]⟩

theorem dblock_rn {q : Bool} {b : DBlock} {ts ts' : List Tk} {e : Ending} (h : DBlockText q b ts e) (hr : Renamed ρ ts ts') :
    ∃ b', DBlockText q b' ts' e ∧ rnDBlock id b' = rnDBlock ρ b := by
  cases h with
  | predicates h =>
    obtain ⟨m1, us, rfl, hr1⟩ := hr.uncons
    obtain ⟨m2, us, rfl, hr2⟩ := hr1.uncons
    obtain ⟨a, b, rfl, ha, hr3⟩ := hr2.unappend
    obtain ⟨m3, us, rfl, hr4⟩ := hr3.uncons
    cases hr4.unnil
    obtain ⟨x, i1, i2⟩ := predicates_rn h ha
    exact ⟨_, .predicates i1, by simp [rnDBlock, i2]⟩
  | functions h =>
    obtain ⟨m1, us, rfl, hr1⟩ := hr.uncons
    obtain ⟨m2, us, rfl, hr2⟩ := hr1.uncons
    obtain ⟨a, b, rfl, ha, hr3⟩ := hr2.unappend
    obtain ⟨m3, us, rfl, hr4⟩ := hr3.uncons
    cases hr4.unnil
    obtain ⟨x, i1, i2⟩ := predicates_rn h ha
    exact ⟨_, .functions i1, by simp [rnDBlock, i2]⟩
  | task h =>
    obtain ⟨m1, us, rfl, hr1⟩ := hr.uncons
    obtain ⟨m2, us, rfl, hr2⟩ := hr1.uncons
    obtain ⟨a, b, rfl, ha, hr3⟩ := hr2.unappend
    obtain ⟨m3, us, rfl, hr4⟩ := hr3.uncons
    cases hr4.unnil
    obtain ⟨x, i1, i2⟩ := task_rn h ha
    exact ⟨_, .task i1, by simp [rnDBlock, i2]⟩
  | method h =>
    obtain ⟨m1, us, rfl, hr1⟩ := hr.uncons
    obtain ⟨m2, us, rfl, hr2⟩ := hr1.uncons
    obtain ⟨x, i1, i2⟩ := method_rn h hr2
    exact ⟨_, .method i1, by simp [rnDBlock, i2]⟩
  | action h =>
    obtain ⟨m1, us, rfl, hr1⟩ := hr.uncons
    obtain ⟨m2, us, rfl, hr2⟩ := hr1.uncons
    obtain ⟨x, i1, i2⟩ := action_rn h hr2
    exact ⟨_, .action i1, by simp [rnDBlock, i2]⟩
  | requirements =>
    obtain ⟨m1, us, rfl, hr1⟩ := hr.uncons
    obtain ⟨m2, us, rfl, hr2⟩ := hr1.uncons
    obtain ⟨a, b, rfl, ha, hr3⟩ := hr2.unappend
    obtain ⟨m3, us, rfl, hr4⟩ := hr3.uncons
    cases hr4.unnil
    obtain ⟨x, rfl, i2⟩ := reqToks_rn ha
    exact ⟨_, .requirements, by simp [rnDBlock, i2]⟩
  | types h =>
    obtain ⟨m1, us, rfl, hr1⟩ := hr.uncons
    obtain ⟨m2, us, rfl, hr2⟩ := hr1.uncons
    obtain ⟨a, b, rfl, ha, hr3⟩ := hr2.unappend
    obtain ⟨m3, us, rfl, hr4⟩ := hr3.uncons
    cases hr4.unnil
    obtain ⟨x, i1, i2⟩ := typedList_rn h ha
    exact ⟨_, .types i1, by simp [rnDBlock, i2]⟩
  | constants h =>
    obtain ⟨m1, us, rfl, hr1⟩ := hr.uncons
    obtain ⟨m2, us, rfl, hr2⟩ := hr1.uncons
    obtain ⟨a, b, rfl, ha, hr3⟩ := hr2.unappend
    obtain ⟨m3, us, rfl, hr4⟩ := hr3.uncons
    cases hr4.unnil
    obtain ⟨x, i1, i2⟩ := typedList_rn h ha
    exact ⟨_, .constants i1, by simp [rnDBlock, i2]⟩

theorem pblock_rn {q : Bool} {b : PBlock} {ts ts' : List Tk} {e : Ending} (h : PBlockText q b ts e) (hr : Renamed ρ ts ts') :
    ∃ b', PBlockText q b' ts' e ∧ rnPBlock id b' = rnPBlock ρ b := by
  cases h with
  | requirements =>
    obtain ⟨m1, us, rfl, hr1⟩ := hr.uncons
    obtain ⟨m2, us, rfl, hr2⟩ := hr1.uncons
    obtain ⟨a, b, rfl, ha, hr3⟩ := hr2.unappend
    obtain ⟨m3, us, rfl, hr4⟩ := hr3.uncons
    cases hr4.unnil
    obtain ⟨x, rfl, i2⟩ := reqToks_rn ha
    exact ⟨_, .requirements, by simp [rnPBlock, i2]⟩
  | objects h =>
    obtain ⟨m1, us, rfl, hr1⟩ := hr.uncons
    obtain ⟨m2, us, rfl, hr2⟩ := hr1.uncons
    obtain ⟨a, b, rfl, ha, hr3⟩ := hr2.unappend
    obtain ⟨m3, us, rfl, hr4⟩ := hr3.uncons
    cases hr4.unnil
    obtain ⟨x, i1, i2⟩ := typedList_rn h ha
    exact ⟨_, .objects i1, by simp [rnPBlock, i2]⟩
  | htn h =>
    obtain ⟨m1, us, rfl, hr1⟩ := hr.uncons
    obtain ⟨m2, us, rfl, hr2⟩ := hr1.uncons
    obtain ⟨x, i1, i2⟩ := initTn_rn h hr2
    exact ⟨_, .htn i1, by simp [rnPBlock, i2]⟩
  | goal h =>
    obtain ⟨m1, us, rfl, hr1⟩ := hr.uncons
    obtain ⟨m2, us, rfl, hr2⟩ := hr1.uncons
    obtain ⟨x, i1, i2⟩ := formula_rn h hr2
    exact ⟨_, .goal i1, by simp [rnPBlock, i2]⟩
  | init h =>
    obtain ⟨m1, us, rfl, hr1⟩ := hr.uncons
    obtain ⟨m2, us, rfl, hr2⟩ := hr1.uncons
    obtain ⟨a, b, rfl, ha, hr3⟩ := hr2.unappend
    obtain ⟨m3, us, rfl, hr4⟩ := hr3.uncons
    cases hr4.unnil
    obtain ⟨x, i1, i2⟩ := predicates_rn h ha
    exact ⟨_, .init i1, by simp [rnPBlock, i2]⟩

theorem atParen_rn {ts ts' : List Tk} (h : AtParen ts) (hr : Renamed ρ ts ts') : AtParen ts' := by
  obtain ⟨l, r, rfl⟩ := h
  obtain ⟨m1, us, rfl, hr1⟩ := hr.uncons
  exact ⟨m1, us, rfl⟩

theorem joint_rn {q : Bool} {e : Ending} {ts ts' : List Tk} (h : Joint q e ts) (hr : Renamed ρ ts ts') : Joint q e ts' := by
  cases e with
  | closed => trivial
  | open_ => exact h.imp id fun h => atParen_rn h hr
  | atParen => exact atParen_rn h hr

theorem body_rn {β : Type} {q : Bool} {block : β → List Tk → Ending → Prop} {stop : List Tk → Prop} {rn rn' : β → β}
    (hb : ∀ b ts ts' e, block b ts e → Renamed ρ ts ts' → ∃ b', block b' ts' e ∧ rn' b' = rn b)
    (hs : ∀ ts ts', stop ts → Renamed ρ ts ts' → stop ts') {bs : List β} {ts ts' : List Tk}
    (h : Body q block stop bs ts) (hr : Renamed ρ ts ts') : ∃ bs', Body q block stop bs' ts' ∧ bs'.map rn' = bs.map rn := by
  induction h generalizing ts' with
  | done h => exact ⟨[], .done (hs _ _ h hr), rfl⟩
  | block h1 h2 _ ih =>
    obtain ⟨a, b, rfl, ha, hr1⟩ := hr.unappend
    obtain ⟨x, i1, i2⟩ := hb _ _ _ _ h1 ha
    obtain ⟨xs, i3, i4⟩ := ih hr1
    exact ⟨_, .block i1 (joint_rn h2 hr1) i3, by simp [i2, i4]⟩

theorem closeParen_rn {ts ts' : List Tk} (h : closeParen ts) (hr : Renamed ρ ts ts') : closeParen ts' := by
  obtain ⟨l, rfl⟩ := h
  obtain ⟨m1, us, rfl, hr1⟩ := hr.uncons
  cases hr1.unnil
  exact ⟨m1, rfl⟩

theorem closeProblem_rn {q : Bool} {ts ts' : List Tk} (h : closeProblem q ts) (hr : Renamed ρ ts ts') : closeProblem q ts' := by
  rcases h with h | ⟨hq, l, rfl⟩
  · exact .inl (closeParen_rn h hr)
  · obtain ⟨m1, us, rfl, hr1⟩ := hr.uncons
    cases hr1.unnil
    exact .inr ⟨hq, m1, rfl⟩

theorem flatMap_rn {α β : Type} (g : β → List α) (r : α → α) (rb : β → β) (h : ∀ b, g (rb b) = (g b).map r) (bs : List β) :
    (bs.map rb).flatMap g = (bs.flatMap g).map r := by
  induction bs with
  | nil => rfl
  | cons b bs ih => simp [h, ih]

theorem filterMap_rn {α β : Type} (g : β → Option α) (r : α → α) (rb : β → β) (h : ∀ b, g (rb b) = (g b).map r) (bs : List β) :
    (bs.map rb).filterMap g = (bs.filterMap g).map r := by
  induction bs with
  | nil => rfl
  | cons b bs ih =>
    have hb := h b
    cases hg : g b <;> rw [hg] at hb <;> simp_all

theorem nonEmpty_map {α : Type} (r : α → α) (l : List α) : nonEmpty (l.map r) = (nonEmpty l).map (List.map r) := by
  cases l <;> rfl

theorem domainOf_rn (name : Name) (bs : List DBlock) :
    rnDomain ρ (domainOf name bs) = domainOf (ρ name) (bs.map (rnDBlock ρ)) := by
  simp only [rnDomain, domainOf, DomainAST.mk.injEq, ← nonEmpty_map, true_and]
  refine ⟨?_, ?_, ?_, ?_, ?_, ?_, ?_, ?_⟩
  · rw [flatMap_rn DBlock.typeSyms (rnSymbol ρ)]; intro b; cases b <;> simp [rnDBlock, DBlock.typeSyms]
  · rw [flatMap_rn DBlock.constSyms (rnSymbol ρ)]; intro b; cases b <;> simp [rnDBlock, DBlock.constSyms]
  · rw [flatMap_rn DBlock.reqs id, List.map_id]; intro b; cases b <;> simp [rnDBlock, DBlock.reqs]
  · rw [flatMap_rn DBlock.preds (rnPredicate ρ)]; intro b; cases b <;> simp [rnDBlock, DBlock.preds]
  · rw [flatMap_rn DBlock.tasks (rnTask ρ)]; intro b; cases b <;> simp [rnDBlock, DBlock.tasks]
  · rw [flatMap_rn DBlock.methods (rnMethod ρ)]; intro b; cases b <;> simp [rnDBlock, DBlock.methods]
  · rw [flatMap_rn DBlock.actions (rnAction ρ)]; intro b; cases b <;> simp [rnDBlock, DBlock.actions]
  · rw [flatMap_rn DBlock.funs (rnPredicate ρ)]; intro b; cases b <;> simp [rnDBlock, DBlock.funs]

theorem problemOf_rn (bs : List PBlock) : rnProblem ρ (problemOf bs) = problemOf (bs.map (rnPBlock ρ)) := by
  simp only [rnProblem, problemOf, ProblemAST.mk.injEq]
  refine ⟨?_, ?_, ?_, ?_, ?_⟩
  · rw [flatMap_rn PBlock.reqs id, List.map_id]; intro b; cases b <;> simp [rnPBlock, PBlock.reqs]
  · rw [filterMap_rn PBlock.htn? (rnInitTn ρ), List.getLast?_map]; intro b; cases b <;> simp [rnPBlock, PBlock.htn?]
  · rw [filterMap_rn PBlock.init? (List.map (rnPredicate ρ)), List.getLast?_map]
    · cases (bs.filterMap PBlock.init?).getLast? <;> rfl
    · intro b; cases b <;> simp [rnPBlock, PBlock.init?]
  · rw [filterMap_rn PBlock.goal? (rnFormula ρ), List.getLast?_map]; intro b; cases b <;> simp [rnPBlock, PBlock.goal?]
  · rw [flatMap_rn PBlock.objs (rnSymbol ρ)]; intro b; cases b <;> simp [rnPBlock, PBlock.objs]

/-- The renamed text denotes the renamed tree. -/
theorem fileText_rn {q : Bool} {a : AST} {ts ts' : List Tk} (h : FileText q a ts) (hr : Renamed ρ ts ts') :
    ∃ a', FileText q a' ts' ∧ rnAST id a' = rnAST ρ a := by
  cases h with
  | domain h =>
    obtain ⟨m1, us, rfl, hr1⟩ := hr.uncons
    obtain ⟨m2, us, rfl, hr2⟩ := hr1.uncons
    obtain ⟨m3, us, rfl, hr3⟩ := hr2.uncons
    obtain ⟨m4, us, rfl, hr4⟩ := hr3.uncons
    obtain ⟨m5, us, rfl, hr5⟩ := hr4.uncons
    obtain ⟨m6, us, rfl, hr6⟩ := hr5.uncons
    obtain ⟨bs, i1, i2⟩ := body_rn (block := DBlockText q) (stop := closeParen) (rn := rnDBlock ρ) (rn' := rnDBlock id)
      (fun _ _ _ _ => dblock_rn)
      (fun _ _ => closeParen_rn) h hr6
    exact ⟨_, .domain i1, by simp only [rnAST, domainOf_rn, i2, id]⟩
  | problem h =>
    obtain ⟨m1, us, rfl, hr1⟩ := hr.uncons
    obtain ⟨m2, us, rfl, hr2⟩ := hr1.uncons
    obtain ⟨m3, us, rfl, hr3⟩ := hr2.uncons
    obtain ⟨m4, us, rfl, hr4⟩ := hr3.uncons
    obtain ⟨m5, us, rfl, hr5⟩ := hr4.uncons
    obtain ⟨m6, us, rfl, hr6⟩ := hr5.uncons
    obtain ⟨m7, us, rfl, hr7⟩ := hr6.uncons
    obtain ⟨m8, us, rfl, hr8⟩ := hr7.uncons
    obtain ⟨m9, us, rfl, hr9⟩ := hr8.uncons
    obtain ⟨m10, us, rfl, hr10⟩ := hr9.uncons
    obtain ⟨bs, i1, i2⟩ := body_rn (block := PBlockText q) (stop := closeProblem q) (rn := rnPBlock ρ)
      (rn' := rnPBlock id) (fun _ _ _ _ => pblock_rn)
      (fun _ _ => closeProblem_rn) h hr10
    exact ⟨_, .problem i1, by simp only [rnAST, problemOf_rn, i2]⟩

end Verif
