import Verif.Spec.Unsupported
import Mathlib.Data.List.Induction

/-! The texts of the grammar contain nothing that is not supported. -/

namespace Verif

open Spec

/-- What the last tokens of a text say about the next one. -/
inductive Beside where
  /-- nothing -/
  | free
  /-- an opening parenthesis -/
  | opened
  /-- an opening parenthesis, a name, and possibly names and types; `true`: no names and types yet -/
  | atom (fresh : Bool)
  /-- a dash; `true`: in what started with an opening parenthesis and a name -/
  | dash (inAtom : Bool)
  deriving DecidableEq

/-- One token of a text, with the keyword in effect. -/
def walk1 (k : Option Kw) : Beside → Token → Option (Option Kw × Beside)
  | .dash b, .ident _ => some (k, if b then .atom false else .free)
  | .dash _, _ => none
  | .atom _, .ident _ => some (k, .atom false)
  | .atom _, .punct .dash => some (k, .dash true)
  | .atom _, .punct .rparen => some (k, .free)
  | .atom fresh, .punct .lparen => if fresh && subtaskPlace k then some (k, .opened) else none
  | .atom _, _ => none
  | .opened, .ident _ => some (k, .atom true)
  | _, .punct .lparen => some (k, .opened)
  | _, .punct .rparen => some (k, .free)
  | _, .punct .dash => some (k, .dash false)
  | _, .ident _ => some (k, .free)
  | _, .kw k' => some (some k', .free)
  | _, .op o => if o ∈ operatorsAfter k then some (k, .free) else none
  | _, .num _ => if formulaPlace k then some (k, .free) else none
  | _, .req _ => some (k, .free)
  | _, .eof => some (k, .free)

def walk : Option Kw × Beside → List Tk → Option (Option Kw × Beside)
  | s, [] => some s
  | s, x :: ts => (walk1 s.1 s.2 x.1).bind fun s' => walk s' ts

theorem walk_append {s : Option Kw × Beside} {a b : List Tk} : walk s (a ++ b) = (walk s a).bind fun s' => walk s' b := by
  induction a generalizing s with
  | nil => rfl
  | cons x a ih =>
    simp only [List.cons_append, walk]
    cases walk1 s.1 s.2 x.1 with
    | none => rfl
    | some s' => simp [ih]

/-! ### From the state to the text -/

theorem walk_keyword {c : List Tk} {s : Option Kw × Beside} (h : walk (none, .free) c = some s) : s.1 = lastKeyword c := by
  induction c using List.reverseRecOn generalizing s with
  | nil => cases h; rfl
  | append_singleton c x ih =>
    rw [walk_append] at h
    obtain ⟨s', h1, h2⟩ := Option.bind_eq_some_iff.1 h
    have := ih h1
    obtain ⟨t, l⟩ := x
    obtain ⟨k, r⟩ := s'
    simp only at this
    subst this
    simp only [walk, Option.bind_eq_some_iff] at h2
    obtain ⟨s'', h2, h3⟩ := h2
    cases h3
    unfold lastKeyword at *
    rw [List.filterMap_append]
    cases t with
    | kw k' =>
      cases r <;> simp_all [walk1, keyword?]
      all_goals cases h2; rfl
    | punct p => cases p <;> cases r <;> simp only [walk1] at h2 <;> (try split at h2) <;> cases h2 <;> simp [keyword?]
    | ident | num | op | req | eof => cases r <;> simp only [walk1] at h2 <;> (try split at h2) <;> cases h2 <;> simp [keyword?]

theorem walk_dash {s s' : Option Kw × Beside} {c : List Tk} {l : Nat} (h : walk s (c ++ [(.punct .dash, l)]) = some s') :
    ∃ b, s'.2 = .dash b := by
  rw [walk_append] at h
  obtain ⟨⟨k, r⟩, h1, h2⟩ := Option.bind_eq_some_iff.1 h
  simp only [walk, Option.bind_eq_some_iff] at h2
  obtain ⟨s'', h2, h3⟩ := h2
  cases h3
  cases r <;> simp only [walk1] at h2 <;> cases h2 <;> exact ⟨_, rfl⟩

theorem walk_items_atom {m : List Tk} (h : Items m) {k : Option Kw} {b : Bool} :
    walk (k, .atom b) m = some (k, .atom (b && m.isEmpty)) := by
  induction h generalizing b with
  | nil => simp [walk]
  | name _ ih => simp [walk, walk1, ih]
  | type _ ih => simp [walk, walk1, ih]

theorem walk_opened {s s' : Option Kw × Beside} {c m : List Tk} (hc : Opened c m) (h : walk s c = some s') :
    s'.2 = .atom m.isEmpty := by
  obtain ⟨c', l1, x, l2, rfl, hm⟩ := hc
  rw [walk_append] at h
  obtain ⟨⟨k, r⟩, h1, h2⟩ := Option.bind_eq_some_iff.1 h
  have key : ∀ u, walk1 k r lpar = some u → u = (k, .opened) := by
    intro u hu
    cases r <;> simp only [walk1] at hu <;> (try split at hu) <;> cases hu <;> rfl
  simp only [walk, Option.bind_eq_some_iff] at h2
  obtain ⟨u, h2, v, h3, h4⟩ := h2
  cases key u h2
  simp only [walk1] at h3
  cases h3
  rw [walk_items_atom hm] at h4
  cases h4
  simp

/-- Where the walk goes on, nothing unsupported was met. -/
theorem walk_supported {c r : List Tk} {t : Token} {l : Nat} {s : Option Kw × Beside} (h : walk (none, .free) (c ++ (t, l) :: r) = some s) :
    ¬ Unsupported c t := by
  rw [walk_append] at h
  obtain ⟨⟨k, a⟩, h1, h2⟩ := Option.bind_eq_some_iff.1 h
  simp only [walk, Option.bind_eq_some_iff] at h2
  obtain ⟨u, h2, _⟩ := h2
  have hk := walk_keyword h1
  simp only at hk
  subst hk
  rintro (ho | ⟨hc, ht⟩ | ⟨hc, hm⟩ | ⟨hc, hi, hp⟩ | hn)
  · cases a <;> simp [walk1, ho] at h2
  · obtain ⟨b, hb⟩ := walk_dash (hc ▸ h1)
    simp only at hb
    subst hb
    cases t <;> simp [walk1] at h2
    exact ht _ rfl
  · have := walk_opened hc h1
    simp only at this
    subst this
    simp only [walk1] at h2
    split at h2
    · rename_i hb
      simp only [Bool.and_eq_true, List.isEmpty_iff] at hb
      rcases hm with hm | hm
      · exact hm hb.1
      · simp [hm] at hb
    · cases h2
  · have := walk_opened hc h1
    simp only at this
    subst this
    cases t <;> simp [walk1] at h2
    · exact hi _ rfl
    · exact hp _ rfl
  · cases a <;> simp [walk1, hn] at h2

/-! ### The texts of the grammar -/

/-- The walk through `ts` with the keyword `k` ends well. -/
abbrev Stays (k : Option Kw) (ts : List Tk) : Prop := walk (k, .free) ts = some (k, .free)

/-- The same, with any keyword at the end. -/
abbrev Crosses (ts : List Tk) : Prop := ∀ k, ∃ k', walk (k, .free) ts = some (k', .free)

theorem Stays.append {k : Option Kw} {a b : List Tk} (ha : Stays k a) (hb : Stays k b) : Stays k (a ++ b) := by
  unfold Stays; rw [walk_append, ha]; exact hb

theorem Crosses.append {a b : List Tk} (ha : Crosses a) (hb : Crosses b) : Crosses (a ++ b) := by
  intro k
  obtain ⟨k', h⟩ := ha k
  obtain ⟨k'', h'⟩ := hb k'
  exact ⟨k'', by rw [walk_append, h]; exact h'⟩

theorem Crosses.nil : Crosses [] := fun k => ⟨k, rfl⟩

theorem Stays.rpar {k : Option Kw} {l : Nat} : Stays k [(rpar, l)] := rfl

theorem Crosses.rpar {l : Nat} : Crosses [(rpar, l)] := fun k => ⟨k, rfl⟩

/-- After a keyword. -/
theorem Crosses.kw {k : Kw} {l : Nat} {ts : List Tk} (h : Stays (some k) ts) : Crosses ((.kw k, l) :: ts) := by
  intro k0
  exact ⟨some k, by simpa [Stays, walk, walk1] using h⟩

/-- After an opening parenthesis and a keyword. -/
theorem Crosses.block {k : Kw} {l1 l2 : Nat} {ts : List Tk} (h : Stays (some k) ts) : Crosses ((lpar, l1) :: (.kw k, l2) :: ts) := by
  intro k0
  exact ⟨some k, by simpa [Stays, walk, walk1] using h⟩

theorem Crosses.block' {k : Kw} {l1 l2 : Nat} {ts : List Tk} (h : Crosses ts) : Crosses ((lpar, l1) :: (.kw k, l2) :: ts) := by
  intro k0
  obtain ⟨k', h⟩ := h (some k)
  exact ⟨k', by simpa [Stays, walk, walk1] using h⟩

theorem Stays.passes {ts : List Tk} (h : ∀ k, Stays k ts) : Crosses ts := fun k => ⟨k, h k⟩

theorem stays_items_free {m : List Tk} (h : Items m) {k : Option Kw} : Stays k m := by
  induction h with
  | nil => rfl
  | name _ ih => simpa [Stays, walk, walk1] using ih
  | type _ ih => simpa [Stays, walk, walk1] using ih

/-- A list in parentheses. -/
theorem stays_list {m ts : List Tk} (h : Items m) {k : Option Kw} {l1 l2 : Nat} (ht : Stays k ts) :
    Stays k ((lpar, l1) :: (m ++ (rpar, l2) :: ts)) := by
  unfold Stays at *
  simp only [walk, walk1, Option.bind_some]
  cases h with
  | nil => simpa [Stays, walk, walk1] using ht
  | name h => simp [walk, walk1, walk_append, walk_items_atom h, ht]
  | type h => simp [walk, walk1, walk_append, stays_items_free h, ht]

/-- An atom in parentheses. -/
theorem stays_atom {m ts : List Tk} {x : Name} (h : Items m) {k : Option Kw} {l1 l2 l3 : Nat} (ht : Stays k ts) :
    Stays k ((lpar, l1) :: (.ident x, l2) :: (m ++ (rpar, l3) :: ts)) := by
  simpa using stays_list (l1 := l1) (l2 := l3) (Items.name (x := x) (l := l2) h) ht

theorem stays_op {k : Option Kw} {o : Op} (ho : o ∈ operatorsAfter k) {l1 l2 : Nat} {ts : List Tk} (h : Stays k ts) :
    Stays k ((lpar, l1) :: (.op o, l2) :: ts) := by
  simpa [Stays, walk, walk1, ho] using h

theorem predicates_stays {ps a} (h : Predicates ps a) {k : Option Kw} : Stays k a := by
  induction h with
  | nil => rfl
  | cons hv _ ih => exact stays_atom hv.1 ih

theorem operators_formula {k : Option Kw} (hk : formulaPlace k = true) :
    operatorsAfter k = [.and, .or, .not, .xor, .forall_, .exists_, .probabilistic, .equal] := by
  unfold formulaPlace at hk
  split at hk <;> first | rfl | cases hk

mutual

theorem formula_stays {q : Bool} {k : Option Kw} (hk : formulaPlace k = true) {f : Formula} {ts : List Tk} :
    FormulaText q f ts → Stays k ts
  | .empty => rfl
  | .missing _ => rfl
  | .atom hv => stays_atom hv.1 rfl
  | .not h => stays_op (by simp [operators_formula hk]) (.append (formula_stays hk h) .rpar)
  | .and h => stays_op (by simp [operators_formula hk]) (formulas_stays hk h)
  | .or h => stays_op (by simp [operators_formula hk]) (formulas_stays hk h)
  | .xor h => stays_op (by simp [operators_formula hk]) (formulas_stays hk h)
  | .equals => stays_op (by simp [operators_formula hk]) rfl
  | .forall_ hv h => stays_op (by simp [operators_formula hk]) (stays_list hv.1 (.append (formula_stays hk h) .rpar))
  | .exists_ hv h => stays_op (by simp [operators_formula hk]) (stays_list hv.1 (.append (formula_stays hk h) .rpar))
  | .probabilistic h => stays_op (by simp [operators_formula hk]) (branches_stays hk h)

theorem formulas_stays {q : Bool} {k : Option Kw} (hk : formulaPlace k = true) {fs : List Formula} {ts : List Tk} :
    FormulasText q fs ts → Stays k ts
  | .nil => rfl
  | .unclosed _ => rfl
  | .cons h _ h' => .append (formula_stays hk h) (formulas_stays hk h')

theorem branches_stays {q : Bool} {k : Option Kw} (hk : formulaPlace k = true) {fs : List Formula} {ts : List Tk} :
    BranchesText q fs ts → Stays k ts
  | .nil => rfl
  | .cons h _ h' => by
    have := Stays.append (formula_stays hk h) (branches_stays hk h')
    simpa [Stays, walk, walk1, hk] using this

end

theorem optFormula_crosses {q : Bool} {k : Kw} (hk : formulaPlace (some k) = true) {f : Option Formula} {ts : List Tk}
    (h : OptFormula q k f ts) : Crosses ts := by
  cases h with
  | none => exact .nil
  | some h => exact .kw (formula_stays hk h)

theorem items_names (xs : List (Name × Nat)) : Items (nameToks xs) := by
  induction xs with
  | nil => exact .nil
  | cons x xs ih => exact .name ih

theorem subtask_stays {k : Option Kw} (hk : subtaskPlace k = true) {t : Subtask} {a ts : List Tk} (h : SubtaskText t a) {l : Nat}
    (ht : Stays k ts) : Stays k ((lpar, l) :: (a ++ ts)) := by
  cases h with
  | plain => simpa using stays_atom (items_names _) ht
  | labelled =>
    unfold Stays at *
    simp [walk, walk1, hk, walk_append, walk_items_atom (items_names _), ht]

theorem subtaskList_stays {k : Option Kw} (hk : subtaskPlace k = true) {t : List Subtask} {a : List Tk} (h : SubtaskList t a) :
    Stays k a := by
  induction h with
  | nil => rfl
  | cons h _ ih => exact subtask_stays hk h ih

theorem subtasks_stays {k : Option Kw} (hk : subtaskPlace k = true) {t : List Subtask} {a : List Tk} (h : SubtasksText t a) :
    Stays k a := by
  cases h with
  | none => rfl
  | one h => simpa using subtask_stays hk h (ts := []) rfl
  | many h =>
    refine stays_op ?_ (.append (subtaskList_stays hk h) .rpar)
    unfold subtaskPlace at hk
    split at hk <;> first | (simp [operatorsAfter]; done) | cases hk

theorem order_stays {o a ts} (h : OrderText o a) {l : Nat} (ht : Stays (some .ordering) ts) :
    Stays (some .ordering) ((lpar, l) :: (a ++ ts)) := by
  cases h with
  | @mk l1 x l2 l3 bs =>
    refine stays_op (by simp [operatorsAfter]) ?_
    have : Stays (some .ordering) ((.ident x, l2) :: nameToks bs) := stays_items_free (.name (items_names bs))
    have := Stays.append this (Stays.append (Stays.rpar (l := l3)) ht)
    simpa using this

theorem orderList_stays {o a} (h : OrderList o a) : Stays (some .ordering) a := by
  induction h with
  | nil => rfl
  | cons h _ ih => exact order_stays h ih

theorem orders_stays {o a} (h : OrdersText o a) : Stays (some .ordering) a := by
  cases h with
  | none => rfl
  | one h => simpa using order_stays h (ts := []) rfl
  | many h => exact stays_op (by simp [operatorsAfter]) (.append (orderList_stays h) .rpar)

theorem constraint_stays {c a ts} (h : ConstraintText c a) {l : Nat} (ht : Stays (some .constraints) ts) :
    Stays (some .constraints) ((lpar, l) :: (a ++ ts)) := by
  cases h with
  | equal => exact stays_op (by simp [operatorsAfter]) (by simpa [Stays, walk, walk1] using ht)
  | notEqual => exact stays_op (by simp [operatorsAfter]) (stays_op (by simp [operatorsAfter]) (by simpa [Stays, walk, walk1] using ht))

theorem constraintList_stays {c a} (h : ConstraintList c a) : Stays (some .constraints) a := by
  induction h with
  | nil => rfl
  | cons h _ ih => exact constraint_stays h ih

theorem constraints_stays {c a} (h : ConstraintsText c a) : Stays (some .constraints) a := by
  cases h with
  | none => rfl
  | one h => simpa using constraint_stays h (ts := []) rfl
  | many h => exact stays_op (by simp [operatorsAfter]) (.append (constraintList_stays h) .rpar)

theorem tnItems_crosses {is a} (h : TnItems is a) : Crosses a := by
  induction h with
  | nil => exact .nil
  | ordering h _ ih => exact .append (.kw (orders_stays h)) ih
  | constraints h _ ih => exact .append (.kw (constraints_stays h)) ih

theorem htn_crosses {tn a e} (h : HtnText tn a e) : Crosses a := by
  cases h with
  | empty => exact .nil
  | partial_ h h' =>
    exact .append (.append (.kw (subtasks_stays rfl h)) (tnItems_crosses h')) .rpar
  | total h => exact .append (.kw (subtasks_stays rfl h)) .rpar
  | constrained h h' => exact .append (.kw (subtasks_stays rfl h)) (.kw (constraints_stays h'))

theorem list_crosses {m ts : List Tk} (h : Items m) {l1 l2 : Nat} (ht : Crosses ts) : Crosses ((lpar, l1) :: (m ++ (rpar, l2) :: ts)) := by
  have h1 : Crosses ((lpar, l1) :: (m ++ [(rpar, l2)])) := Stays.passes fun k => stays_list h rfl
  simpa using h1.append ht

theorem kw_crosses {k : Kw} {l : Nat} {ts : List Tk} (h : Crosses ts) : Crosses ((.kw k, l) :: ts) :=
  Crosses.append (a := [(.kw k, l)]) (.kw rfl) h

theorem ident_crosses {x : Name} {l : Nat} {ts : List Tk} (h : Crosses ts) : Crosses ((.ident x, l) :: ts) :=
  Crosses.append (a := [(.ident x, l)]) (fun k => ⟨k, rfl⟩) h

theorem task_crosses {t a} (h : TaskText t a) : Crosses a := by
  cases h with
  | mk hv => exact ident_crosses (kw_crosses (list_crosses hv.1 .nil))

theorem action_crosses {q x a} (h : ActionText q x a) : Crosses a := by
  cases h with
  | mk h1 h2 h3 =>
    exact .append (.append (.append (task_crosses h1) (optFormula_crosses rfl h2)) (optFormula_crosses rfl h3)) .rpar

theorem method_crosses {q x a e} (h : MethodText q x a e) : Crosses a := by
  cases h with
  | mk h1 h2 h3 h4 _ =>
    refine ident_crosses (kw_crosses (list_crosses h1.1 (kw_crosses ?_)))
    exact list_crosses (Items.name h2.1) (.append (optFormula_crosses rfl h3) (htn_crosses h4))

theorem initTn_crosses {x a e} (h : InitTnText x a e) : Crosses a := by
  cases h with
  | plain h => exact htn_crosses h
  | params h1 h2 => exact kw_crosses (list_crosses h1.1 (htn_crosses h2))

theorem reqs_stays {k : Option Kw} (rs : List (Req × Nat)) : Stays k (reqToks rs) := by
  induction rs with
  | nil => rfl
  | cons r rs ih =>
    have : reqToks (r :: rs) = (.req r.1, r.2) :: reqToks rs := rfl
    rw [this]
    simpa [Stays, walk, walk1] using ih

theorem dblock_crosses {q b a e} (h : DBlockText q b a e) : Crosses a := by
  cases h with
  | predicates h => exact .block (.append (predicates_stays h) .rpar)
  | functions h => exact .block (.append (predicates_stays h) .rpar)
  | task h => exact .block' (.append (task_crosses h) .rpar)
  | method h => exact .block' (method_crosses h)
  | action h => exact .block' (action_crosses h)
  | requirements => exact .block (.append (reqs_stays _) .rpar)
  | types h => exact .block (.append (stays_items_free h.1) .rpar)
  | constants h => exact .block (.append (stays_items_free h.1) .rpar)

theorem pblock_crosses {q b a e} (h : PBlockText q b a e) : Crosses a := by
  cases h with
  | requirements => exact .block (.append (reqs_stays _) .rpar)
  | objects h => exact .block (.append (stays_items_free h.1) .rpar)
  | htn h => exact .block' (initTn_crosses h)
  | goal h => exact .block (formula_stays rfl h)
  | init h => exact .block (.append (predicates_stays h) .rpar)

theorem body_crosses {β : Type} {q : Bool} {block : β → List Tk → Ending → Prop} {stop : List Tk → Prop} {bs ts}
    (hb : ∀ {b a e}, block b a e → Crosses a) (hs : ∀ {a}, stop a → Crosses a) (h : Body q block stop bs ts) : Crosses ts := by
  induction h with
  | done h => exact hs h
  | block h _ _ ih => exact .append (hb h) ih

theorem file_crosses {q a ts} (h : FileText q a ts) : Crosses ts := by
  cases h with
  | domain h =>
    have h1 := body_crosses dblock_crosses (fun ⟨l, h⟩ => h ▸ .rpar) h
    intro k
    obtain ⟨k', h1⟩ := h1 (some .domain)
    exact ⟨k', by simpa [Stays, walk, walk1] using h1⟩
  | problem h =>
    have h1 := body_crosses pblock_crosses (stop := closeProblem q)
      (by rintro a (⟨l, rfl⟩ | ⟨_, l, rfl⟩)
          · exact .rpar
          · exact fun k => ⟨k, rfl⟩) h
    intro k
    obtain ⟨k', h1⟩ := h1 (some .domain)
    exact ⟨k', by simpa [Stays, walk, walk1] using h1⟩

theorem FileText.supported {q a c t l r} (h : FileText q a (c ++ (t, l) :: r)) : ¬ Unsupported c t := by
  obtain ⟨k, h⟩ := file_crosses h none
  exact walk_supported h

end Verif
