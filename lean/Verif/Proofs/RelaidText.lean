import Verif.Proofs.RenameText
import Verif.Spec.Relaid

/-! A text with other names and lines denotes the syntax tree with other names and lines. -/

namespace Verif

open Spec

variable {ρ : Name → Name} {φ : Nat → Nat}

/-- A token with its line, renamed and moved. -/
def mvTk (ρ : Name → Name) (φ : Nat → Nat) (t : Tk) : Tk := (rnToken ρ t.1, φ t.2)

theorem mvTk_ident (x : Name) (l : Nat) : mvTk ρ φ (.ident x, l) = (.ident (ρ x), φ l) := rfl
theorem mvTk_kw (k : Kw) (l : Nat) : mvTk ρ φ (.kw k, l) = (.kw k, φ l) := rfl
theorem mvTk_op (k : Op) (l : Nat) : mvTk ρ φ (.op k, l) = (.op k, φ l) := rfl
theorem mvTk_punct (k : Punct) (l : Nat) : mvTk ρ φ (.punct k, l) = (.punct k, φ l) := rfl
theorem mvTk_num (k : Num) (l : Nat) : mvTk ρ φ (.num k, l) = (.num k, φ l) := rfl
theorem mvTk_req (k : Req) (l : Nat) : mvTk ρ φ (.req k, l) = (.req k, φ l) := rfl
theorem mvTk_eof (l : Nat) : mvTk ρ φ (.eof, l) = (.eof, φ l) := rfl

macro "tks" : tactic => `(tactic| simp only [List.map_cons, List.map_append, List.map_nil, mvTk_ident, mvTk_kw, mvTk_op, mvTk_punct,
  mvTk_num, mvTk_req, mvTk_eof])

theorem items_mv {ts : List Tk} (h : Items ts) : Items (ts.map (mvTk ρ φ)) ∧
    firstType (ts.map (mvTk ρ φ)) = (firstType ts).map (fun x => (ρ x.1, φ x.2)) ∧
    symbolsOf (ts.map (mvTk ρ φ)) = (symbolsOf ts).map (mvSymbol ρ φ) := by
  induction h with
  | nil => exact ⟨.nil, rfl, rfl⟩
  | @name x l ts _ ih =>
    obtain ⟨i1, i2, i3⟩ := ih
    tks
    refine ⟨.name i1, by simpa [firstType] using i2, ?_⟩
    simp only [symbolsOf, i2, i3, List.map_cons, mvSymbol, List.cons.injEq, and_true]
    cases firstType ts <;> rfl
  | @type l t l' ts _ ih =>
    obtain ⟨i1, i2, i3⟩ := ih
    tks
    exact ⟨.type i1, rfl, by simpa [symbolsOf] using i3⟩

theorem typedList_mv {ss : List Symbol} {ts : List Tk} (h : TypedList ss ts) :
    TypedList (ss.map (mvSymbol ρ φ)) (ts.map (mvTk ρ φ)) := by
  obtain ⟨h1, rfl⟩ := h
  obtain ⟨i1, _, i3⟩ := items_mv (ρ := ρ) (φ := φ) h1
  exact ⟨i1, i3.symm⟩

/-- A name with its line. -/
def mvName (ρ : Name → Name) (φ : Nat → Nat) (x : Name × Nat) : Name × Nat := (ρ x.1, φ x.2)

theorem nameToks_mv (xs : List (Name × Nat)) : (nameToks xs).map (mvTk ρ φ) = nameToks (xs.map (mvName ρ φ)) := by
  simp [nameToks, mvName, mvTk_ident, Function.comp_def]

theorem nameSyms_mv (xs : List (Name × Nat)) : (nameSyms xs).map (mvSymbol ρ φ) = nameSyms (xs.map (mvName ρ φ)) := by
  simp [nameSyms, mvName, mvSymbol, Function.comp_def]

theorem predicates_mv {ps : List Predicate} {ts : List Tk} (h : Predicates ps ts) :
    Predicates (ps.map (mvPredicate ρ φ)) (ts.map (mvTk ρ φ)) := by
  induction h with
  | nil => exact .nil
  | cons h1 _ ih => tks; exact .cons (typedList_mv h1) ih

theorem ne_empty_mv {f : Formula} (hf : f ≠ .empty) : mvFormula ρ φ f ≠ .empty := by
  cases f <;> simp [mvFormula] at hf ⊢

mutual

theorem formula_mv {q : Bool} : ∀ {f : Formula} {ts : List Tk}, FormulaText q f ts →
    FormulaText q (mvFormula ρ φ f) (ts.map (mvTk ρ φ))
  | _, _, .empty => by rw [mvFormula]; exact .empty
  | _, _, .missing h => by rw [mvFormula]; exact .missing h
  | _, _, .atom h => by rw [mvFormula]; tks; exact .atom (typedList_mv h)
  | _, _, .not h => by rw [mvFormula]; tks; exact .not (formula_mv h)
  | _, _, .and h => by rw [mvFormula]; tks; exact .and (formulas_mv h)
  | _, _, .or h => by rw [mvFormula]; tks; exact .or (formulas_mv h)
  | _, _, .xor h => by rw [mvFormula]; tks; exact .xor (formulas_mv h)
  | _, _, .equals => by rw [mvFormula]; tks; exact .equals
  | _, _, .forall_ h h' => by rw [mvFormula]; tks; exact .forall_ (typedList_mv h) (formula_mv h')
  | _, _, .exists_ h h' => by rw [mvFormula]; tks; exact .exists_ (typedList_mv h) (formula_mv h')
  | _, _, .probabilistic h => by rw [mvFormula]; tks; exact .probabilistic (branches_mv h)

theorem formulas_mv {q : Bool} : ∀ {fs : List Formula} {ts : List Tk}, FormulasText q fs ts →
    FormulasText q (mvFormulas ρ φ fs) (ts.map (mvTk ρ φ))
  | _, _, .nil => by rw [mvFormulas]; exact .nil
  | _, _, .unclosed h => by rw [mvFormulas]; exact .unclosed h
  | _, _, .cons h h' h'' => by rw [mvFormulas]; tks; exact .cons (formula_mv h) (ne_empty_mv h') (formulas_mv h'')

theorem branches_mv {q : Bool} : ∀ {fs : List Formula} {ts : List Tk}, BranchesText q fs ts →
    BranchesText q (mvFormulas ρ φ fs) (ts.map (mvTk ρ φ))
  | _, _, .nil => by rw [mvFormulas]; exact .nil
  | _, _, .cons h h' h'' => by
    rw [mvFormulas, mvFormula]; tks; exact .cons (formula_mv h) (ne_empty_mv h') (branches_mv h'')

end

theorem optFormula_mv {q : Bool} {k : Kw} {o : Option Formula} {ts : List Tk} (h : OptFormula q k o ts) :
    OptFormula q k (o.map (mvFormula ρ φ)) (ts.map (mvTk ρ φ)) := by
  cases h with
  | none => exact .none
  | some h => tks; exact .some (formula_mv h)

theorem task_mv {t : Task} {ts : List Tk} (h : TaskText t ts) : TaskText (mvTask ρ φ t) (ts.map (mvTk ρ φ)) := by
  cases h with
  | mk h => tks; exact .mk (typedList_mv h)

theorem action_mv {q : Bool} {a : Action} {ts : List Tk} (h : ActionText q a ts) :
    ActionText q (mvAction ρ φ a) (ts.map (mvTk ρ φ)) := by
  cases h with
  | mk h1 h2 h3 => tks; exact .mk (task_mv h1) (optFormula_mv h2) (optFormula_mv h3)

theorem subtask_mv {s : Subtask} {ts : List Tk} (h : SubtaskText s ts) : SubtaskText (mvSubtask ρ φ s) (ts.map (mvTk ρ φ)) := by
  cases h with
  | plain => tks; simp only [mvSubtask, nameSyms_mv, nameToks_mv]; exact .plain
  | labelled => tks; simp only [mvSubtask, nameSyms_mv, nameToks_mv]; exact .labelled

theorem subtaskList_mv {l : List Subtask} {ts : List Tk} (h : SubtaskList l ts) :
    SubtaskList (l.map (mvSubtask ρ φ)) (ts.map (mvTk ρ φ)) := by
  induction h with
  | nil => exact .nil
  | cons h _ ih => tks; exact .cons (subtask_mv h) ih

theorem subtasks_mv {l : List Subtask} {ts : List Tk} (h : SubtasksText l ts) :
    SubtasksText (l.map (mvSubtask ρ φ)) (ts.map (mvTk ρ φ)) := by
  cases h with
  | none => exact .none
  | one h => tks; exact .one (subtask_mv h)
  | many h => tks; exact .many (subtaskList_mv h)

theorem order_mv {o : List (Name × Name)} {ts : List Tk} (h : OrderText o ts) :
    OrderText (o.map (Prod.map ρ ρ)) (ts.map (mvTk ρ φ)) := by
  cases h with
  | @mk l1 a l2 l3 bs =>
    tks
    have : (bs.map fun b => (a, b.1)).map (Prod.map ρ ρ) = (bs.map (mvName ρ φ)).map fun b => (ρ a, b.1) := by
      simp [mvName, Function.comp_def]
    rw [this, nameToks_mv]
    exact .mk

theorem orderList_mv {o : List (Name × Name)} {ts : List Tk} (h : OrderList o ts) :
    OrderList (o.map (Prod.map ρ ρ)) (ts.map (mvTk ρ φ)) := by
  induction h with
  | nil => exact .nil
  | cons h _ ih => tks; exact .cons (order_mv h) ih

theorem orders_mv {o : List (Name × Name)} {ts : List Tk} (h : OrdersText o ts) :
    OrdersText (o.map (Prod.map ρ ρ)) (ts.map (mvTk ρ φ)) := by
  cases h with
  | none => exact .none
  | one h => tks; exact .one (order_mv h)
  | many h => tks; exact .many (orderList_mv h)

theorem constraint_mv {c : Constraint} {ts : List Tk} (h : ConstraintText c ts) :
    ConstraintText (rnConstraint ρ c) (ts.map (mvTk ρ φ)) := by
  cases h with
  | equal => exact .equal
  | notEqual => exact .notEqual

theorem constraintList_mv {c : List Constraint} {ts : List Tk} (h : ConstraintList c ts) :
    ConstraintList (c.map (rnConstraint ρ)) (ts.map (mvTk ρ φ)) := by
  induction h with
  | nil => exact .nil
  | cons h _ ih => tks; exact .cons (constraint_mv h) ih

theorem constraints_mv {c : List Constraint} {ts : List Tk} (h : ConstraintsText c ts) :
    ConstraintsText (c.map (rnConstraint ρ)) (ts.map (mvTk ρ φ)) := by
  cases h with
  | none => exact .none
  | one h => tks; exact .one (constraint_mv h)
  | many h => tks; exact .many (constraintList_mv h)

def mvItem (ρ : Name → Name) (φ : Nat → Nat) : TnItem → TnItem
  | .ordering l ps => .ordering (φ l) (ps.map (Prod.map ρ ρ))
  | .constraints cs => .constraints (cs.map (rnConstraint ρ))

theorem tnItems_mv {is : List TnItem} {ts : List Tk} (h : TnItems is ts) :
    TnItems (is.map (mvItem ρ φ)) (ts.map (mvTk ρ φ)) := by
  induction h with
  | nil => exact .nil
  | ordering h _ ih => tks; exact .ordering (orders_mv h) ih
  | constraints h _ ih => tks; exact .constraints (constraints_mv h) ih

theorem mvItems_lines (is : List TnItem) :
    (is.map (mvItem ρ φ)).filterMap TnItem.line? = (is.filterMap TnItem.line?).map φ := by
  induction is with
  | nil => rfl
  | cons i is ih => cases i <;> simp [mvItem, TnItem.line?, List.filterMap_cons, -List.filterMap_map, ih]

theorem mvItems_pairs (is : List TnItem) :
    (is.map (mvItem ρ φ)).flatMap TnItem.pairs = (is.flatMap TnItem.pairs).map (Prod.map ρ ρ) := by
  induction is with
  | nil => rfl
  | cons i is ih => cases i <;> simp [mvItem, TnItem.pairs, ih]

theorem mvItems_constraints (is : List TnItem) :
    (is.map (mvItem ρ φ)).filterMap TnItem.constraints? = (is.filterMap TnItem.constraints?).map (List.map (rnConstraint ρ)) := by
  induction is with
  | nil => rfl
  | cons i is ih => cases i <;> simp [mvItem, TnItem.constraints?, List.filterMap_cons, -List.filterMap_map, ih]

theorem htn_mv {h : HTN} {ts : List Tk} {e : Ending} (ht : HtnText h ts e) : HtnText (mvHtn ρ φ h) (ts.map (mvTk ρ φ)) e := by
  cases ht with
  | empty => exact .empty
  | partial_ h1 h2 =>
    tks
    simp only [mvHtn, rnOrdering, ← List.getLast?_map, ← mvItems_lines (ρ := ρ), ← mvItems_pairs (φ := φ),
      ← mvItems_constraints (φ := φ)]
    exact .partial_ (subtasks_mv h1) (tnItems_mv h2)
  | total h1 => tks; exact .total (subtasks_mv h1)
  | constrained h1 h2 => tks; exact .constrained (subtasks_mv h1) (constraints_mv h2)

theorem method_mv {q : Bool} {m : Method} {ts : List Tk} {e : Ending} (h : MethodText q m ts e) :
    MethodText q (mvMethod ρ φ m) (ts.map (mvTk ρ φ)) e := by
  cases h with
  | mk h1 h2 h3 h4 h5 =>
    tks
    refine .mk (typedList_mv h1) (typedList_mv h2) (optFormula_mv h3) (htn_mv h4) fun h => ?_
    simpa using h5 (by simpa using h)

theorem initTn_mv {t : InitTN} {ts : List Tk} {e : Ending} (h : InitTnText t ts e) :
    InitTnText (mvInitTn ρ φ t) (ts.map (mvTk ρ φ)) e := by
  cases h with
  | plain h => exact .plain (htn_mv h)
  | params h1 h2 => tks; exact .params (typedList_mv h1) (htn_mv h2)

theorem reqToks_mv (rs : List (Req × Nat)) : (reqToks rs).map (mvTk ρ φ) = reqToks (rs.map fun r => (r.1, φ r.2)) := by
  simp [reqToks, mvTk_req, Function.comp_def]

theorem reqs_mv (rs : List (Req × Nat)) : rs.map Prod.fst = (rs.map fun r => (r.1, φ r.2)).map Prod.fst := by
  simp [Function.comp_def]

def mvDBlock (ρ : Name → Name) (φ : Nat → Nat) : DBlock → DBlock
  | .predicates ps => .predicates (ps.map (mvPredicate ρ φ))
  | .functions ps => .functions (ps.map (mvPredicate ρ φ))
  | .task t => .task (mvTask ρ φ t)
  | .method m => .method (mvMethod ρ φ m)
  | .action a => .action (mvAction ρ φ a)
  | .requirements rs => .requirements rs
  | .types ss => .types (ss.map (mvSymbol ρ φ))
  | .constants ss => .constants (ss.map (mvSymbol ρ φ))

def mvPBlock (ρ : Name → Name) (φ : Nat → Nat) : PBlock → PBlock
  | .requirements rs => .requirements rs
  | .objects ss => .objects (ss.map (mvSymbol ρ φ))
  | .htn tn => .htn (mvInitTn ρ φ tn)
  | .goal f => .goal (mvFormula ρ φ f)
  | .init ps => .init (ps.map (mvPredicate ρ φ))

theorem dblock_mv {q : Bool} {b : DBlock} {ts : List Tk} {e : Ending} (h : DBlockText q b ts e) :
    DBlockText q (mvDBlock ρ φ b) (ts.map (mvTk ρ φ)) e := by
  cases h with
  | predicates h => tks; exact .predicates (predicates_mv h)
  | functions h => tks; exact .functions (predicates_mv h)
  | task h => tks; exact .task (task_mv h)
  | method h => tks; exact .method (method_mv h)
  | action h => tks; exact .action (action_mv h)
  | requirements => tks; rw [mvDBlock, reqToks_mv, reqs_mv]; exact .requirements
  | types h => tks; exact .types (typedList_mv h)
  | constants h => tks; exact .constants (typedList_mv h)

theorem pblock_mv {q : Bool} {b : PBlock} {ts : List Tk} {e : Ending} (h : PBlockText q b ts e) :
    PBlockText q (mvPBlock ρ φ b) (ts.map (mvTk ρ φ)) e := by
  cases h with
  | requirements => tks; rw [mvPBlock, reqToks_mv, reqs_mv]; exact .requirements
  | objects h => tks; exact .objects (typedList_mv h)
  | htn h => tks; exact .htn (initTn_mv h)
  | goal h => tks; exact .goal (formula_mv h)
  | init h => tks; exact .init (predicates_mv h)

theorem joint_mv {q : Bool} {e : Ending} {ts : List Tk} (h : Joint q e ts) : Joint q e (ts.map (mvTk ρ φ)) := by
  have key : AtParen ts → AtParen (ts.map (mvTk ρ φ)) := by
    rintro ⟨l, r, rfl⟩
    exact ⟨φ l, r.map (mvTk ρ φ), rfl⟩
  cases e with
  | closed => trivial
  | open_ => exact h.imp id key
  | atParen => exact key h

theorem body_mv {β : Type} {q : Bool} {block : β → List Tk → Ending → Prop} {stop : List Tk → Prop} {mv : β → β}
    (hb : ∀ b ts e, block b ts e → block (mv b) (ts.map (mvTk ρ φ)) e)
    (hs : ∀ ts, stop ts → stop (ts.map (mvTk ρ φ))) {bs : List β} {ts : List Tk}
    (h : Body q block stop bs ts) : Body q block stop (bs.map mv) (ts.map (mvTk ρ φ)) := by
  induction h with
  | done h => exact .done (hs _ h)
  | block h1 h2 _ ih => rw [List.map_append]; exact .block (hb _ _ _ h1) (joint_mv h2) ih

theorem closeParen_mv {ts : List Tk} (h : closeParen ts) : closeParen (ts.map (mvTk ρ φ)) := by
  obtain ⟨l, rfl⟩ := h
  exact ⟨φ l, rfl⟩

theorem closeProblem_mv {q : Bool} {ts : List Tk} (h : closeProblem q ts) : closeProblem q (ts.map (mvTk ρ φ)) := by
  rcases h with h | ⟨hq, l, rfl⟩
  · exact .inl (closeParen_mv h)
  · exact .inr ⟨hq, φ l, rfl⟩

theorem domainOf_mv (name : Name) (bs : List DBlock) :
    mvDomain ρ φ (domainOf name bs) = domainOf (ρ name) (bs.map (mvDBlock ρ φ)) := by
  simp only [mvDomain, domainOf, DomainAST.mk.injEq, ← nonEmpty_map, true_and]
  refine ⟨?_, ?_, ?_, ?_, ?_, ?_, ?_, ?_⟩
  · rw [flatMap_rn DBlock.typeSyms (mvSymbol ρ φ)]; intro b; cases b <;> simp [mvDBlock, DBlock.typeSyms]
  · rw [flatMap_rn DBlock.constSyms (mvSymbol ρ φ)]; intro b; cases b <;> simp [mvDBlock, DBlock.constSyms]
  · rw [flatMap_rn DBlock.reqs id, List.map_id]; intro b; cases b <;> simp [mvDBlock, DBlock.reqs]
  · rw [flatMap_rn DBlock.preds (mvPredicate ρ φ)]; intro b; cases b <;> simp [mvDBlock, DBlock.preds]
  · rw [flatMap_rn DBlock.tasks (mvTask ρ φ)]; intro b; cases b <;> simp [mvDBlock, DBlock.tasks]
  · rw [flatMap_rn DBlock.methods (mvMethod ρ φ)]; intro b; cases b <;> simp [mvDBlock, DBlock.methods]
  · rw [flatMap_rn DBlock.actions (mvAction ρ φ)]; intro b; cases b <;> simp [mvDBlock, DBlock.actions]
  · rw [flatMap_rn DBlock.funs (mvPredicate ρ φ)]; intro b; cases b <;> simp [mvDBlock, DBlock.funs]

theorem problemOf_mv (bs : List PBlock) : mvProblem ρ φ (problemOf bs) = problemOf (bs.map (mvPBlock ρ φ)) := by
  simp only [mvProblem, problemOf, ProblemAST.mk.injEq]
  refine ⟨?_, ?_, ?_, ?_, ?_⟩
  · rw [flatMap_rn PBlock.reqs id, List.map_id]; intro b; cases b <;> simp [mvPBlock, PBlock.reqs]
  · rw [filterMap_rn PBlock.htn? (mvInitTn ρ φ), List.getLast?_map]; intro b; cases b <;> simp [mvPBlock, PBlock.htn?]
  · rw [filterMap_rn PBlock.init? (List.map (mvPredicate ρ φ)), List.getLast?_map]
    · cases (bs.filterMap PBlock.init?).getLast? <;> rfl
    · intro b; cases b <;> simp [mvPBlock, PBlock.init?]
  · rw [filterMap_rn PBlock.goal? (mvFormula ρ φ), List.getLast?_map]; intro b; cases b <;> simp [mvPBlock, PBlock.goal?]
  · rw [flatMap_rn PBlock.objs (mvSymbol ρ φ)]; intro b; cases b <;> simp [mvPBlock, PBlock.objs]

/-- The text with other names and lines denotes the tree with other names and lines. -/
theorem fileText_mv {q : Bool} {a : AST} {ts : List Tk} (h : FileText q a ts) :
    FileText q (mvAST ρ φ a) (ts.map (mvTk ρ φ)) := by
  cases h with
  | domain h =>
    tks
    rw [mvAST, domainOf_mv]
    exact .domain (body_mv (mv := mvDBlock ρ φ) (block := DBlockText q) (stop := closeParen) (fun _ _ _ => dblock_mv)
      (fun _ => closeParen_mv) h)
  | problem h =>
    tks
    rw [mvAST, problemOf_mv]
    exact .problem (body_mv (mv := mvPBlock ρ φ) (block := PBlockText q) (stop := closeProblem q) (fun _ _ _ => pblock_mv)
      (fun _ => closeProblem_mv) h)

end Verif
