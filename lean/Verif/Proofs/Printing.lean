import Verif.Proofs.ErrorText
import Verif.Proofs.RenameText
import Verif.Spec.Printing

/-! A text for every syntax tree, in the sense of the grammar. -/

namespace Verif

open Spec

variable {q : Bool}

/-- A text on line 0. -/
abbrev zz (ts : List Token) : List Tk := ts.map fun t => (t, 0)

theorem symbolToks_untyped {ss : List Symbol} (h : ∀ s ∈ ss, s.ty = none) : firstType (zz (symbolToks ss)) = none := by
  induction ss with
  | nil => rfl
  | cons s ss ih =>
    simp only [symbolToks, h s List.mem_cons_self, List.nil_append, List.map_cons, firstType]
    exact ih fun x hx => h x (List.mem_cons_of_mem _ hx)

theorem items_print (ss : List Symbol) : Items (zz (symbolToks ss)) := by
  induction ss with
  | nil => exact .nil
  | cons s ss ih =>
    simp only [symbolToks, List.map_cons]
    refine .name ?_
    cases s.ty with
    | none => exact ih
    | some t => exact .type ih

theorem typedList_print {ss : List Symbol} (h : ListShape ss) : TypedList (ss.map (rnSymbol id)) (zz (symbolToks ss)) := by
  refine ⟨items_print ss, ?_⟩
  obtain ⟨h1, h2⟩ := h
  induction ss with
  | nil => rfl
  | cons s ss ih =>
    obtain ⟨x, l, ty, tp⟩ := s
    have ih := ih (fun x hx => h1 x (List.mem_cons_of_mem _ hx)) h2.of_cons
    have hs := h1 _ List.mem_cons_self
    cases ty with
    | none =>
      have hu := symbolToks_untyped fun b hb => List.rel_of_pairwise_cons h2 hb rfl
      cases tp with
      | some _ => cases hs
      | none => simp [symbolToks, symbolsOf, rnSymbol, hu, ih]
    | some t =>
      cases tp with
      | none => cases hs
      | some _ => simp [symbolToks, symbolsOf, firstType, rnSymbol, ih]

theorem listShape_one {s : Symbol} (h : SymbolShape s) : ListShape [s] := ⟨by simpa using h, by simp⟩

theorem zz_append (a b : List Token) : zz (a ++ b) = zz a ++ zz b := List.map_append

theorem predicates_print {ps : List Predicate} (h : ∀ p ∈ ps, ListShape p.vars) :
    Predicates (ps.map (rnPredicate id)) (zz (ps.flatMap predToks)) := by
  induction ps with
  | nil => exact .nil
  | cons p ps ih =>
    have := Predicates.cons (name := p.name) (l1 := 0) (l2 := 0) (l3 := 0) (typedList_print (h p List.mem_cons_self))
      (ih fun q hq => h q (List.mem_cons_of_mem _ hq))
    simpa [predToks, rnPredicate] using this

/-! ### Formulas -/

theorem any_weighted {bs : List (Num × Formula)} (h : bs ≠ []) : (bs.map fun b => Formula.weighted b.1 b.2).any isWeighted = true := by
  cases bs with
  | nil => exact absurd rfl h
  | cons b bs => simp [isWeighted]

theorem formulaShape_unweighted {f : Formula} (h : FormulaShape f) : isWeighted f = false := by
  cases h <;> rfl

theorem none_weighted {fs : List Formula} (h : ∀ f ∈ fs, FormulaShape f) : fs.any isWeighted = false := by
  rw [List.any_eq_false]
  intro f hf
  simp [formulaShape_unweighted (h f hf)]

theorem formulas_print {fs : List Formula}
    (h : ∀ f ∈ fs, FormulaText q (rnFormula id f) (zz (formulaToks f))) (he : ∀ f ∈ fs, f ≠ .empty) :
    FormulasText q (rnFormulas id fs) (zz (formulasToks fs ++ [rpar])) := by
  induction fs with
  | nil => exact .nil
  | cons f fs ih =>
    have := FormulasText.cons (h f List.mem_cons_self) (fun e => he f List.mem_cons_self (rnFormula_empty.mp e))
      (ih (fun g hg => h g (List.mem_cons_of_mem _ hg)) fun g hg => he g (List.mem_cons_of_mem _ hg))
    simpa [formulasToks, rnFormulas] using this

theorem branches_print {bs : List (Num × Formula)}
    (h : ∀ b ∈ bs, FormulaText q (rnFormula id b.2) (zz (formulaToks b.2))) (he : ∀ b ∈ bs, b.2 ≠ .empty) :
    BranchesText q (rnFormulas id (bs.map fun b => .weighted b.1 b.2))
      (zz (formulasToks (bs.map fun b => .weighted b.1 b.2) ++ [rpar])) := by
  induction bs with
  | nil => exact .nil
  | cons b bs ih =>
    have := BranchesText.cons (w := b.1) (l := 0) (h b List.mem_cons_self)
      (fun e => he b List.mem_cons_self (rnFormula_empty.mp e))
      (ih (fun g hg => h g (List.mem_cons_of_mem _ hg)) fun g hg => he g (List.mem_cons_of_mem _ hg))
    simpa [formulasToks, formulaToks, rnFormulas, rnFormula] using this

theorem formula_print {f : Formula} (h : FormulaShape f) : FormulaText q (rnFormula id f) (zz (formulaToks f)) := by
  induction h with
  | empty => exact .empty
  | @atom p h =>
    have := FormulaText.atom (q := q) (name := p.name) (l1 := 0) (l2 := 0) (l3 := 0) (typedList_print h)
    simpa [formulaToks, predToks, rnFormula, rnPredicate] using this
  | not _ ih =>
    have := FormulaText.not (l1 := 0) (l2 := 0) (l3 := 0) ih
    simpa [formulaToks, rnFormula] using this
  | @and fs h he ih =>
    have := FormulaText.and (l1 := 0) (l2 := 0) (formulas_print ih he)
    simpa [formulaToks, rnFormula, none_weighted h] using this
  | @or fs h he ih =>
    have := FormulaText.or (l1 := 0) (l2 := 0) (formulas_print ih he)
    simpa [formulaToks, rnFormula] using this
  | @xor fs h he ih =>
    have := FormulaText.xor (l1 := 0) (l2 := 0) (formulas_print ih he)
    simpa [formulaToks, rnFormula] using this
  | exists_ hv _ ih =>
    have := FormulaText.exists_ (l1 := 0) (l2 := 0) (l3 := 0) (l4 := 0) (l5 := 0) (typedList_print hv) ih
    simpa [formulaToks, rnFormula] using this
  | forall_ hv _ ih =>
    have := FormulaText.forall_ (l1 := 0) (l2 := 0) (l3 := 0) (l4 := 0) (l5 := 0) (typedList_print hv) ih
    simpa [formulaToks, rnFormula] using this
  | equals => exact .equals
  | @probabilistic bs h he ih =>
    by_cases hb : bs = []
    · subst hb
      exact .and .nil
    · have := FormulaText.probabilistic (l1 := 0) (l2 := 0) (branches_print ih he)
      simp only [formulaToks, any_weighted hb, if_true, rnFormula]
      simpa using this

theorem opt_print {k : Kw} {o : Option Formula} (h : ∀ f, o = some f → FormulaShape f) :
    OptFormula q k (o.map (rnFormula id)) (zz (optToks k o)) := by
  cases o with
  | none => exact .none
  | some f => exact .some (l := 0) (formula_print (h f rfl))

theorem task_print {x : Name} {ps : List Symbol} (h : ListShape ps) :
    TaskText ⟨x, 0, ps.map (rnSymbol id)⟩ (zz (taskToks x ps)) := by
  have := TaskText.mk (name := x) (l1 := 0) (l2 := 0) (l3 := 0) (l4 := 0) (typedList_print h)
  simpa [taskToks] using this

theorem action_print {a : Action} (h : ActionShape a) : ∃ ts, ActionText q (rnAction id a) ts ∧
    zz (actionToks a) = (lpar, 0) :: (.kw .action, 0) :: ts := by
  have := ActionText.mk (q := q) (l := 0) (task_print (x := a.name) h.params) (opt_print (k := .precondition) h.pre)
    (opt_print (k := .effect) h.eff)
  exact ⟨_, this, by simp [actionToks]⟩

/-! ### Task networks -/

theorem rnSymbol_untyped {s : Symbol} (h : Untyped s) : rnSymbol id s = ⟨s.name, 0, none, none⟩ := by
  obtain ⟨h1, h2⟩ := h
  simp [rnSymbol, h1, h2]

theorem terms_print {ss : List Symbol} (h : ∀ t ∈ ss, Untyped t) :
    ss.map (rnSymbol id) = nameSyms (ss.map fun s => (s.name, 0)) ∧ zz (termToks ss) = nameToks (ss.map fun s => (s.name, 0)) := by
  constructor
  · simp only [nameSyms, List.map_map]
    refine List.map_congr_left fun s hs => ?_
    simp [rnSymbol_untyped (h s hs)]
  · simp [termToks, nameToks]

theorem subtask_print {s : Subtask} (h : SubtaskShape s) :
    ∃ ts, SubtaskText (rnSubtask id s) ts ∧ zz (subtaskToks s) = (lpar, 0) :: ts := by
  obtain ⟨i, t, ss⟩ := s
  obtain ⟨h1, h2⟩ := terms_print h.terms
  have ht := rnSymbol_untyped h.task
  simp only at h1 h2 ht
  cases i with
  | none =>
    refine ⟨_, ?_, by simp only [subtaskToks, List.map_cons, List.map_append, h2]; rfl⟩
    simp only [rnSubtask, Option.map_none, ht, h1]
    exact .plain
  | some i =>
    have hi := rnSymbol_untyped (h.id i rfl)
    refine ⟨_, ?_, by simp only [subtaskToks, List.map_cons, List.map_append, h2]; rfl⟩
    simp only [rnSubtask, Option.map_some, ht, h1, hi]
    exact .labelled

theorem subtasks_print {l : List Subtask} (h : ∀ s ∈ l, SubtaskShape s) :
    SubtasksText (l.map (rnSubtask id)) (zz (andToks subtaskToks l)) := by
  have key : SubtaskList (l.map (rnSubtask id)) (zz (l.flatMap subtaskToks)) := by
    induction l with
    | nil => exact .nil
    | cons s l ih =>
      obtain ⟨ts, h1, h2⟩ := subtask_print (h s List.mem_cons_self)
      have := SubtaskList.cons (l := 0) h1 (ih fun x hx => h x (List.mem_cons_of_mem _ hx))
      simp only [List.map_cons, List.flatMap_cons, zz_append, h2]
      exact this
  have := SubtasksText.many (l1 := 0) (l2 := 0) (l3 := 0) key
  simpa [andToks] using this

theorem orders_print (os : List (Name × Name)) : OrdersText os (zz (andToks orderToks os)) := by
  have key : OrderList os (zz (os.flatMap orderToks)) := by
    induction os with
    | nil => exact .nil
    | cons o os ih =>
      exact OrderList.cons (l := 0) (OrderText.mk (l1 := 0) (a := o.1) (l2 := 0) (l3 := 0) (bs := [(o.2, 0)])) ih
  have := OrdersText.many (l1 := 0) (l2 := 0) (l3 := 0) key
  simpa [andToks] using this

theorem constraints_print (cs : List Constraint) : ConstraintsText cs (zz (andToks constraintToks cs)) := by
  have key : ConstraintList cs (zz (cs.flatMap constraintToks)) := by
    induction cs with
    | nil => exact .nil
    | cons c cs ih =>
      cases c with
      | equal a b => exact ConstraintList.cons (l := 0) .equal ih
      | notEqual a b => exact ConstraintList.cons (l := 0) .notEqual ih
  have := ConstraintsText.many (l1 := 0) (l2 := 0) (l3 := 0) key
  simpa [andToks] using this

theorem rnConstraints_id (cs : List Constraint) : cs.map (rnConstraint id) = cs := by
  rw [show rnConstraint id = id from funext rnConstraint_id, List.map_id]

theorem htn_print {h : HTN} (hs : HtnShape h) :
    HtnText (rnHtn id h) (zz (htnToks false h)) (if ConstrainedTotal h then .open_ else .closed) := by
  obtain ⟨sts, pos, ord, cs⟩ := h
  have hst := subtasks_print hs.subtasks
  have ht := hs.total
  have ho := hs.ordering
  simp only at hst ht ho
  cases ord with
  | total =>
    cases ht rfl
    cases cs with
    | none =>
      have := HtnText.total (l1 := 0) (l2 := 0) hst
      simpa [htnToks, rnHtn, rnOrdering, ConstrainedTotal] using this
    | some cs =>
      have := HtnText.constrained (l1 := 0) (l2 := 0) hst (constraints_print cs)
      simpa [htnToks, rnHtn, rnOrdering, ConstrainedTotal, rnConstraints_id] using this
  | partial_ os =>
    have hc : ¬ ConstrainedTotal ⟨sts, pos, .partial_ os, cs⟩ := by rintro ⟨h, _⟩; cases h
    rw [if_neg hc]
    have hos : os.map (Prod.map id id) = os := by simp
    cases pos with
    | none =>
      cases ho os rfl rfl
      cases cs with
      | none =>
        have := HtnText.partial_ (l1 := 0) (l2 := 0) hst .nil
        simpa [htnToks, rnHtn, rnOrdering] using this
      | some cs =>
        have := HtnText.partial_ (l1 := 0) (l2 := 0) hst (.constraints (l := 0) (constraints_print cs) .nil)
        simpa [htnToks, rnHtn, rnOrdering, rnConstraints_id, TnItem.line?, TnItem.pairs, TnItem.constraints?] using this
    | some l =>
      cases cs with
      | none =>
        have := HtnText.partial_ (l1 := 0) (l2 := 0) hst (.ordering (l := 0) (orders_print os) .nil)
        simpa [htnToks, rnHtn, rnOrdering, hos, TnItem.line?, TnItem.pairs, TnItem.constraints?] using this
      | some cs =>
        have := HtnText.partial_ (l1 := 0) (l2 := 0) hst (.ordering (l := 0) (orders_print os)
          (.constraints (l := 0) (constraints_print cs) .nil))
        simpa [htnToks, rnHtn, rnOrdering, hos, rnConstraints_id, List.filterMap_cons, TnItem.line?, TnItem.pairs,
          TnItem.constraints?] using this

theorem htnToks_ne {b : Bool} {h : HTN} : zz (htnToks b h) ≠ [] := by
  unfold htnToks
  split <;> simp

theorem method_print {m : Method} (h : MethodShape m) : ∃ ts e, MethodText q (rnMethod id m) ts e ∧ e ≠ .atParen ∧
    zz (methodToks false m) = (lpar, 0) :: (.kw .method, 0) :: ts := by
  have := MethodText.mk (q := q) (name := m.name.name) (task := m.task.name) (n1 := 0) (n2 := 0) (l1 := 0) (l2 := 0) (l3 := 0)
    (l4 := 0) (l5 := 0) (l6 := 0) (typedList_print h.params) (typedList_print h.terms) (opt_print (k := .precondition) h.pre)
    (htn_print h.tn) (fun _ => htnToks_ne)
  rw [← rnSymbol_untyped h.name, ← rnSymbol_untyped h.task] at this
  refine ⟨_, _, this, ?_, by simp [methodToks]⟩
  split <;> simp

/-! ### Files -/

theorem body_blocks {α β : Type} {block : β → List Tk → Ending → Prop} {stop : List Tk → Prop} {mk : α → β}
    {toks : α → List Token} {l : List α} {bs : List β} {ts : List Tk}
    (h : ∀ x ∈ l, ∃ e, block (mk x) (zz (toks x)) e ∧ e ≠ .atParen) (hb : Body true block stop bs ts) :
    Body true block stop (l.map mk ++ bs) (zz (l.flatMap toks) ++ ts) := by
  induction l with
  | nil => exact hb
  | cons x l ih =>
    obtain ⟨e, h1, h2⟩ := h x List.mem_cons_self
    have := Body.block (q := true) h1 (by cases e <;> simp_all [Joint]) (ih fun y hy => h y (List.mem_cons_of_mem _ hy))
    simpa using this

theorem body_block {β : Type} {block : β → List Tk → Ending → Prop} {stop : List Tk → Prop} {b : β}
    {a : List Token} {bs : List β} {ts : List Tk} {e : Ending} (h : block b (zz a) e) (he : e ≠ .atParen)
    (hb : Body true block stop bs ts) : Body true block stop (b :: bs) (zz a ++ ts) :=
  .block h (by cases e <;> simp_all [Joint]) hb

/-- The blocks of a domain. -/
def domainBlocks (d : DomainAST) : List DBlock :=
  .requirements d.requirements :: ((typesOf d).map (fun s => .types [rnSymbol id s]) ++
    ((constantsOf d).map (fun s => .constants [rnSymbol id s]) ++ .predicates (d.predicates.map (rnPredicate id)) ::
      .functions (d.functions.map (rnPredicate id)) :: (d.tasks.map (fun t => .task (rnTask id t)) ++
        (d.actions.map (fun a => .action (rnAction id a)) ++ (d.methods.map (fun m => .method (rnMethod id m)) ++ [])))))

theorem flatMap_nil_fun {α β : Type} (l : List α) : l.flatMap (fun _ => ([] : List β)) = [] := by
  induction l <;> simp_all

theorem flatMap_singleton_fun {α β : Type} (f : α → β) (l : List α) : l.flatMap (fun x => [f x]) = l.map f := by
  induction l <;> simp_all

theorem nonEmpty_map_getD {α β : Type} (f : α → β) {o : Option (List α)} (h : o ≠ some []) :
    nonEmpty ((o.getD []).map f) = o.map (List.map f) := by
  cases o with
  | none => rfl
  | some l =>
    cases l with
    | nil => exact absurd rfl h
    | cons a l => rfl

theorem domainBlocks_spec {d : DomainAST} (h : DomainShape d) : domainOf d.name (domainBlocks d) = rnDomain id d := by
  simp only [domainOf, domainBlocks, rnDomain, List.flatMap_cons, List.flatMap_append, List.flatMap_map,
    DBlock.reqs, DBlock.preds, DBlock.funs, DBlock.tasks, DBlock.methods, DBlock.actions, DBlock.typeSyms, DBlock.constSyms,
    flatMap_nil_fun, flatMap_singleton_fun, List.append_nil, List.nil_append, typesOf, constantsOf, nonEmpty_map_getD _ h.noTypes,
    nonEmpty_map_getD _ h.noConstants, id]

theorem domain_print {d : DomainAST} (h : DomainShape d) : FileText true (.domain (rnDomain id d)) (zz (domainToks false d)) := by
  rw [← domainBlocks_spec h]
  have hm : ∃ ts, Body true (DBlockText true) closeParen (domainBlocks d) ts ∧ zz (domainToks false d) =
      zz [lpar, .kw .define, lpar, .kw .domain, .ident d.name, rpar] ++ ts := by
    unfold domainBlocks
    refine ⟨_, body_block (a := blockToks .requirements (d.requirements.map .req)) (e := .closed) ?_ (by simp)
      (body_blocks (toks := fun s => blockToks .types (symbolToks [s])) ?_
      (body_blocks (toks := fun s => blockToks .constants (symbolToks [s])) ?_
      (body_block (a := blockToks .predicates (d.predicates.flatMap predToks)) (e := .closed) ?_ (by simp)
      (body_block (a := blockToks .functions (d.functions.flatMap predToks)) (e := .closed) ?_ (by simp)
      (body_blocks (toks := fun t => blockToks .task (taskToks t.name t.params)) ?_
      (body_blocks (toks := actionToks) ?_
      (body_blocks (toks := methodToks false) ?_ (.done ⟨0, rfl⟩)))))))), ?_⟩
    · have := DBlockText.requirements (q := true) (l1 := 0) (l2 := 0) (l3 := 0) (rs := d.requirements.map fun r => (r, 0))
      simpa [blockToks, reqToks, Function.comp_def] using this
    · intro s hs
      have := DBlockText.types (q := true) (l1 := 0) (l2 := 0) (l3 := 0) (typedList_print (listShape_one (h.types s hs)))
      exact ⟨.closed, by simpa [blockToks] using this, by simp⟩
    · intro s hs
      have := DBlockText.constants (q := true) (l1 := 0) (l2 := 0) (l3 := 0) (typedList_print (listShape_one (h.constants s hs)))
      exact ⟨.closed, by simpa [blockToks] using this, by simp⟩
    · have := DBlockText.predicates (q := true) (l1 := 0) (l2 := 0) (l3 := 0) (predicates_print h.predicates)
      simpa [blockToks] using this
    · have := DBlockText.functions (q := true) (l1 := 0) (l2 := 0) (l3 := 0) (predicates_print h.functions)
      simpa [blockToks] using this
    · intro t ht
      have := DBlockText.task (q := true) (l1 := 0) (l2 := 0) (l3 := 0) (task_print (x := t.name) (h.tasks t ht))
      exact ⟨.closed, by simpa [blockToks, rnTask] using this, by simp⟩
    · intro a ha
      obtain ⟨ts, h1, h2⟩ := action_print (q := true) (h.actions a ha)
      exact ⟨.closed, by rw [h2]; exact .action h1, by simp⟩
    · intro m hm
      obtain ⟨ts, e, h1, h2, h3⟩ := method_print (q := true) (h.methods m hm)
      exact ⟨e, by rw [h3]; exact .method h1, h2⟩
    · simp [domainToks]
  obtain ⟨ts, hm, hts⟩ := hm
  rw [hts]
  have := FileText.domain (name := d.name) (l1 := 0) (l2 := 0) (l3 := 0) (l4 := 0) (l5 := 0) (l6 := 0) hm
  simpa using this

theorem initTn_print {i : InitTN} (hp : ∀ ps, i.params = some ps → ListShape ps) (h : HtnShape i.tn) :
    InitTnText (rnInitTn id i) (zz ((match i.params with
      | some ps => .kw .parameters :: lpar :: (symbolToks ps ++ [rpar]) | none => []) ++ htnToks false i.tn))
      (if ConstrainedTotal i.tn then .open_ else .closed) := by
  obtain ⟨ps, tn⟩ := i
  cases ps with
  | none => exact .plain (htn_print h)
  | some ps =>
    have := InitTnText.params (l1 := 0) (l2 := 0) (l3 := 0) (typedList_print (hp ps rfl)) (htn_print h)
    simpa [rnInitTn] using this

/-- The blocks of a problem. -/
def problemBlocks (p : ProblemAST) : List PBlock :=
  .requirements p.requirements :: (p.objects.map (fun s => .objects [rnSymbol id s]) ++
    .init (p.initState.map (rnPredicate id)) :: (p.initTn.toList.map (fun i => .htn (rnInitTn id i)) ++
      (p.goal.toList.map (fun f => .goal (rnFormula id f)) ++ [])))

theorem problemBlocks_spec (p : ProblemAST) : problemOf (problemBlocks p) = rnProblem id p := by
  have h1 : ∀ {α β γ : Type} (l : List α) (g : α → β) (k : β → Option γ), (∀ x, k (g x) = none) → (l.map g).filterMap k = [] := by
    intro α β γ l g k h
    induction l <;> simp_all
  obtain ⟨rs, tn, st, gl, os⟩ := p
  simp only [problemOf, problemBlocks, rnProblem, List.flatMap_cons, List.flatMap_append, List.flatMap_map,
    PBlock.reqs, PBlock.objs, flatMap_nil_fun, flatMap_singleton_fun, List.append_nil, List.nil_append, List.filterMap_cons,
    List.filterMap_append, PBlock.htn?, PBlock.goal?, PBlock.init?]
  rw [h1 os _ PBlock.htn? fun _ => rfl, h1 os _ PBlock.goal? fun _ => rfl, h1 os _ PBlock.init? fun _ => rfl]
  cases tn <;> cases gl <;> simp [List.filterMap_cons, PBlock.htn?, PBlock.goal?, PBlock.init?]

theorem problem_print {p : ProblemAST} (name dname : Name) (h : ProblemShape p) :
    FileText true (.problem (rnProblem id p)) (zz (problemToks false name dname p)) := by
  rw [← problemBlocks_spec p]
  have hm : ∃ ts, Body true (PBlockText true) (closeProblem true) (problemBlocks p) ts ∧ zz (problemToks false name dname p) =
      zz [lpar, .kw .define, lpar, .kw .problem, .ident name, rpar, lpar, .kw .domain, .ident dname, rpar] ++ ts := by
    unfold problemBlocks
    refine ⟨_, body_block (a := blockToks .requirements (p.requirements.map .req)) (e := .closed) ?_ (by simp)
      (body_blocks (toks := fun s => blockToks .objects (symbolToks [s])) ?_
      (body_block (a := blockToks .init (p.initState.flatMap predToks)) (e := .closed) ?_ (by simp)
      (body_blocks (toks := fun i => lpar :: .kw .htn :: ((match i.params with
        | some ps => .kw .parameters :: lpar :: (symbolToks ps ++ [rpar]) | none => []) ++ htnToks false i.tn)) ?_
      (body_blocks (toks := fun f => lpar :: .kw .goal :: formulaToks f) ?_ (.done (.inl ⟨0, rfl⟩)))))), ?_⟩
    · have := PBlockText.requirements (q := true) (l1 := 0) (l2 := 0) (l3 := 0) (rs := p.requirements.map fun r => (r, 0))
      simpa [blockToks, reqToks, Function.comp_def] using this
    · intro s hs
      have := PBlockText.objects (q := true) (l1 := 0) (l2 := 0) (l3 := 0) (typedList_print (listShape_one (h.objects s hs)))
      exact ⟨.closed, by simpa [blockToks] using this, by simp⟩
    · have := PBlockText.init (q := true) (l1 := 0) (l2 := 0) (l3 := 0) (predicates_print h.init)
      simpa [blockToks] using this
    · intro i hi
      have hi : p.initTn = some i := by simpa using hi
      refine ⟨_, .htn (initTn_print (h.params i hi) (h.tn i hi)), ?_⟩
      split <;> simp
    · intro f hf
      have hf : p.goal = some f := by simpa using hf
      exact ⟨.open_, .goal (formula_print (h.goal f hf)), by simp⟩
    · obtain ⟨rs, tn, st, gl, os⟩ := p
      cases tn <;> cases gl <;> simp [problemToks] <;> rfl
  obtain ⟨ts, hm, hts⟩ := hm
  rw [hts]
  have := FileText.problem (name := name) (dname := dname) (l1 := 0) (l2 := 0) (l3 := 0) (l4 := 0) (l5 := 0) (l6 := 0) (l7 := 0)
    (l8 := 0) (l9 := 0) (l10 := 0) hm
  simpa using this

/-! ### Closing parentheses -/

theorem methodToks_close (m : Method) :
    methodToks true m = methodToks false m ++ (if ConstrainedTotal m.tn then [rpar] else []) := by
  obtain ⟨n, t, tt, ps, pre, ⟨sts, pos, os, cs⟩⟩ := m
  cases os <;> cases cs <;> simp [methodToks, htnToks, ConstrainedTotal]

theorem methodToks_kept (ms : List Method) : ∃ rest, ms.flatMap (methodToks true) ++ [rpar] =
    (keptMethods ms).flatMap (methodToks false) ++ rpar :: rest := by
  induction ms with
  | nil => exact ⟨[], rfl⟩
  | cons m ms ih =>
    obtain ⟨rest, ih⟩ := ih
    by_cases h : ConstrainedTotal m.tn
    · exact ⟨ms.flatMap (methodToks true) ++ [rpar], by simp [keptMethods, h, methodToks_close]⟩
    · exact ⟨rest, by simp [keptMethods, h, methodToks_close, ih]⟩

theorem domainToks_kept (d : DomainAST) : ∃ rest, domainToks true d = domainToks false (readDomain d) ++ rest := by
  obtain ⟨rest, h⟩ := methodToks_kept d.methods
  refine ⟨rest, ?_⟩
  simp only [domainToks, readDomain, List.append_assoc, h, typesOf, constantsOf]
  simp

theorem keptMethods_sub {ms : List Method} {m : Method} (h : m ∈ keptMethods ms) : m ∈ ms := by
  induction ms with
  | nil => exact h
  | cons a ms ih =>
    rcases List.mem_cons.mp h with rfl | h
    · exact List.mem_cons_self
    · split at h
      · cases h
      · exact List.mem_cons_of_mem _ (ih h)

theorem Spec.DomainShape.read {d : DomainAST} (h : DomainShape d) : DomainShape (readDomain d) :=
  ⟨h.1, h.2, h.3, h.4, h.5, h.6, fun m hm => h.7 m (keptMethods_sub hm), h.8, h.9⟩

theorem problemToks_kept (name dname : Name) (p : ProblemAST) :
    ∃ rest, problemToks true name dname p = problemToks false name dname (readProblem p) ++ rest := by
  obtain ⟨rs, tn, st, gl, os⟩ := p
  cases tn with
  | none => cases gl <;> simp [problemToks, readProblem]
  | some i =>
    obtain ⟨ps, sts, pos, od, cs⟩ := i
    cases od <;> cases cs <;> cases gl <;> simp [problemToks, readProblem, htnToks, ConstrainedTotal]

theorem Spec.ProblemShape.read {p : ProblemAST} (h : ProblemShape p) : ProblemShape (readProblem p) := by
  refine ⟨h.1, h.2, fun f hf => ?_, h.4, h.5⟩
  simp only [readProblem] at hf
  split at hf
  · cases hf
  · exact h.3 f hf

/-! ### Trees that are read -/

theorem listShape_symbolsOf (ts : List Tk) (h : Items ts) : ListShape (symbolsOf ts) ∧
    (firstType ts = none → ∀ s ∈ symbolsOf ts, s.ty = none) := by
  induction h with
  | nil => exact ⟨⟨by simp [symbolsOf], by simp [symbolsOf]⟩, by simp [symbolsOf]⟩
  | @name x l ts _ ih =>
    have hf : firstType ((.ident x, l) :: ts) = firstType ts := by simp [firstType]
    refine ⟨⟨?_, ?_⟩, ?_⟩
    · intro s hs
      simp only [symbolsOf, List.mem_cons] at hs
      rcases hs with rfl | hs
      · simp [SymbolShape]
      · exact ih.1.1 s hs
    · simp only [symbolsOf, List.pairwise_cons]
      refine ⟨fun b hb h => ih.2 (by simpa using h) b hb, ih.1.2⟩
    · intro h s hs
      rw [hf] at h
      simp only [symbolsOf, List.mem_cons] at hs
      rcases hs with rfl | hs
      · simp [h]
      · exact ih.2 h s hs
  | @type l t l' ts _ ih =>
    refine ⟨by simpa [symbolsOf] using ih.1, ?_⟩
    intro h
    simp [firstType] at h

theorem Spec.TypedList.shape {ss : List Symbol} {ts : List Tk} (h : TypedList ss ts) : ListShape ss := by
  obtain ⟨h1, rfl⟩ := h
  exact (listShape_symbolsOf ts h1).1

theorem Spec.Predicates.shape {ps : List Predicate} {ts : List Tk} (h : Predicates ps ts) : ∀ p ∈ ps, ListShape p.vars := by
  induction h with
  | nil => simp
  | cons h _ ih =>
    intro p hp
    rcases List.mem_cons.mp hp with rfl | hp
    · exact h.shape
    · exact ih p hp

theorem Spec.FormulaText.shape {f : Formula} {ts : List Tk} (h : FormulaText q f ts) : FormulaShape f := by
  refine FormulaText.rec (motive_1 := fun f _ _ => FormulaShape f)
    (motive_2 := fun fs _ _ => ∀ f ∈ fs, FormulaShape f ∧ f ≠ .empty)
    (motive_3 := fun fs _ _ => ∃ bs : List (Num × Formula), fs = bs.map (fun b => .weighted b.1 b.2) ∧
      ∀ b ∈ bs, FormulaShape b.2 ∧ b.2 ≠ .empty)
    .empty (fun _ => .empty) (fun h => .atom h.shape) (fun _ h => .not h)
    (fun _ h => .and (fun f hf => (h f hf).1) fun f hf => (h f hf).2)
    (fun _ h => .or (fun f hf => (h f hf).1) fun f hf => (h f hf).2)
    (fun _ h => .xor (fun f hf => (h f hf).1) fun f hf => (h f hf).2)
    .equals (fun h _ h2 => .forall_ h.shape h2) (fun h _ h2 => .exists_ h.shape h2) ?_ (by simp) (by simp) ?_
    ⟨[], rfl, by simp⟩ ?_ h
  · rintro _ _ _ _ _ ⟨bs, rfl, h⟩
    exact .probabilistic (fun b hb => (h b hb).1) fun b hb => (h b hb).2
  · intro g fs _ _ _ hg _ h1 h2 f hf
    rcases List.mem_cons.mp hf with rfl | hf
    · exact ⟨h1, hg⟩
    · exact h2 f hf
  · rintro w _ g _ _ _ _ hg _ h1 ⟨bs, rfl, h⟩
    refine ⟨(w, g) :: bs, rfl, ?_⟩
    intro b hb
    rcases List.mem_cons.mp hb with rfl | hb
    · exact ⟨h1, hg⟩
    · exact h b hb

theorem Spec.OptFormula.shape {k : Kw} {o : Option Formula} {ts : List Tk} (h : OptFormula q k o ts) :
    ∀ f, o = Option.some f → FormulaShape f := by
  cases h with
  | none => intro f h; cases h
  | some h => rintro f ⟨⟩; exact h.shape

theorem Spec.TaskText.shape {t : Task} {ts : List Tk} (h : TaskText t ts) : ListShape t.params := by
  cases h with
  | mk h => exact h.shape

theorem Spec.ActionText.shape {a : Action} {ts : List Tk} (h : ActionText q a ts) : ActionShape a := by
  cases h with
  | mk h1 h2 h3 => exact ⟨h1.shape, h2.shape, h3.shape⟩

theorem nameSyms_untyped (xs : List (Name × Nat)) : ∀ t ∈ nameSyms xs, Untyped t := by
  intro t ht
  obtain ⟨x, _, rfl⟩ := List.mem_map.mp ht
  exact ⟨rfl, rfl⟩

theorem Spec.SubtaskText.shape {s : Subtask} {ts : List Tk} (h : SubtaskText s ts) : SubtaskShape s := by
  cases h with
  | plain => exact ⟨by simp, ⟨rfl, rfl⟩, nameSyms_untyped _⟩
  | labelled => exact ⟨by rintro i ⟨⟩; exact ⟨rfl, rfl⟩, ⟨rfl, rfl⟩, nameSyms_untyped _⟩

theorem Spec.SubtaskList.shape {l : List Subtask} {ts : List Tk} (h : SubtaskList l ts) : ∀ s ∈ l, SubtaskShape s := by
  induction h with
  | nil => simp
  | cons h _ ih =>
    intro s hs
    rcases List.mem_cons.mp hs with rfl | hs
    · exact h.shape
    · exact ih s hs

theorem Spec.SubtasksText.shape {l : List Subtask} {ts : List Tk} (h : SubtasksText l ts) : ∀ s ∈ l, SubtaskShape s := by
  cases h with
  | none => simp
  | one h => intro s hs; rw [List.mem_singleton.mp hs]; exact h.shape
  | many h => exact h.shape

theorem tnItems_pairs (l : List TnItem) (h : (l.filterMap TnItem.line?).getLast? = none) : l.flatMap TnItem.pairs = [] := by
  rw [List.getLast?_eq_none_iff] at h
  induction l with
  | nil => rfl
  | cons i l ih =>
    cases i with
    | ordering n ps => simp [TnItem.line?] at h
    | constraints cs =>
      rw [List.flatMap_cons, ih (by simpa [List.filterMap_cons, TnItem.line?] using h)]
      rfl

theorem Spec.HtnText.shape {h : HTN} {ts : List Tk} {e : Ending} (ht : HtnText h ts e) : HtnShape h := by
  cases ht with
  | empty => exact ⟨by simp, by simp, by simp⟩
  | partial_ h1 h2 =>
    refine ⟨h1.shape, by simp, ?_⟩
    rintro os ⟨⟩ hp
    exact tnItems_pairs _ hp
  | total h => exact ⟨h.shape, by simp, by simp⟩
  | constrained h1 h2 => exact ⟨h1.shape, by simp, by simp⟩

theorem Spec.MethodText.shape {m : Method} {ts : List Tk} {e : Ending} (h : MethodText q m ts e) : MethodShape m := by
  cases h with
  | mk h1 h2 h3 h4 _ => exact ⟨⟨rfl, rfl⟩, ⟨rfl, rfl⟩, h2.shape, h1.shape, h3.shape, h4.shape⟩

theorem Spec.Body.all {β : Type} {block : β → List Tk → Ending → Prop} {stop : List Tk → Prop} {bs : List β} {ts : List Tk}
    (h : Body q block stop bs ts) : ∀ b ∈ bs, ∃ ts e, block b ts e := by
  induction h with
  | done => simp
  | block h _ _ ih =>
    intro b hb
    rcases List.mem_cons.mp hb with rfl | hb
    · exact ⟨_, _, h⟩
    · exact ih b hb

theorem nonEmpty_ne {α : Type} (l : List α) : nonEmpty l ≠ some [] := by
  cases l <;> simp [nonEmpty]

theorem nonEmpty_listD {α : Type} (l : List α) : (nonEmpty l).getD [] = l := by
  cases l <;> simp [nonEmpty]

theorem domain_shape {d : DomainAST} {ts : List Tk} (h : FileText q (.domain d) ts) : DomainShape d := by
  cases h with
  | @domain name bs _ _ _ _ _ _ _ hb =>
    have ha := hb.all
    refine ⟨nonEmpty_ne _, ?_, nonEmpty_ne _, ?_, ?_, ?_, ?_, ?_, ?_⟩
    · intro s hs
      simp only [typesOf, domainOf, nonEmpty_listD] at hs
      obtain ⟨b, hb, hs⟩ := List.mem_flatMap.mp hs
      obtain ⟨_, _, h⟩ := ha b hb
      cases h <;> simp only [DBlock.typeSyms, List.not_mem_nil] at hs
      case types h => exact h.shape.1 s hs
    · intro s hs
      simp only [constantsOf, domainOf, nonEmpty_listD] at hs
      obtain ⟨b, hb, hs⟩ := List.mem_flatMap.mp hs
      obtain ⟨_, _, h⟩ := ha b hb
      cases h <;> simp only [DBlock.constSyms, List.not_mem_nil] at hs
      case constants h => exact h.shape.1 s hs
    · intro s hs
      obtain ⟨b, hb, hs⟩ := List.mem_flatMap.mp hs
      obtain ⟨_, _, h⟩ := ha b hb
      cases h <;> simp only [DBlock.preds, List.not_mem_nil] at hs
      case predicates h => exact h.shape s hs
    · intro s hs
      obtain ⟨b, hb, hs⟩ := List.mem_flatMap.mp hs
      obtain ⟨_, _, h⟩ := ha b hb
      cases h <;> simp only [DBlock.tasks, List.not_mem_nil, List.mem_singleton] at hs
      case task h => rw [hs]; exact h.shape
    · intro s hs
      obtain ⟨b, hb, hs⟩ := List.mem_flatMap.mp hs
      obtain ⟨_, _, h⟩ := ha b hb
      cases h <;> simp only [DBlock.methods, List.not_mem_nil, List.mem_singleton] at hs
      case method h => rw [hs]; exact h.shape
    · intro s hs
      obtain ⟨b, hb, hs⟩ := List.mem_flatMap.mp hs
      obtain ⟨_, _, h⟩ := ha b hb
      cases h <;> simp only [DBlock.actions, List.not_mem_nil, List.mem_singleton] at hs
      case action h => rw [hs]; exact h.shape
    · intro s hs
      obtain ⟨b, hb, hs⟩ := List.mem_flatMap.mp hs
      obtain ⟨_, _, h⟩ := ha b hb
      cases h <;> simp only [DBlock.funs, List.not_mem_nil] at hs
      case functions h => exact h.shape s hs

theorem last_filterMap {α β : Type} {k : α → Option β} {l : List α} {y : β} (h : (l.filterMap k).getLast? = some y) :
    ∃ x ∈ l, k x = some y := List.mem_filterMap.mp (List.mem_of_getLast? h)

theorem problem_shape {p : ProblemAST} {ts : List Tk} (h : FileText q (.problem p) ts) : ProblemShape p := by
  cases h with
  | @problem _ _ bs _ _ _ _ _ _ _ _ _ _ _ hb =>
    have ha := hb.all
    have hi : ∀ i, (problemOf bs).initTn = some i → ∃ ts e, InitTnText i ts e := by
      intro i hi
      obtain ⟨b, hb, hs⟩ := last_filterMap hi
      obtain ⟨_, _, h⟩ := ha b hb
      cases h <;> simp [PBlock.htn?] at hs
      case htn h => subst hs; exact ⟨_, _, h⟩
    refine ⟨?_, ?_, ?_, ?_, ?_⟩
    · intro s hs
      obtain ⟨b, hb, hs⟩ := List.mem_flatMap.mp hs
      obtain ⟨_, _, h⟩ := ha b hb
      cases h <;> simp only [PBlock.objs, List.not_mem_nil] at hs
      case objects h => exact h.shape.1 s hs
    · intro s hs
      simp only [problemOf] at hs
      cases hl : (bs.filterMap PBlock.init?).getLast? with
      | none => simp [hl] at hs
      | some ps =>
        rw [hl] at hs
        obtain ⟨b, hb, hk⟩ := last_filterMap hl
        obtain ⟨_, _, h⟩ := ha b hb
        cases h <;> simp [PBlock.init?] at hk
        case init h => subst hk; exact h.shape s hs
    · intro f hf
      obtain ⟨b, hb, hs⟩ := last_filterMap hf
      obtain ⟨_, _, h⟩ := ha b hb
      cases h <;> simp [PBlock.goal?] at hs
      case goal h => subst hs; exact h.shape
    · intro i h ps hps
      obtain ⟨_, _, h⟩ := hi i h
      cases h with
      | plain h => cases hps
      | params h1 h2 => cases hps; exact h1.shape
    · intro i h
      obtain ⟨_, _, h⟩ := hi i h
      cases h with
      | plain h => exact h.shape
      | params h1 h2 => exact h2.shape

/-! ### Forgetting the lines twice -/

theorem rnSymbol_comp (ρ σ : Name → Name) : rnSymbol ρ ∘ rnSymbol σ = rnSymbol (ρ ∘ σ) := by
  funext s
  obtain ⟨n, l, t, k⟩ := s
  simp [rnSymbol, Function.comp_def]

theorem rnPredicate_comp (ρ σ : Name → Name) : rnPredicate ρ ∘ rnPredicate σ = rnPredicate (ρ ∘ σ) := by
  funext s
  simp [rnPredicate, rnSymbol_comp]

mutual

theorem rnFormula_rnFormula (ρ σ : Name → Name) : ∀ f : Formula, rnFormula ρ (rnFormula σ f) = rnFormula (ρ ∘ σ) f
  | .empty => by simp [rnFormula]
  | .atom p => by simpa [rnFormula] using congrFun (rnPredicate_comp ρ σ) p
  | .not f => by simp [rnFormula, rnFormula_rnFormula ρ σ f]
  | .and fs => by simp [rnFormula, rnFormulas_rnFormulas ρ σ fs]
  | .or fs => by simp [rnFormula, rnFormulas_rnFormulas ρ σ fs]
  | .xor fs => by simp [rnFormula, rnFormulas_rnFormulas ρ σ fs]
  | .imply ps qs => by simp [rnFormula, rnFormulas_rnFormulas ρ σ ps, rnFormulas_rnFormulas ρ σ qs]
  | .exists_ vs f => by simp [rnFormula, rnFormula_rnFormula ρ σ f, rnSymbol_comp]
  | .forall_ vs f => by simp [rnFormula, rnFormula_rnFormula ρ σ f, rnSymbol_comp]
  | .weighted w f => by simp [rnFormula, rnFormula_rnFormula ρ σ f]
  | .equals a b => by simp [rnFormula]

theorem rnFormulas_rnFormulas (ρ σ : Name → Name) : ∀ fs : List Formula, rnFormulas ρ (rnFormulas σ fs) = rnFormulas (ρ ∘ σ) fs
  | [] => by simp [rnFormulas]
  | f :: fs => by simp [rnFormulas, rnFormula_rnFormula ρ σ f, rnFormulas_rnFormulas ρ σ fs]

end

theorem rnFormula_comp (ρ σ : Name → Name) : rnFormula ρ ∘ rnFormula σ = rnFormula (ρ ∘ σ) :=
  funext (rnFormula_rnFormula ρ σ)

theorem rnTask_comp (ρ σ : Name → Name) : rnTask ρ ∘ rnTask σ = rnTask (ρ ∘ σ) := by
  funext s
  simp [rnTask, rnSymbol_comp]

theorem rnAction_comp (ρ σ : Name → Name) : rnAction ρ ∘ rnAction σ = rnAction (ρ ∘ σ) := by
  funext s
  simp [rnAction, rnSymbol_comp, rnFormula_comp]

theorem rnSubtask_comp (ρ σ : Name → Name) : rnSubtask ρ ∘ rnSubtask σ = rnSubtask (ρ ∘ σ) := by
  funext s
  simpa [rnSubtask, rnSymbol_comp] using congrFun (rnSymbol_comp ρ σ) s.task

theorem rnConstraint_comp (ρ σ : Name → Name) : rnConstraint ρ ∘ rnConstraint σ = rnConstraint (ρ ∘ σ) := by
  funext s
  cases s <;> rfl

theorem listMap_comp {α β γ : Type} (g : β → γ) (h : α → β) : List.map g ∘ List.map h = List.map (g ∘ h) := by
  funext l
  simp

theorem rnHtn_comp (ρ σ : Name → Name) : rnHtn ρ ∘ rnHtn σ = rnHtn (ρ ∘ σ) := by
  funext s
  obtain ⟨a, b, c, e⟩ := s
  have h : (fun _ : Nat => 0) ∘ (fun _ : Nat => 0) = fun _ => 0 := rfl
  have h' : Prod.map ρ ρ ∘ Prod.map σ σ = Prod.map (ρ ∘ σ) (ρ ∘ σ) := rfl
  cases c <;> simp [rnHtn, rnOrdering, rnSubtask_comp, rnConstraint_comp, h, h']

theorem rnInitTn_comp (ρ σ : Name → Name) : rnInitTn ρ ∘ rnInitTn σ = rnInitTn (ρ ∘ σ) := by
  funext s
  simpa [rnInitTn, rnSymbol_comp, listMap_comp] using congrFun (rnHtn_comp ρ σ) s.tn

theorem rnMethod_comp (ρ σ : Name → Name) : rnMethod ρ ∘ rnMethod σ = rnMethod (ρ ∘ σ) := by
  funext s
  simpa [rnMethod, rnSymbol_comp, rnFormula_comp] using
    ⟨congrFun (rnSymbol_comp ρ σ) s.name, congrFun (rnSymbol_comp ρ σ) s.task, congrFun (rnHtn_comp ρ σ) s.tn⟩

theorem rnDomain_rnDomain (ρ σ : Name → Name) (d : DomainAST) : rnDomain ρ (rnDomain σ d) = rnDomain (ρ ∘ σ) d := by
  simp [rnDomain, rnSymbol_comp, rnPredicate_comp, rnTask_comp, rnMethod_comp, rnAction_comp]

theorem rnProblem_rnProblem (ρ σ : Name → Name) (p : ProblemAST) : rnProblem ρ (rnProblem σ p) = rnProblem (ρ ∘ σ) p := by
  simp [rnProblem, rnSymbol_comp, rnPredicate_comp, rnInitTn_comp, rnFormula_comp]

/-! ### Spelling -/

theorem decimal_snoc (w : Bytes) (c : UInt8) : decimal (w ++ [c]) = decimal w * 10 + (c.toNat - 48) := by
  induction w with
  | nil => simp [decimal]
  | cons a w ih =>
    simp only [List.cons_append, decimal, ih, List.length_append, List.length_cons, List.length_nil, Nat.pow_succ, Nat.add_mul, Nat.mul_assoc,
      Nat.add_assoc]

theorem decimal_exists (n : Nat) : ∃ w, w ≠ [] ∧ (∀ c ∈ w, Digit c) ∧ decimal w = n := by
  have hd : ∀ k, k < 10 → ∃ c, Digit c ∧ c.toNat - 48 = k := by
    intro k hk
    match k, hk with
    | 0, _ => exact ⟨48, by decide, rfl⟩
    | 1, _ => exact ⟨49, by decide, rfl⟩
    | 2, _ => exact ⟨50, by decide, rfl⟩
    | 3, _ => exact ⟨51, by decide, rfl⟩
    | 4, _ => exact ⟨52, by decide, rfl⟩
    | 5, _ => exact ⟨53, by decide, rfl⟩
    | 6, _ => exact ⟨54, by decide, rfl⟩
    | 7, _ => exact ⟨55, by decide, rfl⟩
    | 8, _ => exact ⟨56, by decide, rfl⟩
    | 9, _ => exact ⟨57, by decide, rfl⟩
    | k + 10, h => exact absurd h (by omega)
  induction n using Nat.strongRecOn with
  | _ n ih =>
    obtain ⟨c, hc, hk⟩ := hd (n % 10) (Nat.mod_lt _ (by omega))
    by_cases h : n < 10
    · exact ⟨[c], by simp, by simpa using hc, by simp [decimal, hk]; omega⟩
    · obtain ⟨w, h1, h2, h3⟩ := ih (n / 10) (by omega)
      refine ⟨w ++ [c], by simp, ?_, by rw [decimal_snoc, h3, hk]; omega⟩
      intro x hx
      rcases List.mem_append.mp hx with hx | hx
      · exact h2 x hx
      · rw [List.mem_singleton.mp hx]; exact hc

theorem utterable_spells {t : Token} (h : Utterable t) : ∃ w, Spells t w := by
  cases t with
  | ident x => exact ⟨_, .variable_ h⟩
  | num v =>
    cases v with
    | int n =>
      obtain ⟨w, h1, h2, h3⟩ := decimal_exists n
      subst h3
      exact ⟨w, .int h1 h2 h⟩
    | real l =>
      obtain ⟨w, u, rfl, h1, h2, h3⟩ := h
      exact ⟨_, .real h1 h2 h3⟩
  | kw k =>
    cases k with
    | define => exact ⟨_, .plain (w := b!"define") (by decide)⟩
    | domain => exact ⟨_, .plain (w := b!"domain") (by decide)⟩
    | problem => exact ⟨_, .plain (w := b!"problem") (by decide)⟩
    | requirements => exact ⟨_, .colon (w := b!"requirements") (by decide)⟩
    | objects => exact ⟨_, .colon (w := b!"objects") (by decide)⟩
    | types => exact ⟨_, .colon (w := b!"types") (by decide)⟩
    | task => exact ⟨_, .colon (w := b!"task") (by decide)⟩
    | constants => exact ⟨_, .colon (w := b!"constants") (by decide)⟩
    | predicates => exact ⟨_, .colon (w := b!"predicates") (by decide)⟩
    | functions => exact ⟨_, .colon (w := b!"functions") (by decide)⟩
    | init => exact ⟨_, .colon (w := b!"init") (by decide)⟩
    | htn => exact ⟨_, .colon (w := b!"htn") (by decide)⟩
    | action => exact ⟨_, .colon (w := b!"action") (by decide)⟩
    | parameters => exact ⟨_, .colon (w := b!"parameters") (by decide)⟩
    | method => exact ⟨_, .colon (w := b!"method") (by decide)⟩
    | precondition => exact ⟨_, .colon (w := b!"precondition") (by decide)⟩
    | effect => exact ⟨_, .colon (w := b!"effect") (by decide)⟩
    | subtasks => exact ⟨_, .colon (w := b!"subtasks") (by decide)⟩
    | orderedSubtasks => exact ⟨_, .colon (w := b!"ordered-subtasks") (by decide)⟩
    | ordering => exact ⟨_, .colon (w := b!"ordering") (by decide)⟩
    | constraints => exact ⟨_, .colon (w := b!"constraints") (by decide)⟩
    | goal => exact ⟨_, .colon (w := b!"goal") (by decide)⟩
  | op o =>
    cases o with
    | or => exact ⟨_, .plain (w := b!"or") (by decide)⟩
    | not => exact ⟨_, .plain (w := b!"not") (by decide)⟩
    | and => exact ⟨_, .plain (w := b!"and") (by decide)⟩
    | xor => exact ⟨_, .plain (w := b!"oneof") (by decide)⟩
    | forall_ => exact ⟨_, .plain (w := b!"forall") (by decide)⟩
    | exists_ => exact ⟨_, .plain (w := b!"exists") (by decide)⟩
    | implication => exact ⟨_, .plain (w := b!"imply") (by decide)⟩
    | probabilistic => exact ⟨_, .plain (w := b!"probabilistic") (by decide)⟩
    | equal => exact ⟨_, .equal⟩
    | lt => exact ⟨_, .lt⟩
    | gt => exact ⟨_, .gt⟩
    | le => exact ⟨_, .le⟩
    | ge => exact ⟨_, .ge⟩
  | req r =>
    cases r with
    | methodPreconditions => exact ⟨_, .colon (w := b!"method-preconditions") (by decide)⟩
    | hierarchy => exact ⟨_, .colon (w := b!"hierarchy") (by decide)⟩
    | typedObjects => exact ⟨_, .colon (w := b!"typing") (by decide)⟩
    | negativePreconditions => exact ⟨_, .colon (w := b!"negative-preconditions") (by decide)⟩
    | universalPreconditions => exact ⟨_, .colon (w := b!"universal-preconditions") (by decide)⟩
    | equality => exact ⟨_, .colon (w := b!"equality") (by decide)⟩
    | strips => exact ⟨_, .colon (w := b!"strips") (by decide)⟩
    | probabilisticEffects => exact absurd rfl h
  | punct p => cases p; exacts [⟨_, .dash⟩, ⟨_, .lparen⟩, ⟨_, .rparen⟩]
  | eof => exact h.elim

theorem written_toks {ts : List Token} (h : ∀ t ∈ ts, Utterable t) : ∀ n, ∃ us file, us.map Prod.fst = ts ∧ Written us n file := by
  suffices ∀ n, ∃ us file, us.map Prod.fst = ts ∧ Written us n (10 :: file) by
    intro n
    obtain ⟨us, file, h1, h2⟩ := this n
    exact ⟨us, _, h1, h2⟩
  induction ts with
  | nil => exact fun n => ⟨[], [], rfl, .done (.blank _ _ (by decide) .nil)⟩
  | cons t ts ih =>
    intro n
    have ht := h t List.mem_cons_self
    obtain ⟨w, hw⟩ := utterable_spells ht
    obtain ⟨us, file, h1, h2⟩ := ih (fun x hx => h x (List.mem_cons_of_mem _ hx)) (n + newlines [10])
    refine ⟨(t, n + newlines [10]) :: us, w ++ 10 :: file, by simp [h1], ?_⟩
    exact .token (lay := [10]) (.blank _ _ (by decide) .nil) hw
      (follows_newline (by rintro rfl; exact ht) _) h2

end Verif
