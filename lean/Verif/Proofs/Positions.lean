import Verif.Spec.Files
import Verif.Proofs.Sound

/-! Every name recorded in a syntax tree is a token of the text that denotes the tree. -/

namespace Verif

open Spec

/-- Membership in a list of tokens that contains the list of the given membership. -/
macro "mem " h:ident : tactic => `(tactic|
  simp only [List.mem_cons, List.mem_append, $h:ident, true_or, or_true])

/-- Inclusion of a part of a list of tokens. -/
macro "subs" : tactic => `(tactic| (intro x hx; mem hx))

/-- `(x, l)` is one of the names in `ts`. -/
def Named (ts : List Tk) (x : Name × Nat) : Prop := (Token.ident x.1, x.2) ∈ ts

/-- All of `xs` are names in `ts`. -/
def AllNamed (xs : List (Name × Nat)) (ts : List Tk) : Prop := ∀ x ∈ xs, (Token.ident x.1, x.2) ∈ ts

theorem firstType_mem {ts : List Tk} {t l} (h : firstType ts = some (t, l)) : (Token.ident t, l) ∈ ts := by
  fun_induction firstType ts with
  | case1 => cases h; simp
  | case2 _ _ _ ih => exact List.mem_cons_of_mem _ (ih h)
  | case3 => cases h

theorem symbolsOf_named (ts : List Tk) : AllNamed ((symbolsOf ts).flatMap symbolNames) ts := by
  intro x hx
  fun_induction symbolsOf ts with
  | case1 y l ts ih =>
    simp only [List.flatMap_cons, List.mem_append] at hx
    rcases hx with hx | hx
    · simp only [symbolNames, List.mem_cons] at hx
      rcases hx with rfl | hx
      · simp
      · cases hf : firstType ts with
        | none => simp [hf] at hx
        | some p =>
          obtain ⟨t, l'⟩ := p
          simp [hf] at hx
          subst hx
          exact List.mem_cons_of_mem _ (firstType_mem hf)
    · exact List.mem_cons_of_mem _ (ih hx)
  | case2 _ _ _ ih => exact List.mem_cons_of_mem _ (List.mem_cons_of_mem _ (ih hx))
  | case3 => simp at hx

theorem TypedList.named {ss ts} (h : TypedList ss ts) : AllNamed (ss.flatMap symbolNames) ts := by
  rw [h.2]; exact symbolsOf_named ts

theorem AllNamed.nil {ts} : AllNamed [] ts := by intro x hx; cases hx

theorem AllNamed.append {xs ys ts} (h1 : AllNamed xs ts) (h2 : AllNamed ys ts) : AllNamed (xs ++ ys) ts := by
  intro x hx
  rcases List.mem_append.1 hx with hx | hx
  · exact h1 x hx
  · exact h2 x hx

theorem AllNamed.cons {x ys ts} (h1 : (Token.ident x.1, x.2) ∈ ts) (h2 : AllNamed ys ts) : AllNamed (x :: ys) ts := by
  intro y hy
  rcases List.mem_cons.1 hy with rfl | hy
  · exact h1
  · exact h2 y hy

theorem AllNamed.sub {xs ts ts'} (h : AllNamed xs ts) (hs : ∀ x ∈ ts, x ∈ ts') : AllNamed xs ts' :=
  fun x hx => hs _ (h x hx)

theorem nameSyms_named (xs : List (Name × Nat)) : AllNamed ((nameSyms xs).flatMap symbolNames) (nameToks xs) := by
  intro x hx
  simp only [nameSyms, List.flatMap_map, List.mem_flatMap, symbolNames, List.mem_cons, List.not_mem_nil, or_false] at hx
  obtain ⟨y, hy, rfl⟩ := hx
  simp only [nameToks, List.mem_map]
  exact ⟨y, hy, rfl⟩

theorem Predicates.named {ps ts} (h : Predicates ps ts) : AllNamed (ps.flatMap predNames) ts := by
  induction h with
  | nil => exact .nil
  | cons ht _ ih =>
    simp only [List.flatMap_cons, predNames]
    refine .append (.cons (by simp) ((TypedList.named ht).sub (by subs))) (ih.sub (by subs))

mutual

theorem FormulaText.named {q f ts} (h : FormulaText q f ts) : AllNamed (formulaNames f) ts := by
  cases h with
  | empty => simp only [formulaNames]; exact .nil
  | missing => simp only [formulaNames]; exact .nil
  | atom ht =>
    simp only [formulaNames, predNames]
    exact .cons (by simp) ((TypedList.named ht).sub (by subs))
  | not hf => simp only [formulaNames]; exact (FormulaText.named hf).sub (by subs)
  | and hf => simp only [formulaNames]; exact (FormulasText.named hf).sub (by subs)
  | or hf => simp only [formulaNames]; exact (FormulasText.named hf).sub (by subs)
  | xor hf => simp only [formulaNames]; exact (FormulasText.named hf).sub (by subs)
  | equals => simp only [formulaNames]; exact .nil
  | forall_ ht hf =>
    simp only [formulaNames]
    exact .append ((TypedList.named ht).sub (by subs)) ((FormulaText.named hf).sub (by subs))
  | exists_ ht hf =>
    simp only [formulaNames]
    exact .append ((TypedList.named ht).sub (by subs)) ((FormulaText.named hf).sub (by subs))
  | probabilistic hf => simp only [formulaNames]; exact (BranchesText.named hf).sub (by subs)

theorem FormulasText.named {q fs ts} (h : FormulasText q fs ts) : AllNamed (fs.flatMap formulaNames) ts := by
  cases h with
  | nil => exact .nil
  | unclosed => exact .nil
  | cons hf _ hfs =>
    simp only [List.flatMap_cons]
    exact .append ((FormulaText.named hf).sub (by subs)) ((FormulasText.named hfs).sub (by subs))

theorem BranchesText.named {q fs ts} (h : BranchesText q fs ts) : AllNamed (fs.flatMap formulaNames) ts := by
  cases h with
  | nil => exact .nil
  | cons hf _ hfs =>
    simp only [List.flatMap_cons, formulaNames]
    exact .append ((FormulaText.named hf).sub (by subs)) ((BranchesText.named hfs).sub (by subs))

end

theorem OptFormula.named {q k f ts} (h : OptFormula q k f ts) : AllNamed (optNames f) ts := by
  cases h with
  | none => exact .nil
  | some hf => exact (FormulaText.named hf).sub (by subs)

theorem TaskText.named {t ts} (h : TaskText t ts) : AllNamed (taskNames t) ts := by
  cases h with
  | mk ht => exact .cons (by simp) ((TypedList.named ht).sub (by subs))

theorem ActionText.named {q a ts} (h : ActionText q a ts) : AllNamed (actionNames a) ts := by
  cases h with
  | mk ht hp he =>
    have := TaskText.named ht
    refine .cons ?_ (.append (.append ?_ ?_) ?_)
    · have := this _ (List.mem_cons_self ..)
      simp only [List.mem_append]
      exact .inl (.inl (.inl this))
    · exact fun x hx => by
        have := this x (List.mem_cons_of_mem _ hx)
        simp only [List.mem_append]
        exact .inl (.inl (.inl this))
    · exact (OptFormula.named hp).sub (by subs)
    · exact (OptFormula.named he).sub (by subs)

theorem SubtaskText.named {t ts} (h : SubtaskText t ts) : AllNamed (subtaskNames t) ts := by
  cases h with
  | plain =>
    refine .append (.append .nil (.cons (by simp) .nil)) ((nameSyms_named _).sub (by subs))
  | labelled =>
    refine .append (.append (.cons (by simp) .nil) (.cons (by simp) .nil)) ((nameSyms_named _).sub (by subs))

theorem SubtaskList.named {t ts} (h : SubtaskList t ts) : AllNamed (t.flatMap subtaskNames) ts := by
  induction h with
  | nil => exact .nil
  | cons ht _ ih =>
    simp only [List.flatMap_cons]
    exact .append ((SubtaskText.named ht).sub (by subs)) (ih.sub (by subs))

theorem SubtasksText.named {t ts} (h : SubtasksText t ts) : AllNamed (t.flatMap subtaskNames) ts := by
  cases h with
  | none => exact .nil
  | one ht => simpa using (SubtaskText.named ht).sub (by subs)
  | many ht => exact (SubtaskList.named ht).sub (by subs)

theorem HtnText.named {tn ts e} (h : HtnText tn ts e) : AllNamed (htnNames tn) ts := by
  cases h with
  | empty => exact .nil
  | partial_ ht _ => exact (SubtasksText.named ht).sub (by subs)
  | total ht => exact (SubtasksText.named ht).sub (by subs)
  | constrained ht _ => exact (SubtasksText.named ht).sub (by subs)

theorem MethodText.named {q m ts e} (h : MethodText q m ts e) : AllNamed (methodNames m) ts := by
  cases h with
  | mk hp ht hb hc _ =>
    refine .append (.append (.append (.append (.append (.cons (by simp) .nil) (.cons (by simp) .nil)) ?_) ?_) ?_) ?_
    · exact (TypedList.named ht).sub (by subs)
    · exact (TypedList.named hp).sub (by subs)
    · exact (OptFormula.named hb).sub (by subs)
    · exact (HtnText.named hc).sub (by subs)

theorem InitTnText.named {tn ts e} (h : InitTnText tn ts e) :
    AllNamed ((tn.params.getD []).flatMap symbolNames ++ htnNames tn.tn) ts := by
  cases h with
  | plain h => exact HtnText.named h
  | params ht h => exact .append ((TypedList.named ht).sub (by subs)) ((HtnText.named h).sub (by subs))

/-- The names recorded for a domain block. -/
def dblockNames : DBlock → List (Name × Nat)
  | .predicates ps | .functions ps => ps.flatMap predNames
  | .task t => taskNames t
  | .method m => methodNames m
  | .action a => actionNames a
  | .requirements _ => []
  | .types ss | .constants ss => ss.flatMap symbolNames

theorem DBlockText.named {q b ts e} (h : DBlockText q b ts e) : AllNamed (dblockNames b) ts := by
  cases h with
  | predicates h => exact (Predicates.named h).sub (by subs)
  | functions h => exact (Predicates.named h).sub (by subs)
  | task h => exact (TaskText.named h).sub (by subs)
  | method h => exact (MethodText.named h).sub (by subs)
  | action h => exact (ActionText.named h).sub (by subs)
  | requirements => exact .nil
  | types h => exact (TypedList.named h).sub (by subs)
  | constants h => exact (TypedList.named h).sub (by subs)

def pblockNames : PBlock → List (Name × Nat)
  | .requirements _ => []
  | .objects ss => ss.flatMap symbolNames
  | .htn tn => (tn.params.getD []).flatMap symbolNames ++ htnNames tn.tn
  | .goal f => formulaNames f
  | .init ps => ps.flatMap predNames

theorem PBlockText.named {q b ts e} (h : PBlockText q b ts e) : AllNamed (pblockNames b) ts := by
  cases h with
  | requirements => exact .nil
  | objects h => exact (TypedList.named h).sub (by subs)
  | htn h => exact (InitTnText.named h).sub (by subs)
  | goal h => exact (FormulaText.named h).sub (by subs)
  | init h => exact (Predicates.named h).sub (by subs)

theorem Body.named {β} {q : Bool} {block : β → List Tk → Ending → Prop} {stop} {bs ts} {names : β → List (Name × Nat)}
    (hb : ∀ b ts e, block b ts e → AllNamed (names b) ts) (h : Body q block stop bs ts) :
    AllNamed (bs.flatMap names) ts := by
  induction h with
  | done => exact .nil
  | block h _ _ ih =>
    simp only [List.flatMap_cons]
    exact .append ((hb _ _ _ h).sub (by subs)) (ih.sub (by subs))

theorem nonEmpty_getD {α} (l : List α) : (nonEmpty l).getD [] = l := by cases l <;> rfl

theorem domainNames_sub {name bs x} (h : x ∈ domainNames (domainOf name bs)) : x ∈ bs.flatMap dblockNames := by
  simp only [domainNames, domainOf, nonEmpty_getD, List.mem_append, List.flatMap_assoc, List.mem_flatMap] at h ⊢
  rcases h with (((((h | h) | h) | h) | h) | h) | h
  all_goals
    obtain ⟨b, hb, y, hy, hx⟩ := h
    refine ⟨b, hb, ?_⟩
    cases b <;> simp only [DBlock.typeSyms, DBlock.constSyms, DBlock.preds, DBlock.funs, DBlock.tasks, DBlock.methods,
      DBlock.actions, List.mem_singleton, List.not_mem_nil] at hy
    simp only [dblockNames, List.mem_flatMap]
    first
      | exact ⟨y, hy, hx⟩
      | (subst hy; exact hx)

theorem problemNames_sub {bs x} (h : x ∈ problemNames (problemOf bs)) : x ∈ bs.flatMap pblockNames := by
  simp only [problemNames, problemOf, List.mem_append] at h
  simp only [List.mem_flatMap]
  rcases h with ((h | h) | h) | h
  · simp only [List.flatMap_assoc, List.mem_flatMap] at h
    obtain ⟨b, hb, y, hy, hx⟩ := h
    refine ⟨b, hb, ?_⟩
    cases b <;> simp only [PBlock.objs, List.not_mem_nil] at hy
    simp only [pblockNames, List.mem_flatMap]
    exact ⟨y, hy, hx⟩
  · cases hl : (bs.filterMap PBlock.init?).getLast? with
    | none => simp [hl] at h
    | some ps =>
      rw [hl] at h
      have := List.mem_of_getLast? hl
      obtain ⟨b, hb, hy⟩ := List.mem_filterMap.1 this
      refine ⟨b, hb, ?_⟩
      cases b <;> simp only [PBlock.init?, Option.some.injEq, reduceCtorEq] at hy
      subst hy
      exact h
  · cases hl : (bs.filterMap PBlock.goal?).getLast? with
    | none => simp [hl, optNames] at h
    | some f =>
      rw [hl] at h
      have := List.mem_of_getLast? hl
      obtain ⟨b, hb, hy⟩ := List.mem_filterMap.1 this
      refine ⟨b, hb, ?_⟩
      cases b <;> simp only [PBlock.goal?, Option.some.injEq, reduceCtorEq] at hy
      subst hy
      exact h
  · cases hl : (bs.filterMap PBlock.htn?).getLast? with
    | none => simp [hl] at h
    | some f =>
      rw [hl] at h
      have := List.mem_of_getLast? hl
      obtain ⟨b, hb, hy⟩ := List.mem_filterMap.1 this
      refine ⟨b, hb, ?_⟩
      cases b <;> simp only [PBlock.htn?, Option.some.injEq, reduceCtorEq] at hy
      subst hy
      exact List.mem_append.2 (List.mem_append.1 h)

theorem FileText.named {q a ts} (h : FileText q a ts) : AllNamed (astNames a) ts := by
  cases h with
  | domain hb =>
    intro x hx
    have := Body.named (names := dblockNames) (fun _ _ _ h => DBlockText.named h) hb x (domainNames_sub hx)
    simp only [List.mem_cons]
    exact .inr (.inr (.inr (.inr (.inr (.inr this)))))
  | problem hb =>
    intro x hx
    have := Body.named (names := pblockNames) (fun _ _ _ h => PBlockText.named h) hb x (problemNames_sub hx)
    simp only [List.mem_cons]
    exact .inr (.inr (.inr (.inr (.inr (.inr (.inr (.inr (.inr (.inr this)))))))))

/-! ### Lines of orderings -/

theorem TnItems.lines {is ts} (h : TnItems is ts) : ∀ l ∈ is.filterMap TnItem.line?, (Token.kw .ordering, l) ∈ ts := by
  induction h with
  | nil => intro l hl; cases hl
  | ordering _ _ ih =>
    intro l hl
    simp only [List.filterMap_cons, TnItem.line?, List.mem_cons] at hl
    rcases hl with rfl | hl
    · simp
    · have := ih l hl
      mem this
  | constraints _ _ ih =>
    intro l hl
    simp only [List.filterMap_cons, TnItem.line?] at hl
    have := ih l hl
    mem this

theorem HtnText.lines {tn ts e} (h : HtnText tn ts e) {l} (hl : tn.orderingPos = some l) :
    (Token.kw .ordering, l) ∈ ts := by
  cases h with
  | empty => cases hl
  | partial_ _ hi =>
    have := TnItems.lines hi l (List.mem_of_getLast? hl)
    mem this
  | total => cases hl
  | constrained => cases hl

theorem MethodText.lines {q m ts e} (h : MethodText q m ts e) {l} (hl : m.tn.orderingPos = some l) :
    (Token.kw .ordering, l) ∈ ts := by
  cases h with
  | mk _ _ _ hc _ =>
    have := HtnText.lines hc hl
    mem this

theorem InitTnText.lines {m ts e} (h : InitTnText m ts e) {l} (hl : m.tn.orderingPos = some l) :
    (Token.kw .ordering, l) ∈ ts := by
  cases h with
  | plain h => exact HtnText.lines h hl
  | params _ h =>
    have := HtnText.lines h hl
    mem this

theorem Body.mem {β} {q : Bool} {block : β → List Tk → Ending → Prop} {stop} {bs ts} (h : Body q block stop bs ts) {b}
    (hb : b ∈ bs) : ∃ t e, block b t e ∧ ∀ x ∈ t, x ∈ ts := by
  induction h with
  | done => cases hb
  | block h _ _ ih =>
    rcases List.mem_cons.1 hb with rfl | hb
    · exact ⟨_, _, h, by subs⟩
    · obtain ⟨t, e, h1, h2⟩ := ih hb
      exact ⟨t, e, h1, fun x hx => List.mem_append_right _ (h2 x hx)⟩

theorem FileText.lines {q a ts} (h : FileText q a ts) {l} (hl : l ∈ orderingLines a) : (Token.kw .ordering, l) ∈ ts := by
  cases h with
  | @domain name bs ts l1 l2 l3 l4 l5 l6 hb =>
    simp only [orderingLines, domainOf, List.mem_filterMap, List.mem_flatMap] at hl
    obtain ⟨m, ⟨b, hbm, hm⟩, hl⟩ := hl
    cases b <;> simp only [DBlock.methods, List.mem_singleton, List.not_mem_nil] at hm
    subst hm
    obtain ⟨t, e, h1, h2⟩ := Body.mem hb hbm
    cases h1 with
    | method h1 =>
      have := h2 _ (List.mem_cons_of_mem _ (List.mem_cons_of_mem _ (MethodText.lines h1 hl)))
      simp only [List.mem_cons]
      exact .inr (.inr (.inr (.inr (.inr (.inr this)))))
  | @problem name dname bs ts l1 l2 l3 l4 l5 l6 l7 l8 l9 l10 hb =>
    simp only [orderingLines, problemOf, Option.mem_toList, Option.bind_eq_some_iff] at hl
    obtain ⟨m, hm, hl⟩ := hl
    obtain ⟨b, hbm, hm⟩ := List.mem_filterMap.1 (List.mem_of_getLast? hm)
    cases b <;> simp only [PBlock.htn?, Option.some.injEq, reduceCtorEq] at hm
    subst hm
    obtain ⟨t, e, h1, h2⟩ := Body.mem hb hbm
    cases h1 with
    | htn h1 =>
      have := h2 _ (List.mem_cons_of_mem _ (List.mem_cons_of_mem _ (InitTnText.lines h1 hl)))
      simp only [List.mem_cons]
      exact .inr (.inr (.inr (.inr (.inr (.inr (.inr (.inr (.inr (.inr this)))))))))

end Verif
