import Mathlib.Data.Nat.Pairing
import Verif.Proofs.Relaid
import Verif.Proofs.RelaidText
import Verif.Spec.Regrouped

/-! Trees that agree up to lines correspond, and regrouped blocks make the same declarations. -/

namespace Verif

open Spec

/-! ### Trees -/

/-- What is equal up to lines has a common form, with pairs of lines as marks. -/
def Zips {α : Type} (mv : (Nat → Nat) → α → α) (rn : α → α) : Prop :=
  ∀ a b, rn a = rn b → ∃ c, a = mv (fun k => k.unpair.1) c ∧ b = mv (fun k => k.unpair.2) c

theorem zips_list {α : Type} {mv : (Nat → Nat) → α → α} {rn : α → α} (h : Zips mv rn) :
    Zips (fun φ => List.map (mv φ)) (List.map rn) := by
  intro l
  induction l with
  | nil =>
    intro l' h'
    cases l' with
    | nil => exact ⟨[], rfl, rfl⟩
    | cons b l' => simp at h'
  | cons a l ih =>
    intro l' h'
    cases l' with
    | nil => simp at h'
    | cons b l' =>
      simp only [List.map_cons, List.cons.injEq] at h'
      obtain ⟨c, h1, h2⟩ := h a b h'.1
      obtain ⟨cs, h3, h4⟩ := ih l' h'.2
      exact ⟨c :: cs, by simp [← h1, ← h3], by simp [← h2, ← h4]⟩

theorem zips_option {α : Type} {mv : (Nat → Nat) → α → α} {rn : α → α} (h : Zips mv rn) :
    Zips (fun φ => Option.map (mv φ)) (Option.map rn) := by
  intro a b h'
  cases a <;> cases b <;> simp only [Option.map_none, Option.map_some, reduceCtorEq, Option.some.injEq] at h'
  · exact ⟨none, rfl, rfl⟩
  · obtain ⟨c, h1, h2⟩ := h _ _ h'
    exact ⟨some c, by simp [← h1], by simp [← h2]⟩

theorem zips_line : Zips (fun φ => φ) (fun _ => 0) :=
  fun a b _ => ⟨Nat.pair a b, by simp, by simp⟩

theorem zips_symbol : Zips (mvSymbol id) (rnSymbol id) := by
  rintro ⟨a, p, t, l⟩ ⟨a', p', t', l'⟩ h
  simp only [rnSymbol, id_eq, Option.map_id_fun, Symbol.mk.injEq] at h
  obtain ⟨rfl, _, rfl, h⟩ := h
  obtain ⟨c, rfl, rfl⟩ := zips_option zips_line _ _ h
  exact ⟨⟨a, Nat.pair p p', t, c⟩, by simp [mvSymbol], by simp [mvSymbol]⟩

theorem zips_symbols : Zips (fun φ => List.map (mvSymbol id φ)) (List.map (rnSymbol id)) := zips_list zips_symbol

theorem zips_predicate : Zips (mvPredicate id) (rnPredicate id) := by
  rintro ⟨a, p, vs⟩ ⟨a', p', vs'⟩ h
  simp only [rnPredicate, id_eq, Predicate.mk.injEq] at h
  obtain ⟨rfl, _, h⟩ := h
  obtain ⟨c, rfl, rfl⟩ := zips_symbols _ _ h
  exact ⟨⟨a, Nat.pair p p', c⟩, by simp [mvPredicate], by simp [mvPredicate]⟩

mutual

theorem zips_formula : ∀ f g : Formula, rnFormula id f = rnFormula id g →
    ∃ c, f = mvFormula id (fun k => k.unpair.1) c ∧ g = mvFormula id (fun k => k.unpair.2) c
  | .empty, g, h => by
    cases g <;> simp only [rnFormula, reduceCtorEq] at h
    exact ⟨.empty, rfl, rfl⟩
  | .atom p, g, h => by
    cases g <;> simp only [rnFormula, reduceCtorEq, Formula.atom.injEq] at h
    obtain ⟨c, rfl, rfl⟩ := zips_predicate _ _ h
    exact ⟨.atom c, rfl, rfl⟩
  | .not f, g, h => by
    cases g <;> simp only [rnFormula, reduceCtorEq, Formula.not.injEq] at h
    obtain ⟨c, h1, h2⟩ := zips_formula f _ h
    exact ⟨.not c, by rw [h1]; rfl, by rw [h2]; rfl⟩
  | .and fs, g, h => by
    cases g <;> simp only [rnFormula, reduceCtorEq, Formula.and.injEq] at h
    obtain ⟨c, h1, h2⟩ := zips_formulas fs _ h
    exact ⟨.and c, by rw [h1]; rfl, by rw [h2]; rfl⟩
  | .or fs, g, h => by
    cases g <;> simp only [rnFormula, reduceCtorEq, Formula.or.injEq] at h
    obtain ⟨c, h1, h2⟩ := zips_formulas fs _ h
    exact ⟨.or c, by rw [h1]; rfl, by rw [h2]; rfl⟩
  | .xor fs, g, h => by
    cases g <;> simp only [rnFormula, reduceCtorEq, Formula.xor.injEq] at h
    obtain ⟨c, h1, h2⟩ := zips_formulas fs _ h
    exact ⟨.xor c, by rw [h1]; rfl, by rw [h2]; rfl⟩
  | .imply ps qs, g, h => by
    cases g <;> simp only [rnFormula, reduceCtorEq, Formula.imply.injEq] at h
    obtain ⟨c, h1, h2⟩ := zips_formulas ps _ h.1
    obtain ⟨c', h3, h4⟩ := zips_formulas qs _ h.2
    exact ⟨.imply c c', by rw [h1, h3]; rfl, by rw [h2, h4]; rfl⟩
  | .exists_ vs f, g, h => by
    cases g <;> simp only [rnFormula, reduceCtorEq, Formula.exists_.injEq] at h
    obtain ⟨c, h1, h2⟩ := zips_formula f _ h.2
    obtain ⟨c', h3, h4⟩ := zips_symbols _ _ h.1
    exact ⟨.exists_ c' c, by rw [h1, h3]; rfl, by rw [h2, h4]; rfl⟩
  | .forall_ vs f, g, h => by
    cases g <;> simp only [rnFormula, reduceCtorEq, Formula.forall_.injEq] at h
    obtain ⟨c, h1, h2⟩ := zips_formula f _ h.2
    obtain ⟨c', h3, h4⟩ := zips_symbols _ _ h.1
    exact ⟨.forall_ c' c, by rw [h1, h3]; rfl, by rw [h2, h4]; rfl⟩
  | .weighted w f, g, h => by
    cases g <;> simp only [rnFormula, reduceCtorEq, Formula.weighted.injEq] at h
    obtain ⟨c, h1, h2⟩ := zips_formula f _ h.2
    exact ⟨.weighted w c, by rw [h1]; rfl, by rw [h2, ← h.1]; rfl⟩
  | .equals a b, g, h => by
    cases g <;> simp only [rnFormula, reduceCtorEq, Formula.equals.injEq, id_eq] at h
    exact ⟨.equals a b, rfl, by rw [h.1, h.2]; rfl⟩

theorem zips_formulas : ∀ fs gs : List Formula, rnFormulas id fs = rnFormulas id gs →
    ∃ c, fs = mvFormulas id (fun k => k.unpair.1) c ∧ gs = mvFormulas id (fun k => k.unpair.2) c
  | [], gs, h => by
    cases gs <;> simp only [rnFormulas, reduceCtorEq] at h
    exact ⟨[], rfl, rfl⟩
  | f :: fs, gs, h => by
    cases gs <;> simp only [rnFormulas, reduceCtorEq, List.cons.injEq] at h
    obtain ⟨c, h1, h2⟩ := zips_formula f _ h.1
    obtain ⟨c', h3, h4⟩ := zips_formulas fs _ h.2
    exact ⟨c :: c', by rw [h1, h3]; rfl, by rw [h2, h4]; rfl⟩

end

theorem zips_opt : Zips (fun φ => Option.map (mvFormula id φ)) (Option.map (rnFormula id)) :=
  zips_option zips_formula

theorem zips_task : Zips (mvTask id) (rnTask id) := by
  rintro ⟨a, p, vs⟩ ⟨a', p', vs'⟩ h
  simp only [rnTask, id_eq, Task.mk.injEq] at h
  obtain ⟨rfl, _, h⟩ := h
  obtain ⟨c, rfl, rfl⟩ := zips_symbols _ _ h
  exact ⟨⟨a, Nat.pair p p', c⟩, by simp [mvTask], by simp [mvTask]⟩

theorem zips_action : Zips (mvAction id) (rnAction id) := by
  rintro ⟨a, p, vs, pre, eff⟩ ⟨a', p', vs', pre', eff'⟩ h
  simp only [rnAction, id_eq, Action.mk.injEq] at h
  obtain ⟨rfl, _, h, h', h''⟩ := h
  obtain ⟨c, rfl, rfl⟩ := zips_symbols _ _ h
  obtain ⟨c', rfl, rfl⟩ := zips_opt _ _ h'
  obtain ⟨c'', rfl, rfl⟩ := zips_opt _ _ h''
  exact ⟨⟨a, Nat.pair p p', c, c', c''⟩, by simp [mvAction], by simp [mvAction]⟩

theorem zips_subtask : Zips (mvSubtask id) (rnSubtask id) := by
  rintro ⟨a, p, vs⟩ ⟨a', p', vs'⟩ h
  simp only [rnSubtask, Subtask.mk.injEq] at h
  obtain ⟨h, h', h''⟩ := h
  obtain ⟨c, rfl, rfl⟩ := zips_option zips_symbol _ _ h
  obtain ⟨c', rfl, rfl⟩ := zips_symbol _ _ h'
  obtain ⟨c'', rfl, rfl⟩ := zips_symbols _ _ h''
  exact ⟨⟨c, c', c''⟩, rfl, rfl⟩

theorem rnOrdering_id (o : Ordering) : rnOrdering id o = o := by
  cases o <;> simp [rnOrdering]

theorem rnConstraint_ident : rnConstraint id = id := by
  funext c
  cases c <;> rfl

theorem zips_htn : Zips (mvHtn id) (rnHtn id) := by
  rintro ⟨ss, l, o, cs⟩ ⟨ss', l', o', cs'⟩ h
  simp only [rnHtn, HTN.mk.injEq, rnOrdering_id, rnConstraint_ident, List.map_id_fun, Option.map_id_fun, id_eq] at h
  obtain ⟨h, h', rfl, rfl⟩ := h
  obtain ⟨c, rfl, rfl⟩ := zips_list zips_subtask _ _ h
  obtain ⟨c', rfl, rfl⟩ := zips_option zips_line _ _ h'
  exact ⟨⟨c, c', o, cs⟩, by simp [mvHtn, rnOrdering_id, rnConstraint_ident], by simp [mvHtn, rnOrdering_id, rnConstraint_ident]⟩

theorem zips_initTn : Zips (mvInitTn id) (rnInitTn id) := by
  rintro ⟨ps, h⟩ ⟨ps', h'⟩ e
  simp only [rnInitTn, InitTN.mk.injEq] at e
  obtain ⟨c, rfl, rfl⟩ := zips_option zips_symbols _ _ e.1
  obtain ⟨c', rfl, rfl⟩ := zips_htn _ _ e.2
  exact ⟨⟨c, c'⟩, rfl, rfl⟩

theorem zips_method : Zips (mvMethod id) (rnMethod id) := by
  rintro ⟨a, t, ts, ps, pre, n⟩ ⟨a', t', ts', ps', pre', n'⟩ h
  simp only [rnMethod, Method.mk.injEq] at h
  obtain ⟨h1, h2, h3, h4, h5, h6⟩ := h
  obtain ⟨c1, rfl, rfl⟩ := zips_symbol _ _ h1
  obtain ⟨c2, rfl, rfl⟩ := zips_symbol _ _ h2
  obtain ⟨c3, rfl, rfl⟩ := zips_symbols _ _ h3
  obtain ⟨c4, rfl, rfl⟩ := zips_symbols _ _ h4
  obtain ⟨c5, rfl, rfl⟩ := zips_opt _ _ h5
  obtain ⟨c6, rfl, rfl⟩ := zips_htn _ _ h6
  exact ⟨⟨c1, c2, c3, c4, c5, c6⟩, rfl, rfl⟩

theorem zips_domain : Zips (mvDomain id) (rnDomain id) := by
  rintro ⟨a, t, c, r, p, ts, ms, as, fs⟩ ⟨a', t', c', r', p', ts', ms', as', fs'⟩ h
  simp only [rnDomain, DomainAST.mk.injEq, id_eq] at h
  obtain ⟨rfl, h1, h2, rfl, h3, h4, h5, h6, h7⟩ := h
  obtain ⟨c1, rfl, rfl⟩ := zips_option zips_symbols _ _ h1
  obtain ⟨c2, rfl, rfl⟩ := zips_option zips_symbols _ _ h2
  obtain ⟨c3, rfl, rfl⟩ := zips_list zips_predicate _ _ h3
  obtain ⟨c4, rfl, rfl⟩ := zips_list zips_task _ _ h4
  obtain ⟨c5, rfl, rfl⟩ := zips_list zips_method _ _ h5
  obtain ⟨c6, rfl, rfl⟩ := zips_list zips_action _ _ h6
  obtain ⟨c7, rfl, rfl⟩ := zips_list zips_predicate _ _ h7
  exact ⟨⟨a, c1, c2, r, c3, c4, c5, c6, c7⟩, rfl, rfl⟩

theorem zips_problem : Zips (mvProblem id) (rnProblem id) := by
  rintro ⟨r, t, i, g, o⟩ ⟨r', t', i', g', o'⟩ h
  simp only [rnProblem, ProblemAST.mk.injEq] at h
  obtain ⟨rfl, h1, h2, h3, h4⟩ := h
  obtain ⟨c1, rfl, rfl⟩ := zips_option zips_initTn _ _ h1
  obtain ⟨c2, rfl, rfl⟩ := zips_list zips_predicate _ _ h2
  obtain ⟨c3, rfl, rfl⟩ := zips_opt _ _ h3
  obtain ⟨c4, rfl, rfl⟩ := zips_symbols _ _ h4
  exact ⟨⟨r, c1, c2, c3, c4⟩, rfl, rfl⟩

theorem mvSymbol_id : mvSymbol id id = id := by
  funext s
  simp [mvSymbol]

theorem mvPredicate_id : mvPredicate id id = id := by
  funext s
  simp [mvPredicate, mvSymbol_id]

mutual

theorem mvFormula_id : ∀ f : Formula, mvFormula id id f = f
  | .empty | .equals _ _ => rfl
  | .atom p => by simp [mvFormula, mvPredicate_id]
  | .not f | .weighted _ f => by simp only [mvFormula, mvFormula_id f]
  | .and fs | .or fs | .xor fs => by simp only [mvFormula, mvFormulas_id fs]
  | .imply ps qs => by simp only [mvFormula, mvFormulas_id ps, mvFormulas_id qs]
  | .exists_ vs f | .forall_ vs f => by simp [mvFormula, mvFormula_id f, mvSymbol_id]

theorem mvFormulas_id : ∀ fs : List Formula, mvFormulas id id fs = fs
  | [] => rfl
  | f :: fs => by simp only [mvFormulas, mvFormula_id f, mvFormulas_id fs]

end

theorem mvFormula_ident : mvFormula id id = id := funext mvFormula_id

theorem mvHtn_id : mvHtn id id = id := by
  funext h
  have hs : mvSubtask id id = id := by funext s; simp [mvSubtask, mvSymbol_id]
  simp [mvHtn, hs, rnOrdering_id, rnConstraint_ident]

theorem mvDomain_id (d : DomainAST) : mvDomain id id d = d := by
  have hm : mvMethod id id = id := by funext m; simp [mvMethod, mvSymbol_id, mvFormula_ident, mvHtn_id]
  have ha : mvAction id id = id := by funext m; simp [mvAction, mvSymbol_id, mvFormula_ident]
  have ht : mvTask id id = id := by funext m; simp [mvTask, mvSymbol_id]
  simp [mvDomain, mvSymbol_id, mvPredicate_id, hm, ha, ht]

/-- Domains correspond if they agree up to lines. -/
theorem corresponds_iff {d d' : DomainAST} : Corresponds (fun _ _ => True) d d' ↔ rnDomain id d = rnDomain id d' := by
  constructor
  · rintro ⟨e, l, l', rfl, rfl, _⟩
    rw [rnDomain_mv, rnDomain_mv]
  · intro h
    obtain ⟨c, h1, h2⟩ := zips_domain _ _ h
    exact ⟨c, _, _, h1, h2, fun _ => trivial⟩

theorem correspondsP_iff {p p' : ProblemAST} : CorrespondsP (fun _ _ => True) p p' ↔ rnProblem id p = rnProblem id p' := by
  constructor
  · rintro ⟨e, l, l', rfl, rfl, _⟩
    rw [rnProblem_mv, rnProblem_mv]
  · intro h
    obtain ⟨c, h1, h2⟩ := zips_problem _ _ h
    exact ⟨c, _, _, h1, h2, fun _ => trivial⟩

/-! ### Blocks -/

theorem nonEmpty_inj {α : Type} {l l' : List α} : nonEmpty l = nonEmpty l' ↔ l = l' := by
  cases l <;> cases l' <;> simp [nonEmpty]

/-- The declarations of the blocks, one list for each sort. -/
structure SameLists (bs bs' : List DBlock) : Prop where
  types : bs.flatMap DBlock.typeSyms = bs'.flatMap DBlock.typeSyms
  consts : bs.flatMap DBlock.constSyms = bs'.flatMap DBlock.constSyms
  reqs : bs.flatMap DBlock.reqs = bs'.flatMap DBlock.reqs
  preds : bs.flatMap DBlock.preds = bs'.flatMap DBlock.preds
  tasks : bs.flatMap DBlock.tasks = bs'.flatMap DBlock.tasks
  methods : bs.flatMap DBlock.methods = bs'.flatMap DBlock.methods
  actions : bs.flatMap DBlock.actions = bs'.flatMap DBlock.actions
  funs : bs.flatMap DBlock.funs = bs'.flatMap DBlock.funs

theorem sameLists_iff {n : Name} {bs bs' : List DBlock} : domainOf n bs = domainOf n bs' ↔ SameLists bs bs' := by
  simp only [domainOf, DomainAST.mk.injEq, nonEmpty_inj, true_and]
  exact ⟨fun ⟨a, b, c, d, e, f, g, h⟩ => ⟨a, b, c, d, e, f, g, h⟩, fun ⟨a, b, c, d, e, f, g, h⟩ => ⟨a, b, c, d, e, f, g, h⟩⟩

theorem regrouped_lists {bs bs' : List DBlock} (h : Regrouped bs bs') : SameLists bs bs' := by
  induction h with
  | refl => exact ⟨rfl, rfl, rfl, rfl, rfl, rfl, rfl, rfl⟩
  | symm _ ih => exact ⟨ih.1.symm, ih.2.symm, ih.3.symm, ih.4.symm, ih.5.symm, ih.6.symm, ih.7.symm, ih.8.symm⟩
  | trans _ _ i j =>
    exact ⟨i.1.trans j.1, i.2.trans j.2, i.3.trans j.3, i.4.trans j.4, i.5.trans j.5, i.6.trans j.6, i.7.trans j.7, i.8.trans j.8⟩
  | cons _ ih =>
    constructor <;> simp only [List.flatMap_cons]
    exacts [by rw [ih.1], by rw [ih.2], by rw [ih.3], by rw [ih.4], by rw [ih.5], by rw [ih.6], by rw [ih.7], by rw [ih.8]]
  | @swap b c bs h =>
    constructor <;> simp only [List.flatMap_cons] <;> cases b <;> cases c <;>
      first | exact absurd rfl h | rfl
  | split h =>
    cases h <;> constructor <;> simp [DBlock.typeSyms, DBlock.constSyms, DBlock.reqs, DBlock.preds, DBlock.tasks,
        DBlock.methods, DBlock.actions, DBlock.funs]
  | empty h =>
    cases h <;> constructor <;> simp [DBlock.typeSyms, DBlock.constSyms, DBlock.reqs, DBlock.preds, DBlock.tasks,
        DBlock.methods, DBlock.actions, DBlock.funs]

theorem Spec.Regrouped.pre {bs bs' : List DBlock} (l : List DBlock) (h : Regrouped bs bs') : Regrouped (l ++ bs) (l ++ bs') := by
  induction l with
  | nil => exact h
  | cons b l ih => exact .cons ih

/-- A block moves past blocks of other sorts. -/
theorem regrouped_past (b : DBlock) (l r : List DBlock) (h : ∀ c ∈ l, b.sort ≠ c.sort) : Regrouped (b :: (l ++ r)) (l ++ b :: r) := by
  induction l with
  | nil => exact .refl
  | cons c l ih =>
    exact (Regrouped.swap (h c (by simp))).trans (.cons (ih fun c hc => h c (by simp [hc])))

/-- The declarations, sort by sort. -/
def tidy (bs : List DBlock) : List DBlock :=
  .types (bs.flatMap DBlock.typeSyms) :: .constants (bs.flatMap DBlock.constSyms) :: .requirements (bs.flatMap DBlock.reqs) ::
    .predicates (bs.flatMap DBlock.preds) :: .functions (bs.flatMap DBlock.funs) ::
    ((bs.flatMap DBlock.tasks).map .task ++ ((bs.flatMap DBlock.methods).map .method ++ (bs.flatMap DBlock.actions).map .action))

theorem regrouped_tidy (bs : List DBlock) : Regrouped bs (tidy bs) := by
  induction bs with
  | nil =>
    exact ((Regrouped.empty .types).trans ((Regrouped.empty .constants).trans ((Regrouped.empty .requirements).trans
      ((Regrouped.empty .predicates).trans (.empty .functions))))).symm
  | cons b bs ih =>
    refine (Regrouped.cons ih).trans ?_
    cases b with
    | types ss =>
      exact (Regrouped.split (.types (b := bs.flatMap DBlock.typeSyms))).symm
    | constants ss =>
      refine (regrouped_past (.constants ss) [_] _ (by simp [DBlock.sort])).trans (.cons ?_)
      exact (Regrouped.split (.constants (b := bs.flatMap DBlock.constSyms))).symm
    | requirements ss =>
      refine (regrouped_past (.requirements ss) [_, _] _ (by simp [DBlock.sort])).trans (.cons (.cons ?_))
      exact (Regrouped.split (.requirements (b := bs.flatMap DBlock.reqs))).symm
    | predicates ss =>
      refine (regrouped_past (.predicates ss) [_, _, _] _ (by simp [DBlock.sort])).trans (.cons (.cons (.cons ?_)))
      exact (Regrouped.split (.predicates (b := bs.flatMap DBlock.preds))).symm
    | functions ss =>
      refine (regrouped_past (.functions ss) [_, _, _, _] _ (by simp [DBlock.sort])).trans (.cons (.cons (.cons (.cons ?_))))
      exact (Regrouped.split (.functions (b := bs.flatMap DBlock.funs))).symm
    | task t => exact regrouped_past (.task t) [_, _, _, _, _] _ (by simp [DBlock.sort])
    | method m =>
      refine (regrouped_past (.method m) [_, _, _, _, _] _ (by simp [DBlock.sort])).trans
        (.cons (.cons (.cons (.cons (.cons ?_)))))
      exact regrouped_past (.method m) _ _ (List.forall_mem_map.mpr fun _ _ => by simp [DBlock.sort])
    | action a =>
      refine (regrouped_past (.action a) [_, _, _, _, _] _ (by simp [DBlock.sort])).trans
        (.cons (.cons (.cons (.cons (.cons ?_)))))
      refine (regrouped_past (.action a) _ _ (List.forall_mem_map.mpr fun _ _ => by simp [DBlock.sort])).trans (Regrouped.pre _ ?_)
      exact regrouped_past (.action a) _ _ (List.forall_mem_map.mpr fun _ _ => by simp [DBlock.sort])

/-- Blocks make the same declarations if and only if they are regrouped. -/
theorem regrouped_iff {n : Name} {bs bs' : List DBlock} : Regrouped bs bs' ↔ domainOf n bs = domainOf n bs' := by
  rw [sameLists_iff]
  refine ⟨regrouped_lists, fun h => (regrouped_tidy bs).trans (.trans ?_ (regrouped_tidy bs').symm)⟩
  rw [tidy, tidy, h.1, h.2, h.3, h.4, h.5, h.6, h.7, h.8]
  exact .refl

theorem regroupedP_lists {bs bs' : List PBlock} (h : RegroupedP bs bs') :
    bs.flatMap PBlock.reqs = bs'.flatMap PBlock.reqs ∧ bs.flatMap PBlock.objs = bs'.flatMap PBlock.objs ∧
    (bs.filterMap PBlock.htn?).getLast? = (bs'.filterMap PBlock.htn?).getLast? ∧
    (bs.filterMap PBlock.goal?).getLast? = (bs'.filterMap PBlock.goal?).getLast? ∧
    (bs.filterMap PBlock.init?).getLast? = (bs'.filterMap PBlock.init?).getLast? := by
  induction h with
  | refl => simp
  | symm _ ih => exact ⟨ih.1.symm, ih.2.1.symm, ih.2.2.1.symm, ih.2.2.2.1.symm, ih.2.2.2.2.symm⟩
  | trans _ _ i j =>
    exact ⟨i.1.trans j.1, i.2.1.trans j.2.1, i.2.2.1.trans j.2.2.1, i.2.2.2.1.trans j.2.2.2.1, i.2.2.2.2.trans j.2.2.2.2⟩
  | @cons b bs bs' _ ih =>
    obtain ⟨h1, h2, h3, h4, h5⟩ := ih
    simp only [List.getLast?_filterMap] at h3 h4 h5
    cases b <;> simp [PBlock.reqs, PBlock.objs, PBlock.htn?, PBlock.goal?, PBlock.init?, List.getLast?_cons, *]
  | @swap b c bs h =>
    cases b <;> cases c <;> first | exact absurd rfl h | exact ⟨rfl, rfl, rfl, rfl, rfl⟩
  | splitReqs => exact ⟨by simp [PBlock.reqs], rfl, rfl, rfl, rfl⟩
  | splitObjs => exact ⟨rfl, by simp [PBlock.objs], rfl, rfl, rfl⟩
  | noReqs => exact ⟨rfl, rfl, rfl, rfl, rfl⟩
  | noObjs => exact ⟨rfl, rfl, rfl, rfl, rfl⟩
  | @override b c bs h =>
    cases h
    · exact ⟨rfl, rfl, List.getLast?_cons_cons, rfl, rfl⟩
    · exact ⟨rfl, rfl, rfl, List.getLast?_cons_cons, rfl⟩
    · exact ⟨rfl, rfl, rfl, rfl, List.getLast?_cons_cons⟩

theorem regroupedP_problemOf {bs bs' : List PBlock} (h : RegroupedP bs bs') : problemOf bs = problemOf bs' := by
  obtain ⟨h1, h2, h3, h4, h5⟩ := regroupedP_lists h
  simp only [problemOf, h1, h2, h3, h4, h5]

/-! ### Typed lists -/

/-- A type written once more in front of names that have it anyway. -/
theorem firstType_again {ts : List Tk} (h : Items ts) (l l' : Nat) {t : Name} {us : List Tk} {m : Nat} (hu : firstType us = some (t, m)) :
    (firstType (ts ++ (.punct .dash, l) :: (.ident t, l') :: us)).map (·.1) = (firstType (ts ++ us)).map (·.1) := by
  induction h with
  | nil => simp [firstType, hu]
  | name _ ih => simpa [firstType] using ih
  | type _ _ => simp [firstType]

theorem firstType_again_pos {ts : List Tk} (h : Items ts) (l l' : Nat) {t : Name} {us : List Tk} {m : Nat} (hu : firstType us = some (t, m)) :
    ((firstType (ts ++ (.punct .dash, l) :: (.ident t, l') :: us)).map (·.2)).map (fun _ => 0) =
      ((firstType (ts ++ us)).map (·.2)).map (fun _ => 0) := by
  induction h with
  | nil => simp [firstType, hu]
  | name _ ih => simpa [firstType] using ih
  | type _ _ => simp [firstType]

theorem symbols_again {ts : List Tk} (h : Items ts) (l l' : Nat) {t : Name} {us : List Tk} {m : Nat} (hu : firstType us = some (t, m)) :
    (symbolsOf (ts ++ (.punct .dash, l) :: (.ident t, l') :: us)).map (rnSymbol id) = (symbolsOf (ts ++ us)).map (rnSymbol id) := by
  induction h with
  | nil => simp [symbolsOf]
  | name hi ih =>
    rw [List.cons_append, List.cons_append, symbolsOf, symbolsOf, List.map_cons, List.map_cons, ih]
    simp only [rnSymbol, firstType_again hi l l' hu, firstType_again_pos hi l l' hu]
  | type _ ih => simpa [symbolsOf] using ih

end Verif
