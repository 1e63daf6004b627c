import Verif.Proofs.Ends
import Verif.Proofs.Problem

/-! What the grammar guarantees to the analyser: types and orderings have positions, and there are no implications. -/

namespace Verif

open Spec

theorem symbolsOf_located (ts : List Tk) : Located (symbolsOf ts) := by
  intro s hs
  fun_induction symbolsOf ts with
  | case1 y l ts ih =>
    rcases List.mem_cons.1 hs with rfl | hs
    · simp
    · exact ih hs
  | case2 _ _ _ ih => exact ih hs
  | case3 => simp at hs

theorem TypedList.located {ss ts} (h : TypedList ss ts) : Located ss := by
  rw [h.2]; exact symbolsOf_located ts

theorem Predicates.located {ps ts} (h : Predicates ps ts) : ∀ p ∈ ps, Located p.vars := by
  induction h with
  | nil => simp
  | cons ht _ ih =>
    intro p hp
    rcases List.mem_cons.1 hp with rfl | hp
    · exact TypedList.located ht
    · exact ih p hp

theorem TaskText.located {t ts} (h : TaskText t ts) : Located t.params := by
  cases h with
  | mk h => exact TypedList.located h

theorem ActionText.located {q a ts} (h : ActionText q a ts) : Located a.params := by
  cases h with
  | mk h => exact TaskText.located h

theorem MethodText.located {q m ts e} (h : MethodText q m ts e) : Located m.params := by
  cases h with
  | mk h => exact TypedList.located h

/-- A non-empty partial ordering has a position. -/
def OrderLocated (h : HTN) : Prop := ∀ os, h.orderings = .partial_ os → os ≠ [] → h.orderingPos.isSome

theorem HtnText.orderLocated {tn ts e} (h : HtnText tn ts e) : OrderLocated tn := by
  cases h with
  | empty => intro os h1 h2; cases h1; exact absurd rfl h2
  | @partial_ l1 l2 ts is a b _ _ =>
    intro os h1 h2
    simp only [Ordering.partial_.injEq] at h1
    subst h1
    rw [Option.isSome_iff_ne_none, Ne, List.getLast?_eq_none_iff]
    intro h0
    refine h2 (List.flatMap_eq_nil_iff.mpr ?_)
    intro x hx
    cases x with
    | ordering l ps =>
      have : l ∈ is.filterMap TnItem.line? := List.mem_filterMap.mpr ⟨_, hx, rfl⟩
      rw [h0] at this; cases this
    | constraints => rfl
  | total => intro os h; cases h
  | constrained => intro os h; cases h

theorem MethodText.orderLocated {q m ts e} (h : MethodText q m ts e) : OrderLocated m.tn := by
  cases h with
  | mk _ _ _ h => exact HtnText.orderLocated h

theorem InitTnText.orderLocated {m ts e} (h : InitTnText m ts e) : OrderLocated m.tn := by
  cases h with
  | plain h => exact HtnText.orderLocated h
  | params _ h => exact HtnText.orderLocated h

/-- What is known about the blocks of a parsed domain. -/
structure DBlockOk (b : DBlock) : Prop where
  preds : ∀ p ∈ b.preds, Located p.vars
  tasks : ∀ t ∈ b.tasks, Located t.params
  actions : ∀ a ∈ b.actions, Located a.params
  methods : ∀ m ∈ b.methods, Located m.params ∧ OrderLocated m.tn

theorem DBlockText.ok {q b ts e} (h : DBlockText q b ts e) : DBlockOk b := by
  cases h with
  | predicates h => exact ⟨Predicates.located h, by simp [DBlock.tasks], by simp [DBlock.actions], by simp [DBlock.methods]⟩
  | task h =>
    refine ⟨by simp [DBlock.preds], ?_, by simp [DBlock.actions], by simp [DBlock.methods]⟩
    simp only [DBlock.tasks, List.mem_singleton, forall_eq]; exact TaskText.located h
  | method h =>
    refine ⟨by simp [DBlock.preds], by simp [DBlock.tasks], by simp [DBlock.actions], ?_⟩
    simp only [DBlock.methods, List.mem_singleton, forall_eq]; exact ⟨MethodText.located h, MethodText.orderLocated h⟩
  | action h =>
    refine ⟨by simp [DBlock.preds], by simp [DBlock.tasks], ?_, by simp [DBlock.methods]⟩
    simp only [DBlock.actions, List.mem_singleton, forall_eq]; exact ActionText.located h
  | _ => exact ⟨by simp [DBlock.preds], by simp [DBlock.tasks], by simp [DBlock.actions], by simp [DBlock.methods]⟩

theorem FileText.positioned {q d ts} (h : FileText q (.domain d) ts) : Positioned d := by
  cases h with
  | domain hb =>
    refine ⟨?_, ?_⟩
    · intro l hl
      cases hl with
      | predicate h | task h | action h | method h =>
        simp only [domainOf, List.mem_flatMap] at h
        obtain ⟨b, hm, h⟩ := h
        obtain ⟨_, _, h1, _⟩ := Body.mem hb hm
        have := DBlockText.ok h1
        first
          | exact this.preds _ h
          | exact this.tasks _ h
          | exact this.actions _ h
          | exact (this.methods _ h).1
    · intro m h
      simp only [domainOf, List.mem_flatMap] at h
      obtain ⟨b, hm, h⟩ := h
      obtain ⟨_, _, h1, _⟩ := Body.mem hb hm
      exact ((DBlockText.ok h1).methods _ h).2

theorem FileText.positionedP {q p ts} (h : FileText q (.problem p) ts) : PositionedP p := by
  cases h with
  | problem hb =>
    refine ⟨?_, ?_⟩
    · intro s hs
      simp only [problemOf, List.mem_flatMap] at hs
      obtain ⟨b, hm, h⟩ := hs
      obtain ⟨_, _, h1, _⟩ := Body.mem hb hm
      cases h1 with
      | objects ht => exact TypedList.located ht s h
      | _ => simp [PBlock.objs] at h
    · intro h hh
      simp only [problemOf] at hh
      obtain ⟨b, hbm, hm⟩ := List.mem_filterMap.1 (List.mem_of_getLast? hh)
      obtain ⟨_, _, h1, _⟩ := Body.mem hb hbm
      cases h1 with
      | htn ht => simp only [PBlock.htn?, Option.some.injEq] at hm; subst hm; exact InitTnText.orderLocated ht
      | _ => simp [PBlock.htn?] at hm

/-! ### Implications -/

mutual

theorem FormulaText.exists {q f ts} (h : FormulaText q f ts) : HasExists f → ExistsIn f := by
  cases h with
  | empty => intro hx; cases hx
  | missing => intro hx; cases hx
  | atom => intro hx; cases hx
  | equals => intro hx; cases hx
  | not hf => intro hx; cases hx with | not hx => exact .not (FormulaText.exists hf hx)
  | and hf => intro hx; cases hx with | and hm hx => exact .and hm (FormulasText.exists hf _ hm hx)
  | or hf => intro hx; cases hx with | or hm hx => exact .or hm (FormulasText.exists hf _ hm hx)
  | xor hf => intro hx; cases hx with | xor hm hx => exact .xor hm (FormulasText.exists hf _ hm hx)
  | forall_ _ hf => intro hx; cases hx with | forall_ hx => exact .forall_ (FormulaText.exists hf hx)
  | exists_ => intro hx; exact .exists_
  | probabilistic hf => intro hx; cases hx with | and hm hx => exact .and hm (BranchesText.exists hf _ hm hx)

theorem FormulasText.exists {q fs ts} (h : FormulasText q fs ts) : ∀ f ∈ fs, HasExists f → ExistsIn f := by
  cases h with
  | nil => simp
  | unclosed => simp
  | cons hf _ hfs =>
    intro f hm hx
    rcases List.mem_cons.1 hm with he | hm
    · rw [he] at hx ⊢; exact FormulaText.exists hf hx
    · exact FormulasText.exists hfs f hm hx

theorem BranchesText.exists {q fs ts} (h : BranchesText q fs ts) : ∀ f ∈ fs, HasExists f → ExistsIn f := by
  cases h with
  | nil => simp
  | cons hf _ hfs =>
    intro f hm hx
    rcases List.mem_cons.1 hm with he | hm
    · rw [he] at hx ⊢; cases hx with | weighted hx => exact .weighted (FormulaText.exists hf hx)
    · exact BranchesText.exists hfs f hm hx

end

theorem OptFormula.exists {q k f ts} (h : OptFormula q k (some f) ts) (hx : HasExists f) : ExistsIn f := by
  cases h with
  | some h => exact FormulaText.exists h hx

theorem ActionText.exists {q a ts f} (h : ActionText q a ts) (ha : a.pre = some f ∨ a.eff = some f)
    (hx : HasExists f) : ExistsIn f := by
  cases h with
  | mk _ h1 h2 =>
    rcases ha with rfl | rfl
    · exact OptFormula.exists h1 hx
    · exact OptFormula.exists h2 hx

theorem MethodText.exists {q m ts e f} (h : MethodText q m ts e) (ha : m.pre = some f) (hx : HasExists f) : ExistsIn f := by
  cases h with
  | mk _ _ h => cases ha; exact OptFormula.exists h hx

/-- The analyser's obstacle in parsed formulas is an existential quantifier. -/
theorem FileText.exists {q d ts l f} (h : FileText q (.domain d) ts) (hf : FormulaOf d l f) (hx : HasExists f) :
    ExistsIn f := by
  cases h with
  | domain hb =>
    cases hf with
    | pre h hp | eff h hp | method h hp =>
      simp only [domainOf, List.mem_flatMap] at h
      obtain ⟨b, hm, h⟩ := h
      obtain ⟨_, _, h1, _⟩ := Body.mem hb hm
      cases h1 <;> simp only [DBlock.actions, DBlock.methods, List.mem_singleton, List.not_mem_nil] at h
      subst h
      rename_i h1
      first
        | exact ActionText.exists h1 (.inl hp) hx
        | exact ActionText.exists h1 (.inr hp) hx
        | exact MethodText.exists h1 hp hx

end Verif
