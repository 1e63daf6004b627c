import Mathlib.Order.Extension.Linear
import Mathlib.Data.Fintype.Card
import Verif.Spec.Networks
import Verif.Props.Planning

/-! C52: ordering constraints. -/

namespace Verif

open Spec

variable [Env] {ord : HashOrd} {f g : Bytes} {d : DomainAST} {p : ProblemAST}

omit [Env] in
/-- A relation without cycles on a finite set can be numbered upwards. -/
theorem numbering {n : Nat} {r : Fin n → Fin n → Prop} (h : Acyclic r) :
    ∃ pos : Fin n → Nat, Function.Injective pos ∧ ∀ i j, r i j → pos i < pos j := by
  classical
  have : IsPartialOrder (Fin n) (Relation.ReflTransGen r) :=
    { refl := fun a => .refl
      trans := fun a b c => .trans
      antisymm := by
        intro a b h1 h2
        rcases Relation.reflTransGen_iff_eq_or_transGen.mp h1 with h1 | h1
        · exact h1.symm
        · exact absurd (h1.trans_left h2) (h a) }
  obtain ⟨s, hs, hrs⟩ := extend_partialOrder (Relation.ReflTransGen r)
  have lt {i j : Fin n} (hij : s i j) (hne : i ≠ j) :
      (Finset.univ.filter (s · i)).card < (Finset.univ.filter (s · j)).card := by
    refine Finset.card_lt_card ⟨fun x hx => ?_, fun hsub => ?_⟩
    · simp only [Finset.mem_filter, Finset.mem_univ, true_and] at hx ⊢
      exact _root_.trans hx hij
    · have := hsub (show j ∈ Finset.univ.filter (s · j) by simp; exact refl_of s j)
      simp only [Finset.mem_filter, Finset.mem_univ, true_and] at this
      exact hne (antisymm_of s hij this)
  refine ⟨fun i => (Finset.univ.filter (s · i)).card, fun i j hij => ?_, fun i j hij => ?_⟩
  · by_contra hne
    rcases total_of s i j with h1 | h1
    · exact absurd hij (Nat.ne_of_lt (lt h1 hne))
    · exact absurd hij.symm (Nat.ne_of_lt (lt h1 (Ne.symm hne)))
  · refine lt (hrs _ _ (.single hij)) ?_
    rintro rfl
    exact h i (.single hij)

omit [Env] in
theorem executable_of_acyclic {tn : HTN} (h : Acyclic (Before tn)) : Executable tn := by
  refine numbering fun i hi => ?_
  by_cases ht : tn.orderings = .total
  · have key : ∀ j, Relation.TransGen (Precedes tn) i j → i < j := by
      intro j hj
      have one {a b : Fin tn.subtasks.length} (h : Precedes tn a b) : a < b := by
        rcases h with ⟨_, h⟩ | ⟨_, _, ⟨os, ho, _⟩, _⟩
        · exact h
        · rw [ht] at ho; cases ho
      induction hj with
      | single h => exact one h
      | tail _ h ih => exact Nat.lt_trans ih (one h)
    exact Nat.lt_irrefl _ (key i hi)
  · have key : ∀ j, Relation.TransGen (Precedes tn) i j →
        ∃ a b, label tn.subtasks[i] = some a ∧ label tn.subtasks[j] = some b ∧ Relation.TransGen (Before tn) a b := by
      intro j hj
      induction hj with
      | single h =>
        rcases h with ⟨h, _⟩ | ⟨a, b, h1, h2, h3⟩
        · exact absurd h ht
        · exact ⟨a, b, h2, h3, .single h1⟩
      | tail _ h ih =>
        obtain ⟨a, b, h4, h5, h6⟩ := ih
        rcases h with ⟨h, _⟩ | ⟨a', b', h1, h2, h3⟩
        · exact absurd h ht
        · rw [h5] at h2; cases h2
          exact ⟨a, b', h4, h3, h6.tail h1⟩
    obtain ⟨a, b, h1, h2, h3⟩ := key i hi
    rw [h1] at h2; cases h2
    exact h a h3

omit [Env] in
theorem acyclic_of_executable {tn : HTN} (hl : LabelsDeclared tn) (h : Executable tn) : Acyclic (Before tn) := by
  intro a ha
  obtain ⟨pos, _, hpos⟩ := h
  have find {x : Name} (h : ∃ s ∈ tn.subtasks, label s = some x) :
      ∃ i : Fin tn.subtasks.length, label tn.subtasks[i] = some x := by
    obtain ⟨s, hs, h1⟩ := h
    obtain ⟨i, hi, rfl⟩ := List.getElem_of_mem hs
    exact ⟨⟨i, hi⟩, h1⟩
  have key : ∀ b, Relation.TransGen (Before tn) a b → ∀ i j : Fin tn.subtasks.length, label tn.subtasks[i] = some a →
      label tn.subtasks[j] = some b → pos i < pos j := by
    intro b hb
    induction hb with
    | single h => exact fun i j hi hj => hpos i j (.inr ⟨_, _, h, hi, hj⟩)
    | tail _ h ih =>
      intro i j hi hj
      obtain ⟨k, hk⟩ := find (hl _ _ h).1
      exact Nat.lt_trans (ih i k hi hk) (hpos k j (.inr ⟨_, _, h, hk, hj⟩))
  obtain ⟨b, hb, _⟩ : ∃ b, Before tn a b ∧ True := by
    cases Relation.TransGen.head'_iff.mp ha with
    | intro b h => exact ⟨b, h.1, trivial⟩
  obtain ⟨i, hi⟩ := find (hl _ _ hb).1
  exact Nat.lt_irrefl _ (key a ha i i hi hi)

/-- C52: the subtasks of every method of an accepted domain can be executed one after the other. -/
theorem C52_methods (hf : Parses f (.domain d)) (h : ∃ ws, Returns ord f none (.ok ws)) (m : Method)
    (hm : m ∈ d.methods) : Executable m.tn :=
  executable_of_acyclic (((C23_acceptance hf).mp h).methods m hm).ordering

/-- C52: the same for the initial task network of an accepted problem. -/
theorem C52_initial (hf : Parses f (.domain d)) (hg : Parses g (.problem p)) (h : ∃ ws, Returns ord f (some g) (.ok ws))
    (i : InitTN) (hi : p.initTn = some i) : Executable i.tn := by
  obtain ⟨ws, h⟩ := h
  exact executable_of_acyclic ((((returns_ok_some hf hg).mp h).2).htn i hi).ordering

/-- C52, the part of the converse that holds: an ordering is reported only if there is no way to execute the subtasks of
a network, provided that all labels in its constraints are labels of subtasks.  Missing: other labels, for which the
claim is false (`C52_refuted`). -/
theorem C52_rejected_partial {prob : Option Bytes} (pos : Nat)
    (h : Returns ord f prob (.err (.semantic (.cyclicOrdering pos)))) : ∃ file tn, InFile ord f prob file ∧
      ((∃ d m, Parses file (.domain d) ∧ m ∈ d.methods ∧ tn = m.tn) ∨
        ∃ p i, Parses file (.problem p) ∧ p.initTn = some i ∧ tn = i.tn) ∧
      tn.orderingPos = some pos ∧ (LabelsDeclared tn → ¬ Executable tn) := by
  obtain ⟨file, tn, x, h1, h2, h3, h4, _⟩ := C22_line pos h
  exact ⟨file, tn, h1, h4, h3, fun hl he => acyclic_of_executable hl he x h2⟩

/-- One method with two subtasks and the given labels and constraints. -/
def labelsAST (x y a b : Name) : DomainAST where
  name := b!"d"
  types := none
  constants := none
  requirements := []
  predicates := []
  tasks := [⟨b!"t", 1, []⟩]
  methods := [⟨⟨b!"m", 2, none, none⟩, ⟨b!"t", 2, none, none⟩, [], [], none,
    ⟨[⟨some ⟨x, 2, none, none⟩, ⟨b!"a", 2, none, none⟩, []⟩, ⟨some ⟨y, 2, none, none⟩, ⟨b!"a", 2, none, none⟩, []⟩],
      some 2, .partial_ [(a, b)], none⟩⟩]
  actions := [⟨b!"a", 1, [], none, none⟩]
  functions := []

/-- A method whose second subtask has to be executed first. -/
def swapDomain : Bytes := b!"(define (domain d) (:task t :parameters ()) (:action a :parameters ())
(:method m :parameters () :task (t) :subtasks (and (x (a)) (y (a))) :ordering (and (< y x))))\n"

/-- A method with two subtasks of the same label, and a constraint between two other labels. -/
def otherDomain : Bytes := b!"(define (domain d) (:task t :parameters ()) (:action a :parameters ())
(:method m :parameters () :task (t) :subtasks (and (x (a)) (x (a))) :ordering (and (< u v))))\n"

/-- A method with a cyclic constraint on a label that is not used. -/
def unusedDomain : Bytes := b!"(define (domain d) (:task t :parameters ()) (:action a :parameters ())
(:method m :parameters () :task (t) :subtasks (and (x (a)) (y (a))) :ordering (and (< u u))))\n"

omit [Env] in
theorem labels_parse : @Parses Env.plain swapDomain (.domain (labelsAST b!"x" b!"y" b!"y" b!"x")) ∧
    @Parses Env.plain otherDomain (.domain (labelsAST b!"x" b!"x" b!"u" b!"v")) ∧
    @Parses Env.plain unusedDomain (.domain (labelsAST b!"x" b!"y" b!"u" b!"u")) :=
  ⟨@Parses.of_ok Env.plain 60 _ _ (by decide +kernel), @Parses.of_ok Env.plain 60 _ _ (by decide +kernel),
    @Parses.of_ok Env.plain 60 _ _ (by decide +kernel)⟩

omit [Env] in
/-- Instance: the method of `swapDomain` can only be executed from right to left. -/
example : ∃ m ∈ (labelsAST b!"x" b!"y" b!"y" b!"x").methods, LabelsDeclared m.tn ∧ LabelsDistinct m.tn ∧
    Executable m.tn ∧ ∃ i j, j < i ∧ Precedes m.tn i j := by
  refine ⟨_, List.mem_cons_self, ?_, by unfold LabelsDistinct; decide, ?_,
    ⟨1, by decide⟩, ⟨0, by decide⟩, by decide, .inr ⟨b!"y", b!"x", ⟨_, rfl, by simp⟩, rfl, rfl⟩⟩
  · rintro a b ⟨os, h1, h2⟩
    cases h1
    simp only [List.mem_singleton, Prod.mk.injEq] at h2
    obtain ⟨rfl, rfl⟩ := h2
    exact ⟨⟨_, List.mem_cons_of_mem _ List.mem_cons_self, rfl⟩, _, List.mem_cons_self, rfl⟩
  · exact @C52_methods Env.plain HashOrd.id _ _ labels_parse.1
      ⟨[], @returns_run Env.plain _ _ _ 60 _ (by decide +kernel) (by simp)⟩ _ List.mem_cons_self

omit [Env] in
/-- C52 is false for labels: a domain is accepted although two subtasks of a method share a label and a constraint
uses labels that no subtask has; and a domain whose subtasks can be executed in any order is rejected for its ordering. -/
theorem C52_refuted :
    (∃ f d m ws, @Parses Env.plain f (.domain d) ∧ m ∈ d.methods ∧ ¬ LabelsDeclared m.tn ∧ ¬ LabelsDistinct m.tn ∧
      @Returns Env.plain HashOrd.id f none (.ok ws)) ∧
    ∃ f d pos, @Parses Env.plain f (.domain d) ∧ (∀ m ∈ d.methods, Executable m.tn ∧ ∀ i j, ¬ Precedes m.tn i j) ∧
      @Returns Env.plain HashOrd.id f none (.err (.semantic (.cyclicOrdering pos))) := by
  refine ⟨⟨otherDomain, _, _, [], labels_parse.2.1, List.mem_cons_self, ?_, by unfold LabelsDistinct; decide,
    @returns_run Env.plain _ _ _ 60 _ (by decide +kernel) (by simp)⟩, unusedDomain, _, 2, labels_parse.2.2, ?_,
    @returns_run Env.plain _ _ _ 60 _ (by decide +kernel) (by simp)⟩
  · intro h
    obtain ⟨s, h1, h2⟩ := (h b!"u" b!"v" ⟨_, rfl, List.mem_cons_self⟩).1
    simp only [List.mem_cons, List.not_mem_nil, or_false] at h1
    rcases h1 with rfl | rfl <;> exact absurd h2 (by decide)
  · intro m hm
    have hp : ∀ i j, ¬ Precedes m.tn i j := by
      simp only [labelsAST, List.mem_singleton] at hm
      subst hm
      rintro ⟨i, hi⟩ ⟨j, hj⟩ (⟨h, _⟩ | ⟨a, b, ⟨os, h1, h2⟩, h3, _⟩)
      · cases h
      · cases h1
        simp only [List.mem_singleton, Prod.mk.injEq] at h2
        obtain ⟨rfl, rfl⟩ := h2
        have : i = 0 ∨ i = 1 := by simp at hi; omega
        rcases this with rfl | rfl <;> cases h3
    exact ⟨⟨fun i => i, fun i j h => Fin.ext h, fun i j h => absurd h (hp i j)⟩, hp⟩

end Verif
