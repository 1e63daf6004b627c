import Verif.Spec.Slices
import Verif.Proofs.Regrouped
import Verif.Proofs.RelaidLex
import Verif.Proofs.Problem

/-! A problem is in order exactly if its parts are, and what is reported about it is reported about one of its parts. -/

namespace Verif

open Spec

variable {d : DomainAST} {p q : ProblemAST} {st : SymbolTable}

theorem problemOk_slice (h : ProblemOk d p) (hq : Slice p q) : ProblemOk d q := by
  obtain ⟨h1, h2, h3, h4, h5⟩ := h
  cases hq with
  | objects => exact ⟨h1, h2, (fun a ha => by cases ha), (fun h hh => by cases hh), fun f hf => by cases hf⟩
  | fact ha =>
    refine ⟨h1, h2, fun b hb => ?_, (fun h hh => by cases hh), fun f hf => by cases hf⟩
    rw [List.mem_singleton.mp hb]
    exact h3 _ ha
  | goal hf ha =>
    refine ⟨h1, h2, (fun a ha => by cases ha), (fun h hh => by cases hh), fun f hf' b hb => ?_⟩
    cases hf'
    cases hb
    exact h5 _ hf _ ha
  | network hh =>
    refine ⟨h1, h2, (fun a ha => by cases ha), fun h hh' => ?_, fun f hf => by cases hf⟩
    cases hh'
    exact ⟨(h4 _ hh).ordering, fun s hs => by cases hs⟩
  | subtask hh hs =>
    refine ⟨h1, h2, (fun a ha => by cases ha), fun h hh' => ?_, fun f hf => by cases hf⟩
    cases hh'
    refine ⟨(h4 _ hh).ordering, fun s hs' => ?_⟩
    rw [List.mem_singleton.mp hs']
    exact (h4 _ hh).subtasks _ hs

theorem problemOk_slices (h : ∀ q, Slice p q → ProblemOk d q) : ProblemOk d p := by
  have h0 := h _ .objects
  refine ⟨h0.objectTypes, h0.objects, fun a ha => ?_, fun i hi => ⟨?_, fun s hs => ?_⟩, fun f hf a ha => ?_⟩
  · exact (h _ (.fact ha)).init a (List.mem_singleton_self a)
  · exact ((h _ (.network hi)).htn _ rfl).ordering
  · exact ((h _ (.subtask hi hs)).htn _ rfl).subtasks s (List.mem_singleton_self s)
  · exact (h _ (.goal hf ha)).goal _ rfl a .atom

/-- The step fails, whatever would come next, with the given result. -/
def Fails (x : R Unit) (r : R (List Warning)) : Prop := ∀ k, x.bind k = r

theorem bind_fails {x : R Unit} {f : Unit → R (List Warning)} {r : R (List Warning)} (h : x.bind f = r) :
    (x = .ok () ∧ f () = r) ∨ Fails x r := by
  cases x with
  | ok a => exact .inl ⟨rfl, h⟩
  | err e => exact .inr fun k => h
  | panic e => exact .inr fun k => h
  | timeout => exact .inr fun k => h

theorem Fails.cases {x : R Unit} {f : Unit → R Unit} {r : R (List Warning)} (h : Fails (x.bind f) r) :
    (x = .ok () ∧ Fails (f ()) r) ∨ Fails x r := by
  cases x with
  | ok a => exact .inl ⟨rfl, h⟩
  | err e => exact .inr fun k => h k
  | panic e => exact .inr fun k => h k
  | timeout => exact .inr fun k => h k

theorem not_fails_ok {r : R (List Warning)} (h : Fails (.ok ()) r) : False := by
  have h1 := h fun _ => .ok []
  have h2 := h fun _ => .timeout
  simp only [R.bind_ok] at h1 h2
  rw [← h2] at h1
  cases h1

theorem predInsts_fails {objects : List Symbol} {r : R (List Warning)} : ∀ {ps : List Predicate}, Fails (checkPredInsts st objects ps) r →
    ∃ a ∈ ps, Fails (checkPredInst st objects a) r
  | [], h => (not_fails_ok h).elim
  | a :: ps, h => by
    rcases h.cases with ⟨_, h1⟩ | h1
    · obtain ⟨b, h2, h3⟩ := predInsts_fails h1
      exact ⟨b, List.mem_cons_of_mem _ h2, h3⟩
    · exact ⟨a, List.mem_cons_self .., h1⟩

theorem subtaskInsts_fails {objects : List Symbol} {params : Option (List Symbol)} {r : R (List Warning)} :
    ∀ {ss : List Subtask}, Fails (checkSubtaskInsts st objects params ss) r → ∃ s ∈ ss, Fails (checkSubtaskInst st objects params s) r
  | [], h => (not_fails_ok h).elim
  | a :: ps, h => by
    rcases h.cases with ⟨_, h1⟩ | h1
    · obtain ⟨b, h2, h3⟩ := subtaskInsts_fails h1
      exact ⟨b, List.mem_cons_of_mem _ h2, h3⟩
    · exact ⟨a, List.mem_cons_self .., h1⟩

theorem Fails.bind {x : R Unit} {f : Unit → R Unit} {r : R (List Warning)} (h : Fails x r) : Fails (x.bind f) r := by
  cases x with
  | ok a => exact (not_fails_ok h).elim
  | err e => exact h
  | panic e => exact h
  | timeout => exact h

/-- What is reported about a problem is reported about one of its parts alone. -/
theorem verifyProblem_slice {r : R (List Warning)} (h : verifyProblem st p = r) (hr : ∀ ws, r ≠ .ok ws) :
    ∃ q, Slice p q ∧ verifyProblem st q = r := by
  unfold verifyProblem at h
  rcases bind_fails h with ⟨h1, h⟩ | h1
  · rcases bind_fails h with ⟨h2, h⟩ | h2
    · rcases bind_fails h with ⟨_, h⟩ | h3
      · rcases bind_fails h with ⟨_, h⟩ | h4
        · rcases bind_fails h with ⟨_, h⟩ | h5
          · exact absurd h.symm (hr _)
          · cases hg : p.goal with
            | none => rw [hg] at h5; exact (not_fails_ok h5).elim
            | some f =>
              rw [hg] at h5
              obtain ⟨a, h6, h7⟩ := predInsts_fails h5
              refine ⟨_, .goal hg ((mem_propPreds a f).mp h6), ?_⟩
              unfold verifyProblem objectsOnly
              simp only [h1, h2, R.bind_ok, checkPredInsts, checkInitTn, checkGoal, Formula.propPreds]
              exact h7.bind _
        · cases hi : p.initTn with
          | none => rw [hi] at h4; exact (not_fails_ok h4).elim
          | some i =>
            rw [hi] at h4
            rcases Fails.cases h4 with ⟨h5, h6⟩ | h5
            · obtain ⟨s, h7, h8⟩ := subtaskInsts_fails h6
              refine ⟨_, .subtask hi h7, ?_⟩
              unfold verifyProblem objectsOnly
              have h9 : checkOrdering { i.tn with subtasks := [s] } = checkOrdering i.tn := rfl
              simp only [h1, h2, R.bind_ok, checkPredInsts, checkInitTn, checkSubtaskInsts, h9, h5]
              exact h8.bind _
            · refine ⟨_, .network hi, ?_⟩
              unfold verifyProblem objectsOnly
              have h9 : checkOrdering { i.tn with subtasks := [] } = checkOrdering i.tn := rfl
              simp only [h1, h2, R.bind_ok, checkPredInsts, checkInitTn, checkSubtaskInsts, h9]
              exact h5.bind _
      · obtain ⟨a, h4, h5⟩ := predInsts_fails h3
        refine ⟨_, .fact h4, ?_⟩
        unfold verifyProblem objectsOnly
        simp only [h1, h2, R.bind_ok, checkPredInsts]
        exact h5.bind _
    · refine ⟨_, .objects, ?_⟩
      unfold verifyProblem objectsOnly
      simp only [h1, R.bind_ok]
      exact h2 _
  · refine ⟨_, .objects, ?_⟩
    unfold verifyProblem objectsOnly
    exact h1 _

theorem SymbolTable.mv_id : st.mv id id = st := by
  have hw : mvWarning id id = id := by funext w; rfl
  have ha : mvAction id id = id := by funext m; simp [mvAction, mvSymbol_id, mvFormula_ident]
  have ht : mvTask id id = id := by funext m; simp [mvTask, mvSymbol_id]
  have hty : st.types.mv id = st.types := by
    cases st with | mk _ _ _ _ _ ty => cases ty; simp [TypeGraph.mv]
  cases st
  simp only [SymbolTable.mv, hw, ha, ht, mvSymbol_id, mvPredicate_id, List.map_id, hty]

/-! ### Repairs -/

theorem repairP_faults (h : RepairP d p q) : faultsP d q + 1 = faultsP d p := by
  classical
  cases h with
  | @fact as a a' bs h1 h2 h3 =>
    have e1 : ∀ b, FactOk d { p with initState := as ++ a' :: bs } b ↔ FactOk d p b := fun b => Iff.rfl
    have e2 : GoalOk d { p with initState := as ++ a' :: bs } p.goal ↔ GoalOk d p p.goal := Iff.rfl
    have e3 : ∀ l s, SubtaskOk d { p with initState := as ++ a' :: bs } l s ↔ SubtaskOk d p l s := fun l s => Iff.rfl
    simp only [faultsP, e1, e2, e3, h1, List.countP_append, List.countP_cons]
    simp only [h2, h3, not_true_eq_false, not_false_eq_true, decide_true, decide_false, if_true, Bool.false_eq_true, if_false]
    omega
  | @subtask h as s s' bs h1 h2 h3 h4 =>
    generalize hq : ({ p with initTn := some ⟨h.params, { h.tn with subtasks := as ++ s' :: bs }⟩ } : ProblemAST) = q
    have hi : q.initTn = some ⟨h.params, { h.tn with subtasks := as ++ s' :: bs }⟩ := by rw [← hq]
    have e1 : ∀ b, FactOk d q b ↔ FactOk d p b := fun b => by rw [← hq]; exact Iff.rfl
    have e2 : GoalOk d q q.goal ↔ GoalOk d p p.goal := by rw [← hq]; exact Iff.rfl
    have e3 : ∀ l s, SubtaskOk d q l s ↔ SubtaskOk d p l s := fun l s => by rw [← hq]; exact Iff.rfl
    have e4 : q.initState = p.initState := by rw [← hq]
    simp only [faultsP, e1, e2, e3, e4, h1, hi, h2, Option.elim_some, List.countP_append, List.countP_cons]
    simp only [h3, h4, not_true_eq_false, not_false_eq_true, decide_true, decide_false, if_true, Bool.false_eq_true, if_false]
    omega
  | @goal g h1 h2 =>
    have e1 : ∀ b, FactOk d { p with goal := g } b ↔ FactOk d p b := fun b => Iff.rfl
    have e2 : GoalOk d { p with goal := g } g ↔ GoalOk d p g := Iff.rfl
    have e3 : ∀ l s, SubtaskOk d { p with goal := g } l s ↔ SubtaskOk d p l s := fun l s => Iff.rfl
    simp only [faultsP, e1, e2, e3, h1, h2, if_true, if_false]

theorem repairP_header (h : RepairP d p q) : HeaderOkP d q ↔ HeaderOkP d p := by
  cases h with
  | fact => exact ⟨fun ⟨h1, h2, h3⟩ => ⟨h1, h2, h3⟩, fun ⟨h1, h2, h3⟩ => ⟨h1, h2, h3⟩⟩
  | @subtask h as s s' bs hh =>
    refine ⟨fun ⟨h1, h2, h3⟩ => ⟨h1, h2, fun i hi => ?_⟩, fun ⟨h1, h2, h3⟩ => ⟨h1, h2, fun i hi => ?_⟩⟩
    · rw [hh] at hi
      cases hi
      exact h3 ⟨h.params, { h.tn with subtasks := as ++ s' :: bs }⟩ rfl
    · cases hi
      exact h3 h hh
  | goal => exact ⟨fun ⟨h1, h2, h3⟩ => ⟨h1, h2, h3⟩, fun ⟨h1, h2, h3⟩ => ⟨h1, h2, h3⟩⟩

theorem repairsP_faults {n : Nat} (h : RepairsP d p n q) : faultsP d q + n = faultsP d p := by
  induction h with
  | none => rfl
  | more _ h ih =>
    have := repairP_faults h
    omega

theorem repairsP_header {n : Nat} (h : RepairsP d p n q) : HeaderOkP d q ↔ HeaderOkP d p := by
  induction h with
  | none => exact Iff.rfl
  | more _ h ih => rw [repairP_header h, ih]

theorem problemOk_faults : ProblemOk d p ↔ HeaderOkP d p ∧ faultsP d p = 0 := by
  classical
  constructor
  · rintro ⟨h1, h2, h3, h4, h5⟩
    refine ⟨⟨h1, h2, fun h hh => (h4 h hh).ordering⟩, ?_⟩
    have e1 : p.initState.countP (fun a => ¬ FactOk d p a) = 0 := List.countP_eq_zero.mpr fun a ha => by simpa using h3 a ha
    have e2 : (p.initTn.elim 0 fun h => h.tn.subtasks.countP (fun s => ¬ SubtaskOk d p (h.params.getD []) s)) = 0 := by
      cases hh : p.initTn with
      | none => rfl
      | some h => exact List.countP_eq_zero.mpr fun s hs => by simpa [SubtaskOk] using (h4 h hh).subtasks s hs
    have e3 : GoalOk d p p.goal := h5
    simp only [faultsP, e1, e2, e3, if_true]
  · rintro ⟨⟨h1, h2, h3⟩, h4⟩
    simp only [faultsP, Nat.add_eq_zero_iff] at h4
    obtain ⟨⟨h4, h5⟩, h6⟩ := h4
    refine ⟨h1, h2, fun a ha => ?_, fun h hh => ⟨h3 h hh, fun s hs => ?_⟩, ?_⟩
    · simpa using List.countP_eq_zero.mp h4 a ha
    · rw [hh] at h5
      have := List.countP_eq_zero.mp h5 s hs
      simpa [SubtaskOk] using this
    · by_contra hg
      have hg' : ¬ GoalOk d p p.goal := hg
      simp [hg'] at h6

end Verif
