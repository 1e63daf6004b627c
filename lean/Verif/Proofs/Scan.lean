import Mathlib.Data.List.Nodup
import Mathlib.Data.List.Perm.Basic
import Verif.Proofs.Args

/-! Duplicate checks, and iteration orders. -/

namespace Verif

open Spec

/-! ### Iteration orders -/

theorem filterMap_range {α : Type} (l : List α) : (List.range l.length).filterMap (fun i => l[i]?) = l := by
  induction l with
  | nil => rfl
  | cons a l ih =>
    rw [List.length_cons, List.range_succ_eq_map]
    simp only [List.filterMap_cons, List.getElem?_cons_zero, List.filterMap_map]
    congr 1

/-- Iterating a container yields its elements in some order. -/
theorem arrange_perm {α : Type} (ord : HashOrd) (s : Site) (l : List α) : (arrange ord s l).Perm l := by
  have h := (ord.isPerm s l.length).filterMap (fun i => l[i]?)
  rw [filterMap_range] at h
  exact h

theorem mem_arrange {α : Type} {ord : HashOrd} {s : Site} {l : List α} {x : α} : x ∈ arrange ord s l ↔ x ∈ l :=
  (arrange_perm ord s l).mem_iff

theorem find_perm {α : Type} {f : α → Name} {l l' : List α} (hl : (l.map f).Nodup) (hp : l'.Perm l) (x : Name) :
    l'.find? (fun y => decide (f y = x)) = l.find? (fun y => decide (f y = x)) := by
  have hl' : (l'.map f).Nodup := (hp.map f).nodup_iff.mpr hl
  cases h : l.find? (fun y => decide (f y = x)) with
  | some a =>
    have := (find_unique hl).mp h
    exact (find_unique hl').mpr ⟨hp.mem_iff.mpr this.1, this.2⟩
  | none =>
    exact find_none.mpr fun a ha => find_none.mp h a (hp.mem_iff.mp ha)

/-! ### Duplicate checks -/

variable {α : Type}

/-- The shape of all the duplicate checks: scan declarations, keep names and lines, and check each one. -/
def scanDup (kp : α → Name × Nat) (mk : DupErr → SemErr) (check : α → R Unit) : List (Name × Nat) → List α → R Unit
  | _, [] => .ok ()
  | seen, x :: xs =>
    match seenPos seen (kp x).1 with
    | some q => semErr (mk ⟨(kp x).1, q, (kp x).2⟩)
    | none => (check x).bind fun _ => scanDup kp mk check (kp x :: seen) xs

theorem seenPos_some {seen : List (Name × Nat)} (hn : (seen.map (·.1)).Nodup) {x : Name} {q : Nat} :
    seenPos seen x = some q ↔ (x, q) ∈ seen := by
  unfold seenPos
  rw [Option.map_eq_some_iff]
  constructor
  · rintro ⟨e, h, rfl⟩
    have := (find_unique (f := fun e : Name × Nat => e.1) hn).mp h
    rw [← this.2]; exact this.1
  · intro h
    exact ⟨(x, q), (find_unique (f := fun e : Name × Nat => e.1) hn).mpr ⟨h, rfl⟩, rfl⟩

theorem seenPos_none {seen : List (Name × Nat)} {x : Name} : seenPos seen x = none ↔ x ∉ seen.map (·.1) := by
  unfold seenPos
  rw [Option.map_eq_none_iff, find_none (f := fun e : Name × Nat => e.1)]
  simp only [List.mem_map, not_exists, not_and]

theorem nodup_snoc {l : List Name} {x : Name} : (l ++ [x]).Nodup ↔ l.Nodup ∧ x ∉ l := by
  rw [List.nodup_append]
  simp only [List.nodup_cons, List.not_mem_nil, not_false_eq_true, List.nodup_nil, and_self, true_and,
    List.mem_singleton]
  constructor
  · rintro ⟨h1, h2⟩; exact ⟨h1, fun h => h2 x h x rfl rfl⟩
  · rintro ⟨h1, h2⟩; exact ⟨h1, fun a ha b hb hab => h2 (by rw [← hb, ← hab]; exact ha)⟩

theorem seen_map (kp : α → Name × Nat) (pre : List α) :
    ((pre.map kp).reverse).map (·.1) = (pre.map (fun x => (kp x).1)).reverse := by
  rw [← List.map_reverse, ← List.map_reverse, List.map_map]; rfl

theorem scanDup_ok (kp : α → Name × Nat) (mk : DupErr → SemErr) (check : α → R Unit) : ∀ (l pre : List α),
    (pre.map (fun x => (kp x).1)).Nodup →
    (scanDup kp mk check (pre.map kp).reverse l = .ok () ↔
      ((pre ++ l).map (fun x => (kp x).1)).Nodup ∧ ∀ x ∈ l, check x = .ok ()) := by
  intro l
  induction l with
  | nil => intro pre hp; simp [scanDup, hp]
  | cons x xs ih =>
    intro pre hp
    rw [scanDup]
    cases hs : seenPos (pre.map kp).reverse (kp x).1 with
    | some q =>
      simp only
      constructor
      · intro h; cases h
      · rintro ⟨h, _⟩
        exfalso
        have hmem : (kp x).1 ∈ pre.map (fun x => (kp x).1) := by
          rw [← List.mem_reverse, ← seen_map]
          by_contra hc
          rw [← seenPos_none] at hc; rw [hs] at hc; cases hc
        rw [List.map_append, List.map_cons, List.nodup_append] at h
        exact h.2.2 _ hmem _ (List.mem_cons_self ..) rfl
    | none =>
      have hn : (kp x).1 ∉ pre.map (fun x => (kp x).1) := by
        rw [← List.mem_reverse, ← seen_map]; exact seenPos_none.mp hs
      have hp' : ((pre ++ [x]).map (fun x => (kp x).1)).Nodup := by
        rw [List.map_append, List.map_singleton, nodup_snoc]; exact ⟨hp, hn⟩
      have hrev : kp x :: (pre.map kp).reverse = ((pre ++ [x]).map kp).reverse := by simp
      simp only
      rw [bindU_ok, hrev, ih (pre ++ [x]) hp']
      simp only [List.append_assoc, List.singleton_append, List.mem_cons, forall_eq_or_imp]
      exact ⟨fun ⟨h1, h2, h3⟩ => ⟨h2, h1, h3⟩, fun ⟨h1, h2, h3⟩ => ⟨h2, h1, h3⟩⟩

theorem scanDup_err (kp : α → Name × Nat) (mk : DupErr → SemErr) (check : α → R Unit) {e : PErr} :
    ∀ (l pre : List α), (pre.map (fun x => (kp x).1)).Nodup →
    (scanDup kp mk check (pre.map kp).reverse l = .err e ↔
      ∃ a x c, l = a ++ x :: c ∧ ((pre ++ a).map (fun x => (kp x).1)).Nodup ∧ (∀ y ∈ a, check y = .ok ()) ∧
        ((∃ y ∈ pre ++ a, (kp y).1 = (kp x).1 ∧ e = .semantic (mk ⟨(kp x).1, (kp y).2, (kp x).2⟩)) ∨
          ((kp x).1 ∉ (pre ++ a).map (fun x => (kp x).1) ∧ check x = .err e))) := by
  intro l
  induction l with
  | nil => intro pre hp; simp [scanDup]
  | cons x xs ih =>
    intro pre hp
    rw [scanDup]
    have hseen : (((pre.map kp).reverse).map (·.1)).Nodup := by
      rw [seen_map, List.nodup_reverse]; exact hp
    cases hs : seenPos (pre.map kp).reverse (kp x).1 with
    | some q =>
      simp only [R.err.injEq]
      rw [seenPos_some hseen, List.mem_reverse, List.mem_map] at hs
      obtain ⟨y, hy, hyx⟩ := hs
      have h1 : (kp y).1 = (kp x).1 := by rw [hyx]
      have h2 : (kp y).2 = q := by rw [hyx]
      constructor
      · intro he
        refine ⟨[], x, xs, rfl, by simpa using hp, by simp, .inl ⟨y, by simpa using hy, h1, ?_⟩⟩
        rw [← he, h2]
      · rintro ⟨a, z, c, hl, hnd, _, hcase⟩
        have hmem : (kp x).1 ∈ pre.map (fun x => (kp x).1) := h1 ▸ List.mem_map_of_mem (f := fun x => (kp x).1) hy
        cases a with
        | nil =>
          simp only [List.nil_append, List.cons.injEq] at hl
          obtain ⟨rfl, rfl⟩ := hl
          rcases hcase with ⟨y', hy', h1', he⟩ | ⟨hn, _⟩
          · have : y' = y := List.inj_on_of_nodup_map hp (by simpa using hy') hy (h1'.trans h1.symm)
            subst this
            rw [he, h2]
          · simp only [List.append_nil] at hn
            exact absurd hmem hn
        | cons a as =>
          simp only [List.cons_append, List.cons.injEq] at hl
          obtain ⟨rfl, _⟩ := hl
          rw [List.map_append, List.map_cons, List.nodup_append] at hnd
          exact absurd rfl (hnd.2.2 _ hmem _ (List.mem_cons_self ..))
    | none =>
      have hn : (kp x).1 ∉ pre.map (fun x => (kp x).1) := by
        rw [← List.mem_reverse, ← seen_map]; exact seenPos_none.mp hs
      have hp' : ((pre ++ [x]).map (fun x => (kp x).1)).Nodup := by
        rw [List.map_append, List.map_singleton, nodup_snoc]; exact ⟨hp, hn⟩
      have hrev : kp x :: (pre.map kp).reverse = ((pre ++ [x]).map kp).reverse := by simp
      simp only
      rw [bindU_err, hrev, ih (pre ++ [x]) hp']
      constructor
      · rintro (h | ⟨h0, a, z, c, rfl, h1, h2, h3⟩)
        · exact ⟨[], x, xs, rfl, by simpa using hp, by simp, .inr ⟨by simpa using hn, h⟩⟩
        · refine ⟨x :: a, z, c, rfl, by simpa using h1, ?_, by simpa using h3⟩
          intro y hy
          rcases List.mem_cons.mp hy with rfl | hy
          · exact h0
          · exact h2 y hy
      · rintro ⟨a, z, c, hl, h1, h2, h3⟩
        cases a with
        | nil =>
          simp only [List.nil_append, List.cons.injEq] at hl
          obtain ⟨rfl, rfl⟩ := hl
          rcases h3 with ⟨y, hy, hyx, _⟩ | ⟨_, h3⟩
          · exfalso
            apply hn; rw [← hyx]
            exact List.mem_map_of_mem (f := fun x => (kp x).1) (by simpa using hy)
          · exact .inl h3
        | cons b as =>
          simp only [List.cons_append, List.cons.injEq] at hl
          obtain ⟨rfl, rfl⟩ := hl
          refine .inr ⟨h2 x (List.mem_cons_self ..), as, z, c, rfl, by simpa using h1,
            fun y hy => h2 y (List.mem_cons_of_mem _ hy), by simpa using h3⟩

theorem scanDup_panic (kp : α → Name × Nat) (mk : DupErr → SemErr) (check : α → R Unit) {p : Panic} :
    ∀ (l : List α) (seen : List (Name × Nat)), scanDup kp mk check seen l = .panic p → ∃ x ∈ l, check x = .panic p := by
  intro l
  induction l with
  | nil => intro seen h; simp [scanDup] at h
  | cons x xs ih =>
    intro seen h
    rw [scanDup] at h
    split at h
    · cases h
    · rcases bindU_panic.mp h with h | ⟨_, h⟩
      · exact ⟨x, List.mem_cons_self .., h⟩
      · obtain ⟨y, hy, h'⟩ := ih _ h
        exact ⟨y, List.mem_cons_of_mem _ hy, h'⟩

theorem scanDup_timeout (kp : α → Name × Nat) (mk : DupErr → SemErr) (check : α → R Unit)
    (hc : ∀ x, check x ≠ .timeout) :
    ∀ (l : List α) (seen : List (Name × Nat)), scanDup kp mk check seen l ≠ .timeout := by
  intro l
  induction l with
  | nil => intro seen h; simp [scanDup] at h
  | cons x xs ih =>
    intro seen h
    rw [scanDup] at h
    split at h
    · cases h
    · rcases R.bind_timeout_iff.mp h with h | ⟨_, _, h⟩
      · exact hc x h
      · exact ih _ h

/-- `scanDup` from the start: the reported declaration repeats an earlier one, or fails its own check. -/
theorem scanDup_err_nil (kp : α → Name × Nat) (mk : DupErr → SemErr) (check : α → R Unit) {e : PErr} (l : List α) :
    scanDup kp mk check [] l = .err e ↔
      ∃ a x c, l = a ++ x :: c ∧ (a.map (fun x => (kp x).1)).Nodup ∧ (∀ y ∈ a, check y = .ok ()) ∧
        ((∃ y ∈ a, (kp y).1 = (kp x).1 ∧ e = .semantic (mk ⟨(kp x).1, (kp y).2, (kp x).2⟩)) ∨
          ((kp x).1 ∉ a.map (fun x => (kp x).1) ∧ check x = .err e)) := by
  simpa using scanDup_err kp mk check l [] (by simp)

theorem scanDup_ok_nil (kp : α → Name × Nat) (mk : DupErr → SemErr) (check : α → R Unit) (l : List α) :
    scanDup kp mk check [] l = .ok () ↔ (l.map (fun x => (kp x).1)).Nodup ∧ ∀ x ∈ l, check x = .ok () := by
  simpa using scanDup_ok kp mk check l [] (by simp)

theorem Spec.RepeatsAfter.repeats {kp : α → Name × Nat} {ok : α → Prop} {l : List α} {e : DupErr}
    (h : RepeatsAfter kp ok l e) : Repeats (l.map kp) e := by
  obtain ⟨a, x, b, y, c, rfl, h1, _, h3, h4⟩ := h
  refine ⟨a.map kp, kp x, b.map kp, kp y, c.map kp, by simp, ?_, h3, h4⟩
  simpa [List.map_map, Function.comp_def] using h1

theorem scanDup_dup (kp : α → Name × Nat) (mk : DupErr → SemErr) (hmk : ∀ a b, mk a = mk b → a = b)
    (check : α → R Unit) (l : List α) (e : DupErr) (hc : ∀ x ∈ l, check x ≠ .err (.semantic (mk e))) :
    scanDup kp mk check [] l = .err (.semantic (mk e)) ↔ RepeatsAfter kp (fun x => check x = .ok ()) l e := by
  rw [scanDup_err_nil]
  constructor
  · rintro ⟨a, x, c, rfl, h1, h2, h3⟩
    rcases h3 with ⟨y, hy, h4, h5⟩ | ⟨_, h3⟩
    · simp only [PErr.semantic.injEq] at h5
      have h5 := hmk _ _ h5
      obtain ⟨a1, a2, rfl⟩ := List.append_of_mem hy
      exact ⟨a1, y, a2, x, c, by simp, h1, h2, h4, h5⟩
    · exact absurd h3 (hc x (by simp))
  · rintro ⟨a, x, b, y, c, rfl, h1, h2, h3, h4⟩
    exact ⟨a ++ x :: b, y, c, by simp, h1, h2, .inl ⟨x, by simp, h3, by rw [h4]⟩⟩

/-! ### The checks of the analyser are of this shape -/

theorem checkDupParams_scan : ∀ (l : List Symbol) (seen : List (Name × Nat)),
    checkDupParams seen l = scanDup (fun s : Symbol => (s.name, s.pos)) .dupParameter (fun _ => .ok ()) seen l
  | [], _ => rfl
  | s :: ss, seen => by
    rw [checkDupParams, scanDup]
    cases h : seenPos seen s.name with
    | some q => simp only
    | none => simp only [R.bind_ok]; exact checkDupParams_scan ss _

theorem checkDupObjects_scan : ∀ (l : List Symbol) (seen : List (Name × Nat)),
    checkDupObjects seen l = scanDup (fun s : Symbol => (s.name, s.pos)) .dupObject (fun _ => .ok ()) seen l
  | [], _ => rfl
  | s :: ss, seen => by
    rw [checkDupObjects, scanDup]
    cases h : seenPos seen s.name with
    | some q => simp only
    | none => simp only [R.bind_ok]; exact checkDupObjects_scan ss _

theorem verifyPredicates_scan (g : TypeGraph) : ∀ (l : List Predicate) (seen : List (Name × Nat)),
    verifyPredicates g seen l =
      scanDup (fun s : Predicate => (s.name, s.pos)) .dupPredicate (fun p => g.checkDecls p.vars) seen l
  | [], _ => rfl
  | s :: ss, seen => by
    rw [verifyPredicates, scanDup]
    cases h : seenPos seen s.name with
    | some q => simp only
    | none => simp only [verifyPredicates_scan g ss]

theorem verifyTasks_scan (g : TypeGraph) : ∀ (l : List Task) (seen : List (Name × Nat)),
    verifyTasks g seen l =
      scanDup (fun s : Task => (s.name, s.pos)) .dupTask (fun p => g.checkDecls p.params) seen l
  | [], _ => rfl
  | s :: ss, seen => by
    rw [verifyTasks, scanDup]
    cases h : seenPos seen s.name with
    | some q => simp only
    | none => simp only [verifyTasks_scan g ss]

/-- The checks on one action. -/
def checkAction (g : TypeGraph) (preds : List Predicate) (constants : List Symbol) (a : Action) : R Unit :=
  (checkDupParams [] a.params).bind fun _ =>
  (checkOptFormula g preds a.params constants a.pre).bind fun _ =>
  checkOptFormula g preds a.params constants a.eff

theorem verifyActions_scan (g : TypeGraph) (preds : List Predicate) (constants : List Symbol) :
    ∀ (l : List Action) (seen : List (Name × Nat)), verifyActions g preds constants seen l =
      scanDup (fun s : Action => (s.name, s.pos)) .dupAction (checkAction g preds constants) seen l
  | [], _ => rfl
  | s :: ss, seen => by
    rw [verifyActions, scanDup]
    cases h : seenPos seen s.name with
    | some q => simp only
    | none =>
      simp only [verifyActions_scan g preds constants ss, checkAction]
      cases checkDupParams [] s.params <;> try rfl
      cases checkOptFormula g preds s.params constants s.pre <;> rfl

/-- The checks on one method. -/
def checkMethod (g : TypeGraph) (preds : List Predicate) (constants : List Symbol) (tasks tasksIt : List Task)
    (actionsIt : List Action) (m : Method) : R Unit :=
  (checkDupParams [] m.params).bind fun _ =>
  (checkOptFormula g preds m.params constants m.pre).bind fun _ =>
  (checkMethodTask tasks m).bind fun _ =>
  (taskConsistent g m.task m.taskTerms m.params constants tasksIt []).bind fun _ =>
  (checkSubtasks g m.params constants tasksIt actionsIt m.tn.subtasks).bind fun _ =>
  checkOrdering m.tn

theorem verifyMethods_scan (g : TypeGraph) (preds : List Predicate) (constants : List Symbol)
    (tasks tasksIt : List Task) (actionsIt : List Action) :
    ∀ (l : List Method) (seen : List (Name × Nat)), verifyMethods g preds constants tasks tasksIt actionsIt seen l =
      scanDup (fun s : Method => (s.name.name, s.name.pos)) .dupMethod
        (checkMethod g preds constants tasks tasksIt actionsIt) seen l
  | [], _ => rfl
  | m :: ms, seen => by
    rw [verifyMethods, scanDup]
    cases h : seenPos seen m.name.name with
    | some q => simp only
    | none =>
      simp only [verifyMethods_scan g preds constants tasks tasksIt actionsIt ms, checkMethod]
      cases checkDupParams [] m.params <;> try rfl
      cases checkOptFormula g preds m.params constants m.pre <;> try rfl
      cases checkMethodTask tasks m <;> try rfl
      cases taskConsistent g m.task m.taskTerms m.params constants tasksIt [] <;> try rfl
      cases checkSubtasks g m.params constants tasksIt actionsIt m.tn.subtasks <;> rfl

/-! ### Requirements -/

theorem checkDupReqs_ok : ∀ (l seen : List Req), seen.Nodup →
    (checkDupReqs seen l = .ok () ↔ (seen ++ l).Nodup) := by
  intro l
  induction l with
  | nil => intro seen h; simp [checkDupReqs, h]
  | cons r rs ih =>
    intro seen h
    rw [checkDupReqs]
    have hperm : (seen ++ r :: rs).Nodup ↔ ((r :: seen) ++ rs).Nodup := List.perm_middle.nodup_iff
    rw [hperm]
    split
    · rename_i hm
      constructor
      · intro h; cases h
      · intro h'
        rw [List.cons_append, List.nodup_cons] at h'
        exact absurd (List.mem_append_left _ hm) h'.1
    · rename_i hm
      exact ih (r :: seen) (List.nodup_cons.mpr ⟨hm, h⟩)

theorem checkDupReqs_err {e : PErr} : ∀ (l pre : List Req), pre.Nodup →
    (checkDupReqs pre.reverse l = .err e ↔
      ∃ a r b, l = a ++ r :: b ∧ (pre ++ a).Nodup ∧ r ∈ pre ++ a ∧ e = .semantic (.dupRequirement r)) := by
  intro l
  induction l with
  | nil => intro seen h; simp [checkDupReqs]
  | cons r rs ih =>
    intro pre h
    rw [checkDupReqs]
    split
    · rename_i hm
      rw [List.mem_reverse] at hm
      simp only [R.err.injEq]
      constructor
      · intro he; exact ⟨[], r, rs, rfl, by simpa using h, by simpa using hm, he.symm⟩
      · rintro ⟨a, s, b, hl, hn, hs, he⟩
        cases a with
        | nil => simp only [List.nil_append, List.cons.injEq] at hl; rw [he, hl.1]
        | cons x xs =>
          simp only [List.cons_append, List.cons.injEq] at hl
          rw [List.nodup_append] at hn
          exact absurd hl.1 (hn.2.2 _ hm _ (List.mem_cons_self ..))
    · rename_i hm
      rw [List.mem_reverse] at hm
      have hrev : r :: pre.reverse = (pre ++ [r]).reverse := by simp
      have hn' : (pre ++ [r]).Nodup := by
        rw [List.nodup_append]
        exact ⟨h, by simp, fun a ha b hb hab => hm (by rw [← List.mem_singleton.mp hb, ← hab]; exact ha)⟩
      rw [hrev, ih (pre ++ [r]) hn']
      constructor
      · rintro ⟨a, s, b, rfl, h1, h2, h3⟩
        exact ⟨r :: a, s, b, rfl, by simpa using h1, by simpa using h2, h3⟩
      · rintro ⟨a, s, b, hl, h1, h2, h3⟩
        cases a with
        | nil =>
          simp only [List.nil_append, List.cons.injEq] at hl
          simp only [List.append_nil] at h2
          rw [hl.1] at hm; exact absurd h2 hm
        | cons x xs =>
          simp only [List.cons_append, List.cons.injEq] at hl
          obtain ⟨rfl, rfl⟩ := hl
          exact ⟨xs, s, b, rfl, by simpa using h1, by simpa using h2, h3⟩

theorem checkDupReqs_nopanic (p : Panic) : ∀ (l seen : List Req),
    checkDupReqs seen l ≠ .panic p ∧ checkDupReqs seen l ≠ .timeout := by
  intro l
  induction l with
  | nil => intro seen; simp [checkDupReqs]
  | cons r rs ih =>
    intro seen
    rw [checkDupReqs]
    split
    · simp
    · exact ih _

end Verif
