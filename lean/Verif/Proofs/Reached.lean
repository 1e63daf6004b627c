import Verif.Spec.Reached
import Verif.Proofs.Strike

/-! The checks of a domain panic exactly if they come across an existential quantifier. -/

namespace Verif

open Spec

theorem scanDup_panic_iff {α : Type} (kp : α → Name × Nat) (mk : DupErr → SemErr) (check : α → R Unit) {e : Panic} :
    ∀ (l pre : List α), (pre.map (fun x => (kp x).1)).Nodup →
    (scanDup kp mk check (pre.map kp).reverse l = .panic e ↔
      ∃ a x c, l = a ++ x :: c ∧ ((pre ++ (a ++ [x])).map (fun x => (kp x).1)).Nodup ∧ (∀ y ∈ a, check y = .ok ()) ∧
        check x = .panic e) := by
  intro l
  induction l with
  | nil => intro pre hp; simp [scanDup]
  | cons x xs ih =>
    intro pre hp
    rw [scanDup]
    have hseen : (((pre.map kp).reverse).map (·.1)).Nodup := by
      rw [seen_map, List.nodup_reverse]; exact hp
    cases hs : seenPos (pre.map kp).reverse (kp x).1 with
    | some q =>
      rw [seenPos_some hseen, List.mem_reverse, List.mem_map] at hs
      obtain ⟨y, hy, hyx⟩ := hs
      have h1 : (kp y).1 = (kp x).1 := by rw [hyx]
      have hmem : (kp x).1 ∈ pre.map (fun x => (kp x).1) := h1 ▸ List.mem_map_of_mem (f := fun x => (kp x).1) hy
      refine ⟨fun h => by simp at h, ?_⟩
      rintro ⟨a, z, c, hl, hnd, _, _⟩
      exfalso
      rw [List.map_append, List.nodup_append] at hnd
      refine hnd.2.2 _ hmem _ ?_ rfl
      cases a with
      | nil =>
        simp only [List.nil_append, List.cons.injEq] at hl
        simp [hl.1]
      | cons a as =>
        simp only [List.cons_append, List.cons.injEq] at hl
        simp [hl.1]
    | none =>
      have hn : (kp x).1 ∉ pre.map (fun x => (kp x).1) := by
        rw [← List.mem_reverse, ← seen_map]; exact seenPos_none.mp hs
      have hp' : ((pre ++ [x]).map (fun x => (kp x).1)).Nodup := by
        rw [List.map_append, List.map_singleton, nodup_snoc]; exact ⟨hp, hn⟩
      have hrev : kp x :: (pre.map kp).reverse = ((pre ++ [x]).map kp).reverse := by simp
      simp only
      rw [bindU_panic, hrev, ih (pre ++ [x]) hp']
      constructor
      · rintro (h | ⟨h0, a, z, c, rfl, h1, h2, h3⟩)
        · exact ⟨[], x, xs, rfl, by simpa using hp', by simp, h⟩
        · refine ⟨x :: a, z, c, rfl, by simpa using h1, ?_, h3⟩
          intro y hy
          rcases List.mem_cons.mp hy with rfl | hy
          · exact h0
          · exact h2 y hy
      · rintro ⟨a, z, c, hl, h1, h2, h3⟩
        cases a with
        | nil =>
          simp only [List.nil_append, List.cons.injEq] at hl
          obtain ⟨rfl, rfl⟩ := hl
          exact .inl h3
        | cons b as =>
          simp only [List.cons_append, List.cons.injEq] at hl
          obtain ⟨rfl, rfl⟩ := hl
          exact .inr ⟨h2 x (List.mem_cons_self ..), as, z, c, rfl, by simpa using h1,
            fun y hy => h2 y (List.mem_cons_of_mem _ hy), h3⟩

theorem scanDup_panic_nil {α : Type} (kp : α → Name × Nat) (mk : DupErr → SemErr) (check : α → R Unit) {e : Panic}
    (l : List α) : scanDup kp mk check [] l = .panic e ↔
      ∃ a x c, l = a ++ x :: c ∧ ((a ++ [x]).map (fun x => (kp x).1)).Nodup ∧ (∀ y ∈ a, check y = .ok ()) ∧
        check x = .panic e := by
  simpa using scanDup_panic_iff kp mk check l [] (by simp)

mutual

theorem checkPredDecls_panic_iff {ps : List Predicate} (hn : (ps.map (·.name)).Nodup) : ∀ f : Formula,
    checkPredDecls ps f = .panic .existsFormula ↔ UpToExists ps f
  | .empty => by
    rw [checkPredDecls]
    exact ⟨fun h => by simp at h, fun h => nomatch h⟩
  | .atom p => by
    refine ⟨fun h => ?_, fun h => nomatch h⟩
    have := (checkPredDecls_panic _ h).2
    cases this
  | .equals _ _ => by
    rw [checkPredDecls]
    exact ⟨fun h => by simp at h, fun h => nomatch h⟩
  | .exists_ _ _ => by
    rw [checkPredDecls]
    exact ⟨fun _ => .exists_, fun _ => rfl⟩
  | .imply _ _ => by
    rw [checkPredDecls]
    exact ⟨fun _ => .imply, fun _ => rfl⟩
  | .not f => by
    rw [checkPredDecls, checkPredDecls_panic_iff hn f]
    exact ⟨.not, fun h => by cases h; assumption⟩
  | .weighted w f => by
    rw [checkPredDecls, checkPredDecls_panic_iff hn f]
    exact ⟨.weighted, fun h => by cases h; assumption⟩
  | .forall_ vs f => by
    rw [checkPredDecls, checkPredDecls_panic_iff hn f]
    exact ⟨.forall_, fun h => by cases h; assumption⟩
  | .and fs => by
    rw [checkPredDecls, checkPredDeclsList_panic_iff hn fs]
    constructor
    · rintro ⟨as, f, bs, rfl, h1, h2⟩
      exact .and h1 h2
    · intro h
      generalize he : Formula.and fs = x at h
      cases h <;> cases he
      exact ⟨_, _, _, rfl, by assumption, by assumption⟩
  | .or fs => by
    rw [checkPredDecls, checkPredDeclsList_panic_iff hn fs]
    constructor
    · rintro ⟨as, f, bs, rfl, h1, h2⟩
      exact .or h1 h2
    · intro h
      generalize he : Formula.or fs = x at h
      cases h <;> cases he
      exact ⟨_, _, _, rfl, by assumption, by assumption⟩
  | .xor fs => by
    rw [checkPredDecls, checkPredDeclsList_panic_iff hn fs]
    constructor
    · rintro ⟨as, f, bs, rfl, h1, h2⟩
      exact .xor h1 h2
    · intro h
      generalize he : Formula.xor fs = x at h
      cases h <;> cases he
      exact ⟨_, _, _, rfl, by assumption, by assumption⟩

theorem checkPredDeclsList_panic_iff {ps : List Predicate} (hn : (ps.map (·.name)).Nodup) : ∀ fs : List Formula,
    checkPredDeclsList ps fs = .panic .existsFormula ↔ ∃ as f bs, fs = as ++ f :: bs ∧
      (∀ g ∈ as, ¬ HasExists g ∧ ∀ p, Occurs p g → ∃ q ∈ ps, q.name = p.name ∧ p.vars.length = q.vars.length) ∧
      UpToExists ps f
  | [] => by simp [checkPredDeclsList]
  | f :: fs => by
    rw [checkPredDeclsList, bindU_panic, checkPredDecls_panic_iff hn f, checkPredDecls_ok hn f,
      checkPredDeclsList_panic_iff hn fs]
    constructor
    · rintro (h | ⟨h, as, g, bs, rfl, h1, h2⟩)
      · exact ⟨[], f, fs, rfl, by simp, h⟩
      · refine ⟨f :: as, g, bs, rfl, ?_, h2⟩
        intro y hy
        rcases List.mem_cons.mp hy with rfl | hy
        · exact h
        · exact h1 y hy
    · rintro ⟨as, g, bs, he, h1, h2⟩
      cases as with
      | nil =>
        simp only [List.nil_append, List.cons.injEq] at he
        rw [he.1]
        exact .inl h2
      | cons a as =>
        simp only [List.cons_append, List.cons.injEq] at he
        rw [he.1]
        exact .inr ⟨h1 a (by simp), as, g, bs, he.2, fun y hy => h1 y (by simp [hy]), h2⟩

end

theorem optFormula_panic_iff (d : DomainAST) (hn : (d.predicates.map (·.name)).Nodup) {params : List Symbol}
    (hl : Located params) (o : Option Formula) :
    checkOptFormula (TypeGraph.new d.types) d.predicates params (constantsOf d) o = .panic .existsFormula ↔
      ∃ f, o = some f ∧ UpToExists d.predicates f := by
  cases o with
  | none => simp [checkOptFormula]
  | some f =>
    simp only [Option.some.injEq, exists_eq_left']
    rw [checkOptFormula, bindU_panic, checkPredDecls_panic_iff hn]
    refine ⟨?_, .inl⟩
    rintro (h | ⟨h, h'⟩)
    · exact h
    · exfalso
      obtain ⟨_, f', h1, h2⟩ := optFormula_panic (TypeGraph.new d.types) d.predicates hl (constantsOf d) (some f)
        (x := .existsFormula) (by rw [checkOptFormula, h]; exact h')
      cases h1
      exact hasExists_not_ok h2 h

theorem checkAction_panic_iff (d : DomainAST) (hn : (d.predicates.map (·.name)).Nodup) (x : Action)
    (hl : Located x.params) :
    checkAction (TypeGraph.new d.types) d.predicates (constantsOf d) x = .panic .existsFormula ↔
      (x.params.map (·.name)).Nodup ∧
      ((∃ f, x.pre = some f ∧ UpToExists d.predicates f) ∨
        ((∀ f, x.pre = some f → FormulaOk d x.params f) ∧ ∃ f, x.eff = some f ∧ UpToExists d.predicates f)) := by
  unfold checkAction
  rw [bindU_panic, bindU_panic, checkDupParams_ok, optFormula_panic_iff d hn hl, optFormula_panic_iff d hn hl]
  constructor
  · rintro (h | ⟨h1, h2 | ⟨h2, h3⟩⟩)
    · exact absurd h (checkDupParams_nopanic _ _).1
    · exact ⟨h1, .inl h2⟩
    · exact ⟨h1, .inr ⟨(optFormula_ok d hn h1 _).1 h2, h3⟩⟩
  · rintro ⟨h1, h2 | ⟨h2, h3⟩⟩
    · exact .inr ⟨h1, .inl h2⟩
    · exact .inr ⟨h1, .inr ⟨(optFormula_ok d hn h1 _).2 h2, h3⟩⟩

theorem methodCheck_panic_iff (d : DomainAST) (ord : HashOrd) (hn : (d.predicates.map (·.name)).Nodup) (x : Method)
    (hl : Located x.params) (ho : ∀ os, x.tn.orderings = .partial_ os → os ≠ [] → x.tn.orderingPos.isSome) :
    methodCheck ord d x = .panic .existsFormula ↔
      (x.params.map (·.name)).Nodup ∧ ∃ f, x.pre = some f ∧ UpToExists d.predicates f := by
  constructor
  · intro h
    obtain ⟨_, f, hf, hx⟩ := checkMethod_panic d ord x hl ho h
    unfold methodCheck checkMethod at h
    rcases bindU_panic.mp h with h | ⟨h1, h⟩
    · exact absurd h (checkDupParams_nopanic _ _).1
    rcases bindU_panic.mp h with h | ⟨h2, _⟩
    · exact ⟨(checkDupParams_ok _).1 h1, (optFormula_panic_iff d hn hl _).1 h⟩
    · exfalso
      exact ((optFormula_ok d hn ((checkDupParams_ok _).1 h1) _).1 h2 f hf).noExists hx
  · rintro ⟨h1, h2⟩
    unfold methodCheck checkMethod
    exact bindU_panic.mpr (.inr ⟨(checkDupParams_ok _).2 h1,
      bindU_panic.mpr (.inl ((optFormula_panic_iff d hn hl _).2 h2))⟩)

theorem checkDomain_panic_iff {ord : HashOrd} {d : DomainAST} (hp : Positioned d) (x : Panic) :
    checkDomain ord d = .panic x ↔ x = .existsFormula ∧ ReachesExists d := by
  have key : checkDomain ord d = .panic .existsFormula ↔ ReachesExists d := by
    rw [checkDomain_eq]
    simp only [bindU_panic, reqs_ok, verify_ok]
    constructor
    · rintro (h | ⟨h0, (h | ⟨h1, (h | ⟨h2, (h | ⟨h3, (h | ⟨h4, h⟩)⟩)⟩)⟩)⟩)
      · exact absurd h (checkDupReqs_nopanic _ _ _).1
      · exact absurd h (verify_panic _ _)
      · obtain ⟨p, hm, h⟩ := scanDup_panic _ _ _ _ _ h
        exact absurd h (checkDecls_panic _ _ (hp.params _ (.predicate hm)) _)
      · obtain ⟨p, hm, h⟩ := scanDup_panic _ _ _ _ _ h
        exact absurd h (checkDecls_panic _ _ (hp.params _ (.task hm)) _)
      · have h2 := scanPredicates_ok.1 h2
        refine ⟨⟨h0, h1⟩, h2, scanTasks_ok.1 h3, .inl ?_⟩
        obtain ⟨a, x, c, k1, k2, k3, k4⟩ := (scanDup_panic_nil ..).1 h
        refine ⟨a, x, c, k1, k2, fun y hy => (checkAction_ok d h2.1 y).1 (k3 y hy), ?_⟩
        exact (checkAction_panic_iff d h2.1 x (hp.params _ (.action (by rw [k1]; simp)))).1 k4
      · have h2 := scanPredicates_ok.1 h2
        have h3 := scanTasks_ok.1 h3
        have h4 := (scanActions_ok h2.1).1 h4
        refine ⟨⟨h0, h1⟩, h2, h3, .inr ⟨h4, ?_⟩⟩
        obtain ⟨a, x, c, k1, k2, k3, k4⟩ := (scanDup_panic_nil ..).1 h
        refine ⟨a, x, c, k1, k2, fun y hy => (checkMethod_ok d ord h2.1 h4.1 h3.1 y).1 (k3 y hy), ?_⟩
        have hx : x ∈ d.methods := by rw [k1]; simp
        exact (methodCheck_panic_iff d ord h2.1 x (hp.params _ (.method hx)) (hp.orderings x hx)).1 k4
    · rintro ⟨⟨h0, h1⟩, h2, h3, h⟩
      refine .inr ⟨h0, .inr ⟨h1, .inr ⟨scanPredicates_ok.2 h2, .inr ⟨scanTasks_ok.2 h3, ?_⟩⟩⟩⟩
      rcases h with ⟨a, x, c, k1, k2, k3, k4⟩ | ⟨h4, a, x, c, k1, k2, k3, k4⟩
      · refine .inl ((scanDup_panic_nil ..).2 ⟨a, x, c, k1, k2, fun y hy => (checkAction_ok d h2.1 y).2 (k3 y hy), ?_⟩)
        exact (checkAction_panic_iff d h2.1 x (hp.params _ (.action (by rw [k1]; simp)))).2 k4
      · refine .inr ⟨(scanActions_ok h2.1).2 h4, (scanDup_panic_nil ..).2
          ⟨a, x, c, k1, k2, fun y hy => (checkMethod_ok d ord h2.1 h4.1 h3.1 y).2 (k3 y hy), ?_⟩⟩
        have hx : x ∈ d.methods := by rw [k1]; simp
        exact (methodCheck_panic_iff d ord h2.1 x (hp.params _ (.method hx)) (hp.orderings x hx)).2 k4
  constructor
  · intro h
    obtain ⟨rfl, _⟩ := checkDomain_panic hp h
    exact ⟨rfl, key.1 h⟩
  · rintro ⟨rfl, h⟩
    exact key.2 h

end Verif
