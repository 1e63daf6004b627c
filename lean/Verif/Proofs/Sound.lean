import Verif.Proofs.Stream

/-! Soundness of the parser: whatever is accepted is in the (lenient) grammar. -/

namespace Verif

open Spec

variable [Env]

/-- Unfolds a successful run of a sequence of parser actions. -/
macro "run_at" h:ident : tactic =>
  `(tactic| simp only [P.bind_ok, P.pure_ok, getPos_ok, getTok_ok, peekTok_ok, expectTok_ok, expectIdent_ok, synErr_ok,
      P.timeout_ok, P.panic_ok, Prod.mk.injEq] at $h:ident)

theorem skipTok_ok {s : LexState} {r : Unit × LexState} : skipTok s = .ok r ↔
    (∃ t, getToken s = .tok t r.2) ∨ ∃ e, getToken s = .err e r.2 := by
  unfold skipTok
  obtain ⟨u, s'⟩ := r
  cases getToken s <;> simp

theorem argsLoop_sound : ∀ n objs res tok s r s', argsLoop n objs res tok s = .ok (r, s') →
    ∃ items lr rest, Items items ∧ (tok, s.line) :: rest = items ++ [(rpar, lr)] ∧ Steps s rest s' ∧
      r = res ++ (objs.map fun o => (⟨o.1, o.2, (firstType items).map (·.1), (firstType items).map (·.2)⟩ : Symbol)) ++
        symbolsOf items := by
  intro n
  induction n with
  | zero => intro objs res tok s r s' h; unfold argsLoop at h; run_at h
  | succ n ih =>
    intro objs res tok s r s' h
    unfold argsLoop at h
    split at h
    · rename_i x
      run_at h
      obtain ⟨_, _, ⟨rfl, rfl⟩, t, s2, ht, h⟩ := h
      obtain ⟨items, lr, rest, hi, he, hs, hr⟩ := ih _ _ _ _ _ _ h
      refine ⟨(.ident x, s.line) :: items, lr, (t, s2.line) :: rest, .name hi, by rw [he]; rfl, .tok ht hs, ?_⟩
      rw [hr]
      simp [symbolsOf, firstType]
    · run_at h
      obtain ⟨ty, s1, h1, _, _, ⟨rfl, rfl⟩, h⟩ := h
      split at h
      · rename_i t
        run_at h
        obtain ⟨nx, s3, h3, h⟩ := h
        obtain ⟨items, lr, rest, hi, he, hs, hr⟩ := ih _ _ _ _ _ _ h
        refine ⟨(.punct .dash, s.line) :: (.ident t, s1.line) :: items, lr, _ :: (nx, s3.line) :: rest, .type hi,
          by rw [he]; rfl, .tok h1 (.tok h3 hs), ?_⟩
        rw [hr]
        simp [symbolsOf, firstType]
      · run_at h
    · run_at h
      obtain ⟨rfl, rfl⟩ := h
      exact ⟨[], s'.line, [], .nil, rfl, .nil, by simp [symbolsOf, firstType]⟩
    · run_at h

theorem parseArgs_sound {n s r s'} (h : parseArgs n s = .ok (r, s')) :
    ∃ items lr, TypedList r items ∧ Steps s (items ++ [(rpar, lr)]) s' := by
  unfold parseArgs at h
  run_at h
  obtain ⟨t, s1, h1, h⟩ := h
  obtain ⟨items, lr, rest, hi, he, hs, hr⟩ := argsLoop_sound _ _ _ _ _ _ _ h
  exact ⟨items, lr, ⟨hi, by simpa using hr⟩, he ▸ .tok h1 hs⟩

theorem parseRequirements_sound : ∀ n acc s r s', parseRequirements n acc s = .ok (r, s') →
    ∃ rs lr, r = acc ++ rs.map Prod.fst ∧ Steps s (reqToks rs ++ [(rpar, lr)]) s' := by
  intro n
  induction n with
  | zero => intro acc s r s' h; unfold parseRequirements at h; run_at h
  | succ n ih =>
    intro acc s r s' h
    unfold parseRequirements at h
    run_at h
    obtain ⟨t, s1, h1, h⟩ := h
    split at h
    · obtain ⟨rs, lr, hr, hs⟩ := ih _ _ _ _ h
      exact ⟨(_, s1.line) :: rs, lr, by rw [hr]; simp, .tok h1 hs⟩
    · run_at h
      obtain ⟨rfl, rfl⟩ := h
      exact ⟨[], _, by simp, .one h1⟩
    · run_at h

theorem parsePredicateDef_sound {n s p s'} (h : parsePredicateDef n s = .ok (p, s')) :
    ∃ name l vars items lr, p = ⟨name, l, vars⟩ ∧ TypedList vars items ∧
      Steps s ((.ident name, l) :: (items ++ [(rpar, lr)])) s' := by
  unfold parsePredicateDef at h
  run_at h
  obtain ⟨name, s1, h1, _, _, ⟨rfl, rfl⟩, vars, s3, h3, rfl, rfl⟩ := h
  obtain ⟨items, lr, ht, hs⟩ := parseArgs_sound h3
  exact ⟨_, _, _, items, lr, rfl, ht, .tok h1 hs⟩

theorem parsePredicates_sound : ∀ n acc s r s', parsePredicates n acc s = .ok (r, s') →
    ∃ ps ts lr, r = acc ++ ps ∧ Predicates ps ts ∧ Steps s (ts ++ [(rpar, lr)]) s' := by
  intro n
  induction n with
  | zero => intro acc s r s' h; unfold parsePredicates at h; run_at h
  | succ n ih =>
    intro acc s r s' h
    unfold parsePredicates at h
    run_at h
    obtain ⟨t, s1, h1, h⟩ := h
    split at h
    · run_at h
      obtain ⟨p, s2, h2, h⟩ := h
      obtain ⟨name, l, vars, items, l3, rfl, ht, hs⟩ := parsePredicateDef_sound h2
      obtain ⟨ps, ts, lr, hr, hp, hs'⟩ := ih _ _ _ _ h
      refine ⟨⟨name, l, vars⟩ :: ps, _, lr, by rw [hr]; simp, .cons (l1 := s1.line) (l3 := l3) ht hp, ?_⟩
      have := Steps.tok h1 (hs.append hs')
      simpa using this
    · run_at h
      obtain ⟨rfl, rfl⟩ := h
      exact ⟨[], [], _, by simp, .nil, .one h1⟩
    · run_at h

theorem parseFunctions_eq : ∀ n acc s r s', parseFunctions n acc s = .ok (r, s') →
    ∃ ps ts lr, r = acc ++ ps ∧ Predicates ps ts ∧ Steps s (ts ++ [(rpar, lr)]) s' := by
  intro n
  induction n with
  | zero => intro acc s r s' h; unfold parseFunctions at h; run_at h
  | succ n ih =>
    intro acc s r s' h
    unfold parseFunctions at h
    run_at h
    obtain ⟨t, s1, h1, h⟩ := h
    split at h
    · run_at h
      obtain ⟨p, s2, h2, h⟩ := h
      unfold parseFunctionDef at h2
      run_at h2
      obtain ⟨name, s3, h3, _, _, ⟨rfl, rfl⟩, vars, s4, h4, rfl, rfl⟩ := h2
      obtain ⟨items, l3, ht, hs⟩ := parseArgs_sound h4
      obtain ⟨ps, ts, lr, hr, hp, hs'⟩ := ih _ _ _ _ h
      refine ⟨⟨name, s3.line, vars⟩ :: ps, _, lr, by rw [hr]; simp, .cons (l1 := s1.line) (l3 := l3) ht hp, ?_⟩
      have := Steps.tok h1 (Steps.tok h3 (hs.append hs'))
      simpa using this
    · run_at h
      obtain ⟨rfl, rfl⟩ := h
      exact ⟨[], [], _, by simp, .nil, .one h1⟩
    · run_at h

omit [Env] in
theorem isEmpty_true {f : Formula} (h : f.isEmpty = true) : f = .empty := by cases f <;> simp_all [Formula.isEmpty]

omit [Env] in
theorem isEmpty_false {f : Formula} (h : ¬ f.isEmpty = true) : f ≠ .empty := by
  rintro rfl; exact h rfl

omit [Env] in
theorem formulaText_empty {q f ts} (h : FormulaText q f ts) (hf : f = .empty) :
    (∃ l1 l2, ts = [(lpar, l1), (rpar, l2)]) ∨ (q = true ∧ ∃ l, ts = [(rpar, l)]) := by
  subst hf
  cases h with
  | empty => exact .inl ⟨_, _, rfl⟩
  | missing h => exact .inr ⟨h, _, rfl⟩

theorem formula_sound : ∀ n,
    (∀ s f s', parseFormula n s = .ok (f, s') → ∃ ts, FormulaText true f ts ∧ Steps s ts s') ∧
    (∀ acc s r s', parseFormulas n acc s = .ok (r, s') →
      ∃ fs ts, r = acc ++ fs ∧ FormulasText true fs ts ∧ Steps s ts s') ∧
    (∀ acc s r s', parseBranches n acc s = .ok (r, s') →
      ∃ fs ts, r = acc ++ fs ∧ BranchesText true fs ts ∧ Steps s ts s') := by
  intro n
  induction n with
  | zero =>
    refine ⟨fun s f s' h => ?_, fun acc s r s' h => ?_, fun acc s r s' h => ?_⟩
    · unfold parseFormula at h; run_at h
    · unfold parseFormulas at h; run_at h
    · unfold parseBranches at h; run_at h
  | succ n ih =>
    obtain ⟨ihF, ihFs, ihB⟩ := ih
    refine ⟨fun s f s' h => ?_, fun acc s r s' h => ?_, fun acc s r s' h => ?_⟩
    · unfold parseFormula at h
      run_at h
      obtain ⟨t, s1, h1, h⟩ := h
      split at h
      · run_at h
        obtain ⟨rfl, rfl⟩ := h
        exact ⟨_, .missing rfl, .one h1⟩
      · run_at h
        obtain ⟨t, s2, h2, h⟩ := h
        have h12 := Steps.append (.one h1) (.one h2)
        split at h
        · run_at h
          obtain ⟨g, s3, h3, _, s4, h4, rfl, rfl⟩ := h
          obtain ⟨ts, hg, hs⟩ := ihF _ _ _ h3
          exact ⟨_, .not hg, h12.append (hs.append (.one h4))⟩
        · run_at h
          obtain ⟨g, s3, h3, rfl, rfl⟩ := h
          obtain ⟨fs, ts, rfl, hg, hs⟩ := ihFs _ _ _ _ h3
          exact ⟨_, .and hg, h12.append hs⟩
        · run_at h
          obtain ⟨g, s3, h3, rfl, rfl⟩ := h
          obtain ⟨fs, ts, rfl, hg, hs⟩ := ihFs _ _ _ _ h3
          exact ⟨_, .xor hg, h12.append hs⟩
        · run_at h
          obtain ⟨g, s3, h3, rfl, rfl⟩ := h
          obtain ⟨fs, ts, rfl, hg, hs⟩ := ihFs _ _ _ _ h3
          exact ⟨_, .or hg, h12.append hs⟩
        · run_at h
          obtain ⟨a, s3, h3, b, s4, h4, _, s5, h5, rfl, rfl⟩ := h
          exact ⟨_, .equals, h12.append (.tok h3 (.tok h4 (.one h5)))⟩
        · run_at h
          obtain ⟨_, s3, h3, ps, s4, h4, g, s5, h5, _, s6, h6, rfl, rfl⟩ := h
          obtain ⟨items, lr, ht, hs⟩ := parseArgs_sound h4
          obtain ⟨ts, hg, hs'⟩ := ihF _ _ _ h5
          refine ⟨_, .forall_ (l4 := lr) (l5 := s'.line) ht hg, h12.append (.tok h3 ?_)⟩
          have := hs.append (hs'.append (.one h6))
          simpa using this
        · run_at h
          obtain ⟨_, s3, h3, ps, s4, h4, g, s5, h5, _, s6, h6, rfl, rfl⟩ := h
          obtain ⟨items, lr, ht, hs⟩ := parseArgs_sound h4
          obtain ⟨ts, hg, hs'⟩ := ihF _ _ _ h5
          refine ⟨_, .exists_ (l4 := lr) (l5 := s'.line) ht hg, h12.append (.tok h3 ?_)⟩
          have := hs.append (hs'.append (.one h6))
          simpa using this
        · run_at h
          obtain ⟨g, s3, h3, rfl, rfl⟩ := h
          obtain ⟨fs, ts, rfl, hg, hs⟩ := ihB _ _ _ _ h3
          exact ⟨_, .probabilistic hg, h12.append hs⟩
        · run_at h
          obtain ⟨_, _, ⟨rfl, rfl⟩, vars, s3, h3, rfl, rfl⟩ := h
          obtain ⟨items, lr, ht, hs⟩ := parseArgs_sound h3
          exact ⟨_, .atom ht, h12.append hs⟩
        · run_at h
          obtain ⟨rfl, rfl⟩ := h
          exact ⟨_, .empty, h12⟩
        · run_at h
      · run_at h
    · unfold parseFormulas at h
      run_at h
      obtain ⟨f, s1, h1, h⟩ := h
      obtain ⟨ts, hf, hs⟩ := ihF _ _ _ h1
      split at h
      · rename_i he
        run_at h
        obtain ⟨rfl, rfl⟩ := h
        rcases formulaText_empty hf (isEmpty_true he) with ⟨l1, l2, rfl⟩ | ⟨_, l, rfl⟩
        · exact ⟨[], _, by simp, .unclosed rfl, hs⟩
        · exact ⟨[], _, by simp, .nil, hs⟩
      · rename_i he
        obtain ⟨fs, ts', rfl, hg, hs'⟩ := ihFs _ _ _ _ h
        exact ⟨f :: fs, _, by simp, .cons hf (isEmpty_false he) hg, hs.append hs'⟩
    · unfold parseBranches at h
      run_at h
      obtain ⟨t, s1, h1, h⟩ := h
      split at h
      · run_at h
        obtain ⟨rfl, rfl⟩ := h
        exact ⟨[], _, by simp, .nil, .one h1⟩
      · run_at h
        obtain ⟨f, s2, h2, h⟩ := h
        obtain ⟨ts, hf, hs⟩ := ihF _ _ _ h2
        split at h
        · run_at h
        · rename_i he
          obtain ⟨fs, ts', rfl, hg, hs'⟩ := ihB _ _ _ _ h
          exact ⟨.weighted _ f :: fs, _, by simp, .cons hf (isEmpty_false he) hg, .tok h1 (hs.append hs')⟩
      · run_at h

theorem parseFormula_sound {n s f s'} (h : parseFormula n s = .ok (f, s')) :
    ∃ ts, FormulaText true f ts ∧ Steps s ts s' := (formula_sound n).1 s f s' h

theorem termsLoop_sound {msg} : ∀ n acc s r s', termsLoop msg n acc s = .ok (r, s') →
    ∃ xs lr, r = acc ++ nameSyms xs ∧ Steps s (nameToks xs ++ [(rpar, lr)]) s' := by
  intro n
  induction n with
  | zero => intro acc s r s' h; unfold termsLoop at h; run_at h
  | succ n ih =>
    intro acc s r s' h
    unfold termsLoop at h
    run_at h
    obtain ⟨t, s1, h1, h⟩ := h
    split at h
    · run_at h
      obtain ⟨_, _, ⟨rfl, rfl⟩, h⟩ := h
      obtain ⟨xs, lr, hr, hs⟩ := ih _ _ _ _ h
      exact ⟨(_, s1.line) :: xs, lr, by rw [hr]; simp [nameSyms], .tok h1 hs⟩
    · run_at h
      obtain ⟨rfl, rfl⟩ := h
      exact ⟨[], _, by simp [nameSyms], .one h1⟩
    · run_at h

theorem parseSubtask_sound {n s x s'} (h : parseSubtask n s = .ok (x, s')) :
    ∃ ts, SubtaskText x ts ∧ Steps s ts s' := by
  unfold parseSubtask at h
  run_at h
  obtain ⟨id, s1, h1, _, _, ⟨rfl, rfl⟩, t, s2, h2, h⟩ := h
  split at h
  · run_at h
    obtain ⟨task, s3, h3, _, _, ⟨rfl, rfl⟩, terms, s4, h4, _, s5, h5, rfl, rfl⟩ := h
    obtain ⟨xs, lr, rfl, hs⟩ := termsLoop_sound _ _ _ _ _ h4
    refine ⟨_, .labelled (l4 := lr) (l5 := s'.line) (xs := xs), .tok h1 (.tok h2 (.tok h3 ?_))⟩
    have := hs.append (.one h5)
    simpa using this
  · run_at h
    obtain ⟨_, _, ⟨rfl, rfl⟩, terms, s4, h4, rfl, rfl⟩ := h
    obtain ⟨xs, lr, rfl, hs⟩ := termsLoop_sound _ _ _ _ _ h4
    exact ⟨_, .plain (xs := (_, s2.line) :: xs), .tok h1 (.tok h2 hs)⟩
  · run_at h
    obtain ⟨rfl, rfl⟩ := h
    exact ⟨_, .plain (xs := []), .tok h1 (.one h2)⟩
  · run_at h

theorem subtasksLoop_sound : ∀ n acc s r s', subtasksLoop n acc s = .ok (r, s') →
    ∃ xs ts lr, r = acc ++ xs ∧ SubtaskList xs ts ∧ Steps s (ts ++ [(rpar, lr)]) s' := by
  intro n
  induction n with
  | zero => intro acc s r s' h; unfold subtasksLoop at h; run_at h
  | succ n ih =>
    intro acc s r s' h
    unfold subtasksLoop at h
    run_at h
    obtain ⟨t, s1, h1, h⟩ := h
    split at h
    · run_at h
      obtain ⟨rfl, rfl⟩ := h
      exact ⟨[], [], _, by simp, .nil, .one h1⟩
    · run_at h
      obtain ⟨x, s2, h2, h⟩ := h
      obtain ⟨a, hx, hs⟩ := parseSubtask_sound h2
      obtain ⟨xs, ts, lr, hr, hp, hs'⟩ := ih _ _ _ _ h
      refine ⟨x :: xs, _, lr, by rw [hr]; simp, .cons (l := s1.line) hx hp, ?_⟩
      have := Steps.tok h1 (hs.append hs')
      simpa using this
    · run_at h

theorem parseSubtasks_sound {n s r s'} (h : parseSubtasks n s = .ok (r, s')) :
    ∃ ts, SubtasksText r ts ∧ Steps s ts s' := by
  unfold parseSubtasks at h
  run_at h
  obtain ⟨_, s1, h1, t, s2, h2, h⟩ := h
  split at h
  · run_at h
    obtain ⟨t, s3, h3, h⟩ := h
    have : t = .op .and := by
      obtain ⟨s5, h5⟩ := get_of_lookahead h2 (by simp) (by simp)
      have h6 : getToken s2 = getToken s1 := lex_peek_state (.inl ⟨_, h2⟩) false
      rw [h6, h5] at h3; cases h3; rfl
    subst this
    obtain ⟨xs, ts, lr, rfl, hp, hs⟩ := subtasksLoop_sound _ _ _ _ _ h
    exact ⟨_, .many hp, .tok h1 (.peek h2 (.tok h3 hs))⟩
  · run_at h
    obtain ⟨x, s3, h3, rfl, rfl⟩ := h
    obtain ⟨a, hx, hs⟩ := parseSubtask_sound h3
    exact ⟨_, .one hx, .tok h1 (.peek h2 hs)⟩
  · run_at h
    obtain ⟨t, s3, h3, rfl, rfl⟩ := h
    have : t = .punct .rparen := by
      obtain ⟨s5, h5⟩ := get_of_lookahead h2 (by simp) (by simp)
      have h6 : getToken s2 = getToken s1 := lex_peek_state (.inl ⟨_, h2⟩) false
      rw [h6, h5] at h3; cases h3; rfl
    subst this
    exact ⟨_, .none, .tok h1 (.peek h2 (.one h3))⟩
  · run_at h

theorem afterLoop_sound {t1 msg} : ∀ n acc s r s', afterLoop t1 msg n acc s = .ok (r, s') →
    ∃ bs lr, r = acc ++ bs.map (fun b : Name × Nat => (t1, b.1)) ∧ Steps s (nameToks bs ++ [(rpar, lr)]) s' := by
  intro n
  induction n with
  | zero => intro acc s r s' h; unfold afterLoop at h; run_at h
  | succ n ih =>
    intro acc s r s' h
    unfold afterLoop at h
    run_at h
    obtain ⟨t, s1, h1, h⟩ := h
    split at h
    · obtain ⟨xs, lr, hr, hs⟩ := ih _ _ _ _ h
      exact ⟨(_, s1.line) :: xs, lr, by rw [hr]; simp, .tok h1 hs⟩
    · run_at h
      obtain ⟨rfl, rfl⟩ := h
      exact ⟨[], _, by simp, .one h1⟩
    · run_at h

theorem parseOrdering_sound {n s r s'} (h : parseOrdering n s = .ok (r, s')) :
    ∃ ts, OrderText r ts ∧ Steps s ts s' := by
  unfold parseOrdering at h
  run_at h
  obtain ⟨_, s1, h1, t1, s2, h2, h⟩ := h
  obtain ⟨bs, lr, hr, hs⟩ := afterLoop_sound _ _ _ _ _ h
  rw [List.nil_append] at hr
  subst hr
  exact ⟨_, .mk, .tok h1 (.tok h2 hs)⟩

theorem orderingsLoop_sound : ∀ n acc s r s', orderingsLoop n acc s = .ok (r, s') →
    ∃ os ts lr, r = acc ++ os ∧ OrderList os ts ∧ Steps s (ts ++ [(rpar, lr)]) s' := by
  intro n
  induction n with
  | zero => intro acc s r s' h; unfold orderingsLoop at h; run_at h
  | succ n ih =>
    intro acc s r s' h
    unfold orderingsLoop at h
    run_at h
    obtain ⟨t, s1, h1, h⟩ := h
    split at h
    · run_at h
      obtain ⟨o, s2, h2, h⟩ := h
      obtain ⟨a, ho, hs⟩ := parseOrdering_sound h2
      obtain ⟨os, ts, lr, hr, hp, hs'⟩ := ih _ _ _ _ h
      refine ⟨o ++ os, _, lr, by rw [hr]; simp, .cons (l := s1.line) ho hp, ?_⟩
      have := Steps.tok h1 (hs.append hs')
      simpa using this
    · run_at h
      obtain ⟨rfl, rfl⟩ := h
      exact ⟨[], [], _, by simp, .nil, .one h1⟩
    · run_at h

theorem parseOrderingBlock_sound {n acc s r s'} (h : parseOrderingBlock n acc s = .ok (r, s')) :
    ∃ os ts, r = acc ++ os ∧ OrdersText os ts ∧ Steps s ts s' := by
  unfold parseOrderingBlock at h
  run_at h
  obtain ⟨_, s1, h1, t, s2, h2, h⟩ := h
  split at h
  · obtain ⟨os, ts, lr, hr, hp, hs⟩ := orderingsLoop_sound _ _ _ _ _ h
    exact ⟨os, _, hr, .many hp, .tok h1 (.tok h2 hs)⟩
  · run_at h
    obtain ⟨t1, s3, h3, h⟩ := h
    obtain ⟨bs, lr, hr, hs⟩ := afterLoop_sound _ _ _ _ _ h
    exact ⟨_, _, hr, .one .mk, .tok h1 (.tok h2 (.tok h3 hs))⟩
  · run_at h
    obtain ⟨rfl, rfl⟩ := h
    exact ⟨[], _, by simp, .none, .tok h1 (.one h2)⟩
  · run_at h

theorem parseConstraint_sound {s r s'} (h : parseConstraint s = .ok (r, s')) :
    ∃ ts, ConstraintText r ts ∧ Steps s ts s' := by
  unfold parseConstraint at h
  run_at h
  obtain ⟨t, s1, h1, h⟩ := h
  split at h
  · run_at h
    obtain ⟨_, s2, h2, _, s3, h3, a, s4, h4, b, s5, h5, _, s6, h6, _, s7, h7, rfl, rfl⟩ := h
    exact ⟨_, .notEqual, .tok h1 (.tok h2 (.tok h3 (.tok h4 (.tok h5 (.tok h6 (.one h7))))))⟩
  · run_at h
    obtain ⟨a, s4, h4, b, s5, h5, _, s6, h6, rfl, rfl⟩ := h
    exact ⟨_, .equal, .tok h1 (.tok h4 (.tok h5 (.one h6)))⟩
  · run_at h

theorem constraintsLoop_sound : ∀ n acc s r s', constraintsLoop n acc s = .ok (r, s') →
    ∃ cs ts lr, r = acc ++ cs ∧ ConstraintList cs ts ∧ Steps s (ts ++ [(rpar, lr)]) s' := by
  intro n
  induction n with
  | zero => intro acc s r s' h; unfold constraintsLoop at h; run_at h
  | succ n ih =>
    intro acc s r s' h
    unfold constraintsLoop at h
    run_at h
    obtain ⟨t, s1, h1, h⟩ := h
    split at h
    · run_at h
      obtain ⟨c, s2, h2, h⟩ := h
      obtain ⟨a, hc, hs⟩ := parseConstraint_sound h2
      obtain ⟨cs, ts, lr, hr, hp, hs'⟩ := ih _ _ _ _ h
      refine ⟨c :: cs, _, lr, by rw [hr]; simp, .cons (l := s1.line) hc hp, ?_⟩
      have := Steps.tok h1 (hs.append hs')
      simpa using this
    · run_at h
      obtain ⟨rfl, rfl⟩ := h
      exact ⟨[], [], _, by simp, .nil, .one h1⟩
    · run_at h

/-- Reading after a successful peek. -/
theorem peeked {s s1 s2 : LexState} {t t' : Token} (h : lookahead s = .tok t s1) (hlt : t ≠ .op .lt)
    (hgt : t ≠ .op .gt) (h' : getToken s1 = .tok t' s2) : t' = t := by
  obtain ⟨s5, h5⟩ := get_of_lookahead h hlt hgt
  have h6 : getToken s1 = getToken s := lex_peek_state (.inl ⟨_, h⟩) false
  rw [h6, h5] at h'; cases h'; rfl

theorem skipped {s s1 : LexState} {t : Token} {r : Unit × LexState} (h : lookahead s = .tok t s1) (hlt : t ≠ .op .lt)
    (hgt : t ≠ .op .gt) (h' : skipTok s1 = .ok r) : getToken s1 = .tok t r.2 := by
  obtain ⟨s5, h5⟩ := get_of_lookahead h hlt hgt
  have h6 : getToken s1 = getToken s := lex_peek_state (.inl ⟨_, h⟩) false
  rcases skipTok_ok.1 h' with ⟨t', h''⟩ | ⟨e, h''⟩
  · rw [peeked h hlt hgt h''] at h''; exact h''
  · rw [h6, h5] at h''; cases h''

theorem parseConstraints_sound {n s r s'} (h : parseConstraints n s = .ok (r, s')) :
    ∃ ts, ConstraintsText r ts ∧ Steps s ts s' := by
  unfold parseConstraints at h
  run_at h
  obtain ⟨_, s1, h1, t, s2, h2, h⟩ := h
  split at h
  · run_at h
    obtain ⟨_, s3, h3, rfl, rfl⟩ := h
    exact ⟨_, .none, .tok h1 (.peek h2 (.one (skipped h2 (by simp) (by simp) h3)))⟩
  · run_at h
    obtain ⟨_, s3, h3, h⟩ := h
    obtain ⟨xs, ts, lr, rfl, hp, hs⟩ := constraintsLoop_sound _ _ _ _ _ h
    exact ⟨_, .many hp, .tok h1 (.peek h2 (.tok (skipped h2 (by simp) (by simp) h3) hs))⟩
  · run_at h
    obtain ⟨x, s3, h3, rfl, rfl⟩ := h
    obtain ⟨a, hx, hs⟩ := parseConstraint_sound h3
    exact ⟨_, .one hx, .tok h1 (.peek h2 hs)⟩
  · run_at h
    obtain ⟨x, s3, h3, rfl, rfl⟩ := h
    obtain ⟨a, hx, hs⟩ := parseConstraint_sound h3
    exact ⟨_, .one hx, .tok h1 (.peek h2 hs)⟩
  · run_at h

omit [Env] in
theorem getLast?_or {α} (l : List α) (a : α) : (a :: l).getLast? = (l.getLast?.or (some a)) := by
  cases h : l.getLast? <;> simp_all [List.getLast?_cons]

theorem htnLoop_sound {sts} : ∀ n opos os cs s r s', htnLoop sts n opos os cs s = .ok (r, s') →
    ∃ is ts lr, TnItems is ts ∧ Steps s (ts ++ [(rpar, lr)]) s' ∧
      r = ⟨sts, (is.filterMap TnItem.line?).getLast?.or opos, .partial_ (os ++ is.flatMap TnItem.pairs),
        (is.filterMap TnItem.constraints?).getLast?.or cs⟩ := by
  intro n
  induction n with
  | zero => intro opos os cs s r s' h; unfold htnLoop at h; run_at h
  | succ n ih =>
    intro opos os cs s r s' h
    unfold htnLoop at h
    run_at h
    obtain ⟨t, s1, h1, h⟩ := h
    split at h
    · run_at h
      obtain ⟨_, _, ⟨rfl, rfl⟩, os', s2, h2, h⟩ := h
      obtain ⟨os1, a, rfl, ho, hs⟩ := parseOrderingBlock_sound h2
      obtain ⟨is, ts, lr, hi, hs', hr⟩ := ih _ _ _ _ _ _ h
      refine ⟨_, _, lr, .ordering (l := s1.line) ho hi, ?_, ?_⟩
      · have := Steps.tok h1 (hs.append hs')
        simpa using this
      · rw [hr]
        simp only [List.filterMap_cons, TnItem.line?, TnItem.constraints?, List.flatMap_cons, TnItem.pairs,
          List.append_assoc]
        rw [getLast?_or]
        simp
    · run_at h
      obtain ⟨cs', s2, h2, h⟩ := h
      obtain ⟨a, ho, hs⟩ := parseConstraints_sound h2
      obtain ⟨is, ts, lr, hi, hs', hr⟩ := ih _ _ _ _ _ _ h
      refine ⟨_, _, lr, .constraints (l := s1.line) ho hi, ?_, ?_⟩
      · have := Steps.tok h1 (hs.append hs')
        simpa using this
      · rw [hr]
        simp only [List.filterMap_cons, TnItem.line?, TnItem.constraints?, List.flatMap_cons, TnItem.pairs,
          List.nil_append]
        rw [getLast?_or]
        simp
    · run_at h
      obtain ⟨rfl, rfl⟩ := h
      exact ⟨[], [], _, .nil, .one h1, by simp⟩
    · run_at h

/-- The next token is a closing parenthesis. -/
def NextParen (s : LexState) : Prop := ∃ s1, getToken s = .tok rpar s1

theorem parseHtn_sound {n s r s'} (h : parseHtn n s = .ok (r, s')) :
    ∃ ts e, HtnText r ts e ∧ Steps s ts s' ∧ (e = .atParen → NextParen s') := by
  unfold parseHtn at h
  run_at h
  obtain ⟨t, s1, h1, h⟩ := h
  split at h
  · run_at h
    obtain ⟨rfl, rfl⟩ := h
    refine ⟨[], _, .empty, .peek h1 .nil, fun _ => ?_⟩
    obtain ⟨s2, h2⟩ := get_of_lookahead h1 (by simp) (by simp)
    exact ⟨s2, by rw [← h2]; exact lex_peek_state (.inl ⟨_, h1⟩) false⟩
  · run_at h
    obtain ⟨t, s2, h2, h⟩ := h
    split at h
    · run_at h
      obtain ⟨sts, s3, h3, h⟩ := h
      obtain ⟨a, ha, hs⟩ := parseSubtasks_sound h3
      obtain ⟨is, b, lr, hi, hs', hr⟩ := htnLoop_sound _ _ _ _ _ _ _ h
      have := HtnText.partial_ (l1 := s2.line) (l2 := lr) ha hi
      refine ⟨_, _, by rw [hr]; simpa using this, ?_, by simp⟩
      exact .peek h1 (.tok h2 (by simpa using hs.append hs'))
    · run_at h
      obtain ⟨sts, s3, h3, t, s4, h4, h⟩ := h
      obtain ⟨a, ha, hs⟩ := parseSubtasks_sound h3
      split at h
      · run_at h
        obtain ⟨cs, s5, h5, rfl, rfl⟩ := h
        obtain ⟨b, hb, hs'⟩ := parseConstraints_sound h5
        exact ⟨_, _, .constrained ha hb, .peek h1 (.tok h2 (hs.append (.tok h4 hs'))), by simp⟩
      · run_at h
        obtain ⟨rfl, rfl⟩ := h
        exact ⟨_, _, .total ha, .peek h1 (.tok h2 (hs.append (.one h4))), by simp⟩
      · run_at h
    · run_at h

theorem parseInitialTn_sound {n s r s'} (h : parseInitialTn n s = .ok (r, s')) :
    ∃ ts e, InitTnText r ts e ∧ Steps s ts s' ∧ (e = .atParen → NextParen s') := by
  unfold parseInitialTn at h
  run_at h
  obtain ⟨t, s1, h1, h⟩ := h
  split at h
  · run_at h
    obtain ⟨t, s2, h2, _, s3, h3, ps, s4, h4, tn, s5, h5, rfl, rfl⟩ := h
    have := peeked h1 (by simp) (by simp) h2
    subst this
    obtain ⟨items, lr, ht, hs⟩ := parseArgs_sound h4
    obtain ⟨a, e, ha, hs', hn⟩ := parseHtn_sound h5
    refine ⟨_, e, .params (l3 := lr) ht ha, .peek h1 (.tok h2 (.tok h3 ?_)), hn⟩
    simpa using hs.append hs'
  · run_at h
    obtain ⟨tn, s5, h5, rfl, rfl⟩ := h
    obtain ⟨a, e, ha, hs', hn⟩ := parseHtn_sound h5
    exact ⟨_, e, .plain ha, .peek h1 hs', hn⟩
  · run_at h
    obtain ⟨tn, s5, h5, rfl, rfl⟩ := h
    obtain ⟨a, e, ha, hs', hn⟩ := parseHtn_sound h5
    exact ⟨_, e, .plain ha, .peek h1 hs', hn⟩
  · run_at h
    obtain ⟨rfl, rfl⟩ := h
    refine ⟨[], _, .plain .empty, .peek h1 .nil, fun _ => ?_⟩
    obtain ⟨s2, h2⟩ := get_of_lookahead h1 (by simp) (by simp)
    exact ⟨s2, by rw [← h2]; exact lex_peek_state (.inl ⟨_, h1⟩) false⟩
  · run_at h

theorem parseTask_sound {n s t s'} (h : parseTask n s = .ok (t, s')) : ∃ ts, TaskText t ts ∧ Steps s ts s' := by
  unfold parseTask at h
  run_at h
  obtain ⟨name, s1, h1, _, _, ⟨rfl, rfl⟩, _, s2, h2, _, s3, h3, ps, s4, h4, rfl, rfl⟩ := h
  obtain ⟨items, lr, ht, hs⟩ := parseArgs_sound h4
  exact ⟨_, .mk ht, .tok h1 (.tok h2 (.tok h3 hs))⟩

theorem parseAction_sound {n s x s'} (h : parseAction n s = .ok (x, s')) :
    ∃ ts, ActionText true x ts ∧ Steps s ts s' := by
  unfold parseAction at h
  rw [P.bind_ok] at h
  obtain ⟨⟨name, pos, params⟩, s1, h1, h⟩ := h
  obtain ⟨a, ha, hs⟩ := parseTask_sound h1
  rw [P.bind_ok] at h
  obtain ⟨pre, s2, h2, h⟩ := h
  have hpre : ∃ b, OptFormula true .precondition pre b ∧ Steps s1 b s2 := by
    clear h
    run_at h2
    obtain ⟨t, s3, h3, h2⟩ := h2
    split at h2
    · run_at h2
      obtain ⟨_, s4, h4, f, s5, h5, rfl, rfl⟩ := h2
      obtain ⟨ts, hf, hs'⟩ := parseFormula_sound h5
      exact ⟨_, .some hf, .peek h3 (.tok (skipped h3 (by simp) (by simp) h4) hs')⟩
    · run_at h2
      obtain ⟨rfl, rfl⟩ := h2
      exact ⟨_, .none, .peek h3 .nil⟩
    · run_at h2
      obtain ⟨rfl, rfl⟩ := h2
      exact ⟨_, .none, .peek h3 .nil⟩
    · run_at h2
  rw [P.bind_ok] at h
  obtain ⟨eff, s3, h3, h⟩ := h
  have heff : ∃ b, OptFormula true .effect eff b ∧ Steps s2 b s3 := by
    clear h
    run_at h3
    obtain ⟨t, s4, h4, h3⟩ := h3
    split at h3
    · run_at h3
      obtain ⟨_, s5, h5, f, s6, h6, rfl, rfl⟩ := h3
      obtain ⟨ts, hf, hs'⟩ := parseFormula_sound h6
      exact ⟨_, .some hf, .peek h4 (.tok (skipped h4 (by simp) (by simp) h5) hs')⟩
    · run_at h3
      obtain ⟨rfl, rfl⟩ := h3
      exact ⟨_, .none, .peek h4 .nil⟩
    · run_at h3
  obtain ⟨b, hb, hsb⟩ := hpre
  obtain ⟨c, hc, hsc⟩ := heff
  run_at h
  obtain ⟨_, s4, h4, rfl, rfl⟩ := h
  exact ⟨_, .mk ha hb hc, ((hs.append hsb).append hsc).append (.one h4)⟩

omit [Env] in
theorem htn_ne_nil {tn ts e} (h : HtnText tn ts e) (he : e ≠ .atParen) : ts ≠ [] := by
  cases h <;> simp_all

theorem parseMethod_sound {n s m s'} (h : parseMethod n s = .ok (m, s')) :
    ∃ ts e, MethodText true m ts e ∧ Steps s ts s' ∧ (e = .atParen → NextParen s') := by
  unfold parseMethod at h
  run_at h
  obtain ⟨name, s1, h1, _, _, ⟨rfl, rfl⟩, _, s2, h2, _, s3, h3, ps, s4, h4, _, s5, h5, _, s6, h6, task, s7, h7, _, _,
    ⟨rfl, rfl⟩, terms, s8, h8, t, s9, h9, h⟩ := h
  obtain ⟨items, lr, ht, hs⟩ := parseArgs_sound h4
  obtain ⟨items', lr', ht', hs'⟩ := parseArgs_sound h8
  -- the network is not empty when it starts with one of its keywords
  have key : ∀ {k tn s10 a e}, (k = Kw.subtasks ∨ k = Kw.orderedSubtasks) → lookahead s8 = .tok (.kw k) s9 →
      HtnText tn a e → Steps s9 a s10 → (e = .atParen → NextParen s10) → a ≠ [] := by
    intro k tn s10 a e hk hl hh hst hn hnil
    subst hnil
    by_cases he : e = .atParen
    · obtain ⟨s11, h11⟩ := hn he
      have h12 : Feeds s9 ([] ++ [(rpar, s11.line)]) := hst.feeds ⟨s11, h11, rfl, trivial⟩
      obtain ⟨s12, h12, _⟩ := h12
      have := peeked hl (by simp) (by simp) h12
      simp at this
    · exact htn_ne_nil hh he rfl
  have fin : ∀ {pre : Option Formula} {tn b c e s10}, OptFormula true .precondition pre b → HtnText tn c e →
      (pre = none → c ≠ []) → Steps s8 (b ++ c) s10 → (e = .atParen → NextParen s10) →
      ∃ ts e, MethodText true ⟨⟨name, s1.line, none, none⟩, ⟨task, s7.line, none, none⟩, terms, ps, pre, tn⟩ ts e ∧
        Steps s ts s10 ∧ (e = .atParen → NextParen s10) := by
    intro pre tn b c e s10 hb hc hne hst hn
    refine ⟨_, e, .mk (n1 := s1.line) (n2 := s7.line) (l1 := s2.line) (l2 := s3.line) (l3 := lr) (l4 := s5.line)
      (l5 := s6.line) (l6 := lr') ht ht' hb hc hne, .tok h1 (.tok h2 (.tok h3 ?_)), hn⟩
    have := hs.append (.tok h5 (.tok h6 (.tok h7 (hs'.append hst))))
    simpa using this
  split at h
  · run_at h
    obtain ⟨_, s10, h10, f, s11, h11, tn, s12, h12, rfl, rfl⟩ := h
    obtain ⟨b, hb, hsb⟩ := parseFormula_sound h11
    obtain ⟨c, e, hc, hsc, hn⟩ := parseHtn_sound h12
    exact fin (.some hb) hc (by simp) (.peek h9 (.tok (skipped h9 (by simp) (by simp) h10) (hsb.append hsc))) hn
  · run_at h
    obtain ⟨tn, s12, h12, rfl, rfl⟩ := h
    obtain ⟨c, e, hc, hsc, hn⟩ := parseHtn_sound h12
    exact fin .none hc (fun _ => key (.inl rfl) h9 hc hsc hn) (.peek h9 hsc) hn
  · run_at h
    obtain ⟨tn, s12, h12, rfl, rfl⟩ := h
    obtain ⟨c, e, hc, hsc, hn⟩ := parseHtn_sound h12
    exact fin .none hc (fun _ => key (.inr rfl) h9 hc hsc hn) (.peek h9 hsc) hn
  · run_at h

/-! ### Files -/

omit [Env] in
theorem addSymbols_nonEmpty (a b : List Symbol) : addSymbols (nonEmpty a) b = nonEmpty (a ++ b) := by
  unfold addSymbols
  induction b generalizing a with
  | nil => simp
  | cons x b ih =>
    rw [show a ++ x :: b = (a ++ [x]) ++ b by simp, ← ih, List.foldl_cons]
    cases a <;> rfl

omit [Env] in
theorem domainOf_nil (name : Name) : domainOf name [] = DomainAST.new name := rfl

/-- The body of a file starts with a parenthesis as soon as the next token is one. -/
theorem atParen_of_next {s s' : LexState} {ts : List Tk} (h : Steps s ts s') (hn : NextParen s) (hne : ts ≠ []) :
    AtParen ts := by
  cases ts with
  | nil => exact absurd rfl hne
  | cons x ts =>
    obtain ⟨t, l⟩ := x
    obtain ⟨s1, h1, _, _⟩ := h.feeds'
    obtain ⟨s2, h2⟩ := hn
    rw [h1] at h2
    cases h2
    exact ⟨l, ts, rfl⟩

theorem joint_of_next {e : Ending} {s s' : LexState} {ts : List Tk} (h : Steps s ts s')
    (hn : e = .atParen → NextParen s) (hne : ts ≠ []) : Joint true e ts := by
  cases e with
  | closed => trivial
  | open_ => exact .inl rfl
  | atParen => exact atParen_of_next h (hn rfl) hne

omit [Env] in
theorem dBlock_ne_nil {q b ts e} (h : DBlockText q b ts e) : ts ≠ [] := by cases h <;> simp

omit [Env] in
theorem pBlock_ne_nil {q b ts e} (h : PBlockText q b ts e) : ts ≠ [] := by cases h <;> simp

omit [Env] in
theorem body_ne_nil {β} {q : Bool} {block : β → List Tk → Ending → Prop} {stop bs ts} (h : Body q block stop bs ts)
    (hb : ∀ b ts e, block b ts e → ts ≠ []) (hs : ∀ ts, stop ts → ts ≠ []) : ts ≠ [] := by
  cases h with
  | done h => exact hs _ h
  | block h _ _ => simp [hb _ _ _ h]

omit [Env] in
theorem dBody_ne_nil {q bs ts} (h : Body q (DBlockText q) closeParen bs ts) : ts ≠ [] :=
  body_ne_nil h (fun _ _ _ => dBlock_ne_nil) (by rintro _ ⟨l, rfl⟩; simp)

omit [Env] in
theorem pBody_ne_nil {q bs ts} (h : Body q (PBlockText q) (closeProblem q) bs ts) : ts ≠ [] :=
  body_ne_nil h (fun _ _ _ => pBlock_ne_nil) (by rintro _ (⟨l, rfl⟩ | ⟨_, l, rfl⟩) <;> simp)

theorem parseDomain_sound {name} : ∀ n bs s r s', parseDomain name n (domainOf name bs) s = .ok (r, s') →
    ∃ bs' ts, r = domainOf name (bs ++ bs') ∧ Body true (DBlockText true) closeParen bs' ts ∧ Steps s ts s' := by
  intro n
  induction n with
  | zero => intro bs s r s' h; unfold parseDomain at h; run_at h
  | succ n ih =>
    intro bs s r s' h
    -- one block, then the rest
    have step : ∀ {b : DBlock} {d a e s1}, parseDomain name n d s1 = .ok (r, s') → d = domainOf name (bs ++ [b]) →
        DBlockText true b a e → Steps s a s1 → (e = .atParen → NextParen s1) →
        ∃ bs' ts, r = domainOf name (bs ++ bs') ∧ Body true (DBlockText true) closeParen bs' ts ∧ Steps s ts s' := by
      intro b d a e s1 hrun hd hb hs hn
      subst hd
      obtain ⟨bs', ts, hr, hbody, hs'⟩ := ih _ _ _ _ hrun
      exact ⟨b :: bs', _, by rw [hr]; simp, .block hb (joint_of_next hs' hn (dBody_ne_nil hbody)) hbody, hs.append hs'⟩
    unfold parseDomain at h
    run_at h
    obtain ⟨t, s1, h1, h⟩ := h
    split at h
    · run_at h
      obtain ⟨t, s2, h2, h⟩ := h
      have h12 := Steps.append (.one h1) (.one h2)
      split at h
      · run_at h
        obtain ⟨ps, s3, h3, h⟩ := h
        obtain ⟨ps, ts, lr, rfl, hp, hs⟩ := parsePredicates_sound _ _ _ _ _ h3
        exact step h (by simp [domainOf, DBlock.preds, DBlock.funs, DBlock.tasks, DBlock.methods, DBlock.actions, DBlock.typeSyms,
          DBlock.constSyms, DBlock.reqs]) (.predicates hp) (h12.append hs) (by simp)
      · run_at h
        obtain ⟨ps, s3, h3, h⟩ := h
        obtain ⟨ps, ts, lr, rfl, hp, hs⟩ := parseFunctions_eq _ _ _ _ _ h3
        exact step h (by simp [domainOf, DBlock.preds, DBlock.funs, DBlock.tasks, DBlock.methods, DBlock.actions, DBlock.typeSyms,
          DBlock.constSyms, DBlock.reqs]) (.functions hp) (h12.append hs) (by simp)
      · run_at h
        obtain ⟨t, s3, h3, _, s4, h4, h⟩ := h
        obtain ⟨a, ha, hs⟩ := parseTask_sound h3
        exact step h (by simp [domainOf, DBlock.preds, DBlock.funs, DBlock.tasks, DBlock.methods, DBlock.actions, DBlock.typeSyms,
          DBlock.constSyms, DBlock.reqs]) (.task ha) (h12.append (hs.append (.one h4))) (by simp)
      · run_at h
        obtain ⟨m, s3, h3, h⟩ := h
        obtain ⟨a, e, ha, hs, hn⟩ := parseMethod_sound h3
        exact step h (by simp [domainOf, DBlock.preds, DBlock.funs, DBlock.tasks, DBlock.methods, DBlock.actions, DBlock.typeSyms,
          DBlock.constSyms, DBlock.reqs]) (.method ha) (h12.append hs) hn
      · run_at h
        obtain ⟨m, s3, h3, h⟩ := h
        obtain ⟨a, ha, hs⟩ := parseAction_sound h3
        exact step h (by simp [domainOf, DBlock.preds, DBlock.funs, DBlock.tasks, DBlock.methods, DBlock.actions, DBlock.typeSyms,
          DBlock.constSyms, DBlock.reqs]) (.action ha) (h12.append hs) (by simp)
      · run_at h
        obtain ⟨rs, s3, h3, h⟩ := h
        obtain ⟨rs, lr, rfl, hs⟩ := parseRequirements_sound _ _ _ _ _ h3
        exact step h (by simp [domainOf, DBlock.preds, DBlock.funs, DBlock.tasks, DBlock.methods, DBlock.actions, DBlock.typeSyms,
          DBlock.constSyms, DBlock.reqs]) (.requirements (rs := rs)) (h12.append hs) (by simp)
      · run_at h
        obtain ⟨ss, s3, h3, h⟩ := h
        obtain ⟨items, lr, ht, hs⟩ := parseArgs_sound h3
        exact step h (by simp [domainOf, DBlock.preds, DBlock.funs, DBlock.tasks, DBlock.methods, DBlock.actions, DBlock.typeSyms,
          DBlock.constSyms, DBlock.reqs, addSymbols_nonEmpty]) (.types ht) (h12.append hs) (by simp)
      · run_at h
        obtain ⟨ss, s3, h3, h⟩ := h
        obtain ⟨items, lr, ht, hs⟩ := parseArgs_sound h3
        exact step h (by simp [domainOf, DBlock.preds, DBlock.funs, DBlock.tasks, DBlock.methods, DBlock.actions, DBlock.typeSyms,
          DBlock.constSyms, DBlock.reqs, addSymbols_nonEmpty]) (.constants ht) (h12.append hs) (by simp)
      · run_at h
    · run_at h
      obtain ⟨rfl, rfl⟩ := h
      exact ⟨[], _, by simp, .done ⟨_, rfl⟩, .one h1⟩
    · run_at h

omit [Env] in
/-- In a list of symbols written in a file, a type has a position and vice versa. -/
theorem symbolsOf_tyPos (ts : List Tk) : ∀ x ∈ symbolsOf ts, (x.ty = none ↔ x.tyPos = none) := by
  fun_induction symbolsOf ts with
  | case1 y l ts ih =>
    intro x hx
    rcases List.mem_cons.1 hx with rfl | hx
    · simp
    · exact ih x hx
  | case2 => assumption
  | case3 => simp

omit [Env] in
theorem addObjects_ok {old new : List Symbol} (h : ∀ x ∈ new, (x.ty = none ↔ x.tyPos = none)) :
    addObjects old new = .ok (old ++ new) := by
  induction new generalizing old with
  | nil => simp [addObjects]
  | cons x new ih =>
    obtain ⟨name, pos, ty, tyPos⟩ := x
    have hx := h _ List.mem_cons_self
    have hr := fun y hy => h y (List.mem_cons_of_mem _ hy)
    cases ty <;> cases tyPos <;> simp_all [addObjects]

omit [Env] in
theorem lift_ok {α} {x : R α} {s : LexState} {r : α × LexState} : P.lift x s = .ok r ↔ x = .ok r.1 ∧ s = r.2 := by
  unfold P.lift
  obtain ⟨a, s'⟩ := r
  cases x <;> simp

omit [Env] in
theorem problemOf_nil : problemOf [] = ProblemAST.new := rfl

theorem parseProblem_sound : ∀ n bs s r s', parseProblem n (problemOf bs) s = .ok (r, s') →
    ∃ bs' ts, r = problemOf (bs ++ bs') ∧ Body true (PBlockText true) (closeProblem true) bs' ts ∧ Steps s ts s' := by
  intro n
  induction n with
  | zero => intro bs s r s' h; unfold parseProblem at h; run_at h
  | succ n ih =>
    intro bs s r s' h
    have step : ∀ {b : PBlock} {d a e s1}, parseProblem n d s1 = .ok (r, s') → d = problemOf (bs ++ [b]) →
        PBlockText true b a e → Steps s a s1 → (e = .atParen → NextParen s1) →
        ∃ bs' ts, r = problemOf (bs ++ bs') ∧ Body true (PBlockText true) (closeProblem true) bs' ts ∧
          Steps s ts s' := by
      intro b d a e s1 hrun hd hb hs hn
      subst hd
      obtain ⟨bs', ts, hr, hbody, hs'⟩ := ih _ _ _ _ hrun
      exact ⟨b :: bs', _, by rw [hr]; simp, .block hb (joint_of_next hs' hn (pBody_ne_nil hbody)) hbody, hs.append hs'⟩
    unfold parseProblem at h
    run_at h
    obtain ⟨t, s1, h1, h⟩ := h
    split at h
    · run_at h
      obtain ⟨t, s2, h2, h⟩ := h
      have h12 := Steps.append (.one h1) (.one h2)
      split at h
      · run_at h
        obtain ⟨rs, s3, h3, h⟩ := h
        obtain ⟨rs, lr, rfl, hs⟩ := parseRequirements_sound _ _ _ _ _ h3
        exact step h (by simp [problemOf, PBlock.reqs, PBlock.objs, PBlock.htn?, PBlock.goal?, PBlock.init?])
          (.requirements (rs := rs)) (h12.append hs) (by simp)
      · run_at h
        obtain ⟨ss, s3, h3, os, s4, h4, h⟩ := h
        obtain ⟨items, lr, ht, hs⟩ := parseArgs_sound h3
        rw [lift_ok, addObjects_ok (by rw [ht.2]; exact symbolsOf_tyPos _)] at h4
        obtain ⟨h4, h5⟩ := h4
        simp only at h4 h5
        cases h4
        subst h5
        exact step h (by simp [problemOf, PBlock.reqs, PBlock.objs, PBlock.htn?, PBlock.goal?, PBlock.init?])
          (.objects ht) (h12.append hs) (by simp)
      · run_at h
        obtain ⟨tn, s3, h3, h⟩ := h
        obtain ⟨a, e, ha, hs, hn⟩ := parseInitialTn_sound h3
        exact step h (by simp [problemOf, PBlock.reqs, PBlock.objs, PBlock.htn?, PBlock.goal?, PBlock.init?])
          (.htn ha) (h12.append hs) hn
      · run_at h
        obtain ⟨g, s3, h3, h⟩ := h
        obtain ⟨a, ha, hs⟩ := parseFormula_sound h3
        exact step h (by simp [problemOf, PBlock.reqs, PBlock.objs, PBlock.htn?, PBlock.goal?, PBlock.init?])
          (.goal ha) (h12.append hs) (by simp)
      · run_at h
        obtain ⟨ps, s3, h3, h⟩ := h
        obtain ⟨ps, ts, lr, rfl, hp, hs⟩ := parsePredicates_sound _ _ _ _ _ h3
        exact step h (by simp [problemOf, PBlock.reqs, PBlock.objs, PBlock.htn?, PBlock.goal?, PBlock.init?])
          (.init hp) (h12.append hs) (by simp)
      · run_at h
    · run_at h
      obtain ⟨rfl, rfl⟩ := h
      exact ⟨[], _, by simp, .done (.inr ⟨rfl, _, rfl⟩), .one h1⟩
    · run_at h
      obtain ⟨rfl, rfl⟩ := h
      exact ⟨[], _, by simp, .done (.inl ⟨_, rfl⟩), .one h1⟩
    · run_at h

theorem parseFile_sound {n s a s'} (h : parseFile n s = .ok (a, s')) : ∃ ts, FileText true a ts ∧ Steps s ts s' := by
  unfold parseFile parseDocumentType at h
  run_at h
  obtain ⟨_, s1, h1, dt, s2, ⟨_, s3, h3, _, s4, h4, t, s5, h5, h⟩, hrun⟩ := h
  split at h
  · unfold parseDomainHeader at h
    run_at h
    obtain ⟨name, s6, h6, _, s7, h7, rfl, rfl⟩ := h
    simp only at hrun
    run_at hrun
    obtain ⟨d, s8, h8, rfl, rfl⟩ := hrun
    rw [← domainOf_nil] at h8
    obtain ⟨bs, ts, rfl, hb, hs⟩ := parseDomain_sound _ _ _ _ _ h8
    exact ⟨_, .domain hb, .tok h1 (.tok h3 (.tok h4 (.tok h5 (.tok h6 (.tok h7 hs)))))⟩
  · unfold parseProblemHeader at h
    run_at h
    obtain ⟨name, s6, h6, _, s7, h7, _, s8, h8, _, s9, h9, dname, s10, h10, _, s11, h11, rfl, rfl⟩ := h
    simp only at hrun
    run_at hrun
    obtain ⟨d, s12, h12, rfl, rfl⟩ := hrun
    rw [← problemOf_nil] at h12
    obtain ⟨bs, ts, rfl, hb, hs⟩ := parseProblem_sound _ _ _ _ _ h12
    exact ⟨_, .problem hb, .tok h1 (.tok h3 (.tok h4 (.tok h5 (.tok h6 (.tok h7 (.tok h8 (.tok h9 (.tok h10
      (.tok h11 hs)))))))))⟩
  · run_at h

/-- Every accepted file is in the lenient grammar. -/
theorem parse_sound {n file a} (h : parse n file = .ok a) :
    ∃ ts s', FileText true a ts ∧ Steps (LexState.init file) ts s' := by
  unfold parse at h
  split at h
  · cases h
    obtain ⟨ts, hf, hs⟩ := parseFile_sound (by assumption)
    exact ⟨ts, _, hf, hs⟩
  all_goals cases h

end Verif
