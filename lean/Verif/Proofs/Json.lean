import Verif.Model.Api

/-! The JSON value determines the syntax tree. -/

namespace Verif

theorem map_inj {α β} {f : α → β} : ∀ {l l' : List α}, (∀ a ∈ l, ∀ b, f a = f b → a = b) → l.map f = l'.map f → l = l'
  | [], [], _, _ => rfl
  | [], _ :: _, _, h => by simp at h
  | _ :: _, [], _, h => by simp at h
  | a :: l, b :: l', hf, h => by
    rw [List.map_cons, List.map_cons, List.cons.injEq] at h
    rw [hf a List.mem_cons_self b h.1, map_inj (fun a ha => hf a (List.mem_cons_of_mem _ ha)) h.2]

theorem map_inj' {α β} {f : α → β} (hf : ∀ a b, f a = f b → a = b) {l l' : List α} (h : l.map f = l'.map f) : l = l' :=
  map_inj (fun a _ b => hf a b) h

theorem jOpt_inj {α} {f : α → Json} (hf : ∀ a b, f a = f b → a = b) (hn : ∀ a, f a ≠ .null) {a b : Option α}
    (h : jOpt f a = jOpt f b) : a = b := by
  cases a <;> cases b
  · rfl
  · exact absurd h.symm (hn _)
  · exact absurd h (hn _)
  · rw [hf _ _ h]

theorem jPos_inj {a b : Nat} (h : jPos a = jPos b) : a = b := by simpa [jPos] using h

theorem jSymbol_inj {a b : Symbol} (h : jSymbol a = jSymbol b) : a = b := by
  obtain ⟨n, p, t, q⟩ := a
  obtain ⟨n', p', t', q'⟩ := b
  cases t <;> cases q <;> cases t' <;> cases q' <;> simp_all [jSymbol, jPos]

theorem jSymbols_inj {a b : List Symbol} (h : jSymbols a = jSymbols b) : a = b := by
  simp only [jSymbols, Json.arr.injEq] at h
  exact map_inj' (fun _ _ => jSymbol_inj) h

theorem jPredicate_inj {a b : Predicate} (h : jPredicate a = jPredicate b) : a = b := by
  obtain ⟨n, p, v⟩ := a
  obtain ⟨n', p', v'⟩ := b
  simp only [jPredicate, Json.obj.injEq, List.cons.injEq, Prod.mk.injEq, Json.str.injEq, true_and, and_true] at h
  obtain ⟨rfl, h2, h3⟩ := h
  cases jPos_inj h2
  cases jSymbols_inj h3
  rfl

theorem jNum_inj {a b : Num} (h : jNum a = jNum b) : a = b := by
  cases a <;> cases b <;> simp_all [jNum]

mutual

theorem jFormula_inj : ∀ {a b : Formula}, jFormula a = jFormula b → a = b
  | .empty, b, h => by cases b <;> simp_all [jFormula]
  | .atom p, b, h => by
    cases b <;> simp only [jFormula, Json.obj.injEq, List.cons.injEq, Prod.mk.injEq, reduceCtorEq, and_true, true_and] at h <;>
      try (exact absurd h.1 (by decide))
    rw [jPredicate_inj h]
  | .not f, b, h => by
    cases b <;> simp only [jFormula, Json.obj.injEq, List.cons.injEq, Prod.mk.injEq, reduceCtorEq, and_true, true_and] at h <;>
      try (exact absurd h.1 (by decide))
    rw [jFormula_inj h]
  | .and fs, b, h => by
    cases b <;> simp only [jFormula, Json.obj.injEq, List.cons.injEq, Prod.mk.injEq, reduceCtorEq, and_true, true_and, Json.arr.injEq] at h <;>
      try (exact absurd h.1 (by decide))
    rw [jFormulas_inj h]
  | .or fs, b, h => by
    cases b <;> simp only [jFormula, Json.obj.injEq, List.cons.injEq, Prod.mk.injEq, reduceCtorEq, and_true, true_and, Json.arr.injEq] at h <;>
      try (exact absurd h.1 (by decide))
    rw [jFormulas_inj h]
  | .xor fs, b, h => by
    cases b <;> simp only [jFormula, Json.obj.injEq, List.cons.injEq, Prod.mk.injEq, reduceCtorEq, and_true, true_and, Json.arr.injEq] at h <;>
      try (exact absurd h.1 (by decide))
    rw [jFormulas_inj h]
  | .imply ps qs, b, h => by
    cases b <;> simp only [jFormula, Json.obj.injEq, List.cons.injEq, Prod.mk.injEq, reduceCtorEq, and_true, true_and, Json.arr.injEq] at h <;>
      try (exact absurd h.1 (by decide))
    rw [jFormulas_inj h.1, jFormulas_inj h.2]
  | .exists_ vs f, b, h => by
    cases b <;> simp only [jFormula, Json.obj.injEq, List.cons.injEq, Prod.mk.injEq, reduceCtorEq, and_true, true_and, Json.arr.injEq] at h <;>
      try (exact absurd h.1 (by decide))
    rw [jSymbols_inj h.1, jFormula_inj h.2]
  | .forall_ vs f, b, h => by
    cases b <;> simp only [jFormula, Json.obj.injEq, List.cons.injEq, Prod.mk.injEq, reduceCtorEq, and_true, true_and, Json.arr.injEq] at h <;>
      try (exact absurd h.1 (by decide))
    rw [jSymbols_inj h.1, jFormula_inj h.2]
  | .weighted w f, b, h => by
    cases b <;> simp only [jFormula, Json.obj.injEq, List.cons.injEq, Prod.mk.injEq, reduceCtorEq, and_true, true_and, Json.arr.injEq] at h <;>
      try (exact absurd h.1 (by decide))
    rw [jNum_inj h.1, jFormula_inj h.2]
  | .equals x y, b, h => by
    cases b <;> simp only [jFormula, Json.obj.injEq, List.cons.injEq, Prod.mk.injEq, reduceCtorEq, and_true, true_and, Json.arr.injEq,
      Json.str.injEq] at h <;>
      try (exact absurd h.1 (by decide))
    rw [h.1, h.2]

theorem jFormulas_inj : ∀ {a b : List Formula}, jFormulas a = jFormulas b → a = b
  | [], [], _ => rfl
  | [], _ :: _, h => by simp [jFormulas] at h
  | _ :: _, [], h => by simp [jFormulas] at h
  | a :: l, b :: l', h => by
    simp only [jFormulas, List.cons.injEq] at h
    rw [jFormula_inj h.1, jFormulas_inj h.2]

end

theorem jFormula_ne (f : Formula) : jFormula f ≠ .null := by cases f <;> simp [jFormula]

theorem jTask_inj {a b : Task} (h : jTask a = jTask b) : a = b := by
  obtain ⟨n, p, v⟩ := a
  obtain ⟨n', p', v'⟩ := b
  simp only [jTask, Json.obj.injEq, List.cons.injEq, Prod.mk.injEq, Json.str.injEq, true_and, and_true] at h
  obtain ⟨rfl, h2, h3⟩ := h
  cases jPos_inj h2
  cases jSymbols_inj h3
  rfl

theorem jOptFormula_inj {a b : Option Formula} (h : jOpt jFormula a = jOpt jFormula b) : a = b :=
  jOpt_inj (fun _ _ => jFormula_inj) jFormula_ne h

theorem jAction_inj {a b : Action} (h : jAction a = jAction b) : a = b := by
  cases a; cases b
  simp only [jAction, Json.obj.injEq, List.cons.injEq, Prod.mk.injEq, Json.str.injEq, true_and, and_true] at h
  obtain ⟨rfl, h2, h3, h4, h5⟩ := h
  cases jPos_inj h2
  cases jSymbols_inj h3
  cases jOptFormula_inj h4
  cases jOptFormula_inj h5
  rfl

theorem jSubtask_inj {a b : Subtask} (h : jSubtask a = jSubtask b) : a = b := by
  cases a; cases b
  simp only [jSubtask, Json.obj.injEq, List.cons.injEq, Prod.mk.injEq, true_and, and_true] at h
  obtain ⟨h1, h2, h3⟩ := h
  cases jOpt_inj (fun _ _ => jSymbol_inj) (fun a => by simp [jSymbol]) h1
  cases jSymbol_inj h2
  cases jSymbols_inj h3
  rfl

theorem jConstraint_inj {a b : Constraint} (h : jConstraint a = jConstraint b) : a = b := by
  cases a <;> cases b <;> simp_all [jConstraint]

theorem jOrdering_inj {a b : Ordering} (h : jOrdering a = jOrdering b) : a = b := by
  cases a <;> cases b <;> simp only [jOrdering, reduceCtorEq, Json.obj.injEq, List.cons.injEq, Prod.mk.injEq, true_and, and_true,
    Json.arr.injEq] at h ⊢
  rw [map_inj' (f := fun e : Name × Name => Json.arr [.str e.1, .str e.2]) ?_ h]
  rintro ⟨a, b⟩ ⟨c, d⟩ h
  simp_all

theorem jHtn_inj {a b : HTN} (h : jHtn a = jHtn b) : a = b := by
  cases a; cases b
  simp only [jHtn, Json.obj.injEq, List.cons.injEq, Prod.mk.injEq, true_and, and_true, Json.arr.injEq] at h
  obtain ⟨h1, h2, h3, h4⟩ := h
  cases map_inj' (fun _ _ => jSubtask_inj) h1
  cases jOpt_inj (fun _ _ => jPos_inj) (fun a => by simp [jPos]) h2
  cases jOrdering_inj h3
  have := jOpt_inj (f := fun l : List Constraint => Json.arr (l.map jConstraint))
    (fun a b h => map_inj' (fun _ _ => jConstraint_inj) (by simpa using h)) (fun a => by simp) h4
  cases this
  rfl

theorem jInitTn_inj {a b : InitTN} (h : jInitTn a = jInitTn b) : a = b := by
  cases a; cases b
  simp only [jInitTn, Json.obj.injEq, List.cons.injEq, Prod.mk.injEq, true_and, and_true] at h
  cases jOpt_inj (fun _ _ => jSymbols_inj) (fun a => by simp [jSymbols]) h.1
  cases jHtn_inj h.2
  rfl

theorem jMethod_inj {a b : Method} (h : jMethod a = jMethod b) : a = b := by
  cases a; cases b
  simp only [jMethod, Json.obj.injEq, List.cons.injEq, Prod.mk.injEq, true_and, and_true] at h
  obtain ⟨h1, h2, h3, h4, h5, h6⟩ := h
  cases jSymbol_inj h1
  cases jSymbol_inj h2
  cases jSymbols_inj h3
  cases jSymbols_inj h4
  cases jOptFormula_inj h5
  cases jHtn_inj h6
  rfl

theorem jReq_inj {a b : Req} (h : jReq a = jReq b) : a = b := by
  cases a <;> cases b <;> first | rfl | (simp only [jReq, Json.str.injEq] at h; exact absurd h (by decide))

theorem jOptSymbols_inj {a b : Option (List Symbol)} (h : jOpt jSymbols a = jOpt jSymbols b) : a = b :=
  jOpt_inj (fun _ _ => jSymbols_inj) (fun a => by simp [jSymbols]) h

theorem jDomain_inj {a b : DomainAST} (h : jDomain a = jDomain b) : a = b := by
  cases a; cases b
  simp only [jDomain, Json.obj.injEq, List.cons.injEq, Prod.mk.injEq, true_and, and_true, Json.arr.injEq, Json.str.injEq] at h
  obtain ⟨rfl, h2, h3, h4, h5, h6, h7, h8, h9⟩ := h
  cases jOptSymbols_inj h2
  cases jOptSymbols_inj h3
  cases map_inj' (fun _ _ => jReq_inj) h4
  cases map_inj' (fun _ _ => jPredicate_inj) h5
  cases map_inj' (fun _ _ => jTask_inj) h6
  cases map_inj' (fun _ _ => jMethod_inj) h7
  cases map_inj' (fun _ _ => jAction_inj) h8
  cases map_inj' (fun _ _ => jPredicate_inj) h9
  rfl

theorem jProblem_inj {a b : ProblemAST} (h : jProblem a = jProblem b) : a = b := by
  cases a; cases b
  simp only [jProblem, Json.obj.injEq, List.cons.injEq, Prod.mk.injEq, true_and, and_true, Json.arr.injEq] at h
  obtain ⟨h1, h2, h3, h4, h5⟩ := h
  cases map_inj' (fun _ _ => jReq_inj) h1
  cases jOpt_inj (fun _ _ => jInitTn_inj) (fun a => by simp [jInitTn]) h2
  cases map_inj' (fun _ _ => jPredicate_inj) h3
  cases jOptFormula_inj h4
  cases jSymbols_inj h5
  rfl

end Verif
