import Verif.Proofs.Stack

/-! The depth of the recursion of the parser and the height of the formulas it returns. -/

namespace Verif

open Spec Deep

section
variable {α β : Type} {s : LexState} {d : Nat}

theorem Deep.bind_ok {x : Deep α} {f : α → Deep β} {r : β × LexState} :
    (x >>= f) s = (.ok r, d) ↔
      ∃ a s1 d1 d2, x s = (.ok (a, s1), d1) ∧ f a s1 = (.ok r, d2) ∧ d = max d1 d2 := by
  show Deep.bind' x f s = _ ↔ _
  unfold Deep.bind'
  rcases x s with ⟨⟨a, s1⟩ | _ | _ | _, d1⟩ <;> simp only [Prod.mk.injEq, reduceCtorEq, false_and, exists_false]
  constructor
  · rintro ⟨h1, rfl⟩
    exact ⟨a, s1, d1, _, ⟨rfl, rfl⟩, Prod.ext h1 rfl, rfl⟩
  · rintro ⟨a', s1', d1', d2, ⟨h1, rfl⟩, h2, rfl⟩
    cases h1
    rw [h2]
    exact ⟨rfl, rfl⟩

theorem Deep.flat_ok {p : P α} {r : α × LexState} : flat p s = (.ok r, d) ↔ p s = .ok r ∧ d = 0 := by
  simp [flat, eq_comm]

theorem Deep.pure_ok {a : α} {r : α × LexState} : (pure a : Deep α) s = (.ok r, d) ↔ r = (a, s) ∧ d = 0 := by
  show Deep.pure' a s = _ ↔ _
  simp [Deep.pure', eq_comm]

theorem Deep.call_ok {x : Deep α} {r : α × LexState} : call x s = (.ok r, d) ↔ ∃ d', x s = (.ok r, d') ∧ d = d' + 1 := by
  unfold call
  constructor
  · intro h
    cases hx : x s
    rw [hx] at h
    cases h
    exact ⟨_, rfl, rfl⟩
  · rintro ⟨d', h, rfl⟩
    rw [h]

end

/-- Take a successful run apart. -/
macro "deep_at" h:ident : tactic => `(tactic| simp only [Deep.bind_ok, Deep.flat_ok, Deep.pure_ok, Prod.mk.injEq,
  P.timeout_ok, P.panic_ok, synErr_ok, false_and] at $h:ident)

/-- The depth `d` and formulas parsed one after the other. -/
def Measures (d : Nat) (fs : List Formula) : Prop := (∀ f ∈ fs, height f + 1 ≤ d) ∧ (d ≤ 1 ∨ ∃ f ∈ fs, d ≤ height f + 2)

theorem heightOver_le {k : Nat} : ∀ {fs : List Formula}, heightOver fs ≤ k ↔ ∀ f ∈ fs, height f + 1 ≤ k
  | [] => by simp [heightOver]
  | f :: fs => by
    rw [heightOver, Nat.max_le, heightOver_le (fs := fs)]
    simp

theorem height_lt_over {f : Formula} {fs : List Formula} (h : f ∈ fs) : height f + 1 ≤ heightOver fs :=
  heightOver_le.1 (Nat.le_refl _) f h

theorem Measures.over {d : Nat} {fs : List Formula} (h : Measures d fs) :
    heightOver fs + 1 ≤ d + 1 ∧ d + 1 ≤ heightOver fs + 2 := by
  refine ⟨Nat.succ_le_succ (heightOver_le.2 h.1), ?_⟩
  rcases h.2 with h | ⟨f, hf, h⟩
  · omega
  · have := height_lt_over hf
    omega

theorem Measures.cons {d d' : Nat} {f g : Formula} {fs : List Formula} (h : Measures d fs)
    (h' : height f + 1 ≤ d' ∧ d' ≤ height f + 2) (he : height f = height g) : Measures (max d' d) (g :: fs) := by
  constructor
  · intro x hx
    rcases List.mem_cons.1 hx with rfl | hx
    · omega
    · have := h.1 x hx
      omega
  · rcases Nat.le_total d d' with hd | hd
    · exact .inr ⟨g, List.mem_cons_self, by omega⟩
    · rcases h.2 with h2 | ⟨x, hx, h2⟩
      · exact .inl (by omega)
      · exact .inr ⟨x, List.mem_cons_of_mem _ hx, by omega⟩

variable [Env]

theorem formula_measures : ∀ n,
    (∀ s f s' d, parseFormulaD n s = (.ok (f, s'), d) → height f + 1 ≤ d ∧ d ≤ height f + 2 ∧ (f = .empty → d = 1)) ∧
    (∀ acc s r s' d, parseFormulasD n acc s = (.ok (r, s'), d) → ∃ fs, r = acc ++ fs ∧ Measures d fs) ∧
    (∀ acc s r s' d, parseBranchesD n acc s = (.ok (r, s'), d) → ∃ fs, r = acc ++ fs ∧ Measures d fs)
  | 0 => by
    refine ⟨fun s f s' d h => ?_, fun acc s r s' d h => ?_, fun acc s r s' d h => ?_⟩
    · rw [parseFormulaD, Deep.call_ok] at h
      obtain ⟨_, h, _⟩ := h
      deep_at h
    · rw [parseFormulasD] at h
      deep_at h
    · rw [parseBranchesD] at h
      deep_at h
  | n + 1 => by
    obtain ⟨ih1, ih2, ih3⟩ := formula_measures n
    refine ⟨fun s f s' d h => ?_, fun acc s r s' d h => ?_, fun acc s r s' d h => ?_⟩
    · rw [parseFormulaD, Deep.call_ok] at h
      obtain ⟨d, h, rfl⟩ := h
      rw [Deep.bind_ok] at h
      obtain ⟨t, s1, d1, d2, h1, h, rfl⟩ := h
      rw [Deep.flat_ok] at h1
      obtain ⟨_, rfl⟩ := h1
      rw [Nat.zero_max]
      split at h
      · deep_at h
        obtain ⟨⟨rfl, rfl⟩, rfl⟩ := h
        simp [height]
      · rw [Deep.bind_ok] at h
        obtain ⟨t, s1, d1, d2, h1, h, rfl⟩ := h
        rw [Deep.flat_ok] at h1
        obtain ⟨_, rfl⟩ := h1
        rw [Nat.zero_max]
        split at h
        · deep_at h
          obtain ⟨g, s2, d1, d2, h2, ⟨_, s3, _, d3, ⟨_, rfl⟩, ⟨⟨rfl, rfl⟩, rfl⟩, rfl⟩, rfl⟩ := h
          have := ih1 _ _ _ _ h2
          simp only [height, reduceCtorEq, false_implies, and_true]
          omega
        · deep_at h
          obtain ⟨g, s2, d1, d2, h2, ⟨⟨rfl, rfl⟩, rfl⟩, rfl⟩ := h
          obtain ⟨fs, h3, h4⟩ := ih2 _ _ _ _ _ h2
          rw [List.nil_append] at h3
          subst h3
          simpa [height] using h4.over
        · deep_at h
          obtain ⟨g, s2, d1, d2, h2, ⟨⟨rfl, rfl⟩, rfl⟩, rfl⟩ := h
          obtain ⟨fs, h3, h4⟩ := ih2 _ _ _ _ _ h2
          rw [List.nil_append] at h3
          subst h3
          simpa [height] using h4.over
        · deep_at h
          obtain ⟨g, s2, d1, d2, h2, ⟨⟨rfl, rfl⟩, rfl⟩, rfl⟩ := h
          obtain ⟨fs, h3, h4⟩ := ih2 _ _ _ _ _ h2
          rw [List.nil_append] at h3
          subst h3
          simpa [height] using h4.over
        · deep_at h
          obtain ⟨_, _, _, _, ⟨_, rfl⟩, ⟨_, _, _, _, ⟨_, rfl⟩, ⟨_, _, _, _, ⟨_, rfl⟩, ⟨⟨rfl, rfl⟩, rfl⟩, rfl⟩, rfl⟩, rfl⟩ := h
          simp [height]
        · deep_at h
          obtain ⟨_, _, _, _, ⟨_, rfl⟩, ⟨_, _, _, _, ⟨_, rfl⟩, ⟨_, _, _, _, h2, ⟨_, _, _, _, ⟨_, rfl⟩, ⟨⟨rfl, rfl⟩, rfl⟩, rfl⟩, rfl⟩,
            rfl⟩, rfl⟩ := h
          have := ih1 _ _ _ _ h2
          simp only [height, reduceCtorEq, false_implies, and_true]
          omega
        · deep_at h
          obtain ⟨_, _, _, _, ⟨_, rfl⟩, ⟨_, _, _, _, ⟨_, rfl⟩, ⟨_, _, _, _, h2, ⟨_, _, _, _, ⟨_, rfl⟩, ⟨⟨rfl, rfl⟩, rfl⟩, rfl⟩, rfl⟩,
            rfl⟩, rfl⟩ := h
          have := ih1 _ _ _ _ h2
          simp only [height, reduceCtorEq, false_implies, and_true]
          omega
        · deep_at h
          obtain ⟨g, s2, d1, d2, h2, ⟨⟨rfl, rfl⟩, rfl⟩, rfl⟩ := h
          obtain ⟨fs, h3, h4⟩ := ih3 _ _ _ _ _ h2
          rw [List.nil_append] at h3
          subst h3
          simpa [height] using h4.over
        · deep_at h
          obtain ⟨_, _, _, _, ⟨_, rfl⟩, ⟨_, _, _, _, ⟨_, rfl⟩, ⟨⟨rfl, rfl⟩, rfl⟩, rfl⟩, rfl⟩ := h
          simp [height]
        · deep_at h
          obtain ⟨⟨rfl, rfl⟩, rfl⟩ := h
          simp [height]
        · deep_at h
      · deep_at h
    · rw [parseFormulasD, Deep.bind_ok] at h
      obtain ⟨f, s1, d1, d2, h1, h, rfl⟩ := h
      have h2 := ih1 _ _ _ _ h1
      split at h
      · deep_at h
        obtain ⟨⟨rfl, rfl⟩, rfl⟩ := h
        have hf : f = .empty := by cases f <;> first | rfl | cases ‹_ = true›
        have := h2.2.2 hf
        exact ⟨[], by simp, by simp, .inl (by omega)⟩
      · obtain ⟨fs, rfl, h3⟩ := ih2 _ _ _ _ _ h
        exact ⟨f :: fs, by simp, h3.cons ⟨h2.1, h2.2.1⟩ rfl⟩
    · rw [parseBranchesD, Deep.bind_ok] at h
      obtain ⟨t, s1, d1, d2, h1, h, rfl⟩ := h
      rw [Deep.flat_ok] at h1
      obtain ⟨_, rfl⟩ := h1
      rw [Nat.zero_max]
      split at h
      · deep_at h
        obtain ⟨⟨rfl, rfl⟩, rfl⟩ := h
        exact ⟨[], by simp, by simp, .inl (by omega)⟩
      · rw [Deep.bind_ok] at h
        obtain ⟨f, s1, d1, d2, h1, h, rfl⟩ := h
        have h2 := ih1 _ _ _ _ h1
        split at h
        · deep_at h
        · obtain ⟨fs, rfl, h3⟩ := ih3 _ _ _ _ _ h
          rename_i _ w _ _
          exact ⟨.weighted w f :: fs, by simp, h3.cons ⟨h2.1, h2.2.1⟩ (by simp [height])⟩
      · deep_at h

omit [Env] in
theorem erase_ok {α} {x : Deep α} {s : LexState} {r : α × LexState} (h : erase x s = .ok r) : x s = (.ok r, (x s).2) :=
  Prod.ext h rfl

theorem formula_measure {n s f s' d} (h : parseFormulaD n s = (.ok (f, s'), d)) : height f + 1 ≤ d ∧ d ≤ height f + 2 :=
  let h := (formula_measures n).1 _ _ _ _ h
  ⟨h.1, h.2.1⟩

/-- The depth `d` and all formulas that were parsed. -/
def Covers (d : Nat) (fs : List Formula) : Prop := (∀ f ∈ fs, height f + 1 ≤ d) ∧ (d = 0 ∨ ∃ f ∈ fs, d ≤ height f + 2)

omit [Env] in
theorem Covers.nil : Covers 0 [] := ⟨by simp, .inl rfl⟩

omit [Env] in
theorem Covers.one {d : Nat} {f : Formula} (h : height f + 1 ≤ d ∧ d ≤ height f + 2) : Covers d [f] :=
  ⟨by simpa using h.1, .inr ⟨f, by simp, h.2⟩⟩

omit [Env] in
theorem Covers.append {d d' : Nat} {fs fs' : List Formula} (h : Covers d fs) (h' : Covers d' fs') :
    Covers (max d d') (fs ++ fs') := by
  constructor
  · intro f hf
    rcases List.mem_append.1 hf with hf | hf
    · have := h.1 f hf; omega
    · have := h'.1 f hf; omega
  · rcases Nat.le_total d d' with hd | hd
    · rw [Nat.max_eq_right hd]
      rcases h'.2 with h | ⟨f, hf, h⟩
      · exact .inl h
      · exact .inr ⟨f, by simp [hf], h⟩
    · rw [Nat.max_eq_left hd]
      rcases h.2 with h | ⟨f, hf, h⟩
      · exact .inl h
      · exact .inr ⟨f, by simp [hf], h⟩

omit [Env] in
theorem Covers.perm {d : Nat} {fs fs' : List Formula} (h : Covers d fs) (hp : ∀ f, f ∈ fs ↔ f ∈ fs') : Covers d fs' :=
  ⟨fun f hf => h.1 f ((hp f).2 hf), h.2.imp id fun ⟨f, hf, h⟩ => ⟨f, (hp f).1 hf, h⟩⟩

theorem action_measure {n s a s' d} (h : parseActionD n s = (.ok (a, s'), d)) :
    Covers d (a.pre.toList ++ a.eff.toList) := by
  unfold parseActionD at h
  rw [Deep.bind_ok] at h
  obtain ⟨t, s1, d1, d2, h1, h, rfl⟩ := h
  rw [Deep.flat_ok] at h1
  obtain ⟨_, rfl⟩ := h1
  rw [Nat.zero_max]
  rw [Deep.bind_ok] at h
  obtain ⟨pre, s2, d1, d2, h1, h, rfl⟩ := h
  have hp : Covers d1 pre.toList := by
    rw [Deep.bind_ok] at h1
    obtain ⟨t, s1, d1, d2, h3, h1, rfl⟩ := h1
    rw [Deep.flat_ok] at h3
    obtain ⟨_, rfl⟩ := h3
    rw [Nat.zero_max]
    split at h1 <;> deep_at h1
    · obtain ⟨_, _, _, _, ⟨_, rfl⟩, ⟨_, _, _, _, h2, ⟨⟨rfl, rfl⟩, rfl⟩, rfl⟩, rfl⟩ := h1
      simpa using Covers.one (formula_measure h2)
    · obtain ⟨⟨rfl, rfl⟩, rfl⟩ := h1
      exact .nil
    · obtain ⟨⟨rfl, rfl⟩, rfl⟩ := h1
      exact .nil
  rw [Deep.bind_ok] at h
  obtain ⟨eff, s3, d1, d2, h1, h, rfl⟩ := h
  have he : Covers d1 eff.toList := by
    rw [Deep.bind_ok] at h1
    obtain ⟨t, s1, d1, d2, h3, h1, rfl⟩ := h1
    rw [Deep.flat_ok] at h3
    obtain ⟨_, rfl⟩ := h3
    rw [Nat.zero_max]
    split at h1 <;> deep_at h1
    · obtain ⟨_, _, _, _, ⟨_, rfl⟩, ⟨_, _, _, _, h2, ⟨⟨rfl, rfl⟩, rfl⟩, rfl⟩, rfl⟩ := h1
      simpa using Covers.one (formula_measure h2)
    · obtain ⟨⟨rfl, rfl⟩, rfl⟩ := h1
      exact .nil
  deep_at h
  obtain ⟨_, _, _, _, ⟨_, rfl⟩, ⟨⟨rfl, rfl⟩, rfl⟩, rfl⟩ := h
  simpa using hp.append he

theorem method_measure {n s m s' d} (h : parseMethodD n s = (.ok (m, s'), d)) : Covers d m.pre.toList := by
  unfold parseMethodD at h
  iterate 11
    rw [Deep.bind_ok] at h
    obtain ⟨_, _, _, _, h1, h, rfl⟩ := h
    rw [Deep.flat_ok] at h1
    obtain ⟨_, rfl⟩ := h1
    rw [Nat.zero_max]
  split at h <;> deep_at h
  · obtain ⟨_, _, _, _, ⟨_, rfl⟩, ⟨_, _, _, _, h2, ⟨_, _, _, _, ⟨_, rfl⟩, ⟨⟨rfl, rfl⟩, rfl⟩, rfl⟩, rfl⟩, rfl⟩ := h
    simpa using Covers.one (formula_measure h2)
  · obtain ⟨_, _, _, _, ⟨_, rfl⟩, ⟨⟨rfl, rfl⟩, rfl⟩, rfl⟩ := h
    exact .nil
  · obtain ⟨_, _, _, _, ⟨_, rfl⟩, ⟨⟨rfl, rfl⟩, rfl⟩, rfl⟩ := h
    exact .nil

theorem domain_measure {name : Name} : ∀ {n dm s dm' s' d}, parseDomainD name n dm s = (.ok (dm', s'), d) →
    ∃ fs, Covers d fs ∧ ∀ f, f ∈ formulasOf (.domain dm') ↔ f ∈ formulasOf (.domain dm) ∨ f ∈ fs := by
  intro n
  induction n with
  | zero => intro dm s dm' s' d h; rw [parseDomainD] at h; deep_at h
  | succ n ih =>
    intro dm s dm' s' d h
    rw [parseDomainD, Deep.bind_ok] at h
    obtain ⟨_, _, _, _, h1, h, rfl⟩ := h
    rw [Deep.flat_ok] at h1
    obtain ⟨_, rfl⟩ := h1
    rw [Nat.zero_max]
    split at h
    · rw [Deep.bind_ok] at h
      obtain ⟨_, _, _, _, h1, h, rfl⟩ := h
      rw [Deep.flat_ok] at h1
      obtain ⟨_, rfl⟩ := h1
      rw [Nat.zero_max]
      split at h <;> deep_at h
      · obtain ⟨_, _, _, _, ⟨_, rfl⟩, h, rfl⟩ := h
        have := ih h
        exact this
      · obtain ⟨_, _, _, _, ⟨_, rfl⟩, h, rfl⟩ := h
        have := ih h
        exact this
      · obtain ⟨_, _, _, _, ⟨_, rfl⟩, ⟨_, _, _, _, ⟨_, rfl⟩, h, rfl⟩, rfl⟩ := h
        have := ih h
        exact this
      · obtain ⟨m, _, _, _, h1, h, rfl⟩ := h
        obtain ⟨fs, h2, h3⟩ := ih h
        refine ⟨_, (method_measure h1).append h2, fun f => (h3 f).trans ?_⟩
        simp only [formulasOf, List.mem_append, List.flatMap_append, List.flatMap_cons, List.flatMap_nil, List.append_nil]
        tauto
      · obtain ⟨a, _, _, _, h1, h, rfl⟩ := h
        obtain ⟨fs, h2, h3⟩ := ih h
        refine ⟨_, (action_measure h1).append h2, fun f => (h3 f).trans ?_⟩
        simp only [formulasOf, List.mem_append, List.flatMap_append, List.flatMap_cons, List.flatMap_nil, List.append_nil]
        tauto
      · obtain ⟨_, _, _, _, ⟨_, rfl⟩, h, rfl⟩ := h
        have := ih h
        exact this
      · obtain ⟨_, _, _, _, ⟨_, rfl⟩, h, rfl⟩ := h
        have := ih h
        exact this
      · obtain ⟨_, _, _, _, ⟨_, rfl⟩, h, rfl⟩ := h
        have := ih h
        exact this
    · deep_at h
      obtain ⟨⟨rfl, rfl⟩, rfl⟩ := h
      exact ⟨[], .nil, by simp⟩
    · deep_at h

theorem problem_measure : ∀ {n p s p' s' d}, parseProblemD n p s = (.ok (p', s'), d) →
    ∀ f ∈ formulasOf (.problem p'), f ∈ formulasOf (.problem p) ∨ height f + 1 ≤ d := by
  intro n
  induction n with
  | zero => intro p s p' s' d h; rw [parseProblemD] at h; deep_at h
  | succ n ih =>
    intro p s p' s' d h
    rw [parseProblemD, Deep.bind_ok] at h
    obtain ⟨_, _, _, _, h1, h, rfl⟩ := h
    rw [Deep.flat_ok] at h1
    obtain ⟨_, rfl⟩ := h1
    rw [Nat.zero_max]
    split at h
    · rw [Deep.bind_ok] at h
      obtain ⟨_, _, _, _, h1, h, rfl⟩ := h
      rw [Deep.flat_ok] at h1
      obtain ⟨_, rfl⟩ := h1
      rw [Nat.zero_max]
      split at h <;> deep_at h
      · obtain ⟨_, _, _, _, ⟨_, rfl⟩, h, rfl⟩ := h
        have := ih h
        exact this
      · obtain ⟨_, _, _, _, ⟨_, rfl⟩, ⟨_, _, _, _, ⟨_, rfl⟩, h, rfl⟩, rfl⟩ := h
        have := ih h
        exact this
      · obtain ⟨_, _, _, _, ⟨_, rfl⟩, h, rfl⟩ := h
        have := ih h
        exact this
      · obtain ⟨g, _, _, _, h1, h, rfl⟩ := h
        intro f hf
        have h2 := formula_measure h1
        rcases ih h f hf with h3 | h3
        · simp only [formulasOf, Option.toList_some, List.mem_singleton] at h3
          subst h3
          exact .inr (by omega)
        · exact .inr (by omega)
      · obtain ⟨_, _, _, _, ⟨_, rfl⟩, h, rfl⟩ := h
        have := ih h
        exact this
    · deep_at h
      obtain ⟨⟨rfl, rfl⟩, rfl⟩ := h
      exact fun f hf => .inl hf
    · deep_at h
      obtain ⟨⟨rfl, rfl⟩, rfl⟩ := h
      exact fun f hf => .inl hf
    · deep_at h

theorem parse_ok_file {n : Nat} {f : Bytes} {a : AST} : parse n f = .ok a ↔ ∃ s', parseFile n (LexState.init f) = .ok (a, s') := by
  unfold parse
  rcases parseFile n (LexState.init f) with ⟨a', s'⟩ | _ | _ | _ <;> simp

/-- The formulas of a file that is parsed are less high than the recursion is deep, and for a domain the depth is not
more than one above that. -/
theorem parseDepth_height {n : Nat} {f : Bytes} {a : AST} (h : parse n f = .ok a) :
    (∀ x ∈ formulasOf a, height x + 1 ≤ parseDepth n f) ∧
    ∀ d, a = .domain d → parseDepth n f = 0 ∨ ∃ x ∈ formulasOf a, parseDepth n f ≤ height x + 2 := by
  obtain ⟨s', h⟩ := parse_ok_file.1 h
  rw [← erase_file] at h
  have h := erase_ok h
  change _ = (_, parseDepth n f) at h
  generalize parseDepth n f = k at h
  unfold parseFileD at h
  iterate 2
    rw [Deep.bind_ok] at h
    obtain ⟨_, _, _, _, h1, h, rfl⟩ := h
    rw [Deep.flat_ok] at h1
    obtain ⟨_, rfl⟩ := h1
    rw [Nat.zero_max]
  split at h <;> deep_at h
  · obtain ⟨d, _, _, _, h1, ⟨⟨rfl, rfl⟩, rfl⟩, rfl⟩ := h
    rw [Nat.max_zero]
    obtain ⟨fs, h2, h3⟩ := domain_measure h1
    have h4 := h2.perm (fs' := formulasOf (.domain d)) fun x => by
      rw [h3 x]
      simp [formulasOf, DomainAST.new]
    exact ⟨h4.1, fun _ _ => h4.2⟩
  · obtain ⟨d, _, _, _, h1, ⟨⟨rfl, rfl⟩, rfl⟩, rfl⟩ := h
    rw [Nat.max_zero]
    refine ⟨fun x hx => ?_, fun _ h => by cases h⟩
    rcases problem_measure h1 x hx with h | h
    · simp [formulasOf, ProblemAST.new] at h
    · exact h

end Verif
