import Verif.Proofs.Stack
import Verif.Proofs.Fuel

/-! A larger budget does not change the depth of the recursion of the parser, once it suffices to finish. -/

namespace Verif

open Deep

/-- `x` and `y` agree wherever `x` does not run out of budget; and where it does, it was not deeper than `y`. -/
structure Deep.Le {α} (x y : Deep α) : Prop where
  run : ∀ s, (x s).1 = .timeout ∨ x s = y s
  depth : ∀ s, (x s).2 ≤ (y s).2

theorem Deep.Le.refl {α} (x : Deep α) : Deep.Le x x := ⟨fun _ => .inr rfl, fun _ => Nat.le_refl _⟩

theorem Deep.Le.timeout {α} (x : Deep α) : Deep.Le (flat P.timeout) x := ⟨fun _ => .inl rfl, fun _ => Nat.zero_le _⟩

theorem Deep.Le.flat {α} {p q : P α} (h : P.Le p q) : Deep.Le (flat p) (flat q) :=
  ⟨fun s => (h.run s).imp id fun h => by unfold Deep.flat; rw [h], fun _ => Nat.le_refl _⟩

theorem Deep.Le.call {α} {x y : Deep α} (h : Deep.Le x y) : Deep.Le (call x) (call y) :=
  ⟨fun s => (h.run s).imp id fun h => by unfold Deep.call; rw [h], fun s => Nat.succ_le_succ (h.depth s)⟩

theorem Deep.Le.bind {α β} {x y : Deep α} {f g : α → Deep β} (h : Deep.Le x y) (hf : ∀ a, Deep.Le (f a) (g a)) :
    Deep.Le (x >>= f) (y >>= g) := by
  have key : ∀ s, ((Deep.bind' x f s).1 = .timeout ∨ Deep.bind' x f s = Deep.bind' y g s) ∧
      (Deep.bind' x f s).2 ≤ (Deep.bind' y g s).2 := by
    intro s
    have hd := h.depth s
    unfold Deep.bind'
    rcases h.run s with h | h
    · rcases hx : x s with ⟨_ | _ | _ | _, d⟩ <;> rw [hx] at h hd <;> cases h
      refine ⟨.inl rfl, Nat.le_trans hd ?_⟩
      rcases y s with ⟨⟨_, _⟩ | _ | _ | _, d⟩ <;> simp only [Nat.le_refl]
      omega
    · rw [← h]
      rcases x s with ⟨⟨a, s1⟩ | _ | _ | _, d⟩ <;> try exact ⟨.inr rfl, Nat.le_refl _⟩
      have h2 := (hf a).depth s1
      refine ⟨((hf a).run s1).imp id fun h => by simp only [h], ?_⟩
      simp only
      omega
  exact ⟨fun s => (key s).1, fun s => (key s).2⟩

theorem Deep.Le.trans {α} {x y z : Deep α} (h : Deep.Le x y) (h' : Deep.Le y z) : Deep.Le x z := by
  refine ⟨fun s => ?_, fun s => Nat.le_trans (h.depth s) (h'.depth s)⟩
  rcases h.run s with h1 | h1
  · exact .inl h1
  · rcases h'.run s with h2 | h2
    · rw [h1]; exact .inl h2
    · exact .inr (h1.trans h2)

/-- Close a goal `Deep.Le (do ..) (do ..)` where the recursive calls are handled by the given lemmas. -/
macro "dmono" "[" hs:term,* "]" : tactic => do
  let alts ← hs.getElems.mapM fun h => `(tactic| apply $h)
  `(tactic| repeat' (first
      | (with_reducible exact Deep.Le.refl _)
      | (with_reducible first $[| $alts:tactic]* | fail)
      | (with_reducible refine Deep.Le.bind (Deep.Le.refl _) (fun _ => ?_))
      | (with_reducible refine Deep.Le.bind (Deep.Le.flat ?_) (fun _ => ?_))
      | (with_reducible refine Deep.Le.bind ?_ (fun _ => ?_))
      | split))

variable [Env]

mutual

theorem parseFormulaD_mono : ∀ n, Deep.Le (parseFormulaD n) (parseFormulaD (n + 1))
  | 0 => by simp only [parseFormulaD]; exact (Deep.Le.timeout _).call
  | n + 1 => by
    unfold parseFormulaD
    refine Deep.Le.call ?_
    dmono [parseFormulaD_mono n, parseFormulasD_mono n, parseBranchesD_mono n, parseArgs_mono n]

theorem parseFormulasD_mono : ∀ n acc, Deep.Le (parseFormulasD n acc) (parseFormulasD (n + 1) acc)
  | 0, _ => by simp only [parseFormulasD]; exact .timeout _
  | n + 1, acc => by
    unfold parseFormulasD
    dmono [parseFormulaD_mono n, parseFormulasD_mono n]

theorem parseBranchesD_mono : ∀ n acc, Deep.Le (parseBranchesD n acc) (parseBranchesD (n + 1) acc)
  | 0, _ => by simp only [parseBranchesD]; exact .timeout _
  | n + 1, acc => by
    unfold parseBranchesD
    dmono [parseFormulaD_mono n, parseBranchesD_mono n]

end

theorem parseActionD_mono (n) : Deep.Le (parseActionD n) (parseActionD (n + 1)) := by
  simp only [parseActionD]
  dmono [parseTask_mono n, parseFormulaD_mono n]

theorem parseMethodD_mono (n) : Deep.Le (parseMethodD n) (parseMethodD (n + 1)) := by
  simp only [parseMethodD]
  dmono [parseArgs_mono n, parseFormulaD_mono n, parseHtn_mono n]

theorem parseDomainD_mono (name) : ∀ n d, Deep.Le (parseDomainD name n d) (parseDomainD name (n + 1) d)
  | 0, _ => .timeout _
  | n + 1, d => by
    unfold parseDomainD
    dmono [parseDomainD_mono name n, parsePredicates_mono n, parseFunctions_mono n, parseTask_mono n, parseMethodD_mono n,
      parseActionD_mono n, parseRequirements_mono n, parseArgs_mono n]

theorem parseProblemD_mono : ∀ n p, Deep.Le (parseProblemD n p) (parseProblemD (n + 1) p)
  | 0, _ => .timeout _
  | n + 1, p => by
    unfold parseProblemD
    dmono [parseProblemD_mono n, parsePredicates_mono n, parseFormulaD_mono n, parseInitialTn_mono n,
      parseRequirements_mono n, parseArgs_mono n]

theorem parseFileD_mono (n) : Deep.Le (parseFileD n) (parseFileD (n + 1)) := by
  simp only [parseFileD]
  dmono [parseDomainD_mono _ n, parseProblemD_mono n]

theorem parseFileD_le {n m} (h : n ≤ m) : Deep.Le (parseFileD n) (parseFileD m) := by
  induction h with
  | refl => exact .refl _
  | step _ ih => exact ih.trans (parseFileD_mono _)

theorem parseDepth_mono {n m : Nat} (h : n ≤ m) (f : Bytes) : parseDepth n f ≤ parseDepth m f :=
  (parseFileD_le h).depth _

/-- The depth does not depend on the budget, if it suffices. -/
theorem parseDepth_fuel {n m : Nat} {f : Bytes} (h : n ≤ m) (hn : parse n f ≠ .timeout) : parseDepth m f = parseDepth n f := by
  rcases (parseFileD_le h).run (LexState.init f) with h | h
  · refine absurd ?_ hn
    have : parseFile n (LexState.init f) = .timeout := by rw [← erase_file]; exact h
    unfold parse
    rw [this]
  · unfold parseDepth
    rw [h]

end Verif
