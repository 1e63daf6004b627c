import Verif.Model.Parser

/-! More budget never changes the outcome of the parser, except that a timeout may become another outcome. -/

namespace Verif

/-- `p` and `q` agree wherever `p` does not run out of budget. -/
structure P.Le {α} (p q : P α) : Prop where
  run : ∀ s, p s = .timeout ∨ p s = q s

theorem P.Le.refl {α} (p : P α) : P.Le p p := ⟨fun _ => .inr rfl⟩

theorem P.Le.timeout {α} (p : P α) : P.Le P.timeout p := ⟨fun _ => .inl rfl⟩

theorem P.Le.bind {α β} {p q : P α} {f g : α → P β} (h : P.Le p q) (hf : ∀ a, P.Le (f a) (g a)) :
    P.Le (p >>= f) (q >>= g) := by
  refine ⟨fun s => ?_⟩
  show P.bind' p f s = .timeout ∨ P.bind' p f s = P.bind' q g s
  unfold P.bind'
  rcases h.run s with h | h
  · left; rw [h]
  · rw [← h]
    cases hp : p s with
    | ok x => exact (hf x.1).run x.2
    | err e => exact .inr rfl
    | panic e => exact .inr rfl
    | timeout => exact .inr rfl

theorem P.Le.trans {α} {p q r : P α} (h : P.Le p q) (h' : P.Le q r) : P.Le p r := by
  refine ⟨fun s => ?_⟩
  rcases h.run s with h1 | h1
  · exact .inl h1
  · rcases h'.run s with h2 | h2
    · exact .inl (h1.trans h2)
    · exact .inr (h1.trans h2)

/-- Close a goal `P.Le (do ..) (do ..)` where the recursive calls are handled by the given lemmas. -/
macro "mono" "[" hs:term,* "]" : tactic => do
  let alts ← hs.getElems.mapM fun h => `(tactic| apply $h)
  `(tactic| repeat' (first
      | (with_reducible exact P.Le.refl _)
      | (with_reducible first $[| $alts:tactic]* | fail)
      | (with_reducible refine P.Le.bind (P.Le.refl _) (fun _ => ?_))
      | (with_reducible refine P.Le.bind ?_ (fun _ => ?_))
      | split))

variable [Env]

theorem parseRequirements_mono : ∀ n acc, P.Le (parseRequirements n acc) (parseRequirements (n + 1) acc)
  | 0, _ => .timeout _
  | n + 1, acc => by
    unfold parseRequirements
    mono [parseRequirements_mono n]

theorem argsLoop_mono : ∀ n objs res tok, P.Le (argsLoop n objs res tok) (argsLoop (n + 1) objs res tok)
  | 0, _, _, _ => .timeout _
  | n + 1, objs, res, tok => by
    unfold argsLoop
    mono [argsLoop_mono n]

theorem parseArgs_mono (n) : P.Le (parseArgs n) (parseArgs (n + 1)) := by
  simp only [parseArgs]
  mono [argsLoop_mono n]

theorem parsePredicateDef_mono (n) : P.Le (parsePredicateDef n) (parsePredicateDef (n + 1)) := by
  simp only [parsePredicateDef]
  mono [parseArgs_mono n]

theorem parsePredicates_mono : ∀ n acc, P.Le (parsePredicates n acc) (parsePredicates (n + 1) acc)
  | 0, _ => .timeout _
  | n + 1, acc => by
    unfold parsePredicates
    mono [parsePredicates_mono n, parsePredicateDef_mono n]

theorem parseFunctionDef_mono (n) : P.Le (parseFunctionDef n) (parseFunctionDef (n + 1)) := by
  simp only [parseFunctionDef]
  mono [parseArgs_mono n]

theorem parseFunctions_mono : ∀ n acc, P.Le (parseFunctions n acc) (parseFunctions (n + 1) acc)
  | 0, _ => .timeout _
  | n + 1, acc => by
    unfold parseFunctions
    mono [parseFunctions_mono n, parseFunctionDef_mono n]

mutual

theorem parseFormula_mono : ∀ n, P.Le (parseFormula n) (parseFormula (n + 1))
  | 0 => by simp only [parseFormula]; exact .timeout _
  | n + 1 => by
    unfold parseFormula
    mono [parseFormula_mono n, parseFormulas_mono n, parseBranches_mono n, parseArgs_mono n]

theorem parseFormulas_mono : ∀ n acc, P.Le (parseFormulas n acc) (parseFormulas (n + 1) acc)
  | 0, _ => by simp only [parseFormulas]; exact .timeout _
  | n + 1, acc => by
    unfold parseFormulas
    mono [parseFormula_mono n, parseFormulas_mono n]

theorem parseBranches_mono : ∀ n acc, P.Le (parseBranches n acc) (parseBranches (n + 1) acc)
  | 0, _ => by simp only [parseBranches]; exact .timeout _
  | n + 1, acc => by
    unfold parseBranches
    mono [parseFormula_mono n, parseBranches_mono n]

end

theorem termsLoop_mono (msg) : ∀ n acc, P.Le (termsLoop msg n acc) (termsLoop msg (n + 1) acc)
  | 0, _ => .timeout _
  | n + 1, acc => by
    unfold termsLoop
    mono [termsLoop_mono msg n]

theorem parseSubtask_mono (n) : P.Le (parseSubtask n) (parseSubtask (n + 1)) := by
  simp only [parseSubtask]
  mono [termsLoop_mono _ n]

theorem subtasksLoop_mono : ∀ n acc, P.Le (subtasksLoop n acc) (subtasksLoop (n + 1) acc)
  | 0, _ => .timeout _
  | n + 1, acc => by
    unfold subtasksLoop
    mono [subtasksLoop_mono n, parseSubtask_mono n]

theorem parseSubtasks_mono (n) : P.Le (parseSubtasks n) (parseSubtasks (n + 1)) := by
  simp only [parseSubtasks]
  mono [subtasksLoop_mono n, parseSubtask_mono n]

theorem afterLoop_mono (t1 msg) : ∀ n acc, P.Le (afterLoop t1 msg n acc) (afterLoop t1 msg (n + 1) acc)
  | 0, _ => .timeout _
  | n + 1, acc => by
    unfold afterLoop
    mono [afterLoop_mono t1 msg n]

theorem parseOrdering_mono (n) : P.Le (parseOrdering n) (parseOrdering (n + 1)) := by
  simp only [parseOrdering]
  mono [afterLoop_mono _ _ n]

theorem orderingsLoop_mono : ∀ n acc, P.Le (orderingsLoop n acc) (orderingsLoop (n + 1) acc)
  | 0, _ => .timeout _
  | n + 1, acc => by
    unfold orderingsLoop
    mono [orderingsLoop_mono n, parseOrdering_mono n]

theorem parseOrderingBlock_mono (n acc) : P.Le (parseOrderingBlock n acc) (parseOrderingBlock (n + 1) acc) := by
  simp only [parseOrderingBlock]
  mono [orderingsLoop_mono n, afterLoop_mono _ _ n]

theorem constraintsLoop_mono : ∀ n acc, P.Le (constraintsLoop n acc) (constraintsLoop (n + 1) acc)
  | 0, _ => .timeout _
  | n + 1, acc => by
    unfold constraintsLoop
    mono [constraintsLoop_mono n]

theorem parseConstraints_mono (n) : P.Le (parseConstraints n) (parseConstraints (n + 1)) := by
  simp only [parseConstraints]
  mono [constraintsLoop_mono n]

theorem htnLoop_mono (sts) : ∀ n opos os cs, P.Le (htnLoop sts n opos os cs) (htnLoop sts (n + 1) opos os cs)
  | 0, _, _, _ => .timeout _
  | n + 1, opos, os, cs => by
    unfold htnLoop
    mono [htnLoop_mono sts n, parseOrderingBlock_mono n, parseConstraints_mono n]

theorem parseHtn_mono (n) : P.Le (parseHtn n) (parseHtn (n + 1)) := by
  simp only [parseHtn]
  mono [htnLoop_mono _ n, parseSubtasks_mono n, parseConstraints_mono n]

theorem parseInitialTn_mono (n) : P.Le (parseInitialTn n) (parseInitialTn (n + 1)) := by
  simp only [parseInitialTn]
  mono [parseHtn_mono n, parseArgs_mono n]

theorem parseTask_mono (n) : P.Le (parseTask n) (parseTask (n + 1)) := by
  simp only [parseTask]
  mono [parseArgs_mono n]

theorem parseAction_mono (n) : P.Le (parseAction n) (parseAction (n + 1)) := by
  simp only [parseAction]
  mono [parseTask_mono n, parseFormula_mono n]

theorem parseMethod_mono (n) : P.Le (parseMethod n) (parseMethod (n + 1)) := by
  simp only [parseMethod]
  mono [parseArgs_mono n, parseFormula_mono n, parseHtn_mono n]

theorem parseDomain_mono (name) : ∀ n d, P.Le (parseDomain name n d) (parseDomain name (n + 1) d)
  | 0, _ => .timeout _
  | n + 1, d => by
    unfold parseDomain
    mono [parseDomain_mono name n, parsePredicates_mono n, parseFunctions_mono n, parseTask_mono n, parseMethod_mono n,
      parseAction_mono n, parseRequirements_mono n, parseArgs_mono n]

theorem parseProblem_mono : ∀ n p, P.Le (parseProblem n p) (parseProblem (n + 1) p)
  | 0, _ => .timeout _
  | n + 1, p => by
    unfold parseProblem
    mono [parseProblem_mono n, parsePredicates_mono n, parseFormula_mono n, parseInitialTn_mono n,
      parseRequirements_mono n, parseArgs_mono n]

theorem parseFile_mono (n) : P.Le (parseFile n) (parseFile (n + 1)) := by
  simp only [parseFile]
  mono [parseDomain_mono _ n, parseProblem_mono n]

theorem parseFile_le {n m} (h : n ≤ m) : P.Le (parseFile n) (parseFile m) := by
  induction h with
  | refl => exact .refl _
  | step _ ih => exact ih.trans (parseFile_mono _)

/-- A larger budget gives the same outcome. -/
theorem parse_fuel {n m : Nat} {file : Bytes} (h : n ≤ m) (hn : parse n file ≠ .timeout) : parse m file = parse n file := by
  rcases (parseFile_le h).run (LexState.init file) with h | h
  · exact absurd (by unfold parse; rw [h]) hn
  · unfold parse
    rw [h]

/-- The outcome does not depend on the budget. -/
theorem parse_det {n m : Nat} {file : Bytes} (hn : parse n file ≠ .timeout) (hm : parse m file ≠ .timeout) :
    parse n file = parse m file := by
  rcases Nat.le_total n m with h | h
  · exact (parse_fuel h hn).symm
  · exact parse_fuel h hm

end Verif
