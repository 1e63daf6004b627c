import Verif.Proofs.StackHeight
import Verif.Proofs.StackFuel

/-! The depth of the recursion of the parser and the nesting of parentheses. -/

namespace Verif

open Spec Deep

/-! ### Nesting -/

/-- How many parentheses are open after a text. -/
def level (c : Nat) : List Tk → Nat
  | [] => c
  | (t, _) :: ts => if t = lpar then level (c + 1) ts else if t = rpar then level (c - 1) ts else level c ts

theorem nesting_ge : ∀ (ts : List Tk) (c : Nat), c ≤ nesting c ts
  | [], _ => Nat.le_refl _
  | (t, _) :: ts, c => by
    unfold nesting
    have h1 := nesting_ge ts (c + 1)
    have h2 := nesting_ge ts c
    split
    · omega
    · split <;> omega

theorem nesting_mono : ∀ (ts : List Tk) {c c' : Nat}, c ≤ c' → nesting c ts ≤ nesting c' ts
  | [], _, _, h => h
  | (t, _) :: ts, c, c', h => by
    unfold nesting
    split
    · exact nesting_mono ts (by omega)
    · split
      · have := nesting_mono ts (c := c - 1) (c' := c' - 1) (by omega)
        omega
      · exact nesting_mono ts h

theorem level_cons (t : Token) (l c : Nat) (ts : List Tk) : level c ((t, l) :: ts) =
    if t = lpar then level (c + 1) ts else if t = rpar then level (c - 1) ts else level c ts := rfl

theorem nesting_cons (t : Token) (l c : Nat) (ts : List Tk) : nesting c ((t, l) :: ts) =
    if t = lpar then nesting (c + 1) ts else if t = rpar then max c (nesting (c - 1) ts) else nesting c ts := rfl

theorem level_append : ∀ (a b : List Tk) (c : Nat), level c (a ++ b) = level (level c a) b
  | [], _, _ => rfl
  | (t, _) :: a, b, c => by
    rw [List.cons_append, level_cons, level_cons]
    split
    · exact level_append a b _
    · split <;> exact level_append a b _

theorem nesting_append : ∀ (a b : List Tk) (c : Nat), nesting c (a ++ b) = max (nesting c a) (nesting (level c a) b)
  | [], b, c => by
    have := nesting_ge b c
    simp only [List.nil_append, nesting, level]
    omega
  | (t, _) :: a, b, c => by
    rw [List.cons_append, nesting_cons, nesting_cons, level_cons]
    split
    · exact nesting_append a b _
    · split
      · rw [nesting_append a b (c - 1)]
        omega
      · exact nesting_append a b _

theorem items_level {items : List Tk} (h : Items items) (c : Nat) : level c items = c := by
  induction h with
  | nil => rfl
  | name _ ih => simpa [level] using ih
  | type _ ih => simpa [level] using ih

mutual

theorem formula_nesting {f : Formula} {ts : List Tk} (h : FormulaText false f ts) (c : Nat) :
    level c ts = c ∧ c + height f + 1 ≤ nesting c ts := by
  cases h with
  | empty => simp [level, nesting, height]
  | missing h => cases h
  | atom h =>
    have h1 := items_level h.1
    simp [level, level_append, h1, nesting, nesting_append, height]
    omega
  | not h =>
    have h1 := formula_nesting h (c + 1)
    simp [level, level_append, h1.1, nesting, nesting_append, height]
    omega
  | and h =>
    have h1 := formulas_nesting h c
    simp [level, h1.1, nesting, height]
    omega
  | or h =>
    have h1 := formulas_nesting h c
    simp [level, h1.1, nesting, height]
    omega
  | xor h =>
    have h1 := formulas_nesting h c
    simp [level, h1.1, nesting, height]
    omega
  | equals => simp [level, nesting, height]
  | forall_ hv h =>
    have h0 := items_level hv.1
    have h1 := formula_nesting h (c + 1)
    simp [level, level_append, h0, h1.1, nesting, nesting_append, height]
    omega
  | exists_ hv h =>
    have h0 := items_level hv.1
    have h1 := formula_nesting h (c + 1)
    simp [level, level_append, h0, h1.1, nesting, nesting_append, height]
    omega
  | probabilistic h =>
    have h1 := branches_nesting h c
    simp [level, h1.1, nesting, height]
    omega

theorem formulas_nesting {fs : List Formula} {ts : List Tk} (h : FormulasText false fs ts) (c : Nat) :
    level (c + 1) ts = c ∧ c + 1 + heightOver fs ≤ nesting (c + 1) ts := by
  cases h with
  | nil => simp [level, nesting, heightOver]
  | unclosed h => cases h
  | cons h _ h' =>
    have h1 := formula_nesting h (c + 1)
    have h2 := formulas_nesting h' c
    rw [level_append, nesting_append, h1.1, heightOver]
    omega

theorem branches_nesting {fs : List Formula} {ts : List Tk} (h : BranchesText false fs ts) (c : Nat) :
    level (c + 1) ts = c ∧ c + 1 + heightOver fs ≤ nesting (c + 1) ts := by
  cases h with
  | nil => simp [level, nesting, heightOver]
  | cons h _ h' =>
    have h1 := formula_nesting h (c + 1)
    have h2 := branches_nesting h' c
    simp only [level, nesting, reduceCtorEq, if_false]
    rw [level_append, nesting_append, h1.1, heightOver, height]
    omega

end

/-- A part of a text is not nested more deeply than the text. -/
theorem nesting_infix {f : Formula} {a ts b : List Tk} (h : FormulaText false f ts) :
    height f + 1 ≤ nesting 0 (a ++ ts ++ b) := by
  have h1 := (formula_nesting h (level 0 a)).2
  rw [nesting_append, nesting_append]
  omega

/-- The formula occurs in the text. -/
def Within (f : Formula) (ts : List Tk) : Prop := ∃ a b c, ts = a ++ b ++ c ∧ FormulaText false f b

theorem Within.nesting {f : Formula} {ts : List Tk} (h : Within f ts) : height f + 1 ≤ nesting 0 ts := by
  obtain ⟨a, b, c, rfl, h⟩ := h
  exact nesting_infix h

theorem Within.of {f : Formula} {ts : List Tk} (h : FormulaText false f ts) : Within f ts := ⟨[], ts, [], by simp, h⟩

theorem Within.left {f : Formula} {a b : List Tk} (h : Within f a) : Within f (a ++ b) := by
  obtain ⟨x, y, z, rfl, h⟩ := h
  exact ⟨x, y, z ++ b, by simp, h⟩

theorem Within.right {f : Formula} {a b : List Tk} (h : Within f b) : Within f (a ++ b) := by
  obtain ⟨x, y, z, rfl, h⟩ := h
  exact ⟨a ++ x, y, z, by simp, h⟩

theorem Within.cons {f : Formula} {x : Tk} {b : List Tk} (h : Within f b) : Within f (x :: b) := h.right (a := [x])

theorem opt_within {k : Kw} {o : Option Formula} {ts : List Tk} (h : OptFormula false k o ts) {f : Formula}
    (hf : f ∈ o.toList) : Within f ts := by
  cases h with
  | none => cases hf
  | some h =>
    rw [Option.toList_some, List.mem_singleton] at hf
    subst hf
    exact (Within.of h).cons

/-- The formulas of a block of a domain. -/
def Spec.DBlock.formulas : DBlock → List Formula
  | .action a => a.pre.toList ++ a.eff.toList
  | .method m => m.pre.toList
  | _ => []

theorem dblock_within {b : DBlock} {ts : List Tk} {e : Ending} (h : DBlockText false b ts e) {f : Formula}
    (hf : f ∈ b.formulas) : Within f ts := by
  cases h with
  | action h =>
    cases h with
    | mk h1 h2 h3 =>
      refine Within.cons (Within.cons (Within.left ?_))
      rcases List.mem_append.1 hf with hf | hf
      · exact ((opt_within h2 hf).right).left
      · exact (opt_within h3 hf).right
  | method h =>
    cases h with
    | mk h1 h2 h3 h4 h5 =>
      iterate 5 refine Within.cons ?_
      refine Within.right ?_
      iterate 4 refine Within.cons ?_
      refine Within.right (Within.cons ?_)
      exact (opt_within h3 hf).left
  | _ => cases hf

theorem pblock_within {b : PBlock} {ts : List Tk} {e : Ending} (h : PBlockText false b ts e) {f : Formula}
    (hf : b = .goal f) : Within f ts := by
  cases h with
  | goal h =>
    cases hf
    exact (Within.of h).cons.cons
  | _ => cases hf

theorem body_within {β : Type} {block : β → List Tk → Ending → Prop} {stop : List Tk → Prop} {b : β} {f : Formula}
    (hw : ∀ {ts e}, block b ts e → Within f ts) {bs : List β} {ts : List Tk} (h : Body false block stop bs ts)
    (hb : b ∈ bs) : Within f ts := by
  induction h with
  | done => cases hb
  | block h _ _ ih =>
    rcases List.mem_cons.1 hb with rfl | hb
    · exact (hw h).left
    · exact (ih hb).right

theorem formulasOf_domainOf {name : Name} {bs : List DBlock} {f : Formula} (h : f ∈ formulasOf (.domain (domainOf name bs))) :
    ∃ b ∈ bs, f ∈ b.formulas := by
  simp only [formulasOf, domainOf, List.mem_append, List.mem_flatMap] at h
  rcases h with ⟨a, ⟨b, hb, ha⟩, h⟩ | ⟨m, ⟨b, hb, hm⟩, h⟩
  · refine ⟨b, hb, ?_⟩
    cases b with
    | action x =>
      rw [DBlock.actions, List.mem_singleton] at ha
      subst ha
      exact List.mem_append.2 h
    | _ => cases ha
  · refine ⟨b, hb, ?_⟩
    cases b with
    | method x =>
      rw [DBlock.methods, List.mem_singleton] at hm
      subst hm
      exact h
    | _ => cases hm

/-! ### The goals of a problem -/

theorem Deep.bind_depth {α β} {x : Deep α} {f : α → Deep β} {s s1 : LexState} {a : α} {d : Nat} (h : x s = (.ok (a, s1), d)) :
    ((x >>= f) s).2 = max d (f a s1).2 := by
  show (Deep.bind' x f s).2 = _
  unfold Deep.bind'
  rw [h]

variable [Env]

omit [Env] in
theorem flat_run {α} {p : P α} {s s1 : LexState} {a : α} (h : p s = .ok (a, s1)) : flat p s = (.ok (a, s1), 0) := by
  unfold flat
  rw [h]

theorem problem_depth {q : Bool} {K : Nat} {bs : List PBlock} {ts : List Tk}
    (h : Body q (PBlockText q) (closeProblem q) bs ts) (hK : ∀ f, PBlock.goal f ∈ bs → height f + 2 ≤ K) :
    ∃ N, ∀ n, N ≤ n → ∀ s p, Feeds s ts → (parseProblemD n p s).2 ≤ K := by
  induction h with
  | done h =>
    refine ⟨1, fun n hn s p hf => ?_⟩
    obtain ⟨n, rfl⟩ : ∃ m, n = m + 1 := ⟨n - 1, by omega⟩
    rcases h with ⟨l, rfl⟩ | ⟨_, l, rfl⟩
    all_goals
      obtain ⟨s1, h1, _⟩ := hf
      rw [parseProblemD, Deep.bind_depth (flat_run (getTok_ok.2 h1))]
      exact Nat.zero_le _
  | @block b bs ts ts' e hb hj _ ih =>
    obtain ⟨N, ih⟩ := ih fun f hf => hK f (List.mem_cons_of_mem _ hf)
    cases hb with
    | @requirements l1 l2 l3 rs =>
      obtain ⟨M, hM⟩ := parseRequirements_complete (lr := l3) rs []
      refine ⟨max N M + 1, fun n hn s p hf => ?_⟩
      obtain ⟨n, rfl⟩ : ∃ m, n = m + 1 := ⟨n - 1, by omega⟩
      obtain ⟨s1, h1, _, s2, h2, _, hf⟩ := hf
      rw [parseProblemD, Deep.bind_depth (flat_run (getTok_ok.2 h1))]
      simp only [Nat.zero_max]
      rw [Deep.bind_depth (flat_run (getTok_ok.2 h2))]
      simp only [Nat.zero_max]
      obtain ⟨s3, h3, h4⟩ := hM n (by omega) s2 ts' hf trivial
      rw [Deep.bind_depth (flat_run h3), Nat.zero_max]
      exact ih n (by omega) _ _ h4
    | @objects l1 l2 l3 ss items hp =>
      obtain ⟨M, hM⟩ := parseArgs_complete l3 hp
      refine ⟨max N M + 1, fun n hn s p hf => ?_⟩
      obtain ⟨n, rfl⟩ : ∃ m, n = m + 1 := ⟨n - 1, by omega⟩
      obtain ⟨s1, h1, _, s2, h2, _, hf⟩ := hf
      rw [parseProblemD, Deep.bind_depth (flat_run (getTok_ok.2 h1))]
      simp only [Nat.zero_max]
      rw [Deep.bind_depth (flat_run (getTok_ok.2 h2))]
      simp only [Nat.zero_max]
      obtain ⟨s3, h3, h4⟩ := hM n (by omega) s2 ts' hf trivial
      rw [Deep.bind_depth (flat_run h3), Nat.zero_max, addObjects_ok (by rw [hp.2]; exact symbolsOf_tyPos _),
        Deep.bind_depth (flat_run (s1 := s3) rfl), Nat.zero_max]
      exact ih n (by omega) _ _ h4
    | htn hp =>
      obtain ⟨M, hM⟩ := parseInitialTn_complete hp
      refine ⟨max N M + 1, fun n hn s p hf => ?_⟩
      obtain ⟨n, rfl⟩ : ∃ m, n = m + 1 := ⟨n - 1, by omega⟩
      obtain ⟨s1, h1, _, s2, h2, _, hf⟩ := hf
      rw [parseProblemD, Deep.bind_depth (flat_run (getTok_ok.2 h1))]
      simp only [Nat.zero_max]
      rw [Deep.bind_depth (flat_run (getTok_ok.2 h2))]
      simp only [Nat.zero_max]
      obtain ⟨s3, h3, h4⟩ := hM n (by omega) s2 ts' hf (by simpa using after_of_joint (rest := []) hj)
      rw [Deep.bind_depth (flat_run h3), Nat.zero_max]
      exact ih n (by omega) _ _ h4
    | @goal l1 l2 g a hp =>
      obtain ⟨M, hM⟩ := parseFormula_complete hp
      refine ⟨max N M + 1, fun n hn s p hf => ?_⟩
      obtain ⟨n, rfl⟩ : ∃ m, n = m + 1 := ⟨n - 1, by omega⟩
      obtain ⟨s1, h1, _, s2, h2, _, hf⟩ := hf
      rw [parseProblemD, Deep.bind_depth (flat_run (getTok_ok.2 h1))]
      simp only [Nat.zero_max]
      rw [Deep.bind_depth (flat_run (getTok_ok.2 h2))]
      simp only [Nat.zero_max]
      obtain ⟨s3, h3, h4⟩ := hM n (by omega) s2 ts' hf trivial
      rw [← erase_formula] at h3
      have h5 := erase_ok h3
      have h6 := (formula_measure h5).2
      have h7 := hK g List.mem_cons_self
      rw [Deep.bind_depth h5]
      exact Nat.max_le.2 ⟨by omega, ih n (by omega) _ _ h4⟩
    | @init l1 l2 l3 ps a hp =>
      obtain ⟨M, hM⟩ := parsePredicates_complete (lr := l3) hp []
      refine ⟨max N M + 1, fun n hn s p hf => ?_⟩
      obtain ⟨n, rfl⟩ : ∃ m, n = m + 1 := ⟨n - 1, by omega⟩
      obtain ⟨s1, h1, _, s2, h2, _, hf⟩ := hf
      rw [parseProblemD, Deep.bind_depth (flat_run (getTok_ok.2 h1))]
      simp only [Nat.zero_max]
      rw [Deep.bind_depth (flat_run (getTok_ok.2 h2))]
      simp only [Nat.zero_max]
      obtain ⟨s3, h3, h4⟩ := hM n (by omega) s2 ts' hf trivial
      rw [Deep.bind_depth (flat_run h3), Nat.zero_max]
      exact ih n (by omega) _ _ h4

/-- In a well-formed file the recursion is at most one deeper than the parentheses are nested. -/
theorem file_depth {a : AST} {ts : List Tk} {f : Bytes} (h : FileText false a ts) (hf : Feeds (LexState.init f) ts) (n : Nat) :
    parseDepth n f ≤ nesting 0 ts + 1 := by
  obtain ⟨N, hN⟩ := parse_complete h
  cases h with
  | @domain name bs ts l1 l2 l3 l4 l5 l6 hb =>
    refine Nat.le_trans (parseDepth_mono (Nat.le_max_left n N) f) ?_
    rcases (parseDepth_height (hN (max n N) (Nat.le_max_right _ _) f hf)).2 _ rfl with h | ⟨x, hx, h⟩
    · rw [h]; exact Nat.zero_le _
    · obtain ⟨b, hb', hx⟩ := formulasOf_domainOf hx
      have h1 := body_within (fun h => dblock_within h hx) hb hb'
      have h2 := h1.cons (x := (rpar, l6)) |>.cons (x := (.ident name, l5)) |>.cons (x := (.kw .domain, l4)) |>.cons (x := (lpar, l3))
        |>.cons (x := (.kw .define, l2)) |>.cons (x := (lpar, l1)) |>.nesting
      omega
  | @problem name dname bs ts l1 l2 l3 l4 l5 l6 l7 l8 l9 l10 hb =>
    have hK : ∀ g, PBlock.goal g ∈ bs → height g + 2 ≤ nesting 0 ((lpar, l1) :: (.kw .define, l2) :: (lpar, l3) ::
        (.kw .problem, l4) :: (.ident name, l5) :: (rpar, l6) :: (lpar, l7) :: (.kw .domain, l8) :: (.ident dname, l9) ::
        (rpar, l10) :: ts) + 1 := by
      intro g hg
      have h1 := body_within (fun h => pblock_within h rfl) hb hg
      have h2 := h1.cons (x := (rpar, l10)) |>.cons (x := (.ident dname, l9)) |>.cons (x := (.kw .domain, l8))
        |>.cons (x := (lpar, l7)) |>.cons (x := (rpar, l6)) |>.cons (x := (.ident name, l5)) |>.cons (x := (.kw .problem, l4))
        |>.cons (x := (lpar, l3)) |>.cons (x := (.kw .define, l2)) |>.cons (x := (lpar, l1)) |>.nesting
      omega
    obtain ⟨M, hM⟩ := problem_depth hb hK
    refine Nat.le_trans (parseDepth_mono (Nat.le_max_left n M) f) ?_
    obtain ⟨s1, h1, _, s2, h2, _, s3, h3, _, s4, h4, _, s5, h5, _, s6, h6, _, s7, h7, _, s8, h8, _, s9, h9, _, s10, h10, _, hf⟩ := hf
    have hd : parseDocumentType s1 = .ok (.problem name dname, s10) := by
      unfold parseDocumentType parseProblemHeader
      rw [P.bind_run ((expectTok_ok (r := ((), s2))).2 h2), P.bind_run ((expectTok_ok (r := ((), s3))).2 h3),
        P.bind_run (getTok_ok.2 h4)]
      simp only
      rw [P.bind_run (expectIdent_ok.2 h5), P.bind_run ((expectTok_ok (r := ((), s6))).2 h6),
        P.bind_run ((expectTok_ok (r := ((), s7))).2 h7), P.bind_run ((expectTok_ok (r := ((), s8))).2 h8),
        P.bind_run (expectIdent_ok.2 h9), P.bind_run ((expectTok_ok (r := ((), s10))).2 h10)]
      rfl
    have hp := hM (max n M) (Nat.le_max_right _ _) s10 ProblemAST.new hf
    unfold parseDepth parseFileD
    rw [Deep.bind_depth (flat_run ((expectTok_ok (r := ((), s1))).2 h1)), Nat.zero_max, Deep.bind_depth (flat_run hd), Nat.zero_max]
    show (Deep.bind' _ _ s10).2 ≤ _
    unfold Deep.bind'
    rcases hx : parseProblemD (max n M) ProblemAST.new s10 with ⟨⟨_, _⟩ | _ | _ | _, d⟩ <;> rw [hx] at hp
    · exact Nat.max_le.2 ⟨hp, Nat.zero_le _⟩
    all_goals exact hp

end Verif
