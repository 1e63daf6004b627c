import Verif.Model.Stack
import Verif.Spec.Depth
import Verif.Proofs.Complete
import Verif.Proofs.Sound

/-! The depth of the recursion of the parser. -/

namespace Verif

open Spec

namespace Deep

variable {α β : Type}

/-- The result without the depth. -/
def erase (x : Deep α) : P α := fun s => (x s).1

@[simp] theorem erase_pure (a : α) : erase (pure a : Deep α) = pure a := rfl

@[simp] theorem erase_bind (x : Deep α) (f : α → Deep β) : erase (x >>= f) = erase x >>= fun a => erase (f a) := by
  funext s
  show (Deep.bind' x f s).1 = P.bind' (erase x) _ s
  unfold Deep.bind' P.bind' erase
  rcases x s with ⟨_ | _ | _ | _, d⟩ <;> rfl

@[simp] theorem erase_flat (x : P α) : erase (flat x) = x := rfl

@[simp] theorem erase_call (x : Deep α) : erase (call x) = erase x := rfl

@[simp] theorem erase_ite {c : Prop} [Decidable c] (x y : Deep α) : erase (if c then x else y) = if c then erase x else erase y := by
  split <;> rfl

theorem bind_ext {x : P α} {f g : α → P β} (h : ∀ a, f a = g a) : x >>= f = x >>= g := by
  rw [funext h]

end Deep

open Deep

variable [Env]

mutual

theorem erase_formula : ∀ n, erase (parseFormulaD n) = parseFormula n
  | 0 => rfl
  | n + 1 => by
    simp only [parseFormulaD, parseFormula, erase_call, erase_bind, erase_flat]
    refine bind_ext fun t => ?_
    split
    · rfl
    · simp only [erase_bind, erase_flat]
      refine bind_ext fun t => ?_
      split <;> simp [erase_formula n, erase_formulas n, erase_branches n]
    · simp

theorem erase_formulas : ∀ n acc, erase (parseFormulasD n acc) = parseFormulas n acc
  | 0, _ => rfl
  | n + 1, acc => by
    simp only [parseFormulasD, parseFormulas, erase_bind, erase_ite, erase_pure, erase_formula n, erase_formulas n]

theorem erase_branches : ∀ n acc, erase (parseBranchesD n acc) = parseBranches n acc
  | 0, _ => rfl
  | n + 1, acc => by
    simp only [parseBranchesD, parseBranches, erase_bind, erase_flat]
    refine bind_ext fun t => ?_
    split <;> simp [erase_formula n, erase_branches n]

end

theorem erase_action (n : Nat) : erase (parseActionD n) = parseAction n := by
  simp only [parseActionD, parseAction, erase_bind, erase_flat, erase_pure]
  refine bind_ext fun t => ?_
  congr 1
  · refine bind_ext fun t => ?_
    split <;> simp [erase_formula]
  · funext p
    congr 1
    refine bind_ext fun t => ?_
    split <;> simp [erase_formula]

theorem erase_method (n : Nat) : erase (parseMethodD n) = parseMethod n := by
  simp only [parseMethodD, parseMethod, erase_bind, erase_flat]
  iterate 11 refine bind_ext fun _ => ?_
  split <;> simp [erase_formula]

theorem erase_domain (name : Name) : ∀ n d, erase (parseDomainD name n d) = parseDomain name n d
  | 0, _ => rfl
  | n + 1, d => by
    simp only [parseDomainD, parseDomain, erase_bind, erase_flat]
    refine bind_ext fun t => ?_
    split
    · simp only [erase_bind, erase_flat]
      refine bind_ext fun t => ?_
      split <;> simp [erase_action, erase_method, erase_domain name n]
    · rfl
    · simp

theorem erase_problem : ∀ n p, erase (parseProblemD n p) = parseProblem n p
  | 0, _ => rfl
  | n + 1, d => by
    simp only [parseProblemD, parseProblem, erase_bind, erase_flat]
    refine bind_ext fun t => ?_
    split
    · simp only [erase_bind, erase_flat]
      refine bind_ext fun t => ?_
      split <;> simp [erase_formula, erase_problem n]
    · rfl
    · rfl
    · simp

theorem erase_file (n : Nat) : erase (parseFileD n) = parseFile n := by
  simp only [parseFileD, parseFile, erase_bind, erase_flat]
  refine bind_ext fun _ => bind_ext fun t => ?_
  split <;> simp [erase_domain, erase_problem]

/-! ### The depth and the number of opening parentheses -/

/-- The opening parentheses ahead. -/
def opens (s : LexState) : Nat := s.rest.count 40

theorem getToken_opens {s s' : LexState} {t : Token} (h : getToken s = .tok t s') : opens s' ≤ opens s := by
  obtain ⟨lay, w, r, _, hr, _, hs, _⟩ := lex_tok_spec h
  simp only [Bool.false_eq_true, if_false] at hs
  unfold opens
  rw [hs, hr, List.count_append, List.count_append]
  omega

theorem getToken_lpar_opens {s s' : LexState} (h : getToken s = .tok lpar s') : opens s' + 1 ≤ opens s := by
  obtain ⟨lay, w, r, _, hr, ht, hs, _⟩ := lex_tok_spec h
  simp only [Bool.false_eq_true, if_false] at hs
  have hw : w = [40] := by
    generalize hx : lpar = t at ht
    cases ht with
    | spells h =>
      subst hx
      cases h with
      | lparen => rfl
      | colon h => exact absurd h (by simp [colonTable])
      | plain h => exact absurd h (by simp [plainTable])
    | _ => cases hx
  unfold opens
  rw [hs, hr, hw, List.count_append, List.count_append]
  simp
  omega

theorem lookahead_opens {s s' : LexState} {t : Token} (h : lookahead s = .tok t s') : opens s' ≤ opens s := by
  obtain ⟨lay, w, r, _, hr, _, hs, _⟩ := lex_tok_spec h
  simp only [if_true] at hs
  unfold opens
  rw [hs, hr]
  simp only [List.count_append]
  omega

theorem Steps.opens {s s' : LexState} {ts : List Tk} (h : Steps s ts s') : opens s' ≤ opens s := by
  induction h with
  | nil => exact Nat.le_refl _
  | tok h _ ih => exact Nat.le_trans ih (getToken_opens h)
  | peek h _ ih => exact Nat.le_trans ih (lookahead_opens h)

/-- No opening parentheses appear. -/
def Shrinks {α} (p : P α) : Prop := ∀ s a s', p s = .ok (a, s') → opens s' ≤ opens s

/-- The depth is at most `c` more than the opening parentheses ahead. -/
structure Lim {α} (c : Nat) (x : Deep α) : Prop where
  depth : ∀ s, (x s).2 ≤ opens s + c
  rest : Shrinks (erase x)

omit [Env] in
theorem Lim.bind {α β} {c : Nat} {x : Deep α} {f : α → Deep β} (h : Lim c x) (hf : ∀ a, Lim c (f a)) :
    Lim c (x >>= f) := by
  constructor
  · intro s
    show (Deep.bind' x f s).2 ≤ _
    unfold Deep.bind'
    have h1 := h.depth s
    have h2 := h.rest s
    unfold erase at h2
    rcases hx : x s with ⟨⟨a, s'⟩ | _ | _ | _, d⟩ <;> rw [hx] at h1 h2
    · have h3 := (hf a).depth s'
      have h4 := h2 a s' rfl
      simp only [Nat.max_le]
      simp only at h1
      omega
    all_goals exact h1
  · intro s b s' h3
    rw [erase_bind, P.bind_ok] at h3
    obtain ⟨a, s1, h4, h5⟩ := h3
    exact Nat.le_trans ((hf a).rest _ _ _ h5) (h.rest _ _ _ h4)

omit [Env] in
theorem Lim.pure {α} {c : Nat} {a : α} : Lim c (pure a : Deep α) := by
  refine ⟨fun _ => Nat.zero_le _, fun s b s' h => ?_⟩
  rw [erase_pure, P.pure_ok] at h
  cases h
  exact Nat.le_refl _

omit [Env] in
theorem Lim.flat {α} {c : Nat} {p : P α} (h : Shrinks p) : Lim c (flat p) := ⟨fun _ => Nat.zero_le _, h⟩

omit [Env] in
theorem Lim.call {α} {c : Nat} {x : Deep α} (h : Lim c x) : Lim (c + 1) (call x) :=
  ⟨fun s => Nat.succ_le_succ (h.depth s), h.rest⟩

omit [Env] in
theorem Lim.mono {α} {c : Nat} {x : Deep α} (h : Lim c x) : Lim (c + 1) x := ⟨fun s => Nat.le_trans (h.depth s) (by omega), h.rest⟩

/-- Reading an opening parenthesis makes room for a call. -/
theorem Lim.tok {α} {c : Nat} {f : Token → Deep α} (h : ∀ t, t ≠ lpar → Lim c (f t)) (hl : Lim (c + 1) (f lpar)) :
    Lim c (Deep.flat getTok >>= f) := by
  have h' : ∀ t, Lim (c + 1) (f t) := fun t => if ht : t = lpar then ht ▸ hl else (h t ht).mono
  have hs : Shrinks getTok := fun s a s' h => getToken_opens (getTok_ok.1 h)
  refine ⟨fun s => ?_, (Lim.bind (Lim.flat hs) h').rest⟩
  show (Deep.bind' _ f s).2 ≤ _
  unfold Deep.bind' Deep.flat
  rcases hx : getTok s with ⟨t, s'⟩ | _ | _ | _
  · simp only [Nat.zero_max]
    have h1 := getTok_ok.1 hx
    by_cases ht : t = lpar
    · subst ht
      have := getToken_lpar_opens h1
      have := hl.depth s'
      omega
    · have := getToken_opens h1
      have := (h t ht).depth s'
      omega
  all_goals exact Nat.zero_le _

theorem Lim.lparen {α} {c : Nat} {m : Text} {f : Unit → Deep α} (h : Lim (c + 1) (f ())) :
    Lim c (Deep.flat (expectTok LP m) >>= f) := by
  have hs : Shrinks (expectTok LP m) := fun s a s' h => getToken_opens (expectTok_ok.1 h)
  refine ⟨fun s => ?_, (Lim.bind (Lim.flat hs) fun _ => h).rest⟩
  show (Deep.bind' _ f s).2 ≤ _
  unfold Deep.bind' Deep.flat
  rcases hx : expectTok LP m s with ⟨t, s'⟩ | _ | _ | _
  · simp only [Nat.zero_max]
    have : opens s' + 1 ≤ opens s := getToken_lpar_opens (expectTok_ok.1 hx)
    have : (f () s').2 ≤ _ := h.depth s'
    change (f () s').2 ≤ _
    omega
  all_goals exact Nat.zero_le _

theorem getTok_shrinks : Shrinks getTok := fun _ _ _ h => getToken_opens (getTok_ok.1 h)
theorem peekTok_shrinks : Shrinks peekTok := fun _ _ _ h => lookahead_opens (peekTok_ok.1 h)
theorem expectTok_shrinks {t m} : Shrinks (expectTok t m) := fun _ _ _ h => getToken_opens (expectTok_ok.1 h)
theorem expectIdent_shrinks {m} : Shrinks (expectIdent m) := fun _ _ _ h => getToken_opens (expectIdent_ok.1 h)
omit [Env] in
theorem getPos_shrinks : Shrinks getPos := fun _ _ _ h => by cases h; exact Nat.le_refl _
omit [Env] in
theorem timeout_shrinks {α} : Shrinks (P.timeout : P α) := fun _ _ _ h => nomatch h
omit [Env] in
theorem panic_shrinks {α x} : Shrinks (P.panic x : P α) := fun _ _ _ h => nomatch h
omit [Env] in
theorem synErr_shrinks {α m t} : Shrinks (synErr m t : P α) := fun _ _ _ h => nomatch h
theorem skipTok_shrinks : Shrinks skipTok := by
  intro s a s' h
  unfold skipTok at h
  split at h
  · cases h; exact getToken_opens (by assumption)
  · rename_i e s1 he
    cases h
    obtain ⟨lay, w, _, hr, _⟩ := lex_err_spec he
    unfold opens
    rw [hr, List.count_append, List.count_append]
    omega
  · cases h

theorem parseArgs_shrinks {n} : Shrinks (parseArgs n) := fun _ _ _ h => by
  obtain ⟨_, _, _, h⟩ := parseArgs_sound h; exact h.opens
theorem parsePredicates_shrinks {n a} : Shrinks (parsePredicates n a) := fun _ _ _ h => by
  obtain ⟨_, _, _, _, _, h⟩ := parsePredicates_sound _ _ _ _ _ h; exact h.opens
theorem parseFunctions_shrinks {n a} : Shrinks (parseFunctions n a) := fun _ _ _ h => by
  obtain ⟨_, _, _, _, _, h⟩ := parseFunctions_eq _ _ _ _ _ h; exact h.opens
theorem parseRequirements_shrinks {n a} : Shrinks (parseRequirements n a) := fun _ _ _ h => by
  obtain ⟨_, _, _, h⟩ := parseRequirements_sound _ _ _ _ _ h; exact h.opens
theorem parseTask_shrinks {n} : Shrinks (parseTask n) := fun _ _ _ h => by
  obtain ⟨_, _, h⟩ := parseTask_sound h; exact h.opens
theorem parseHtn_shrinks {n} : Shrinks (parseHtn n) := fun _ _ _ h => by
  obtain ⟨_, _, _, h, _⟩ := parseHtn_sound h; exact h.opens
theorem parseInitialTn_shrinks {n} : Shrinks (parseInitialTn n) := fun _ _ _ h => by
  obtain ⟨_, _, _, h, _⟩ := parseInitialTn_sound h; exact h.opens
omit [Env] in
theorem lift_shrinks {α} {x : R α} : Shrinks (P.lift x) := fun s _ _ h => by
  unfold P.lift at h; split at h <;> cases h; exact Nat.le_refl _

/-- Take a goal `Lim (do ..)` apart. -/
macro "lims" : tactic => `(tactic| repeat' first
  | exact Lim.pure
  | assumption
  | exact Lim.flat timeout_shrinks
  | exact Lim.flat panic_shrinks
  | exact Lim.flat synErr_shrinks
  | exact Lim.flat getTok_shrinks
  | exact Lim.flat peekTok_shrinks
  | exact Lim.flat skipTok_shrinks
  | exact Lim.flat getPos_shrinks
  | exact Lim.flat expectTok_shrinks
  | exact Lim.flat expectIdent_shrinks
  | exact Lim.flat parseArgs_shrinks
  | exact Lim.flat parsePredicates_shrinks
  | exact Lim.flat parseFunctions_shrinks
  | exact Lim.flat parseRequirements_shrinks
  | exact Lim.flat parseTask_shrinks
  | exact Lim.flat parseHtn_shrinks
  | exact Lim.flat parseInitialTn_shrinks
  | exact Lim.flat lift_shrinks
  | refine Lim.bind ?_ fun _ => ?_
  | split)

mutual

theorem lim_formula : ∀ n, Lim 1 (parseFormulaD n)
  | 0 => (Lim.flat timeout_shrinks).call
  | n + 1 => by
    have h1 := lim_formula n
    have h2 := lim_formulas n []
    have h3 := lim_branches n []
    rw [parseFormulaD]
    refine Lim.call (Lim.tok ?_ ?_)
    · intro t ht
      split
      · exact Lim.pure
      · exact absurd rfl ht
      · exact Lim.flat synErr_shrinks
    · simp only
      lims

theorem lim_formulas : ∀ n acc, Lim 1 (parseFormulasD n acc)
  | 0, _ => Lim.flat timeout_shrinks
  | n + 1, acc => by
    have h1 := lim_formula n
    have h2 := lim_formulas n
    rw [parseFormulasD]
    refine h1.bind fun f => ?_
    split
    · exact Lim.pure
    · exact h2 _

theorem lim_branches : ∀ n acc, Lim 1 (parseBranchesD n acc)
  | 0, _ => Lim.flat timeout_shrinks
  | n + 1, acc => by
    have h1 := lim_formula n
    have h2 := lim_branches n
    rw [parseBranchesD]
    lims
    exact h2 _

end

theorem lim_action (n : Nat) : Lim 1 (parseActionD n) := by
  have h1 := lim_formula n
  unfold parseActionD
  lims

theorem lim_method (n : Nat) : Lim 1 (parseMethodD n) := by
  have h1 := lim_formula n
  unfold parseMethodD
  lims

theorem lim_domain (name : Name) : ∀ n d, Lim 1 (parseDomainD name n d)
  | 0, _ => Lim.flat timeout_shrinks
  | n + 1, d => by
    have h1 := lim_action n
    have h2 := lim_method n
    rw [parseDomainD]
    lims
    all_goals exact lim_domain name n _

theorem lim_problem : ∀ n p, Lim 1 (parseProblemD n p)
  | 0, _ => Lim.flat timeout_shrinks
  | n + 1, d => by
    have h1 := lim_formula n
    rw [parseProblemD]
    lims
    all_goals exact lim_problem n _

theorem parseDocumentType_shrinks : Shrinks parseDocumentType := by
  have : Lim (α := DefType) 0 (do
    flat (expectTok (.kw .define) [.s "keyword 'define'"])
    flat (expectTok LP [.s "'(' after keyword 'define'"])
    match ← flat getTok with
    | .kw .domain => do
      let name ← flat (expectIdent [.s "domain name"])
      flat (expectTok RP [.s "')'"])
      pure (DefType.domain name)
    | .kw .problem => do
      let pname ← flat (expectIdent [.s "problem name"])
      flat (expectTok RP [.s "')'"])
      flat (expectTok LP [.s "'('"])
      flat (expectTok (.kw .domain) [.s "keyword 'domain'"])
      let dname ← flat (expectIdent [.s "domain name"])
      flat (expectTok RP [.s "the block of the definition of problem '", .n pname, .s "' is not closed with ')'"])
      pure (.problem pname dname)
    | tok => flat (synErr [.s "either keyword 'domain' or 'problem'"] tok)) := by lims
  convert this.rest using 1
  simp only [erase_bind, erase_flat, parseDocumentType]
  refine bind_ext fun _ => bind_ext fun _ => bind_ext fun t => ?_
  split <;> simp [parseDomainHeader, parseProblemHeader]

theorem lim_file (n : Nat) : Lim 0 (parseFileD n) := by
  unfold parseFileD
  refine Lim.lparen (Lim.bind (Lim.flat parseDocumentType_shrinks) fun t => ?_)
  split
  · exact (lim_domain _ _ _).bind fun _ => Lim.pure
  · exact (lim_problem _ _).bind fun _ => Lim.pure

/-- The depth of the recursion is at most the number of opening parentheses in the file. -/
theorem parseDepth_opens (n : Nat) (f : Bytes) : parseDepth n f ≤ f.count 40 := (lim_file n).depth (LexState.init f)

end Verif
