import Verif.Proofs.Clean
import Verif.Proofs.Sound

/-! Termination of the parser, and absence of panics of the tokenizer while parsing. -/

namespace Verif

open Spec

/-- From `s` on, the tokenizer never returns a token without moving on, except the end of the file. -/
def Advances [Env] (s : LexState) : Prop :=
  ∀ c s1 t s2, Steps s c s1 → getToken s1 = .tok t s2 → t = .eof ∨ s2.rest.length < s1.rest.length

theorem Good.steps [Env] {s s1 : LexState} {c : List Tk} (h : Good s) (hs : Steps s c s1) : Good s1 := by
  induction hs with
  | nil => exact h
  | tok h1 _ ih => exact ih (h.getToken h1).1
  | peek h1 _ ih => exact ih (h.lookahead h1).1

/-- If the file is empty or ends with a delimiter, the tokenizer moves on. -/
theorem Good.moves [Env] {s : LexState} (h : Good s) : Advances s := fun _ _ _ _ hs ht => ((h.steps hs).getToken ht).2

theorem Advances.getToken [Env] {s s' : LexState} {t : Token} (hg : Advances s) (h : getToken s = .tok t s') :
    Advances s' ∧ (t = .eof ∨ s'.rest.length < s.rest.length) :=
  ⟨fun _ _ _ _ hs ht => hg _ _ _ _ (.tok h hs) ht, hg _ _ _ _ .nil h⟩

theorem Advances.lookahead [Env] {s s' : LexState} {t : Token} (hg : Advances s) (h : lookahead s = .tok t s') :
    Advances s' ∧ s'.rest.length ≤ s.rest.length := by
  refine ⟨fun _ _ _ _ hs ht => hg _ _ _ _ (.peek h hs) ht, ?_⟩
  obtain ⟨lay, w, r, hlay, hr, ht, hs, hl, he, hw⟩ := lex_tok_spec h
  simp only [if_true] at hs
  rw [hs, hr]
  simp

/-- The tokenizer moves on; unless all panics are admitted (`A`), the rest of the file is clean. -/
def St [Env] (A : Panic → Prop) (s : LexState) : Prop := Advances s ∧ ((∀ p, A p) ∨ Clean s)

/-- Running `p` in `s` does not use up the budget, panics only as admitted by `A`, and a result satisfies `Q`. -/
structure Tm (A : Panic → Prop) {α} (p : P α) (s : LexState) (Q : α → LexState → Prop) : Prop where
  run : match p s with
    | .ok (a, s') => Q a s'
    | .err _ => True
    | .panic p => A p
    | .timeout => False

/-- The state after is a proper state, and at least `k` bytes were consumed since `s0`. -/
def Post [Env] (A : Panic → Prop) (k : Nat) (s0 : LexState) {α} : α → LexState → Prop :=
  fun _ s' => St A s' ∧ s'.rest.length + k ≤ s0.rest.length

/-- Number of bytes a token surely takes. -/
def Token.cost : Token → Nat
  | .eof => 0
  | _ => 1

variable {α β : Type} {A : Panic → Prop} {s s0 : LexState} {Q : α → LexState → Prop} {Q2 : β → LexState → Prop} {k k' : Nat}

theorem Tm.pure {a : α} (h : Q a s) : Tm A (Pure.pure a) s Q := ⟨h⟩

theorem Tm.ret [Env] {a : α} (hs : St A s) (h : s.rest.length + k ≤ s0.rest.length) : Tm A (Pure.pure a) s (Post A k s0) :=
  ⟨hs, h⟩

theorem Tm.synErr {m t} : Tm A (Verif.synErr m t : P α) s Q := ⟨trivial⟩

theorem Tm.panic {p} (h : A p) : Tm A (P.panic p : P α) s Q := ⟨h⟩

theorem Tm.bind {p : P α} {f : α → P β} (h : Tm A p s Q) (hf : ∀ a s', Q a s' → Tm A (f a) s' Q2) :
    Tm A (p >>= f) s Q2 := by
  obtain ⟨h⟩ := h
  constructor
  show match P.bind' p f s with
    | .ok (a, s') => Q2 a s'
    | .err _ => True
    | .panic p => A p
    | .timeout => False
  unfold P.bind'
  cases hp : p s with
  | ok x => rw [hp] at h; exact (hf x.1 x.2 h).run
  | err e => trivial
  | panic e => rw [hp] at h; exact h
  | timeout => rw [hp] at h; exact h

theorem Tm.mono {p : P α} {Q' : α → LexState → Prop} (h : Tm A p s Q) (hq : ∀ a s', Q a s' → Q' a s') :
    Tm A p s Q' := by
  obtain ⟨h⟩ := h
  constructor
  cases hp : p s with
  | ok x => rw [hp] at h; exact hq _ _ h
  | err e => trivial
  | panic e => rw [hp] at h; exact h
  | timeout => rw [hp] at h; exact h

theorem Tm.last [Env] {p : P α} (h : Tm A p s (Post A k s)) (hl : s.rest.length + k' ≤ s0.rest.length + k) :
    Tm A p s (Post A k' s0) :=
  h.mono fun _ s' ⟨h1, h2⟩ => ⟨h1, by omega⟩

theorem Tm.call [Env] {p : P α} {f : α → P β} (h : Tm A p s (Post A k s))
    (hf : ∀ a s', St A s' → s'.rest.length + k ≤ s.rest.length → Tm A (f a) s' Q2) : Tm A (p >>= f) s Q2 :=
  h.bind fun a s' ⟨h1, h2⟩ => hf a s' h1 h2

theorem Tm.pos {f : Nat → P β} (h : Tm A (f s.line) s Q2) : Tm A (getPos >>= f) s Q2 := ⟨h.run⟩

variable [Env]

theorem St.tok {s' : LexState} {t : Token} (h : St A s) (ht : Verif.getToken s = .tok t s') :
    St A s' ∧ s'.rest.length + t.cost ≤ s.rest.length := by
  obtain ⟨h1, h2⟩ := h.1.getToken ht
  refine ⟨⟨h1, h.2.imp_right fun hn => (lex_clean false hn).2 t s' ht⟩, ?_⟩
  rcases h2 with rfl | h2
  · obtain ⟨lay, w, r, _, hr, _, hs, _⟩ := lex_tok_spec ht
    simp only [Bool.false_eq_true, if_false] at hs
    rw [hs, hr]
    simp [Token.cost]
    omega
  · cases t <;> simp only [Token.cost] <;> omega

theorem Tm.getTok' (hs : St A s) : Tm A getTok s (fun t s' =>
    getToken s = .tok t s' ∧ St A s' ∧ s'.rest.length + t.cost ≤ s.rest.length) := by
  constructor
  unfold getTok
  cases h : getToken s with
  | tok t s' => exact ⟨rfl, hs.tok h⟩
  | err e s' => trivial
  | panic p =>
    rcases hs.2 with hn | hn
    · exact hn p
    · exact absurd h ((lex_clean false hn).1 p)

theorem Tm.tok {f : Token → P β} (hs : St A s)
    (h : ∀ t s', St A s' → s'.rest.length + t.cost ≤ s.rest.length → Tm A (f t) s' Q2) :
    Tm A (getTok >>= f) s Q2 :=
  (Tm.getTok' hs).bind fun t s' ⟨_, h1, h2⟩ => h t s' h1 h2

theorem Tm.exact {f : Unit → P β} {t : Token} {m : Text} (hs : St A s)
    (h : ∀ s', St A s' → s'.rest.length + t.cost ≤ s.rest.length → Tm A (f ()) s' Q2) :
    Tm A (expectTok t m >>= f) s Q2 := by
  refine Tm.bind (Q := fun _ s' => St A s' ∧ s'.rest.length + t.cost ≤ s.rest.length) ?_
    (fun _ s' ⟨h1, h2⟩ => h s' h1 h2)
  refine (Tm.getTok' hs).bind fun t' s' ⟨_, h1, h2⟩ => ?_
  by_cases he : t' = t
  · subst he
    rw [if_pos rfl]
    exact Tm.pure ⟨h1, h2⟩
  · rw [if_neg he]
    exact Tm.synErr

theorem Tm.ident {f : Name → P β} {m : Text} (hs : St A s)
    (h : ∀ x s', St A s' → s'.rest.length + 1 ≤ s.rest.length → Tm A (f x) s' Q2) :
    Tm A (expectIdent m >>= f) s Q2 := by
  refine Tm.bind (Q := fun _ s' => St A s' ∧ s'.rest.length + 1 ≤ s.rest.length) ?_
    (fun _ s' ⟨h1, h2⟩ => h _ s' h1 h2)
  refine (Tm.getTok' hs).bind fun t' s' ⟨_, h1, h2⟩ => ?_
  split
  · exact Tm.pure ⟨h1, h2⟩
  · exact Tm.synErr

theorem Tm.peek {f : Token → P β} (hs : St A s)
    (h : ∀ t s', St A s' → s'.rest.length ≤ s.rest.length →
      (t ≠ .op .lt → t ≠ .op .gt → ∃ s2, getToken s' = .tok t s2) → Tm A (f t) s' Q2) :
    Tm A (peekTok >>= f) s Q2 := by
  refine Tm.bind (Q := fun t s' => lookahead s = .tok t s') ?_ fun t s' ht => ?_
  · constructor
    unfold peekTok
    cases hl : lookahead s with
    | tok t s' => rfl
    | err e s' => trivial
    | panic p =>
      rcases hs.2 with hn | hn
      · exact hn p
      · exact absurd hl ((lex_clean true hn).1 p)
  · obtain ⟨h1, h2⟩ := hs.1.lookahead ht
    refine h t s' ⟨h1, hs.2.imp_right fun hn => (lex_clean true hn).2 t s' ht⟩ h2 fun hlt hgt => ?_
    have : getToken s' = getToken s := lex_peek_state (.inl ⟨_, ht⟩) false
    rw [this]
    exact get_of_lookahead ht hlt hgt

theorem Tm.skip {f : Unit → P β} {t : Token} (hs : St A s) (ht : ∃ s2, getToken s = .tok t s2)
    (h : ∀ s', St A s' → s'.rest.length + t.cost ≤ s.rest.length → Tm A (f ()) s' Q2) :
    Tm A (skipTok >>= f) s Q2 := by
  obtain ⟨s2, ht⟩ := ht
  have h2 := hs.tok ht
  refine Tm.bind (Q := fun _ s' => s' = s2) ?_ (by rintro _ s' rfl; exact h s' h2.1 h2.2)
  constructor
  unfold skipTok
  rw [ht]

omit [Env] in
theorem Tm.lift {x : R α} {f : α → P β} (hx : ∃ a, x = .ok a ∧ Tm A (f a) s Q2) : Tm A (P.lift x >>= f) s Q2 := by
  obtain ⟨a, rfl, h⟩ := hx
  exact ⟨h.run⟩

/-- Arithmetic side conditions. -/
macro "tm_arith" : tactic => `(tactic| ((try simp only [Token.cost] at *); omega))

/-- Run through a parser; calls of other parsers are handled by the given lemmas. -/
macro "tm" "[" hs:term,* "]" : tactic => do
  let calls ← hs.getElems.mapM fun h =>
    `(tactic| (refine Tm.call ($h (by assumption) (by tm_arith)) (fun _ _ _ _ => ?_)))
  let lasts ← hs.getElems.mapM fun h =>
    `(tactic| (refine Tm.last ($h (by assumption) (by tm_arith)) (by tm_arith)))
  `(tactic| repeat' (with_reducible first
      | exact Tm.synErr
      | exact Tm.panic (by assumption)
      | (refine Tm.ret (by assumption) (by tm_arith))
      | (refine Tm.tok (by assumption) (fun _ _ _ _ => ?_))
      | (refine Tm.peek (by assumption) (fun _ _ _ _ _ => ?_))
      | (refine Tm.exact (by assumption) (fun _ _ _ => ?_))
      | (refine Tm.ident (by assumption) (fun _ _ _ _ => ?_))
      | (refine Tm.pos ?_)
      | (refine Tm.skip (by assumption) (by first | (apply_assumption <;> simp)) (fun _ _ _ => ?_))
      | (first $[| $calls:tactic]* | fail)
      | (first $[| $lasts:tactic]* | fail)
      | split))

theorem parseRequirements_tm : ∀ n acc (s : LexState), St A s → s.rest.length < n →
    Tm A (parseRequirements n acc) s (Post A 1 s)
  | 0, _, _, _, h => by omega
  | n + 1, acc, s, hs, hn => by
    unfold parseRequirements
    tm [parseRequirements_tm n _ _]

theorem argsLoop_tm : ∀ n objs res tok (s s0 : LexState), St A s → s.rest.length + tok.cost ≤ s0.rest.length →
    s0.rest.length < n → Tm A (argsLoop n objs res tok) s (Post A 1 s0)
  | 0, _, _, _, _, _, _, _, h => by omega
  | n + 1, objs, res, tok, s, s0, hs, ht, hn => by
    unfold argsLoop
    split
    · refine Tm.pos (Tm.tok hs fun t s1 h1 h2 => ?_)
      refine (argsLoop_tm n _ _ t s1 s h1 h2 (by tm_arith)).mono fun _ s' ⟨h3, h4⟩ => ⟨h3, by tm_arith⟩
    · refine Tm.tok hs fun t s1 h1 h2 => Tm.pos ?_
      split
      · refine Tm.tok h1 fun t s2 h3 h4 => ?_
        refine (argsLoop_tm n _ _ t s2 s1 h3 h4 (by tm_arith)).mono fun _ s' ⟨h5, h6⟩ => ⟨h5, by tm_arith⟩
      · exact Tm.synErr
    · exact Tm.ret hs ht
    · exact Tm.synErr

theorem parseArgs_tm (n) (s : LexState) (hs : St A s) (hn : s.rest.length < n) :
    Tm A (parseArgs n) s (Post A 1 s) := by
  unfold parseArgs
  exact Tm.tok hs fun t s1 h1 h2 => argsLoop_tm n _ _ t s1 s h1 h2 hn

theorem parsePredicateDef_tm (n) (s : LexState) (hs : St A s) (hn : s.rest.length < n) :
    Tm A (parsePredicateDef n) s (Post A 1 s) := by
  unfold parsePredicateDef
  tm [parseArgs_tm n _]

theorem parsePredicates_tm : ∀ n acc (s : LexState), St A s → s.rest.length < n →
    Tm A (parsePredicates n acc) s (Post A 1 s)
  | 0, _, _, _, h => by omega
  | n + 1, acc, s, hs, hn => by
    unfold parsePredicates
    tm [parsePredicateDef_tm n _, parsePredicates_tm n _ _]

theorem parseFunctionDef_tm (n) (s : LexState) (hs : St A s) (hn : s.rest.length < n) :
    Tm A (parseFunctionDef n) s (Post A 1 s) := by
  unfold parseFunctionDef
  tm [parseArgs_tm n _]

theorem parseFunctions_tm : ∀ n acc (s : LexState), St A s → s.rest.length < n →
    Tm A (parseFunctions n acc) s (Post A 1 s)
  | 0, _, _, _, h => by omega
  | n + 1, acc, s, hs, hn => by
    unfold parseFunctions
    tm [parseFunctionDef_tm n _, parseFunctions_tm n _ _]

mutual

theorem parseFormula_tm : ∀ n (s : LexState), St A s → s.rest.length < n →
    Tm A (parseFormula n) s (Post A 1 s)
  | 0, _, _, h => by omega
  | n + 1, s, hs, hn => by
    unfold parseFormula
    tm [parseFormula_tm n _, parseFormulas_tm n _ _, parseBranches_tm n _ _, parseArgs_tm n _]

theorem parseFormulas_tm : ∀ n acc (s : LexState), St A s → s.rest.length + 1 < n →
    Tm A (parseFormulas n acc) s (Post A 1 s)
  | 0, _, _, _, h => by omega
  | n + 1, acc, s, hs, hn => by
    unfold parseFormulas
    tm [parseFormula_tm n _, parseFormulas_tm n _ _]

theorem parseBranches_tm : ∀ n acc (s : LexState), St A s → s.rest.length < n →
    Tm A (parseBranches n acc) s (Post A 1 s)
  | 0, _, _, _, h => by omega
  | n + 1, acc, s, hs, hn => by
    unfold parseBranches
    tm [parseFormula_tm n _, parseBranches_tm n _ _]

end

theorem termsLoop_tm (msg) : ∀ n acc (s : LexState), St A s → s.rest.length < n →
    Tm A (termsLoop msg n acc) s (Post A 1 s)
  | 0, _, _, _, h => by omega
  | n + 1, acc, s, hs, hn => by
    unfold termsLoop
    tm [termsLoop_tm msg n _ _]

theorem parseSubtask_tm (n) (s : LexState) (hs : St A s) (hn : s.rest.length < n) :
    Tm A (parseSubtask n) s (Post A 1 s) := by
  unfold parseSubtask
  tm [termsLoop_tm _ n _ _]

theorem subtasksLoop_tm : ∀ n acc (s : LexState), St A s → s.rest.length < n →
    Tm A (subtasksLoop n acc) s (Post A 1 s)
  | 0, _, _, _, h => by omega
  | n + 1, acc, s, hs, hn => by
    unfold subtasksLoop
    tm [parseSubtask_tm n _, subtasksLoop_tm n _ _]

theorem parseSubtasks_tm (n) (s : LexState) (hs : St A s) (hn : s.rest.length < n) :
    Tm A (parseSubtasks n) s (Post A 1 s) := by
  unfold parseSubtasks
  tm [parseSubtask_tm n _, subtasksLoop_tm n _ _]

theorem afterLoop_tm (t1 msg) : ∀ n acc (s : LexState), St A s → s.rest.length < n →
    Tm A (afterLoop t1 msg n acc) s (Post A 1 s)
  | 0, _, _, _, h => by omega
  | n + 1, acc, s, hs, hn => by
    unfold afterLoop
    tm [afterLoop_tm t1 msg n _ _]

theorem parseOrdering_tm (n) (s : LexState) (hs : St A s) (hn : s.rest.length < n) :
    Tm A (parseOrdering n) s (Post A 1 s) := by
  unfold parseOrdering
  tm [afterLoop_tm _ _ n _ _]

theorem orderingsLoop_tm : ∀ n acc (s : LexState), St A s → s.rest.length < n →
    Tm A (orderingsLoop n acc) s (Post A 1 s)
  | 0, _, _, _, h => by omega
  | n + 1, acc, s, hs, hn => by
    unfold orderingsLoop
    tm [parseOrdering_tm n _, orderingsLoop_tm n _ _]

theorem parseOrderingBlock_tm (n acc) (s : LexState) (hs : St A s) (hn : s.rest.length < n) :
    Tm A (parseOrderingBlock n acc) s (Post A 1 s) := by
  unfold parseOrderingBlock
  tm [afterLoop_tm _ _ n _ _, orderingsLoop_tm n _ _]

theorem parseConstraint_tm (s : LexState) (hs : St A s) (_ : 0 ≤ s.rest.length) : Tm A parseConstraint s (Post A 1 s) := by
  unfold parseConstraint
  tm []

theorem constraintsLoop_tm : ∀ n acc (s : LexState), St A s → s.rest.length < n →
    Tm A (constraintsLoop n acc) s (Post A 1 s)
  | 0, _, _, _, h => by omega
  | n + 1, acc, s, hs, hn => by
    unfold constraintsLoop
    tm [parseConstraint_tm _, constraintsLoop_tm n _ _]

theorem parseConstraints_tm (n) (s : LexState) (hs : St A s) (hn : s.rest.length < n) :
    Tm A (parseConstraints n) s (Post A 1 s) := by
  unfold parseConstraints
  tm [parseConstraint_tm _, constraintsLoop_tm n _ _]

theorem htnLoop_tm (sts) : ∀ n opos os cs (s : LexState), St A s → s.rest.length < n →
    Tm A (htnLoop sts n opos os cs) s (Post A 1 s)
  | 0, _, _, _, _, _, h => by omega
  | n + 1, opos, os, cs, s, hs, hn => by
    unfold htnLoop
    tm [parseOrderingBlock_tm n _ _, parseConstraints_tm n _, htnLoop_tm sts n _ _ _ _]

theorem parseHtn_tm (n) (s : LexState) (hs : St A s) (hn : s.rest.length < n) :
    Tm A (parseHtn n) s (Post A 0 s) := by
  unfold parseHtn
  tm [parseSubtasks_tm n _, parseConstraints_tm n _, htnLoop_tm _ n _ _ _ _]

theorem parseInitialTn_tm (n) (s : LexState) (hs : St A s) (hn : s.rest.length < n) :
    Tm A (parseInitialTn n) s (Post A 0 s) := by
  unfold parseInitialTn
  tm [parseHtn_tm n _, parseArgs_tm n _]

theorem parseTask_tm (n) (s : LexState) (hs : St A s) (hn : s.rest.length < n) :
    Tm A (parseTask n) s (Post A 1 s) := by
  unfold parseTask
  tm [parseArgs_tm n _]

theorem parseAction_tm (n) (s : LexState) (hs : St A s) (hn : s.rest.length < n) :
    Tm A (parseAction n) s (Post A 1 s) := by
  unfold parseAction
  refine Tm.call (parseTask_tm n s hs hn) fun t s1 h1 h2 => ?_
  refine Tm.call (k := 0) ?_ fun t s1 h1 h2 => ?_
  · tm [parseFormula_tm n _]
  refine Tm.call (k := 0) ?_ fun t s1 h1 h2 => ?_
  · tm [parseFormula_tm n _]
  tm []

theorem parseMethod_tm (n) (s : LexState) (hs : St A s) (hn : s.rest.length < n) :
    Tm A (parseMethod n) s (Post A 1 s) := by
  unfold parseMethod
  tm [parseArgs_tm n _, parseFormula_tm n _, parseHtn_tm n _]

theorem parseDomain_tm (name) : ∀ n d (s : LexState), St A s → s.rest.length < n →
    Tm A (parseDomain name n d) s (Post A 1 s)
  | 0, _, _, _, h => by omega
  | n + 1, d, s, hs, hn => by
    unfold parseDomain
    tm [parsePredicates_tm n _ _, parseFunctions_tm n _ _, parseTask_tm n _, parseMethod_tm n _, parseAction_tm n _,
      parseRequirements_tm n _ _, parseArgs_tm n _, parseDomain_tm name n _ _]


theorem parseProblem_tm (hA : A .problemToken) : ∀ n p (s : LexState), St A s → s.rest.length < n →
    Tm A (parseProblem n p) s (Post A 0 s)
  | 0, _, _, _, h => by omega
  | n + 1, p, s, hs, hn => by
    unfold parseProblem
    refine Tm.tok hs fun t s1 h1 h2 => ?_
    split
    · refine Tm.tok h1 fun t s2 h3 h4 => ?_
      split
      · tm [parseRequirements_tm n _ _, parseProblem_tm hA n _ _]
      · refine Tm.bind (Q := fun os s3 => Post A 1 s2 os s3 ∧ ∃ items, TypedList os items) ?_ ?_
        · obtain ⟨h⟩ := parseArgs_tm n _ h3 (by tm_arith)
          constructor
          split at h
          · rename_i os s3 he
            obtain ⟨items, _, h5, _⟩ := parseArgs_sound he
            exact ⟨h, _, h5⟩
          · trivial
          · exact h
          · exact h
        · rintro os s3 ⟨⟨h5, h6⟩, items, h7⟩
          rw [addObjects_ok (by rw [h7.2]; exact symbolsOf_tyPos _)]
          exact Tm.lift ⟨_, rfl, by tm [parseProblem_tm hA n _ _]⟩
      · tm [parseInitialTn_tm n _, parseProblem_tm hA n _ _]
      · tm [parseFormula_tm n _, parseProblem_tm hA n _ _]
      · tm [parsePredicates_tm n _ _, parseProblem_tm hA n _ _]
      · exact Tm.synErr
    all_goals tm []

theorem parseDocumentType_tm (s : LexState) (hs : St A s) (_ : 0 ≤ s.rest.length) :
    Tm A parseDocumentType s (Post A 1 s) := by
  unfold parseDocumentType parseDomainHeader parseProblemHeader
  tm []

/-- With a budget larger than the file, parsing ends, if the tokenizer moves on. -/
theorem parseFile_tm (hA : A .problemToken) (n) (s : LexState) (hs : St A s) (hn : s.rest.length < n) :
    Tm A (parseFile n) s (Post A 0 s) := by
  unfold parseFile
  tm [parseDocumentType_tm _, parseDomain_tm _ n _ _, parseProblem_tm hA n _ _]

/-- Parsing a clean file that is not a problem file ends without panic. -/
theorem parseFile_clean (n) (s : LexState) (hs : St (fun _ => False) s) (hn : s.rest.length < n)
    (hd : ∀ a b s1, (expectTok LP [.s "start of the file with '('"] >>= fun _ => parseDocumentType) s ≠
      .ok (.problem a b, s1)) :
    Tm (fun _ => False) (parseFile n) s (Post (fun _ => False) 0 s) := by
  have h1 : Tm (fun _ => False) (expectTok LP [.s "start of the file with '('"] >>= fun _ => parseDocumentType) s
      (Post (fun _ => False) 2 s) := by
    tm [parseDocumentType_tm _]
  have h2 : parseFile n = ((expectTok LP [.s "start of the file with '('"] >>= fun _ => parseDocumentType) >>= fun t =>
      match t with
      | .domain name => do
        let d ← parseDomain name n (DomainAST.new name)
        pure (.domain d)
      | .problem _ _ => do
        let p ← parseProblem n ProblemAST.new
        pure (.problem p)) := by
    unfold parseFile
    funext s
    show P.bind' _ _ s = P.bind' (P.bind' _ _) _ s
    unfold P.bind'
    cases expectTok LP [.s "start of the file with '('"] s <;> rfl
  rw [h2]
  refine Tm.bind (Q := fun t s1 => Post (fun _ => False) 2 s t s1 ∧ ∃ name, t = .domain name) ?_ ?_
  · obtain ⟨h1⟩ := h1
    constructor
    split at h1
    · rename_i a s' he
      refine ⟨h1, ?_⟩
      cases a with
      | domain name => exact ⟨name, rfl⟩
      | problem a b => exact absurd he (hd _ _ _)
    · trivial
    · exact h1
    · exact h1
  · rintro _ s1 ⟨⟨h3, h4⟩, name, rfl⟩
    simp only
    tm [parseDomain_tm _ n _ _]

end Verif
