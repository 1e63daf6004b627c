import Verif.Proofs.Located

/-! What the errors and panics of the parser can be: lexical errors come from the tokenizer, syntactic errors name a
token that was just read and its line, there are no semantic errors, and only four kinds of panic occur. -/

namespace Verif

open Spec

variable [Env]

/-- The token `t` was just read or peeked at, leaving the tokenizer in state `s`. -/
def Last (file : Bytes) (s : LexState) (t : Token) : Prop :=
  ∃ peek s0, Reachable file s0 ∧ lex peek s0 = .tok t s

/-- The panics of the parser. -/
def ParserPanic (p : Panic) : Prop := p = .commentEof ∨ p = .lexemeEof ∨ p = .utf8 ∨ p = .problemToken

/-- Errors of the parser. -/
def ParserErr (file : Bytes) : PErr → Prop
  | .lexical e => ∃ peek s s', Reachable file s ∧ lex peek s = .err e s'
  | .syntactic e => ∃ s, Last file s e.found ∧ s.line = e.pos
  | .semantic _ => False

/-- Outcomes of a part of the parser. -/
def Outc {α} (file : Bytes) (Q : α → LexState → Prop) : R (α × LexState) → Prop
  | .ok (a, s) => Reachable file s ∧ Q a s
  | .err e => ParserErr file e
  | .panic p => ParserPanic p
  | .timeout => True

/-- From a reachable state that satisfies `Pre`, the outcome of `p` is as described. -/
structure Tr {α} (file : Bytes) (Pre : LexState → Prop) (p : P α) (Q : α → LexState → Prop) : Prop where
  run : ∀ s, Reachable file s → Pre s → Outc file Q (p s)

variable {file : Bytes}

theorem Tr.bind {α β} {Pre} {p : P α} {f : α → P β} {Q : α → LexState → Prop} {Q' : β → LexState → Prop}
    (h : Tr file Pre p Q) (hf : ∀ a, Tr file (Q a) (f a) Q') : Tr file Pre (p >>= f) Q' := by
  refine ⟨fun s hs hp => ?_⟩
  show Outc file Q' (P.bind' p f s)
  unfold P.bind'
  have := h.run s hs hp
  cases hps : p s with
  | ok x => rw [hps] at this; exact (hf x.1).run x.2 this.1 this.2
  | err e => rw [hps] at this; exact this
  | panic e => rw [hps] at this; exact this
  | timeout => trivial

theorem Tr.pure {α} {Pre} {a : α} {Q : α → LexState → Prop} (h : ∀ s, Pre s → Q a s) :
    Tr file Pre (pure a : P α) Q := ⟨fun s hs hp => ⟨hs, h s hp⟩⟩

theorem Tr.timeout {α} {Pre} {Q : α → LexState → Prop} : Tr file Pre P.timeout Q := ⟨fun _ _ _ => trivial⟩

theorem Tr.synErr {α} {Pre} {msg tok} {Q : α → LexState → Prop} (h : ∀ s, Pre s → Last file s tok) :
    Tr file Pre (synErr msg tok) Q := ⟨fun s _ hp => ⟨s, h s hp, rfl⟩⟩

theorem Tr.panic {α} {Pre} {Q : α → LexState → Prop} : Tr file Pre (P.panic .problemToken) Q :=
  ⟨fun _ _ _ => .inr (.inr (.inr rfl))⟩

omit [Env] in
theorem peekLexeme_panic {s p} (h : peekLexeme s = .panic p) : p = .lexemeEof ∨ p = .utf8 := by
  unfold peekLexeme at h
  split at h
  · cases h; exact .inl rfl
  · simp only at h
    split at h
    · split at h <;> cases h
    · cases h; exact .inr rfl

theorem lex_panic {peek s p} (h : lex peek s = .panic p) : ParserPanic p := by
  have key {s p} (h : peekLexeme s = .panic p) : ParserPanic p := by
    rcases peekLexeme_panic h with h | h
    · exact .inr (.inl h)
    · exact .inr (.inr (.inl h))
  unfold lex at h
  split at h
  · cases h; exact .inl rfl
  · cases h
  · have ho {a b pk s} (h : orderingType a b pk s = .panic p) : False := by
      unfold orderingType at h
      split at h <;> cases h
    simp only at h
    rcases ite_elim h with ⟨_, h⟩ | ⟨_, h⟩
    · cases h
    rcases ite_elim h with ⟨_, h⟩ | ⟨_, h⟩
    · cases h
    rcases ite_elim h with ⟨_, h⟩ | ⟨_, h⟩
    · cases h
    rcases ite_elim h with ⟨_, h⟩ | ⟨_, h⟩
    · exact (ho h).elim
    rcases ite_elim h with ⟨_, h⟩ | ⟨_, h⟩
    · exact (ho h).elim
    rcases ite_elim h with ⟨_, h⟩ | ⟨_, h⟩
    · cases h
    rcases ite_elim h with ⟨_, h⟩ | ⟨_, h⟩
    · split at h
      · rename_i hp; cases h; exact key hp
      · cases h
      · cases h
    rcases ite_elim h with ⟨_, h⟩ | ⟨_, h⟩
    · split at h
      · rename_i hp; cases h; exact key hp
      · cases h
      · split at h <;> cases h
    rcases ite_elim h with ⟨_, h⟩ | ⟨_, h⟩
    · split at h <;> cases h
    split at h
    · rename_i hp; cases h; exact key hp
    · cases h
    · split at h
      · cases h
      · split at h <;> cases h

theorem Tr.getTok (Pre) : Tr file Pre getTok (fun t s => Last file s t) := by
  refine ⟨fun s hs _ => ?_⟩
  unfold Verif.getTok getToken
  cases h : lex false s with
  | tok t s' => exact ⟨.tok false hs h, false, s, hs, h⟩
  | err e s' => exact ⟨false, s, s', hs, h⟩
  | panic p => exact lex_panic h

theorem Tr.peekTok (Pre) : Tr file Pre peekTok (fun t s => Last file s t) := by
  refine ⟨fun s hs _ => ?_⟩
  unfold Verif.peekTok lookahead
  cases h : lex true s with
  | tok t s' => exact ⟨.tok true hs h, true, s, hs, h⟩
  | err e s' => exact ⟨true, s, s', hs, h⟩
  | panic p => exact lex_panic h

theorem Tr.skipTok (Pre) : Tr file Pre skipTok (fun _ _ => True) := by
  refine ⟨fun s hs _ => ?_⟩
  unfold Verif.skipTok getToken
  cases h : lex false s with
  | tok t s' => exact ⟨.tok false hs h, trivial⟩
  | err e s' => exact ⟨.err false hs h, trivial⟩
  | panic p => exact lex_panic h

theorem Tr.getPos (Pre) : Tr file Pre getPos (fun _ s => Pre s) := ⟨fun _ hs hp => ⟨hs, hp⟩⟩

/-- Take the goal `Tr (do ..)` apart, using the given lemmas for calls. -/
macro "outs" "[" hs:term,* "]" : tactic => do
  let alts ← hs.getElems.mapM fun h => `(tactic| apply $h)
  let calls ← hs.getElems.mapM fun h => `(tactic| refine Tr.bind ($h) (fun _ => ?_))
  `(tactic| repeat' (first
      | (with_reducible first $[| $alts:tactic]* | fail)
      | (with_reducible exact Tr.timeout)
      | (with_reducible exact Tr.panic)
      | (with_reducible refine Tr.synErr (fun _ h => ?_); exact h)
      | (with_reducible refine Tr.pure ?_; intro s h; intros; first | trivial | exact h | simp_all [Formula.isEmpty])
      | (with_reducible refine Tr.bind (Tr.getTok _) (fun _ => ?_))
      | (with_reducible refine Tr.bind (Tr.peekTok _) (fun _ => ?_))
      | (with_reducible refine Tr.bind (Tr.skipTok _) (fun _ => ?_))
      | (with_reducible refine Tr.bind (Tr.getPos _) (fun _ => ?_))
      | (with_reducible first $[| $calls:tactic]* | fail)
      | (with_reducible refine Tr.bind (Q := fun _ _ => True) ?_ (fun _ => ?_))
      | split))

theorem Tr.expectTok (Pre t msg) : Tr file Pre (expectTok t msg) (fun _ s => Last file s t) := by
  unfold Verif.expectTok
  refine Tr.bind (Tr.getTok _) (fun tok => ?_)
  split
  · rename_i h; subst h; exact Tr.pure fun s h => h
  · exact Tr.synErr fun s h => h

theorem Tr.expectIdent (Pre msg) : Tr file Pre (expectIdent msg) (fun _ _ => True) := by
  unfold Verif.expectIdent
  outs []

theorem parseRequirements_tr : ∀ n acc Pre, Tr file Pre (parseRequirements n acc) (fun _ _ => True)
  | 0, _, _ => .timeout
  | n + 1, acc, _ => by
    unfold parseRequirements
    outs [parseRequirements_tr n _ _]

theorem argsLoop_tr : ∀ n objs res tok, Tr file (fun s => Last file s tok) (argsLoop n objs res tok) (fun _ _ => True)
  | 0, _, _, _ => .timeout
  | n + 1, objs, res, tok => by
    unfold argsLoop
    outs [argsLoop_tr n _ _ _]

theorem parseArgs_tr (n Pre) : Tr file Pre (parseArgs n) (fun _ _ => True) := by
  simp only [parseArgs]
  outs [argsLoop_tr n _ _ _]

theorem parsePredicateDef_tr (n Pre) : Tr file Pre (parsePredicateDef n) (fun _ _ => True) := by
  simp only [parsePredicateDef]
  outs [Tr.expectIdent _ _, parseArgs_tr n _]

theorem parsePredicates_tr : ∀ n acc Pre, Tr file Pre (parsePredicates n acc) (fun _ _ => True)
  | 0, _, _ => .timeout
  | n + 1, acc, _ => by
    unfold parsePredicates
    outs [parsePredicates_tr n _ _, parsePredicateDef_tr n _]

theorem parseFunctionDef_tr (n Pre) : Tr file Pre (parseFunctionDef n) (fun _ _ => True) := by
  simp only [parseFunctionDef]
  outs [Tr.expectIdent _ _, parseArgs_tr n _]

theorem parseFunctions_tr : ∀ n acc Pre, Tr file Pre (parseFunctions n acc) (fun _ _ => True)
  | 0, _, _ => .timeout
  | n + 1, acc, _ => by
    unfold parseFunctions
    outs [parseFunctions_tr n _ _, parseFunctionDef_tr n _]

mutual

theorem parseFormula_tr : ∀ n Pre, Tr file Pre (parseFormula n) (fun f s => f.isEmpty = true → Last file s RP)
  | 0, _ => by simp only [parseFormula]; exact .timeout
  | n + 1, _ => by
    unfold parseFormula
    outs [parseFormula_tr n _, parseFormulas_tr n _ _, parseBranches_tr n _ _, parseArgs_tr n _, Tr.expectTok _ _ _,
      Tr.expectIdent _ _]

theorem parseFormulas_tr : ∀ n acc Pre, Tr file Pre (parseFormulas n acc) (fun _ _ => True)
  | 0, _, _ => by simp only [parseFormulas]; exact .timeout
  | n + 1, acc, _ => by
    unfold parseFormulas
    outs [parseFormula_tr n _, parseFormulas_tr n _ _]

theorem parseBranches_tr : ∀ n acc Pre, Tr file Pre (parseBranches n acc) (fun _ _ => True)
  | 0, _, _ => by simp only [parseBranches]; exact .timeout
  | n + 1, acc, _ => by
    unfold parseBranches
    refine Tr.bind (Tr.getTok _) (fun _ => ?_)
    split
    · outs []
    · refine Tr.bind (parseFormula_tr n _) (fun f => ?_)
      split
      · rename_i hf; exact Tr.synErr fun s h => h hf
      · outs [parseBranches_tr n _ _]
    · outs []

end

theorem termsLoop_tr (msg) : ∀ n acc Pre, Tr file Pre (termsLoop msg n acc) (fun _ _ => True)
  | 0, _, _ => .timeout
  | n + 1, acc, _ => by
    unfold termsLoop
    outs [termsLoop_tr msg n _ _]

theorem parseSubtask_tr (n Pre) : Tr file Pre (parseSubtask n) (fun _ _ => True) := by
  simp only [parseSubtask]
  outs [termsLoop_tr _ n _ _, Tr.expectIdent _ _, Tr.expectTok _ _ _]

theorem subtasksLoop_tr : ∀ n acc Pre, Tr file Pre (subtasksLoop n acc) (fun _ _ => True)
  | 0, _, _ => .timeout
  | n + 1, acc, _ => by
    unfold subtasksLoop
    outs [subtasksLoop_tr n _ _, parseSubtask_tr n _]

theorem parseSubtasks_tr (n Pre) : Tr file Pre (parseSubtasks n) (fun _ _ => True) := by
  simp only [parseSubtasks]
  outs [subtasksLoop_tr n _ _, parseSubtask_tr n _, Tr.expectTok _ _ _]

theorem afterLoop_tr (t1 msg) : ∀ n acc Pre, Tr file Pre (afterLoop t1 msg n acc) (fun _ _ => True)
  | 0, _, _ => .timeout
  | n + 1, acc, _ => by
    unfold afterLoop
    outs [afterLoop_tr t1 msg n _ _]

theorem parseOrdering_tr (n Pre) : Tr file Pre (parseOrdering n) (fun _ _ => True) := by
  simp only [parseOrdering]
  outs [afterLoop_tr _ _ n _ _, Tr.expectIdent _ _, Tr.expectTok _ _ _]

theorem orderingsLoop_tr : ∀ n acc Pre, Tr file Pre (orderingsLoop n acc) (fun _ _ => True)
  | 0, _, _ => .timeout
  | n + 1, acc, _ => by
    unfold orderingsLoop
    outs [orderingsLoop_tr n _ _, parseOrdering_tr n _]

theorem parseOrderingBlock_tr (n acc Pre) : Tr file Pre (parseOrderingBlock n acc) (fun _ _ => True) := by
  simp only [parseOrderingBlock]
  outs [orderingsLoop_tr n _ _, afterLoop_tr _ _ n _ _, Tr.expectIdent _ _, Tr.expectTok _ _ _]

theorem parseConstraint_tr (Pre) : Tr file Pre parseConstraint (fun _ _ => True) := by
  simp only [parseConstraint]
  outs [Tr.expectIdent _ _, Tr.expectTok _ _ _]

theorem constraintsLoop_tr : ∀ n acc Pre, Tr file Pre (constraintsLoop n acc) (fun _ _ => True)
  | 0, _, _ => .timeout
  | n + 1, acc, _ => by
    unfold constraintsLoop
    outs [constraintsLoop_tr n _ _, parseConstraint_tr _]

theorem parseConstraints_tr (n Pre) : Tr file Pre (parseConstraints n) (fun _ _ => True) := by
  simp only [parseConstraints]
  outs [constraintsLoop_tr n _ _, parseConstraint_tr _, Tr.expectTok _ _ _]

theorem htnLoop_tr (sts) : ∀ n opos os cs Pre, Tr file Pre (htnLoop sts n opos os cs) (fun _ _ => True)
  | 0, _, _, _, _ => .timeout
  | n + 1, opos, os, cs, _ => by
    unfold htnLoop
    outs [htnLoop_tr sts n _ _ _ _, parseOrderingBlock_tr n _ _, parseConstraints_tr n _, Tr.expectTok _ _ _]

theorem parseHtn_tr (n Pre) : Tr file Pre (parseHtn n) (fun _ _ => True) := by
  simp only [parseHtn]
  outs [htnLoop_tr _ n _ _ _ _, parseSubtasks_tr n _, parseConstraints_tr n _, Tr.expectTok _ _ _]

theorem parseInitialTn_tr (n Pre) : Tr file Pre (parseInitialTn n) (fun _ _ => True) := by
  simp only [parseInitialTn]
  outs [parseHtn_tr n _, parseArgs_tr n _, Tr.expectTok _ _ _]

theorem parseTask_tr (n Pre) : Tr file Pre (parseTask n) (fun _ _ => True) := by
  simp only [parseTask]
  outs [parseArgs_tr n _, Tr.expectTok _ _ _, Tr.expectIdent _ _]

theorem parseAction_tr (n Pre) : Tr file Pre (parseAction n) (fun _ _ => True) := by
  have hf (Pre) : Tr file Pre (parseFormula n) (fun _ _ => True) :=
    ⟨fun s hs hp => by
      have := (parseFormula_tr n Pre).run s hs hp
      cases h : parseFormula n s with
      | ok x => rw [h] at this; exact ⟨this.1, trivial⟩
      | err e => rw [h] at this; exact this
      | panic e => rw [h] at this; exact this
      | timeout => trivial⟩
  simp only [parseAction]
  outs [parseTask_tr n _, hf _, Tr.expectTok _ _ _]

theorem parseMethod_tr (n Pre) : Tr file Pre (parseMethod n) (fun _ _ => True) := by
  simp only [parseMethod]
  outs [parseArgs_tr n _, parseFormula_tr n _, parseHtn_tr n _, Tr.expectTok _ _ _, Tr.expectIdent _ _, termsLoop_tr _ n _ _]

theorem parseDomain_tr (name) : ∀ n d Pre, Tr file Pre (parseDomain name n d) (fun _ _ => True)
  | 0, _, _ => .timeout
  | n + 1, d, _ => by
    unfold parseDomain
    outs [parseDomain_tr name n _ _, parsePredicates_tr n _ _, parseFunctions_tr n _ _, parseTask_tr n _, parseMethod_tr n _,
      parseAction_tr n _, parseRequirements_tr n _ _, parseArgs_tr n _, Tr.expectTok _ _ _]

theorem parseProblem_tr : ∀ n p Pre, Tr file Pre (parseProblem n p) (fun _ _ => True)
  | 0, _, _ => .timeout
  | n + 1, p, Pre => by
    have hobj (Pre) : Tr file Pre (parseArgs n >>= fun os => P.lift (addObjects p.objects os) >>= fun objs =>
        parseProblem n { p with objects := objs }) (fun _ _ => True) := by
      refine ⟨fun s hs hp => ?_⟩
      have h := (parseArgs_tr n Pre).run s hs hp
      show Outc file _ (P.bind' _ _ s)
      unfold P.bind'
      cases ha : parseArgs n s with
      | ok x =>
        obtain ⟨os, s'⟩ := x
        rw [ha] at h
        obtain ⟨items, lr, ht, _⟩ := parseArgs_sound ha
        have h4 := addObjects_ok (old := p.objects) (new := os) (by rw [ht.2]; exact symbolsOf_tyPos _)
        show Outc file _ (P.bind' (P.lift (addObjects p.objects os)) _ s')
        unfold P.bind' P.lift
        rw [h4]
        exact (parseProblem_tr n _ (fun _ => True)).run s' h.1 trivial
      | err e => rw [ha] at h; exact h
      | panic e => rw [ha] at h; exact h
      | timeout => trivial
    unfold parseProblem
    outs [hobj _, parseProblem_tr n _ _, parsePredicates_tr n _ _, parseFormula_tr n _, parseInitialTn_tr n _,
      parseRequirements_tr n _ _]

theorem parseFile_tr (n Pre) : Tr file Pre (parseFile n) (fun _ _ => True) := by
  simp only [parseFile, parseDocumentType, parseDomainHeader, parseProblemHeader]
  outs [parseDomain_tr _ n _ _, parseProblem_tr n _ _, Tr.expectTok _ _ _, Tr.expectIdent _ _]

/-- Every error of the parser is a lexical error of the tokenizer, or names a token that was just read and its line. -/
theorem parse_err {n : Nat} {file : Bytes} {e : PErr} (h : parse n file = .err e) : ParserErr file e := by
  have := (parseFile_tr (file := file) n fun _ => True).run _ .init trivial
  unfold parse at h
  cases hp : parseFile n (LexState.init file) <;> rw [hp] at h this <;> simp at h
  subst h
  exact this

/-- The parser panics in four places only. -/
theorem parse_panic {n : Nat} {file : Bytes} {p : Panic} (h : parse n file = .panic p) : ParserPanic p := by
  have := (parseFile_tr (file := file) n fun _ => True).run _ .init trivial
  unfold parse at h
  cases hp : parseFile n (LexState.init file) <;> rw [hp] at h this <;> simp at h
  subst h
  exact this

end Verif
