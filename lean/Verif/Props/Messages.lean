import Verif.Proofs.MessageNames
import Verif.Props.Output
import Verif.Props.Clash
import Verif.Props.Invariance

/-! C88: what can be learnt from the text of a message. -/

namespace Verif

open Spec

variable [Env] {ord ord' : HashOrd} {f f' : Bytes} {prob prob' : Option Bytes} {d : DomainAST} {p : ProblemAST}

omit [Env] in
theorem Spec.WrittenAt.space {x : Name} {l : Nat} (h : WrittenAt f x l) : 32 ∉ x := by
  obtain ⟨_, _, _, _, _, _, h, _⟩ := h
  exact fun h1 => h _ h1 (by decide)

theorem names_space {a : AST} (h : Parses f a) {x : Name} {l : Nat} (hx : (x, l) ∈ astNames a) : 32 ∉ x :=
  (written h hx).space

/-- Names in semantic errors have no spaces. -/
theorem semantic_space {se : SemErr} (h : Returns ord f prob (.err (.semantic se))) : ∀ x ∈ namesIn se, 32 ∉ x := by
  have hs := returns_semantic h
  clear h
  have plain {a : AST} {file : Bytes} (hp : Parses file a) (hm : ∀ n ∈ mentions se, n ∈ astNames a)
      (ht : isTypeErr se = false) : ∀ x ∈ namesIn se, 32 ∉ x := by
    intro x hx
    have : ∃ l, (x, l) ∈ mentions se := by
      cases se <;> simp_all [namesIn, mentions, isTypeErr]
    obtain ⟨l, hl⟩ := this
    exact names_space hp (hm _ hl)
  have typed {e : TypeErr} (h1 : 32 ∉ e.var) (h2 : ∀ t, e.expected = some t → 32 ∉ t) (h3 : ∀ t, e.found = some t → 32 ∉ t) :
      (∀ x ∈ namesIn (.predArgType e), 32 ∉ x) ∧ ∀ x ∈ namesIn (.taskArgType e), 32 ∉ x := by
    have : ∀ x ∈ e.var :: (e.expected.toList ++ e.found.toList), 32 ∉ x := by
      intro x hx
      simp only [List.mem_cons, List.mem_append, Option.mem_toList] at hx
      rcases hx with rfl | hx | hx
      · exact h1
      · exact h2 x hx
      · exact h3 x hx
    exact ⟨this, this⟩
  obtain ⟨d, hd, hs⟩ := hs
  obtain ⟨ts, hft, _⟩ := (C45_grammar f _).1 hd
  have hpos := FileText.positioned hft
  have hcon := FileText.constants hft
  have par {l : List Symbol} (hl : ParamsOf d l) {s : Symbol} (hs : s ∈ l) {t : Name} (ht : s.ty = some t) : 32 ∉ t := by
    obtain ⟨n, hn⟩ := Option.isSome_iff_exists.mp (hpos.1 l hl s hs (by simp [ht]))
    exact names_space hd (hl.names s hs _ (symbolNames_ty ht hn))
  have con {s : Symbol} (hs : s ∈ constantsOf d) {t : Name} (ht : s.ty = some t) : 32 ∉ t := by
    obtain ⟨n, hn⟩ := hcon.names hs ht
    refine names_space hd (l := n) ?_
    show (t, n) ∈ domainNames d
    unfold domainNames
    simp only [List.mem_append]
    exact .inl (.inl (.inl (.inl (.inl (.inr hn)))))
  have callee {x : Name} {ps : List Symbol} (h : Callee d x ps) : ParamsOf d ps := by
    cases h with
    | action h => exact .action h
    | task _ h => exact .task h
  have formal {l : List Symbol} (hl : ParamsOf d l) {i : Nat} {s : Symbol} (hs : l[i]? = some s) {t : Name}
      (ht : s.ty = some t) : 32 ∉ t := par hl (List.mem_of_getElem? hs) ht
  rcases hs with ⟨_, h1⟩ | ⟨g, p, ws, hg, hp, _, hac, _, h1⟩
  · have hm := h1.mentioned
    have misfit {e : TypeErr} {l args formals : List Symbol} (hl : ParamsOf d l) (hf : ParamsOf d formals)
        (hv : 32 ∉ e.var) (h : Misfit (typesOf d) [l, constantsOf d] args formals e) :
        (∀ x ∈ namesIn (.predArgType e), 32 ∉ x) ∧ ∀ x ∈ namesIn (.taskArgType e), 32 ∉ x := by
      obtain ⟨i, v, f, _, h2, _, _, h3, h4, _⟩ := h
      refine typed hv (fun t ht => formal hf h2 (h3 ▸ ht)) fun t ht => ?_
      obtain ⟨l', hl', s, hs, ht'⟩ := h4.mem ht
      simp only [List.mem_cons, List.not_mem_nil, or_false] at hl'
      rcases hl' with rfl | rfl
      · exact par hl hs ht'
      · exact con hs ht'
    cases h1 with
    | predArgType hf _ hq _ h =>
      refine (misfit ?_ (.predicate hq) (names_space hd (hm _ (List.mem_singleton_self _))) h).1
      cases hf with
      | pre ha => exact .action ha
      | eff ha => exact .action ha
      | method ha => exact .method ha
    | methodTaskType hme ht _ h => exact (misfit (.method hme) (.task ht) (names_space hd (hm _ (List.mem_singleton_self _))) h).2
    | subtaskType hme _ hc h => exact (misfit (.method hme) (callee hc) (names_space hd (hm _ (List.mem_singleton_self _))) h).2
    | _ => exact plain hd hm rfl
  · obtain ⟨us, hgt, _⟩ := (C45_grammar g _).1 hp
    have hobj := (FileText.positionedP hgt).objects
    have obj {s : Symbol} (hs : s ∈ p.objects) {t : Name} (ht : s.ty = some t) : 32 ∉ t := by
      obtain ⟨n, hn⟩ := Option.isSome_iff_exists.mp (hobj s hs (by simp [ht]))
      exact names_space hp (objectNames_mem hs _ (symbolNames_ty ht hn))
    cases h1 with
    | constantType ha hq _ hv hf _ ht _ =>
      refine (typed (names_space hp (ha.names _ (predNames_self _))) (fun t h => formal (.predicate hq) hf h) fun t h => ?_).1
      obtain ⟨l', hl', s, hs, ht'⟩ := ht.mem h
      simp only [List.mem_cons, List.not_mem_nil, or_false] at hl'
      subst hl'
      exact con hs ht'
    | objectType ha hq _ hv hf _ _ =>
      refine (typed (names_space hp (ha.names _ (predNames_self _))) (fun t h => formal (.predicate hq) hf h) fun t h => ?_).1
      have hl := FileText.facts hgt ha
      obtain ⟨n, hn⟩ := Option.isSome_iff_exists.mp (hl _ (List.mem_of_getElem? hv) (by simp only at h; simp [h]))
      refine names_space hp (ha.names (t, n) ?_)
      simp only [predNames, List.mem_cons, List.mem_flatMap]
      exact .inr ⟨_, List.mem_of_getElem? hv, symbolNames_ty h hn⟩
    | termType hi hs hc hv hf ht _ =>
      refine (typed (names_space hp (initTnNames_mem hi hs _ (subtaskNames_task _))) (fun t h => formal (callee hc) hf h)
        fun t h => ?_).2
      obtain ⟨l', hl', s, hs, ht'⟩ := ht.mem h
      simp only [List.mem_cons, List.not_mem_nil, or_false] at hl'
      rcases hl' with rfl | rfl
      · exact obj hs ht'
      · obtain ⟨n, hn⟩ := (FileText.initParams hgt hi).names hs ht'
        refine names_space hp (l := n) ?_
        show (t, n) ∈ problemNames p
        unfold problemNames
        rw [hi]
        simp only [List.mem_append]
        exact .inr (.inl hn)
    | termConstantType hi hs hc hv hf _ ht _ =>
      refine (typed (names_space hp (initTnNames_mem hi hs _ (subtaskNames_task _))) (fun t h => formal (callee hc) hf h)
        fun t h => ?_).1
      obtain ⟨l', hl', s, hs, ht'⟩ := ht.mem h
      simp only [List.mem_cons, List.not_mem_nil, or_false] at hl'
      subst hl'
      exact con hs ht'
    | undefType hs h2 h3 => exact plain hp ((ProblemReport.undefType hs h2 h3 ‹_›).mentioned rfl) rfl
    | dupObject h => exact plain hp ((ProblemReport.dupObject (d := d) h).mentioned rfl) rfl
    | undefPredicate h h2 => exact plain hp ((ProblemReport.undefPredicate h h2).mentioned rfl) rfl
    | predArity h h2 h3 h4 => exact plain hp ((ProblemReport.predArity h h2 h3 h4).mentioned rfl) rfl
    | undefObject h h2 h3 => exact plain hp ((ProblemReport.undefObject h h2 h3).mentioned rfl) rfl
    | undefSubtask h h2 h3 => exact plain hp ((ProblemReport.undefSubtask h h2 h3).mentioned rfl) rfl
    | taskArity h h2 h3 h4 => exact plain hp ((ProblemReport.taskArity h h2 h3 h4).mentioned rfl) rfl
    | undefTerm h h2 h3 h4 => exact plain hp ((ProblemReport.undefTerm h h2 h3 h4).mentioned rfl) rfl
    | cyclicOrdering h h2 h3 => exact plain hp ((ProblemReport.cyclicOrdering (d := d) h h2 h3).mentioned rfl) rfl

/-- C88: from the bytes of the message of an error one can read off what the error is: its kind, the names, types and
counts in it, and its lines; only the line of a wrong number of arguments of a task is not there, and an argument of a
wrong type may be one of a predicate or of a task.  The printed form of a floating point number is assumed to have no
quotation mark. -/
theorem C88_error (hq : ∀ l, 39 ∉ keyBytes (Env.showReal l)) {e : PErr} {t : Text} (h : Returns ord f prob (.err e))
    (ht : e.show = .ok t) : readReport (Text.bytes t) = some (reportOf e) := by
  cases e with
  | lexical e =>
    cases ht
    obtain ⟨file, _, peek, s, s', _, hl⟩ := parser_error h (by simp)
    exact read_lexical e (lex_err_bytes hl)
  | syntactic e =>
    cases ht
    obtain ⟨file, _, s, ⟨peek, s0, _, hl⟩, _⟩ := parser_error h (by simp)
    exact read_syntactic e (found_quote hq hl)
  | semantic se => exact read_semantic ht (semantic_space h)

example : ∃ e t, @Returns Env.plain HashOrd.id
    b!"(define (domain d)\n(:types b - c)\n(:predicates (p ?x - b))\n(:action a :parameters (?y - c) :effect (p ?y)))\n" none
      (.err e) ∧ @PErr.show Env.plain e = .ok t ∧
    Text.bytes t = b!"line 4: Type error for variable y. Expected object of type 'b', but found 'c'." ∧
    readReport (Text.bytes t) = some (.argumentType b!"y" (some b!"b") (some b!"c") 4) :=
  ⟨.semantic (.predArgType { var := b!"y", expected := some b!"b", found := some b!"c", pos := 4 }), _,
    @returns_run Env.plain _ _ _ 60 _ (by decide +kernel) (by simp), rfl, by decide +kernel, by decide +kernel⟩

/-- C88 for warnings. -/
theorem C88_warning {ws : List Warning} (h : Returns ord f prob (.ok ws)) {w : Warning} (hw : w ∈ ws) :
    readReport (Text.bytes w.show) = some (.noRefinement w.symbol w.pos) := by
  obtain ⟨d, hd, _⟩ := returns_ok_parses h
  obtain ⟨t, ht, rfl, _⟩ := ((C29_exact hd ws h).2.2 w).1 hw
  exact read_warning _ (names_space hd (l := t.pos) (taskNames_mem ht _ (by simp [taskNames])))

example : @Returns Env.plain HashOrd.id b!"(define (domain d)\n(:task t :parameters ()))\n" none (.ok [⟨b!"t", 2⟩]) ∧
    Text.bytes (Warning.show ⟨b!"t", 2⟩) = b!"line 2: compound task t does not have a primitive refinement" ∧
    readReport (Text.bytes (Warning.show ⟨b!"t", 2⟩)) = some (.noRefinement b!"t" 2) :=
  ⟨@returns_run Env.plain _ _ _ 40 _ (by decide +kernel) (by simp), by decide +kernel, by decide +kernel⟩

/-! ### Equal texts -/

/-- The first byte of the text of a token. -/
def tokenHead : Token → UInt8
  | .kw _ => 75
  | .ident _ => 73
  | .num _ => 78
  | .op .or => 111
  | .op .not => 110
  | .op .and => 97
  | .op .xor => 111
  | .op .forall_ => 102
  | .op .exists_ => 101
  | .op .implication => 119
  | .op .probabilistic => 112
  | .op .equal => 61
  | .op .lt => 60
  | .op .gt => 62
  | .op .le => 60
  | .op .ge => 62
  | .punct .dash => 45
  | .punct .lparen => 40
  | .punct .rparen => 41
  | .req _ => 82
  | .eof => 69

theorem tokenHead_show (t : Token) : (Text.bytes t.show).head? = some (tokenHead t) := by
  cases t with
  | op o => cases o <;> rfl
  | punct o => cases o <;> rfl
  | num v => cases v <;> rfl
  | _ => rfl

omit [Env] in
theorem kw_text {k k' : Kw} (h : keyBytes k.show = keyBytes k'.show) : k = k' := by
  have : ∀ k : Kw, [Kw.define, .domain, .problem, .requirements, .objects, .types, .task, .constants, .predicates, .functions,
      .init, .htn, .action, .parameters, .method, .precondition, .effect, .subtasks, .orderedSubtasks, .ordering,
      .constraints, .goal].find? (fun j => keyBytes j.show = keyBytes k.show) = some k := by
    intro k; cases k <;> rfl
  have h1 := this k
  rw [h, this k'] at h1
  exact (Option.some.inj h1).symm

omit [Env] in
theorem req_text {k k' : Req} (h : keyBytes k.show = keyBytes k'.show) : k = k' := by
  have : ∀ k : Req, [Req.methodPreconditions, .hierarchy, .typedObjects, .negativePreconditions, .universalPreconditions,
      .equality, .strips, .probabilisticEffects].find? (fun j => keyBytes j.show = keyBytes k.show) = some k := by
    intro k; cases k <;> rfl
  have h1 := this k
  rw [h, this k'] at h1
  exact (Option.some.inj h1).symm

omit [Env] in
theorem op_text {k k' : Op} (h : keyBytes k.show = keyBytes k'.show) : k = k' := by
  have : ∀ k : Op, [Op.or, .not, .and, .xor, .forall_, .exists_, .implication, .probabilistic, .equal, .lt, .gt, .le,
      .ge].find? (fun j => keyBytes j.show = keyBytes k.show) = some k := by
    intro k; cases k <;> rfl
  have h1 := this k
  rw [h, this k'] at h1
  exact (Option.some.inj h1).symm

/-- Tokens that are shown in the same way are equal, or both are numbers. -/
theorem token_text {t t' : Token} (h : Text.bytes t.show = Text.bytes t'.show) :
    t = t' ∨ ∃ v v', t = .num v ∧ t' = .num v' := by
  have hh : tokenHead t = tokenHead t' := by
    have := tokenHead_show t
    rw [h, tokenHead_show t'] at this
    exact (Option.some.inj this).symm
  cases t with
  | kw k =>
    cases t' with
    | kw k' =>
      simp only [Token.show, bytes_s, bytes_nil, List.append_nil, List.append_cancel_left_eq] at h
      rw [kw_text h]; exact .inl rfl
    | op o => cases o <;> cases hh
    | punct o => cases o <;> cases hh
    | _ => cases hh
  | ident x =>
    cases t' with
    | ident x' =>
      simp only [Token.show, bytes_s, bytes_n, bytes_nil, List.append_nil, List.append_cancel_left_eq] at h
      rw [h]; exact .inl rfl
    | op o => cases o <;> cases hh
    | punct o => cases o <;> cases hh
    | _ => cases hh
  | num v =>
    cases t' with
    | num v' => exact .inr ⟨v, v', rfl, rfl⟩
    | op o => cases o <;> cases hh
    | punct o => cases o <;> cases hh
    | _ => cases hh
  | req k =>
    cases t' with
    | req k' =>
      simp only [Token.show, bytes_s, bytes_nil, List.append_nil, List.append_cancel_left_eq] at h
      rw [req_text h]; exact .inl rfl
    | op o => cases o <;> cases hh
    | punct o => cases o <;> cases hh
    | _ => cases hh
  | eof =>
    cases t' with
    | eof => exact .inl rfl
    | op o => cases o <;> cases hh
    | punct o => cases o <;> cases hh
    | _ => cases hh
  | op o =>
    cases t' with
    | op o' =>
      simp only [Token.show, bytes_s, bytes_nil, List.append_nil] at h
      rw [op_text h]; exact .inl rfl
    | punct p => cases o <;> cases p <;> cases hh
    | _ => cases o <;> cases hh
  | punct o =>
    cases t' with
    | punct o' => cases o <;> cases o' <;> first | exact .inl rfl | cases hh
    | op p => cases o <;> cases p <;> cases hh
    | _ => cases o <;> cases hh

/-- Two errors with the same text. -/
inductive SameMessage : PErr → PErr → Prop
  | same {e} : SameMessage e e
  /-- a wrong number of arguments of a task: the line is not in the text -/
  | taskArity {x a b l l'} : SameMessage (.semantic (.taskArity ⟨x, a, b, l⟩)) (.semantic (.taskArity ⟨x, a, b, l'⟩))
  /-- a wrong type: whether of an argument of a predicate or of a task is not in the text -/
  | predTask {e} : SameMessage (.semantic (.predArgType e)) (.semantic (.taskArgType e))
  | taskPred {e} : SameMessage (.semantic (.taskArgType e)) (.semantic (.predArgType e))
  /-- a number instead of something else: `5` and `5.0` are shown in the same way -/
  | number {e e' l v v'} : Text.bytes e = Text.bytes e' → SameMessage (.syntactic ⟨e, .num v, l⟩) (.syntactic ⟨e', .num v', l⟩)
  | expected {e e' l t} : Text.bytes e = Text.bytes e' → SameMessage (.syntactic ⟨e, t, l⟩) (.syntactic ⟨e', t, l⟩)

theorem same_of_report {e e' : PErr} (h : reportOf e = reportOf e') : SameMessage e e' := by
  cases e with
  | lexical e =>
    obtain ⟨k, x, l⟩ := e
    cases e' with
    | lexical e' =>
      obtain ⟨k', x', l'⟩ := e'
      cases k <;> cases k' <;> simp only [reportOf, Report.invalidIdentifier.injEq, Report.invalidKeyword.injEq,
        Report.invalidReal.injEq, reduceCtorEq] at h <;> (obtain ⟨rfl, rfl⟩ := h; exact .same)
    | syntactic e' => cases k <;> cases h
    | semantic se => cases k <;> cases se <;> cases h
  | syntactic e =>
    obtain ⟨x, t, l⟩ := e
    cases e' with
    | lexical e' =>
      obtain ⟨k', x', l'⟩ := e'
      cases k' <;> cases h
    | syntactic e' =>
      obtain ⟨x', t', l'⟩ := e'
      simp only [reportOf, Report.syntax.injEq] at h
      obtain ⟨h1, h2, rfl⟩ := h
      rcases token_text h2 with rfl | ⟨v, v', rfl, rfl⟩
      · exact .expected h1
      · exact .number h1
    | semantic se => cases se <;> cases h
  | semantic se =>
    cases e' with
    | lexical e' =>
      obtain ⟨k', x', l'⟩ := e'
      cases k' <;> cases se <;> cases h
    | syntactic e' => cases se <;> cases h
    | semantic se' =>
      cases se <;> cases se' <;> simp only [reportOf, Report.repeated.injEq, Report.undefined.injEq, Report.repeatedRequirement.injEq,
        Report.predicateArity.injEq, Report.taskArity.injEq, Report.argumentType.injEq, Report.cyclicOrdering.injEq,
        reduceCtorEq, false_and, true_and] at h
      all_goals first
        | exact .same
        | (subst h; exact .same)
        | (rename_i a b; obtain ⟨_, _⟩ := a; obtain ⟨_, _⟩ := b; simp only at h; obtain ⟨rfl, rfl⟩ := h; exact .same)
        | (rename_i a b; obtain ⟨_, _, _⟩ := a; obtain ⟨_, _, _⟩ := b; simp only at h; obtain ⟨rfl, rfl, rfl⟩ := h; exact .same)
        | (rename_i a b; obtain ⟨_, _, _, _⟩ := a; obtain ⟨_, _, _, _⟩ := b; simp only at h; obtain ⟨rfl, rfl, rfl, rfl⟩ := h
           first | exact .same | exact .predTask | exact .taskPred)
        | (rename_i a b; obtain ⟨_, _, _, _⟩ := a; obtain ⟨_, _, _, _⟩ := b; simp only at h; obtain ⟨rfl, rfl, rfl⟩ := h
           exact .taskArity)

/-- C88: errors with the same message are the same, up to what is not in the message. -/
theorem C88_alike (hq : ∀ l, 39 ∉ keyBytes (Env.showReal l)) {e e' : PErr} {t t' : Text} (h : Returns ord f prob (.err e))
    (h' : Returns ord' f' prob' (.err e')) (ht : e.show = .ok t) (ht' : e'.show = .ok t')
    (heq : Text.bytes t = Text.bytes t') : SameMessage e e' := by
  have h1 := C88_error hq h ht
  have h2 := C88_error hq h' ht'
  rw [heq, h2] at h1
  exact same_of_report (Option.some.inj h1).symm

omit [Env] in
/-- C88: the exceptions occur.  Two files whose errors are in different lines have the same message, and so have two files
of which one has an argument of a wrong type of a predicate, the other of a task. -/
theorem C88_exceptions : (∃ (f f' : Bytes) (e e' : PErr) (t : Text), @Returns Env.plain HashOrd.id f none (.err e) ∧
      @Returns Env.plain HashOrd.id f' none (.err e') ∧ @PErr.show Env.plain e = .ok t ∧ @PErr.show Env.plain e' = .ok t ∧
      ∃ x n m, e = .semantic (.taskArity ⟨x, n, m, 3⟩) ∧ e' = .semantic (.taskArity ⟨x, n, m, 4⟩)) ∧
    ∃ (f f' : Bytes) (e : TypeErr) (t : Text), @Returns Env.plain HashOrd.id f none (.err (.semantic (.predArgType e))) ∧
      @Returns Env.plain HashOrd.id f' none (.err (.semantic (.taskArgType e))) ∧
      @PErr.show Env.plain (.semantic (.predArgType e)) = .ok t ∧ @PErr.show Env.plain (.semantic (.taskArgType e)) = .ok t := by
  refine ⟨⟨
    b!"(define (domain d)\n(:task t :parameters (?x))\n(:method m :parameters () :task (t) :subtasks ()))\n",
    b!"(define (domain d)\n(:task t :parameters (?x))\n\n(:method m :parameters () :task (t) :subtasks ()))\n",
    .semantic (.taskArity ⟨b!"t", 0, 1, 3⟩), .semantic (.taskArity ⟨b!"t", 0, 1, 4⟩), _,
    @returns_run Env.plain _ _ _ 60 _ (by decide +kernel) (by simp),
    @returns_run Env.plain _ _ _ 60 _ (by decide +kernel) (by simp), rfl, rfl, _, _, _, rfl, rfl⟩, ⟨
    b!"(define (domain d)\n(:types b - c)\n(:predicates (p ?x - b))\n(:action a :parameters (?y - c) :effect (p ?y)))\n",
    b!"(define (domain d)\n(:types b - c)\n(:task p :parameters (?x - b))\n(:method m :parameters (?y - c) :task (p ?y) :subtasks ()))\n",
    { var := b!"y", expected := some b!"b", found := some b!"c", pos := 4 }, _,
    @returns_run Env.plain _ _ _ 60 _ (by decide +kernel) (by simp),
    @returns_run Env.plain _ _ _ 60 _ (by decide +kernel) (by simp), rfl, rfl⟩⟩

/-- C88 for the command: if two runs of `verify` print the same, both accept with the same warnings, or both report
errors that are alike. -/
theorem C88_command (hq : ∀ l, 39 ∉ keyBytes (Env.showReal l)) {out out' : List OutLine} (h : Ends ord f prob (.ok out))
    (h' : Ends ord' f' prob' (.ok out')) (heq : out.map OutLine.bytes = out'.map OutLine.bytes) :
    (∃ ws, Returns ord f prob (.ok ws) ∧ Returns ord' f' prob' (.ok ws)) ∨
      ∃ e e', Returns ord f prob (.err e) ∧ Returns ord' f' prob' (.err e') ∧ SameMessage e e' := by
  obtain ⟨r, hr, h1⟩ := h.returns
  obtain ⟨r', hr', h1'⟩ := h'.returns
  have err {e : PErr} {out : List OutLine} (h : verifyOutput (.err e) = .ok out) : ∃ t, e.show = .ok t ∧ out = [errorLine t] := by
    simp only [verifyOutput] at h
    cases hs : e.show with
    | ok t => rw [hs] at h; cases h; exact ⟨t, rfl, rfl⟩
    | err _ | panic _ | timeout => rw [hs] at h; cases h
  cases r with
  | ok ws =>
    cases h1
    cases r' with
    | ok ws' =>
      cases h1'
      left
      refine ⟨ws, hr, ?_⟩
      suffices ws = ws' by rw [this]; exact hr'
      simp only [List.map_append, List.map_map] at heq
      have h2 := (List.append_inj_left' heq rfl)
      clear heq h h'
      have a1 : ∀ w ∈ ws, readReport (Text.bytes w.show) = some (.noRefinement w.symbol w.pos) := fun w => C88_warning hr
      have a2 : ∀ w ∈ ws', readReport (Text.bytes w.show) = some (.noRefinement w.symbol w.pos) := fun w => C88_warning hr'
      clear hr hr'
      induction ws generalizing ws' with
      | nil => cases ws' with | nil => rfl | cons => cases h2
      | cons w ws ih =>
        cases ws' with
        | nil => cases h2
        | cons w' ws' =>
          simp only [List.map_cons, List.cons.injEq] at h2
          rw [ih ws' h2.2 (fun w hw => a1 w (List.mem_cons_of_mem _ hw)) (fun w hw => a2 w (List.mem_cons_of_mem _ hw))]
          have h3 := h2.1
          simp only [Function.comp, OutLine.bytes, warnLine, Prod.mk.injEq, true_and, bytes_append, List.append_cancel_right_eq,
            List.append_cancel_left_eq] at h3
          have h4 := a1 w List.mem_cons_self
          rw [h3, a2 w' List.mem_cons_self] at h4
          obtain ⟨x, l⟩ := w
          obtain ⟨x', l'⟩ := w'
          cases h4
          rfl
    | err e =>
      obtain ⟨t, _, rfl⟩ := err h1'
      have := congrArg List.getLast? heq
      simp [OutLine.bytes, okLine, errorLine] at this
    | panic | timeout => cases h1'
  | err e =>
    obtain ⟨t, ht, rfl⟩ := err h1
    cases r' with
    | ok ws' =>
      cases h1'
      have := congrArg List.getLast? heq
      simp [OutLine.bytes, okLine, errorLine] at this
    | err e' =>
      obtain ⟨t', ht', rfl⟩ := err h1'
      refine .inr ⟨e, e', hr, hr', C88_alike hq hr hr' ht ht' ?_⟩
      simpa [OutLine.bytes, errorLine, bytes_s] using heq
    | panic | timeout => cases h1'
  | panic | timeout => cases h1

end Verif
