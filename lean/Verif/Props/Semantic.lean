import Verif.Proofs.Mentions
import Verif.Spec.Scoping

/-! C07, C19 – C28, C33, C46 – C48: what `verify` accepts, and what its errors say. -/

namespace Verif

open Spec

variable [Env] {ord : HashOrd} {f g : Bytes} {prob : Option Bytes} {d : DomainAST} {p : ProblemAST}

theorem returns_run {n : Nat} {r : R (List Warning)} (h : verify ord n f prob = r) (hr : r ≠ .timeout) :
    Returns ord f prob r := returns_iff.mpr ⟨hr, n, h⟩

theorem written {a : AST} {x : Name} {l : Nat} (h : Parses f a) (hx : (x, l) ∈ astNames a) : WrittenAt f x l := by
  obtain ⟨pre, w, c, post, h1, h2, h3, h4, h5, _⟩ := C18_names f a x l h hx
  exact ⟨pre, w, c, post, h1, h2, h3, h4, h5⟩

/-! ### C07: no crash on domain files -/

theorem header_classify {s1 : LexState} {a b : Name}
    (h : (expectTok LP [.s "start of the file with '('"] >>= fun _ => parseDocumentType) (LexState.init f) =
      .ok (.problem a b, s1)) : classify f = .ok .problem := by
  unfold parseDocumentType parseDomainHeader parseProblemHeader at h
  run_at h
  obtain ⟨_, s2, h1, _, s3, h2, _, s4, h3, t, s5, h4, h5⟩ := h
  simp only [classify, h1, h2, h3, h4]
  split at h5
  · run_at h5
    grind
  · rfl
  · cases h5

/-- C07, the part that holds: on a file that is valid UTF-8, ends with a newline, does not start like a problem file, and
has no `exists` in a formula of an action or method, `verify` returns a result or an error.  Missing: other files, see
`C07_refuted`. -/
theorem C07_no_crash_partial (hu : (decodeUtf8 f).isSome) (hn : ∃ i, f = i ++ [10]) (hp : classify f ≠ .ok .problem)
    (he : ∀ d, Parses f (.domain d) → ∀ l fm, FormulaOf d l fm → ¬ ExistsIn fm) :
    (∃ ws, Returns ord f none (.ok ws)) ∨ ∃ e, Returns ord f none (.err e) := by
  have hgood : f = [] ∨ ∃ c, f.getLast? = some c ∧ Delim c := by
    obtain ⟨i, rfl⟩ := hn
    exact .inr ⟨10, by simp, by decide⟩
  have hc := parseFile_clean (f.length + 1) (LexState.init f) ⟨(Good.init hgood).moves, .inr ⟨hu, .inr hn⟩⟩
    (by simp [LexState.init]) fun a b s1 h => hp (header_classify h)
  have hpar : parse (f.length + 1) f ≠ .timeout ∧ ∀ x, parse (f.length + 1) f ≠ .panic x := by
    have := hc.run
    unfold parse
    cases h : parseFile (f.length + 1) (LexState.init f) <;> rw [h] at this <;> simp at this ⊢
  rcases parse_cases hpar.1 with ⟨a, ha⟩ | ⟨e, _, h⟩ | ⟨x, _, h⟩
  · cases a with
    | problem p => exact absurd ((C17_classify f).2.1 p ha) hp
    | domain d =>
      rcases returns_none (ord := ord) ha with ⟨ws, _, h⟩ | ⟨e, _, h⟩ | ⟨x, hx, _⟩
      · exact .inl ⟨ws, h⟩
      · exact .inr ⟨e, h none⟩
      · exfalso
        obtain ⟨ts, h1, _⟩ := (C45_grammar f _).1 ha
        obtain ⟨_, l, fm, h2, h3⟩ := checkDomain_panic (FileText.positioned h1) hx
        exact he d ha l fm h2 (FileText.exists h1 h2 h3)
  · refine .inr ⟨e, returns_run (n := f.length + 1) ?_ (by simp)⟩
    unfold verify; rw [h _ (Nat.le_refl _)]; rfl
  · exact absurd (h _ (Nat.le_refl _)) (hpar.2 x)

omit [Env] in
/-- C07 does not hold in general: a comment that is not ended by a newline, bytes that are not UTF-8, a file that ends
with `?`, a problem file, and an existential quantifier each make `verify` panic. -/
theorem C07_refuted :
    @Returns Env.plain HashOrd.id b!"(define (domain d) ; end" none (.panic .commentEof) ∧
    @Returns Env.plain HashOrd.id (b!"(define (domain d) (:" ++ [255, 32]) none (.panic .utf8) ∧
    @Returns Env.plain HashOrd.id b!"(define (domain ?" none (.panic .lexemeEof) ∧
    @Returns Env.plain HashOrd.id b!"(define (problem p) (domain d) x)\n" none (.panic .problemToken) ∧
    @Returns Env.plain HashOrd.id b!"(define (problem p) (domain d))\n" none (.panic .expectedDomain) ∧
    @Returns Env.plain HashOrd.id
      b!"(define (domain d) (:predicates (p)) (:action a :parameters () :precondition (exists (?x) (p))))\n" none
      (.panic .existsFormula) :=
  ⟨@returns_run Env.plain _ _ _ 40 _ (by decide +kernel) (by simp),
    @returns_run Env.plain _ _ _ 40 _ (by decide +kernel) (by simp),
    @returns_run Env.plain _ _ _ 40 _ (by decide +kernel) (by simp),
    @returns_run Env.plain _ _ _ 40 _ (by decide +kernel) (by simp),
    @returns_run Env.plain _ _ _ 40 _ (by decide +kernel) (by simp),
    @returns_run Env.plain _ _ _ 40 _ (by decide +kernel) (by simp)⟩

/-! ### C46: lexical and syntax errors -/

/-- The file in which an error was found: the domain, or the problem when the domain is accepted. -/
def InFile (ord : HashOrd) (f : Bytes) (prob : Option Bytes) (file : Bytes) : Prop :=
  file = f ∨ (prob = some file ∧ ∃ ws, Returns ord f none (.ok ws))

theorem parser_error {e : PErr} (h : Returns ord f prob (.err e)) (hs : ∀ se, e ≠ .semantic se) :
    ∃ file, InFile ord f prob file ∧ ParserErr file e := by
  rcases returns_inv h with ⟨e, he, h1⟩ | ⟨x, _, h1⟩ | ⟨_, _, h1⟩ | ⟨d, hd, h2⟩
  · cases h1; exact ⟨f, .inl rfl, he⟩
  · cases h1
  · cases h1
  rcases h2 with ⟨e, hc, h1⟩ | ⟨x, _, h1⟩ | ⟨ws, hac, h2⟩
  · cases h1
    obtain ⟨se, h3, _⟩ := checkDomain_report hc
    exact absurd h3 (hs se)
  · cases h1
  rcases h2 with ⟨_, h1⟩ | ⟨g, hg, h2⟩
  · cases h1
  rcases h2 with ⟨e, he, h1⟩ | ⟨x, _, h1⟩ | ⟨_, _, h1⟩ | ⟨p, hp, h1⟩
  · cases h1; exact ⟨g, .inr ⟨hg, ws, (returns_ok_none hd).mpr hac⟩, he⟩
  · cases h1
  · cases h1
  obtain ⟨se, h3, _⟩ := verifyProblem_report (accepts_iff.mp ⟨_, hac⟩) h1.symm
  exact absurd h3 (hs se)

/-- C46: a syntax error names a token that is written in the file on the reported line. -/
theorem C46_syntax_errors (e : SynError) (h : Returns ord f prob (.err (.syntactic e))) :
    ∃ file, InFile ord f prob file ∧ ∃ pre w post, file = pre ++ (w ++ post) ∧ TextOf e.found w ∧
      (e.found = .eof ↔ w ++ post = []) ∧ e.pos = 1 + newlines pre := by
  obtain ⟨file, hf, s, ⟨peek, s0, hr, hl⟩, hp⟩ := parser_error h (by simp)
  obtain ⟨pre, h1, hn⟩ := hr.at
  obtain ⟨lay, w, r, _, hrest, ht, _, hl', heof, _⟩ := lex_tok_spec hl
  exact ⟨file, hf, pre ++ lay, w, r, by rw [h1, hrest]; simp, ht, heof,
    by rw [← hp, hl', hn, newlines_append, Nat.add_assoc]⟩

/-- C46: a lexical error names a lexeme that is written in the file on the reported line. -/
theorem C46_lexical_errors (e : LexError) (h : Returns ord f prob (.err (.lexical e))) :
    ∃ file, InFile ord f prob file ∧ ∃ pre post, file = pre ++ post ∧ (∃ c r, post = c :: r ∧ ¬ Blank c ∧ c ≠ 59) ∧
      (e.lexeme <+: post ∨ (58 :: e.lexeme) <+: post ∨ (63 :: e.lexeme) <+: post) ∧ e.pos = 1 + newlines pre := by
  obtain ⟨file, hf, peek, s, s', hr, hl⟩ := parser_error h (by simp)
  obtain ⟨pre, h1, hn⟩ := hr.at
  obtain ⟨lay, w, _, hrest, _, hp, _, hx, _, hs⟩ := lex_err_at hl
  exact ⟨file, hf, pre ++ lay, _, by rw [h1, hrest]; simp, hs, hx, by rw [hp, hn, newlines_append, Nat.add_assoc]⟩

/-- Instances: a keyword where a name is expected, and an unknown keyword. -/
example : @Returns Env.plain HashOrd.id b!"(define (domain\n and))\n" none
    (.err (.syntactic ⟨[.s "domain name"], .op .and, 2⟩)) :=
  @returns_run Env.plain _ _ _ 40 _ (by decide +kernel) (by simp)

example : @Returns Env.plain HashOrd.id b!"(define (domain d)\n (:typos a))\n" none
    (.err (.lexical ⟨.invalidKeyword, b!"typos", 2⟩)) :=
  @returns_run Env.plain _ _ _ 40 _ (by decide +kernel) (by simp)

/-! ### C19: duplicates -/

/-- C19, requirements: reported exactly when one is repeated.  (`C19_*_partial`: what is missing is constants, see
`C19_refuted`.) -/
theorem C19_requirement_partial (hf : Parses f (.domain d)) (r : Req) :
    Returns ord f prob (.err (.semantic (.dupRequirement r))) ↔
      ∃ a b, d.requirements = a ++ r :: b ∧ a.Nodup ∧ r ∈ a := by
  rw [returns_domainOnly hf rfl, dupRequirement_iff]

/-- C19, predicates: reported exactly when the first repetition comes before any other error. -/
theorem C19_predicate_partial (hf : Parses f (.domain d)) (e : DupErr) :
    Returns ord f prob (.err (.semantic (.dupPredicate e))) ↔
      HeadOk d ∧ RepeatsAfter (fun s : Predicate => (s.name, s.pos)) (fun p => TypesKnown (typesOf d) p.vars)
        d.predicates e := by
  rw [returns_domainOnly hf rfl, dupPredicate_iff]

/-- C19, compound tasks. -/
theorem C19_task_partial (hf : Parses f (.domain d)) (e : DupErr) :
    Returns ord f prob (.err (.semantic (.dupTask e))) ↔
      HeadOk d ∧ PredicatesOk d ∧
        RepeatsAfter (fun s : Task => (s.name, s.pos)) (fun p => TypesKnown (typesOf d) p.params) d.tasks e := by
  rw [returns_domainOnly hf rfl, dupTask_iff]

/-- C19, actions. -/
theorem C19_action_partial (hf : Parses f (.domain d)) (e : DupErr) :
    Returns ord f prob (.err (.semantic (.dupAction e))) ↔
      HeadOk d ∧ PredicatesOk d ∧ TasksOk d ∧
        RepeatsAfter (fun s : Action => (s.name, s.pos)) (ActionOk d) d.actions e := by
  rw [returns_domainOnly hf rfl, dupAction_iff]

/-- C19, methods. -/
theorem C19_method_partial (hf : Parses f (.domain d)) (e : DupErr) :
    Returns ord f prob (.err (.semantic (.dupMethod e))) ↔
      HeadOk d ∧ PredicatesOk d ∧ TasksOk d ∧ ActionsOk d ∧
        RepeatsAfter (fun s : Method => (s.name.name, s.name.pos)) (MethodOk d) d.methods e := by
  rw [returns_domainOnly hf rfl, dupMethod_iff]

/-- C19, parameters of actions and methods. -/
theorem C19_parameter_partial (hf : Parses f (.domain d)) (e : DupErr) :
    Returns ord f prob (.err (.semantic (.dupParameter e))) ↔
      HeadOk d ∧ PredicatesOk d ∧ TasksOk d ∧ (BadActionParam d e ∨ (ActionsOk d ∧ BadMethodParam d e)) := by
  rw [returns_domainOnly hf rfl, dupParameter_iff]

/-- C19, objects of a problem for an accepted domain. -/
theorem C19_object_partial (hf : Parses f (.domain d)) (hg : Parses g (.problem p)) (hd : DomainOk d) (e : DupErr) :
    Returns ord f (some g) (.err (.semantic (.dupObject e))) ↔
      TypesKnown (typesOf d) p.objects ∧ Repeats (p.objects.map fun s => (s.name, s.pos)) e := by
  obtain ⟨ws, hws⟩ := (accepts_iff (ord := ord)).mpr hd
  rw [returns_err_some hf hg, checked_of_accepts hws]
  constructor
  · rintro (h | ⟨ws, _, h⟩)
    · cases h
    · exact (dupObject_iff hd).mp h
  · exact fun h => .inr ⟨ws, hws, (dupObject_iff hd).mpr h⟩

/-- C19: a reported duplicate really is written at both reported lines, in the domain or in the problem. -/
theorem C19_located (se : SemErr) (e : DupErr)
    (he : se ∈ [SemErr.dupPredicate e, .dupTask e, .dupAction e, .dupMethod e, .dupParameter e, .dupObject e])
    (h : Returns ord f prob (.err (.semantic se))) :
    (WrittenAt f e.symbol e.first ∧ WrittenAt f e.symbol e.second) ∨
      ∃ g, prob = some g ∧ WrittenAt g e.symbol e.first ∧ WrittenAt g e.symbol e.second := by
  have hm : mentions se = [(e.symbol, e.first), (e.symbol, e.second)] ∧ isTypeErr se = false := by
    simp only [List.mem_cons, List.not_mem_nil, or_false] at he
    rcases he with rfl | rfl | rfl | rfl | rfl | rfl <;> exact ⟨rfl, rfl⟩
  obtain ⟨d, hd, ⟨_, h1⟩ | ⟨g, p, ws, hg, hp, _, _, _, h1⟩⟩ := returns_semantic h
  · have := h1.mentioned
    rw [hm.1] at this
    exact .inl ⟨written hd (this _ (by simp)), written hd (this _ (by simp))⟩
  · have := h1.mentioned hm.2
    rw [hm.1] at this
    exact .inr ⟨g, hg, written hp (this _ (by simp)), written hp (this _ (by simp))⟩

/-- Instance: the predicate `p` is declared on lines 2 and 4. -/
example : @Returns Env.plain HashOrd.id b!"(define (domain d)\n(:predicates (p)\n (q)\n (p ?x)))\n" none
    (.err (.semantic (.dupPredicate ⟨b!"p", 2, 4⟩))) :=
  @returns_run Env.plain _ _ _ 40 _ (by decide +kernel) (by simp)

omit [Env] in
/-- C19 does not hold for constants: a constant may be declared twice, even with different types. -/
theorem C19_refuted : @Returns Env.plain HashOrd.id
    b!"(define (domain d) (:types t - o u - o) (:constants c - t c - u))\n" none (.ok []) :=
  @returns_run Env.plain _ _ _ 40 _ (by decide +kernel) (by simp)

/-! ### C20: cyclic types -/

/-- C20: the type declarations are reported as cyclic exactly when they have a cycle of any length (and no requirement
is repeated). -/
theorem C20_cyclic_types (hf : Parses f (.domain d)) :
    Returns ord f prob (.err (.semantic .cyclicType)) ↔
      d.requirements.Nodup ∧ ∃ x, Relation.TransGen (DirectSub (typesOf d)) x x := by
  rw [returns_domainOnly hf rfl, cyclicType_iff]
  simp only [Acyclic, not_forall, not_not]

/-- Instance: a cycle of length three. -/
example : @Returns Env.plain HashOrd.id b!"(define (domain d) (:types a - b b - c c - a))\n" none
    (.err (.semantic .cyclicType)) :=
  @returns_run Env.plain _ _ _ 40 _ (by decide +kernel) (by simp)

/-! ### C21: type compatibility -/

omit [Env] in
/-- C21 on the type checker itself. -/
theorem C21_compatibility (d : DomainAST) (found expected : Option Name) :
    (TypeGraph.new d.types).consistent found expected = true ↔ Fits (typesOf d) found expected :=
  consistent_iff d found expected

/-- A domain that uses an argument of type `found` where `expected` is declared:
`(:predicates (p ?x - expected)) (:action a :parameters (?x - found) :precondition (p ?x))`. -/
def probe (types : List Symbol) (found expected : Option Name) : DomainAST :=
  { DomainAST.new [100] with
    types := some types
    predicates := [⟨[112], 1, [⟨[120], 1, expected, expected.map fun _ => 1⟩]⟩]
    actions := [⟨[97], 2, [⟨[120], 2, found, found.map fun _ => 2⟩],
      some (.atom ⟨[112], 2, [⟨[120], 2, none, none⟩]⟩), none⟩] }

omit [Env] in
/-- C21 observed through acceptance: with acyclic types and known types, the domain above is accepted exactly when
`found` is `expected` or a descendant of it, or both are absent. -/
theorem C21_observed (ord : HashOrd) (types : List Symbol) (found expected : Option Name)
    (hc : Acyclic (DirectSub types)) (hf : ∀ t, found = some t → TypeKnown types t)
    (he : ∀ t, expected = some t → TypeKnown types t) :
    (∃ ws, Accepts ord (probe types found expected) ws) ↔
      (found = none ∧ expected = none) ∨
      ∃ s t, found = some s ∧ expected = some t ∧ Relation.ReflTransGen (DirectSub types) s t := by
  have hfits : ((found = none ∧ expected = none) ∨
      ∃ s t, found = some s ∧ expected = some t ∧ Relation.ReflTransGen (DirectSub types) s t) ↔
      Fits types found expected := by
    constructor
    · rintro (⟨rfl, rfl⟩ | ⟨s, t, rfl, rfl, h⟩)
      · exact .untyped
      · exact .sub h
    · intro h
      cases h with
      | untyped => exact .inl ⟨rfl, rfl⟩
      | sub h => exact .inr ⟨_, _, rfl, rfl, h⟩
  rw [accepts_iff, hfits]
  have hty : typesOf (probe types found expected) = types := rfl
  have hco : constantsOf (probe types found expected) = [] := rfl
  constructor
  · intro h
    have := (h.actions _ List.mem_cons_self).pre _ rfl
    have := this.typed _ .atom _ List.mem_cons_self rfl
    rw [hty] at this
    cases this with
    | cons h1 _ =>
      obtain ⟨ty, h2, h3⟩ := h1
      cases h2 with
      | here h2 =>
        obtain ⟨pre, post, h4, _, h5⟩ := h2
        cases pre with
        | nil => simp only [List.nil_append, List.cons.injEq] at h4; rw [← h4.1] at h3; exact h3
        | cons y ys => simp at h4
      | outer h2 => exact absurd rfl (h2 ⟨[120], 2, found, found.map fun _ => 2⟩ (.head _))
  · intro h
    refine ⟨by simp [probe, DomainAST.new], by rw [hty]; exact hc, by simp [probe], ?_, by simp [probe, DomainAST.new],
      by simp [probe, DomainAST.new], by simp [probe], ?_, by simp [probe, DomainAST.new],
      by simp [probe, DomainAST.new]⟩
    · intro p hp s hs t ht
      simp only [probe, List.mem_singleton] at hp
      subst hp
      simp only [List.mem_singleton] at hs
      subst hs
      rw [hty]; exact he t ht
    · intro a ha
      simp only [probe, List.mem_singleton] at ha
      subst ha
      refine ⟨by simp, ?_, by simp⟩
      intro fm hfm
      simp only [Option.some.injEq] at hfm
      subst hfm
      refine ⟨(fun h => nomatch h), ?_, ?_, ?_⟩
      · intro s hs t ht
        simp only [List.mem_singleton] at hs
        subst hs
        rw [hty]; exact hf t ht
      · intro q hq
        cases hq
        exact ⟨_, List.mem_cons_self, rfl, rfl⟩
      · intro q hq r hr _
        cases hq
        simp only [probe, List.mem_singleton] at hr
        subst hr
        rw [hty]
        exact .cons ⟨found, .here ⟨[], [], rfl, rfl, by simp⟩, h⟩ .nil

/-- Instance: `a - b`, `b - c`; an `a` fits a `c` and a `c` does not fit an `a`. -/
example : @Returns Env.plain HashOrd.id b!"(define (domain d) (:types a - b b - c) (:predicates (p ?x - c)) (:action a
    :parameters (?x - a) :precondition (p ?x)))\n" none (.ok []) ∧
    @Returns Env.plain HashOrd.id b!"(define (domain d) (:types a - b b - c) (:predicates (p ?x - a)) (:action a
    :parameters (?x - c) :precondition (p ?x)))\n" none
      (.err (.semantic (.predArgType ⟨some b!"a", some b!"c", b!"x", 2⟩))) :=
  ⟨@returns_run Env.plain _ _ _ 40 _ (by decide +kernel) (by simp),
    @returns_run Env.plain _ _ _ 40 _ (by decide +kernel) (by simp)⟩

/-! ### C22: cyclic orderings -/

/-- C22 for methods: a cyclic ordering is reported exactly when the first method that fails a check is fine except that
its ordering has a cycle (and everything before methods is fine). -/
theorem C22_methods (hf : Parses f (.domain d)) (pos : Nat) :
    Returns ord f none (.err (.semantic (.cyclicOrdering pos))) ↔
      HeadOk d ∧ PredicatesOk d ∧ TasksOk d ∧ ActionsOk d ∧ BadOrdering d pos := by
  rw [returns_err_none hf, cyclicOrdering_iff]

/-- C22 for the initial task network of a problem for an accepted domain. -/
theorem C22_initial (hf : Parses f (.domain d)) (hg : Parses g (.problem p)) (hd : DomainOk d) (pos : Nat) :
    Returns ord f (some g) (.err (.semantic (.cyclicOrdering pos))) ↔
      TypesKnown (typesOf d) p.objects ∧ (p.objects.map (·.name)).Nodup ∧ (∀ a ∈ p.initState, FactOk d p a) ∧
      ∃ h, p.initTn = some h ∧ ¬ Acyclic (Before h.tn) ∧ h.tn.orderingPos = some pos := by
  obtain ⟨ws, hws⟩ := (accepts_iff (ord := ord)).mpr hd
  rw [returns_err_some hf hg, checked_of_accepts hws]
  constructor
  · rintro (h | ⟨ws, _, h⟩)
    · cases h
    · exact (cyclicInit_iff hd).mp h
  · exact fun h => .inr ⟨ws, hws, (cyclicInit_iff hd).mpr h⟩

/-- C22: whenever a cyclic ordering is reported there is a cycle, and the reported line is that of the `:ordering` (or
`:order`) keyword of the task network. -/
theorem C22_line (pos : Nat) (h : Returns ord f prob (.err (.semantic (.cyclicOrdering pos)))) :
    ∃ file tn x, InFile ord f prob file ∧ Relation.TransGen (Before tn) x x ∧ tn.orderingPos = some pos ∧
      ((∃ d m, Parses file (.domain d) ∧ m ∈ d.methods ∧ tn = m.tn) ∨
        ∃ p i, Parses file (.problem p) ∧ p.initTn = some i ∧ tn = i.tn) ∧
      ∃ pre w post, file = pre ++ (w ++ post) ∧ (w = b!":ordering" ∨ w = b!":order") ∧ pos = 1 + newlines pre := by
  obtain ⟨d, hd, ⟨_, h1⟩ | ⟨g, p, ws, hg, hp, _, hac, _, h1⟩⟩ := returns_semantic h
  · cases h1 with
    | cyclicOrdering hm hx hpos =>
      exact ⟨f, _, _, .inl rfl, hx, hpos, .inl ⟨d, _, hd, hm, rfl⟩,
        C18_orderings f _ pos hd (by simp only [orderingLines, List.mem_filterMap]; exact ⟨_, hm, hpos⟩)⟩
  · cases h1 with
    | cyclicOrdering hm hx hpos =>
      exact ⟨g, _, _, .inr ⟨hg, ws, (returns_ok_none hd).mpr hac⟩, hx, hpos, .inr ⟨p, _, hp, hm, rfl⟩,
        C18_orderings g _ pos hp (by simp [orderingLines, hm, hpos])⟩

/-- Instance: a method with the ordering `x < y`, `y < x`. -/
example : @Returns Env.plain HashOrd.id b!"(define (domain d) (:task t :parameters ()) (:method m :parameters () :task (t)
    :subtasks (and (x (t)) (y (t)))\n :ordering (and (< x y) (< y x))))\n" none (.err (.semantic (.cyclicOrdering 3))) :=
  @returns_run Env.plain _ _ _ 60 _ (by decide +kernel) (by simp)

/-! ### C23, C24: acceptance -/

/-- C23: a domain file is accepted exactly when its domain is well-formed in the sense of `DomainOk`. -/
theorem C23_acceptance (hf : Parses f (.domain d)) : (∃ ws, Returns ord f none (.ok ws)) ↔ DomainOk d := by
  simp only [returns_ok_none hf, accepts_iff]

/-- C24: a problem file is accepted with an accepted domain exactly when it is well-formed in the sense of
`ProblemOk`. -/
theorem C24_acceptance (hf : Parses f (.domain d)) (hg : Parses g (.problem p))
    (hd : ∃ ws, Returns ord f none (.ok ws)) : (∃ ws, Returns ord f (some g) (.ok ws)) ↔ ProblemOk d p := by
  simp only [returns_ok_some hf hg]
  obtain ⟨ws, hws⟩ := hd
  rw [returns_ok_none hf] at hws
  exact ⟨fun ⟨_, _, h⟩ => h, fun h => ⟨ws, hws, h⟩⟩

/-- A problem file never makes up for a rejected domain. -/
theorem C24_needs_domain (hf : Parses f (.domain d)) (h : ∃ ws, Returns ord f (some g) (.ok ws)) : DomainOk d := by
  obtain ⟨ws, h⟩ := h
  rcases returns_none (ord := ord) hf with ⟨ws', hac, _⟩ | ⟨e, _, h'⟩ | ⟨x, _, h'⟩
  · exact accepts_iff.mp ⟨_, hac⟩
  · cases h.det (h' _)
  · cases h.det (h' _)

/-- Instance: a domain and a problem that are accepted. -/
example : @Returns Env.plain HashOrd.id b!"(define (domain d) (:types a - b) (:predicates (p ?x - b)) (:task t :parameters
    (?x - a)) (:action act :parameters (?x - a) :precondition (p ?x)) (:method m :parameters (?x - a) :task (t ?x)
    :ordered-subtasks (and (act ?x))))\n"
    (some b!"(define (problem q) (domain d) (:objects o - a) (:htn :subtasks (and (t o))) (:init (p o)))\n") (.ok []) :=
  @returns_run Env.plain _ _ _ 60 _ (by decide +kernel) (by simp)

/-! ### C25: undefined symbols -/

/-- C25, predicates. -/
theorem C25_predicate (u : UndefErr) (h : Returns ord f prob (.err (.semantic (.undefPredicate u)))) :
    ∃ d, Parses f (.domain d) ∧ (∀ q ∈ d.predicates, q.name ≠ u.symbol) ∧
      ((∃ l fm a, FormulaOf d l fm ∧ Occurs a fm ∧ a.name = u.symbol ∧ a.pos = u.pos ∧ WrittenAt f u.symbol u.pos) ∨
      ∃ g p a, prob = some g ∧ Parses g (.problem p) ∧ FactOf p a ∧ a.name = u.symbol ∧ a.pos = u.pos ∧
        WrittenAt g u.symbol u.pos) := by
  obtain ⟨d, hd, ⟨_, h1⟩ | ⟨g, p, ws, hg, hp, _, hac, _, h1⟩⟩ := returns_semantic h
  · have hm := h1.mentioned _ List.mem_cons_self
    cases h1 with
    | undefPredicate h2 h3 h4 => exact ⟨d, hd, h4, .inl ⟨_, _, _, h2, h3, rfl, rfl, written hd hm⟩⟩
  · have hm := h1.mentioned rfl _ List.mem_cons_self
    cases h1 with
    | undefPredicate h2 h3 => exact ⟨d, hd, h3, .inr ⟨g, p, _, hg, hp, h2, rfl, rfl, written hp hm⟩⟩

/-- C25, types: the type is that of a parameter of the domain or of an object of the problem. -/
theorem C25_type (u : UndefErr) (h : Returns ord f prob (.err (.semantic (.undefType u)))) :
    ∃ d, Parses f (.domain d) ∧ ¬ TypeKnown (typesOf d) u.symbol ∧
      ((∃ l s, ParamsOf d l ∧ s ∈ l ∧ s.ty = some u.symbol ∧ s.tyPos = some u.pos ∧ WrittenAt f u.symbol u.pos) ∨
      ∃ g p s, prob = some g ∧ Parses g (.problem p) ∧ s ∈ p.objects ∧ s.ty = some u.symbol ∧ s.tyPos = some u.pos ∧
        WrittenAt g u.symbol u.pos) := by
  obtain ⟨d, hd, ⟨_, h1⟩ | ⟨g, p, ws, hg, hp, _, hac, _, h1⟩⟩ := returns_semantic h
  · have hm := h1.mentioned _ List.mem_cons_self
    cases h1 with
    | undefType h2 h3 h4 h5 h6 => exact ⟨d, hd, h6, .inl ⟨_, _, h2, h3, h4, h5, written hd hm⟩⟩
  · have hm := h1.mentioned rfl _ List.mem_cons_self
    cases h1 with
    | undefType h3 h4 h5 h6 => exact ⟨d, hd, h6, .inr ⟨g, p, _, hg, hp, h3, h4, h5, written hp hm⟩⟩

/-- C25, the task of a method. -/
theorem C25_task (u : UndefErr) (h : Returns ord f prob (.err (.semantic (.undefTask u)))) :
    ∃ d m, Parses f (.domain d) ∧ m ∈ d.methods ∧ m.task.name = u.symbol ∧ m.task.pos = u.pos ∧
      (∀ t ∈ d.tasks, t.name ≠ u.symbol) ∧ WrittenAt f u.symbol u.pos := by
  obtain ⟨d, hd, ⟨_, h1⟩ | ⟨g, p, ws, hg, hp, _, hac, _, h1⟩⟩ := returns_semantic h
  · have hm := h1.mentioned _ List.mem_cons_self
    cases h1 with
    | undefTask h2 h3 => exact ⟨d, _, hd, h2, rfl, rfl, h3, written hd hm⟩
  · cases h1

/-- C25, subtasks: neither a compound task nor an action of that name is declared. -/
theorem C25_subtask (u : UndefErr) (h : Returns ord f prob (.err (.semantic (.undefSubtask u)))) :
    ∃ d, Parses f (.domain d) ∧ (∀ t ∈ d.tasks, t.name ≠ u.symbol) ∧ (∀ a ∈ d.actions, a.name ≠ u.symbol) ∧
      ((∃ m s, m ∈ d.methods ∧ s ∈ m.tn.subtasks ∧ s.task.name = u.symbol ∧ s.task.pos = u.pos ∧
        WrittenAt f u.symbol u.pos) ∨
      ∃ g p i s, prob = some g ∧ Parses g (.problem p) ∧ p.initTn = some i ∧ s ∈ i.tn.subtasks ∧
        s.task.name = u.symbol ∧ s.task.pos = u.pos ∧ WrittenAt g u.symbol u.pos) := by
  have key {d : DomainAST} {x : Name} (h : ∀ ps, ¬ Callee d x ps) :
      (∀ t ∈ d.tasks, t.name ≠ x) ∧ ∀ a ∈ d.actions, a.name ≠ x := by
    have ha : ∀ a ∈ d.actions, a.name ≠ x := fun a ha hx => h _ (.action ha hx)
    exact ⟨fun t ht hx => h _ (.task ha ht hx), ha⟩
  obtain ⟨d, hd, ⟨_, h1⟩ | ⟨g, p, ws, hg, hp, _, hac, _, h1⟩⟩ := returns_semantic h
  · have hm := h1.mentioned _ List.mem_cons_self
    cases h1 with
    | undefSubtask h2 h3 h4 =>
      exact ⟨d, hd, (key h4).1, (key h4).2, .inl ⟨_, _, h2, h3, rfl, rfl, written hd hm⟩⟩
  · have hm := h1.mentioned rfl _ List.mem_cons_self
    cases h1 with
    | undefSubtask h2 h3 h4 =>
      exact ⟨d, hd, (key h4).1, (key h4).2, .inr ⟨g, p, _, _, hg, hp, h2, h3, rfl, rfl, written hp hm⟩⟩

/-- C25, variables of formulas and arguments of tasks in a domain: the name is neither a parameter nor a constant. -/
theorem C25_parameter (u : UndefErr) (h : Returns ord f prob (.err (.semantic (.undefParameter u)))) :
    ∃ d l, Parses f (.domain d) ∧ Unbound [l, constantsOf d] u.symbol ∧ WrittenAt f u.symbol u.pos ∧
      ((∃ fm a v, FormulaOf d l fm ∧ OccursFree a fm ∧ v ∈ a.vars ∧ v.name = u.symbol ∧ v.pos = u.pos) ∨
      ∃ m x terms v, l = m.params ∧ CallOf d m x terms ∧ v ∈ terms ∧ v.name = u.symbol ∧ v.pos = u.pos) := by
  obtain ⟨d, hd, ⟨_, h1⟩ | ⟨g, p, ws, hg, hp, _, hac, _, h1⟩⟩ := returns_semantic h
  · have hm := h1.mentioned _ List.mem_cons_self
    cases h1 with
    | undefVariable h2 h3 h4 h5 => exact ⟨d, _, hd, h5, written hd hm, .inl ⟨_, _, _, h2, h3, h4, rfl, rfl⟩⟩
    | undefTerm h2 h3 h4 => exact ⟨d, _, hd, h4, written hd hm, .inr ⟨_, _, _, _, rfl, h2, h3, rfl, rfl⟩⟩
  · cases h1

/-- C25, objects in a problem: the name is neither an object nor a constant (nor a parameter of the initial task
network, where these are in scope). -/
theorem C25_object (u : UndefErr) (h : Returns ord f prob (.err (.semantic (.undefObject u)))) :
    ∃ d g p, Parses f (.domain d) ∧ prob = some g ∧ Parses g (.problem p) ∧
      Unbound [p.objects, constantsOf d] u.symbol ∧ WrittenAt g u.symbol u.pos ∧
      ((∃ a v, FactOf p a ∧ v ∈ a.vars ∧ v.name = u.symbol ∧ v.pos = u.pos) ∨
      ∃ i s v, p.initTn = some i ∧ s ∈ i.tn.subtasks ∧ v ∈ s.terms ∧ v.name = u.symbol ∧ v.pos = u.pos ∧
        Unbound [i.params.getD []] u.symbol) := by
  obtain ⟨d, hd, ⟨_, h1⟩ | ⟨g, p, ws, hg, hp, _, hac, _, h1⟩⟩ := returns_semantic h
  · cases h1
  · have hm := h1.mentioned rfl _ List.mem_cons_self
    cases h1 with
    | undefObject h2 h3 h4 => exact ⟨d, g, p, hd, hg, hp, h4, written hp hm, .inl ⟨_, _, h2, h3, rfl, rfl⟩⟩
    | undefTerm h2 h3 h4 h5 =>
      refine ⟨d, g, p, hd, hg, hp, fun l hl => h5 l ?_, written hp hm,
        .inr ⟨_, _, _, h2, h3, h4, rfl, rfl, fun l hl => h5 l ?_⟩⟩
      · simp only [List.mem_cons, List.not_mem_nil, or_false] at hl ⊢
        rcases hl with rfl | rfl
        · exact .inl rfl
        · exact .inr (.inr rfl)
      · simp only [List.mem_cons, List.not_mem_nil, or_false] at hl ⊢
        exact .inr (.inl hl)

/-- Instances. -/
example : @Returns Env.plain HashOrd.id b!"(define (domain d) (:predicates (p))\n (:action a :parameters () :effect\n (q)))\n"
    none (.err (.semantic (.undefPredicate ⟨b!"q", 3⟩))) ∧
    @Returns Env.plain HashOrd.id b!"(define (domain d)\n (:predicates (p ?x - t)))\n"
    none (.err (.semantic (.undefType ⟨b!"t", 2⟩))) ∧
    @Returns Env.plain HashOrd.id b!"(define (domain d)\n (:method m :parameters () :task (t) :subtasks ()))\n"
    none (.err (.semantic (.undefTask ⟨b!"t", 2⟩))) ∧
    @Returns Env.plain HashOrd.id b!"(define (domain d)\n (:task t :parameters ()) (:method m :parameters () :task (t)\n
      :ordered-subtasks (and (u))))\n"
    none (.err (.semantic (.undefSubtask ⟨b!"u", 4⟩))) ∧
    @Returns Env.plain HashOrd.id b!"(define (domain d) (:predicates (p ?x))\n (:action a :parameters () :effect\n (p ?y)))\n"
    none (.err (.semantic (.undefParameter ⟨b!"y", 3⟩))) ∧
    @Returns Env.plain HashOrd.id b!"(define (domain d) (:predicates (p ?x)))\n"
    (some b!"(define (problem q) (domain d) (:init (p o)))\n") (.err (.semantic (.undefObject ⟨b!"o", 1⟩))) :=
  ⟨@returns_run Env.plain _ _ _ 40 _ (by decide +kernel) (by simp),
    @returns_run Env.plain _ _ _ 40 _ (by decide +kernel) (by simp),
    @returns_run Env.plain _ _ _ 40 _ (by decide +kernel) (by simp),
    @returns_run Env.plain _ _ _ 40 _ (by decide +kernel) (by simp),
    @returns_run Env.plain _ _ _ 40 _ (by decide +kernel) (by simp),
    @returns_run Env.plain _ _ _ 40 _ (by decide +kernel) (by simp)⟩

/-! ### C26: arity errors -/

/-- C26, predicates: the counts are the declared and the used one, in this order. -/
theorem C26_predicate (e : ArityErr) (h : Returns ord f prob (.err (.semantic (.predArity e)))) :
    ∃ d q a, Parses f (.domain d) ∧ q ∈ d.predicates ∧ q.name = e.symbol ∧ a.name = e.symbol ∧ a.pos = e.pos ∧
      e.expected = q.vars.length ∧ e.found = a.vars.length ∧ e.expected ≠ e.found ∧
      ((∃ l fm, FormulaOf d l fm ∧ Occurs a fm ∧ WrittenAt f e.symbol e.pos) ∨
      ∃ g p, prob = some g ∧ Parses g (.problem p) ∧ FactOf p a ∧ WrittenAt g e.symbol e.pos) := by
  obtain ⟨d, hd, ⟨_, h1⟩ | ⟨g, p, ws, hg, hp, _, hac, _, h1⟩⟩ := returns_semantic h
  · have hm := h1.mentioned _ List.mem_cons_self
    cases h1 with
    | predArity h2 h3 h4 h5 h6 =>
      exact ⟨d, _, _, hd, h4, h5, rfl, rfl, rfl, rfl, Ne.symm h6, .inl ⟨_, _, h2, h3, written hd hm⟩⟩
  · have hm := h1.mentioned rfl _ List.mem_cons_self
    cases h1 with
    | predArity h3 h4 h5 h6 =>
      exact ⟨d, _, _, hd, h4, h5, rfl, rfl, rfl, rfl, Ne.symm h6, .inr ⟨g, p, hg, hp, h3, written hp hm⟩⟩

/-- C26, tasks, the part that holds: the symbol is a task used at that line with a wrong number of terms, and the two
counts are the declared and the used number.  For subtasks they are in this order; for the task of a method they are the
other way round, see `C26_refuted`. -/
theorem C26_task_partial (e : ArityErr) (h : Returns ord f prob (.err (.semantic (.taskArity e)))) :
    ∃ d ps, Parses f (.domain d) ∧ e.expected ≠ e.found ∧
      ((∃ m s, m ∈ d.methods ∧ s ∈ m.tn.subtasks ∧ s.task.name = e.symbol ∧ s.task.pos = e.pos ∧ Callee d e.symbol ps ∧
        e.expected = ps.length ∧ e.found = s.terms.length ∧ WrittenAt f e.symbol e.pos) ∨
      (∃ m t, m ∈ d.methods ∧ m.task.name = e.symbol ∧ m.task.pos = e.pos ∧ t ∈ d.tasks ∧ t.name = e.symbol ∧
        ps = t.params ∧ e.found = ps.length ∧ e.expected = m.taskTerms.length ∧ WrittenAt f e.symbol e.pos) ∨
      ∃ g p i s, prob = some g ∧ Parses g (.problem p) ∧ p.initTn = some i ∧ s ∈ i.tn.subtasks ∧
        s.task.name = e.symbol ∧ s.task.pos = e.pos ∧ Callee d e.symbol ps ∧ e.expected = ps.length ∧
        e.found = s.terms.length ∧ WrittenAt g e.symbol e.pos) := by
  obtain ⟨d, hd, ⟨_, h1⟩ | ⟨g, p, ws, hg, hp, _, hac, _, h1⟩⟩ := returns_semantic h
  · have hm := h1.mentioned _ List.mem_cons_self
    cases h1 with
    | subtaskArity h2 h3 h4 h5 =>
      exact ⟨d, _, hd, Ne.symm h5, .inl ⟨_, _, h2, h3, rfl, rfl, h4, rfl, rfl, written hd hm⟩⟩
    | methodArity h2 h3 h4 h5 =>
      exact ⟨d, _, hd, h5, .inr (.inl ⟨_, _, h2, rfl, rfl, h3, h4, rfl, rfl, rfl, written hd hm⟩)⟩
  · have hm := h1.mentioned rfl _ List.mem_cons_self
    cases h1 with
    | taskArity h2 h3 h4 h5 =>
      exact ⟨d, _, hd, Ne.symm h5, .inr (.inr ⟨g, p, _, _, hg, hp, h2, h3, rfl, rfl, h4, rfl, rfl, written hp hm⟩)⟩

omit [Env] in
/-- C26 does not hold for the task of a method: the task `t` is declared with one parameter and the method gives none;
the report says that none was expected and one was found. -/
theorem C26_refuted : @Returns Env.plain HashOrd.id
    b!"(define (domain d) (:task t :parameters (?x))\n (:method m :parameters () :task (t) :subtasks ()))\n" none
    (.err (.semantic (.taskArity ⟨b!"t", 0, 1, 2⟩))) :=
  @returns_run Env.plain _ _ _ 40 _ (by decide +kernel) (by simp)

/-- Instances of the other cases. -/
example : @Returns Env.plain HashOrd.id b!"(define (domain d) (:predicates (p ?x))\n (:action a :parameters () :effect (p)))\n"
    none (.err (.semantic (.predArity ⟨b!"p", 1, 0, 2⟩))) ∧
    @Returns Env.plain HashOrd.id b!"(define (domain d) (:task t :parameters ()) (:action a :parameters (?x))
      (:method m :parameters () :task (t) :ordered-subtasks (and (a))))\n"
    none (.err (.semantic (.taskArity ⟨b!"a", 1, 0, 2⟩))) :=
  ⟨@returns_run Env.plain _ _ _ 40 _ (by decide +kernel) (by simp),
    @returns_run Env.plain _ _ _ 40 _ (by decide +kernel) (by simp)⟩

/-! ### C27: type errors -/

/-- C27 for domains: the report names an argument at the reported line, its type and the declared type, and these do not
fit. -/
theorem C27_domain_partial (se : SemErr) (e : TypeErr) (he : se = .predArgType e ∨ se = .taskArgType e)
    (h : Returns ord f none (.err (.semantic se))) :
    ∃ d scope args formals, Parses f (.domain d) ∧ Misfit (typesOf d) scope args formals e ∧ WrittenAt f e.var e.pos ∧
      ((se = .predArgType e ∧ ∃ l fm a q, FormulaOf d l fm ∧ OccursFree a fm ∧ q ∈ d.predicates ∧ q.name = a.name ∧
        scope = [l, constantsOf d] ∧ args = a.vars ∧ formals = q.vars) ∨
      (se = .taskArgType e ∧ ∃ m, m ∈ d.methods ∧ scope = [m.params, constantsOf d] ∧
        ((args = m.taskTerms ∧ ∃ t ∈ d.tasks, t.name = m.task.name ∧ formals = t.params) ∨
        ∃ s ∈ m.tn.subtasks, args = s.terms ∧ Callee d s.task.name formals))) := by
  obtain ⟨d, hd, ⟨_, h1⟩ | ⟨g, p, ws, hg, _⟩⟩ := returns_semantic h
  · have hm : WrittenAt f e.var e.pos := by
      refine written hd (h1.mentioned (e.var, e.pos) ?_)
      rcases he with rfl | rfl <;> exact List.mem_cons_self
    rcases he with rfl | rfl
    · cases h1 with
      | predArgType h2 h3 h4 h5 h6 =>
        exact ⟨d, _, _, _, hd, h6, hm, .inl ⟨rfl, _, _, _, _, h2, h3, h4, h5, rfl, rfl, rfl⟩⟩
    · cases h1 with
      | methodTaskType h2 h3 h4 h5 =>
        exact ⟨d, _, _, _, hd, h5, hm, .inr ⟨rfl, _, h2, rfl, .inl ⟨rfl, _, h3, h4, rfl⟩⟩⟩
      | subtaskType h2 h3 h4 h5 =>
        exact ⟨d, _, _, _, hd, h5, hm, .inr ⟨rfl, _, h2, rfl, .inr ⟨_, h3, rfl, h4⟩⟩⟩
  · cases hg

/-- C27 for problems, the part that holds: some argument at the reported line has a type that does not fit the declared
type, and the expected type is the declared one.  Missing: the name in the report is that of the predicate or task (not of
the argument), and for objects in atoms the found type is not the type of the object but the one written behind the
argument (usually none), see `C27_refuted`. -/
theorem C27_problem_partial (se : SemErr) (e : TypeErr) (he : se = .predArgType e ∨ se = .taskArgType e)
    (hd : ∃ ws, Returns ord f none (.ok ws)) (h : Returns ord f (some g) (.err (.semantic se))) :
    ∃ d p ty scope, ∃ (args formals : List Symbol) (i : Nat) (v w : Symbol), Parses f (.domain d) ∧ Parses g (.problem p) ∧
      args[i]? = some v ∧ formals[i]? = some w ∧ v.pos = e.pos ∧ e.expected = w.ty ∧ TypeIn scope v.name ty ∧
      ¬ Fits (typesOf d) ty e.expected ∧ WrittenAt g v.name e.pos ∧ (∃ l, WrittenAt g e.var l) ∧
      ((∃ a q, FactOf p a ∧ q ∈ d.predicates ∧ q.name = a.name ∧ e.var = a.name ∧ args = a.vars ∧ formals = q.vars ∧
        scope = [p.objects, constantsOf d] ∧
        (((∀ o ∈ p.objects, o.name ≠ v.name) ∧ e.found = ty) ∨ ((∃ o ∈ p.objects, o.name = v.name) ∧ e.found = v.ty))) ∨
      ∃ k s, p.initTn = some k ∧ s ∈ k.tn.subtasks ∧ Callee d s.task.name formals ∧ e.var = s.task.name ∧
        args = s.terms ∧ scope = [p.objects, k.params.getD [], constantsOf d] ∧ e.found = ty) := by
  obtain ⟨d, hdp, h2⟩ := returns_semantic h
  rcases h2 with ⟨h1, _⟩ | ⟨g', p, ws, hg, hp, _, hac, _, h1⟩
  · obtain ⟨ws, hws⟩ := hd
    rw [returns_ok_none hdp] at hws
    rw [checked_of_accepts hws] at h1; cases h1
  cases hg
  have fact {a : Predicate} {v : Symbol} {i : Nat} (h : FactOf p a) (hv : a.vars[i]? = some v) :
      WrittenAt g v.name v.pos ∧ ∃ l, WrittenAt g a.name l :=
    ⟨written hp (h.names _ (predNames_var (List.mem_of_getElem? hv))), _, written hp (h.names _ (predNames_self _))⟩
  have task {k : InitTN} {s : Subtask} {v : Symbol} {i : Nat} (h : p.initTn = some k) (hs : s ∈ k.tn.subtasks)
      (hv : s.terms[i]? = some v) : WrittenAt g v.name v.pos ∧ ∃ l, WrittenAt g s.task.name l :=
    ⟨written hp (initTnNames_mem h hs _ (subtaskNames_term (List.mem_of_getElem? hv))), _,
      written hp (initTnNames_mem h hs _ (subtaskNames_task _))⟩
  have one {x : Name} {ty l} (h : TypeIn [l] x ty) : ∀ ls, TypeIn (l :: ls) x ty := by
    intro ls
    cases h with
    | here h => exact .here h
    | outer _ h => cases h
  have two {x : Name} {ty l l'} (h : TypeIn [l, l'] x ty) : ∀ ls, TypeIn (l :: l' :: ls) x ty := by
    intro ls
    cases h with
    | here h => exact .here h
    | outer h1 h => exact .outer h1 (one h ls)
  have bound {x : Name} {ty l} (h : TypeIn [l] x ty) : ∃ o ∈ l, o.name = x := by
    cases h with
    | here h =>
      obtain ⟨pre, post, rfl, h1, _⟩ := h
      exact ⟨_, by simp, h1⟩
    | outer _ h => cases h
  rcases he with rfl | rfl
  · cases h1 with
    | constantType ha hq hn hv hf ho ht hx =>
      exact ⟨d, p, _, _, _, _, _, _, _, hdp, hp, hv, hf, rfl, rfl, .outer ho ht, hx, (fact ha hv).1, (fact ha hv).2,
        .inl ⟨_, _, ha, hq, hn, rfl, rfl, rfl, rfl, .inl ⟨ho, rfl⟩⟩⟩
    | objectType ha hq hn hv hf ht hx =>
      exact ⟨d, p, _, _, _, _, _, _, _, hdp, hp, hv, hf, rfl, rfl, one ht _, hx, (fact ha hv).1, (fact ha hv).2,
        .inl ⟨_, _, ha, hq, hn, rfl, rfl, rfl, rfl, .inr ⟨bound ht, rfl⟩⟩⟩
    | termConstantType ha hq hn hv hf ho ht hx =>
      exact ⟨d, p, _, _, _, _, _, _, _, hdp, hp, hv, hf, rfl, rfl,
        .outer (ho _ (by simp)) (.outer (ho _ (by simp)) ht), hx, (task ha hq hv).1, (task ha hq hv).2,
        .inr ⟨_, _, ha, hq, hn, rfl, rfl, rfl, rfl⟩⟩
  · cases h1 with
    | termType ha hq hn hv hf ht hx =>
      exact ⟨d, p, _, _, _, _, _, _, _, hdp, hp, hv, hf, rfl, rfl, two ht _, hx, (task ha hq hv).1, (task ha hq hv).2,
        .inr ⟨_, _, ha, hq, hn, rfl, rfl, rfl, rfl⟩⟩

omit [Env] in
/-- C27 does not hold for problems: the object `o` of type `a` is used where `b` is expected; the report names the
predicate `p` instead of `o`, and says that no type was found. -/
theorem C27_refuted : @Returns Env.plain HashOrd.id
    b!"(define (domain d) (:types a - c b - c) (:predicates (p ?x - b)))\n"
    (some b!"(define (problem q) (domain d) (:objects o - a)\n (:init (p o)))\n")
    (.err (.semantic (.predArgType ⟨some b!"b", none, b!"p", 2⟩))) :=
  @returns_run Env.plain _ _ _ 40 _ (by decide +kernel) (by simp)

/-! ### C28: semantic analysis does not crash -/

/-- C28, the part that holds: on a parsed domain, and on a parsed problem for it, `verify` panics only on an
existential quantifier in a formula of an action or method.  Missing: such formulas, see `C28_refuted`. -/
theorem C28_no_crash_partial (hf : Parses f (.domain d))
    (hg : prob = none ∨ ∃ g p, prob = some g ∧ Parses g (.problem p))
    (he : ∀ l fm, FormulaOf d l fm → ¬ ExistsIn fm) : ∀ x, ¬ Returns ord f prob (.panic x) := by
  intro x h
  have hdp : ∀ x, checkDomain ord d ≠ .panic x := by
    intro x hx
    obtain ⟨ts, h1, _⟩ := (C45_grammar f _).1 hf
    obtain ⟨_, l, fm, h2, h3⟩ := checkDomain_panic (FileText.positioned h1) hx
    exact he l fm h2 (FileText.exists h1 h2 h3)
  rcases hg with rfl | ⟨g, p, rfl, hg⟩
  · rw [returns_panic_none hf] at h; exact hdp x h
  · rw [returns_panic_some hf hg] at h
    rcases h with h | ⟨ws, _, h⟩
    · exact hdp x h
    · obtain ⟨ts, h1, _⟩ := (C45_grammar g _).1 hg
      exact verifyProblem_nopanic _ (FileText.positionedP h1) x h

/-- C28: a problem never makes `verify` panic if the domain alone does not. -/
theorem C28_problem (hf : Parses f (.domain d)) (hg : Parses g (.problem p)) (x : Panic)
    (h : Returns ord f (some g) (.panic x)) : Returns ord f none (.panic x) := by
  rw [returns_panic_some hf hg] at h
  rw [returns_panic_none hf]
  rcases h with h | ⟨ws, _, h⟩
  · exact h
  · obtain ⟨ts, h1, _⟩ := (C45_grammar g _).1 hg
    exact absurd h (verifyProblem_nopanic _ (FileText.positionedP h1) x)

omit [Env] in
/-- C28 does not hold in general: an existential quantifier in a precondition, which the parser accepts, makes the
semantic analysis panic. -/
theorem C28_refuted : ∃ d, @Parses Env.plain
      b!"(define (domain d) (:predicates (p ?x)) (:action a :parameters () :precondition (exists (?x) (p ?x))))\n"
      (.domain d) ∧
    @Returns Env.plain HashOrd.id
      b!"(define (domain d) (:predicates (p ?x)) (:action a :parameters () :precondition (exists (?x) (p ?x))))\n" none
      (.panic .existsFormula) := by
  have h := @returns_run Env.plain HashOrd.id
    b!"(define (domain d) (:predicates (p ?x)) (:action a :parameters () :precondition (exists (?x) (p ?x))))\n" none 40
    (.panic .existsFormula) (by decide +kernel) (by simp)
  rcases @returns_inv Env.plain _ _ _ _ h with ⟨e, _, h1⟩ | ⟨x, hx, h1⟩ | ⟨_, _, h1⟩ | ⟨d, hd, _⟩
  · cases h1
  · cases h1; simp [ParserPanic] at hx
  · cases h1
  · exact ⟨d, hd, h⟩

/-! ### C33: a problem adds no warnings -/

/-- C33: if `verify` accepts a domain with a problem, it accepts the domain alone with the same warnings. -/
theorem C33_same_warnings (g : Bytes) (ws : List Warning) (h : Returns ord f (some g) (.ok ws)) :
    Returns ord f none (.ok ws) := by
  rcases returns_inv h with ⟨e, _, h1⟩ | ⟨x, _, h1⟩ | ⟨_, _, h1⟩ | ⟨d, hd, h2⟩
  · cases h1
  · cases h1
  · cases h1
  rcases h2 with ⟨e, _, h1⟩ | ⟨x, _, h1⟩ | ⟨ws', hac, h2⟩
  · cases h1
  · cases h1
  rcases h2 with ⟨hc, _⟩ | ⟨g', _, h2⟩
  · cases hc
  rcases h2 with ⟨e, _, h1⟩ | ⟨x, _, h1⟩ | ⟨_, _, h1⟩ | ⟨p, hp, h1⟩
  · cases h1
  · cases h1
  · cases h1
  have hok := accepts_iff.mp ⟨_, hac⟩
  obtain ⟨_, rfl⟩ := (verifyProblem_ok hok ws).mp h1.symm
  exact (returns_ok_none hd).mpr hac

/-- Instance: a task without methods is warned about, with and without a problem. -/
example : @Returns Env.plain HashOrd.id b!"(define (domain d)\n (:task t :parameters ()))\n"
    (some b!"(define (problem q) (domain d))\n") (.ok [⟨b!"t", 2⟩]) :=
  @returns_run Env.plain _ _ _ 40 _ (by decide +kernel) (by simp)

/-! ### C47: formulas below quantifiers -/

omit [Env] in
theorem Spec.AtomAt.occurs {a : Predicate} {s s' : List (List Symbol)} {fm : Formula} (h : AtomAt a s s' fm) :
    Occurs a fm := by
  induction h with
  | atom => exact .atom
  | not _ ih => exact .not ih
  | and h _ ih => exact .and h ih
  | or h _ ih => exact .or h ih
  | xor h _ ih => exact .xor h ih
  | left h _ ih => exact .left h ih
  | right h _ ih => exact .right h ih
  | weighted _ ih => exact .weighted ih
  | forall_ _ ih => exact .forall_ ih
  | exists_ _ ih => exact .exists_ ih

omit [Env] in
theorem Spec.AtomAt.free {a : Predicate} {s s' : List (List Symbol)} {fm : Formula} (h : AtomAt a s s' fm)
    (hq : ¬ Quantified fm) : s' = s ∧ OccursFree a fm := by
  induction h with
  | atom => exact ⟨rfl, .atom⟩
  | not _ ih => exact ⟨(ih fun h => hq (.not h)).1, .not (ih fun h => hq (.not h)).2⟩
  | and h _ ih => exact ⟨(ih fun h' => hq (.and h h')).1, .and h (ih fun h' => hq (.and h h')).2⟩
  | or h _ ih => exact ⟨(ih fun h' => hq (.or h h')).1, .or h (ih fun h' => hq (.or h h')).2⟩
  | xor h _ ih => exact ⟨(ih fun h' => hq (.xor h h')).1, .xor h (ih fun h' => hq (.xor h h')).2⟩
  | left h _ ih => exact ⟨(ih fun h' => hq (.left h h')).1, .left h (ih fun h' => hq (.left h h')).2⟩
  | right h _ ih => exact ⟨(ih fun h' => hq (.right h h')).1, .right h (ih fun h' => hq (.right h h')).2⟩
  | weighted _ ih => exact ⟨(ih fun h => hq (.weighted h)).1, .weighted (ih fun h => hq (.weighted h)).2⟩
  | forall_ => exact absurd .forall_ hq
  | exists_ => exact absurd .exists_ hq

omit [Env] in
theorem formula_ok {l : List Symbol} {fm : Formula} (hd : DomainOk d) (h : FormulaOf d l fm) : FormulaOk d l fm := by
  cases h with
  | pre h1 h2 => exact (hd.actions _ h1).pre _ h2
  | eff h1 h2 => exact (hd.actions _ h1).eff _ h2
  | method h1 h2 => exact (hd.methods _ h1).pre _ h2

/-- C47, the part that holds for domains: formulas without quantifiers are checked completely, and below quantifiers
predicates are declared and have the declared number of arguments.  Missing: whether the arguments below quantifiers are
bound and have fitting types, see `C47_refuted`. -/
theorem C47_domain_partial (hf : Parses f (.domain d)) (ha : ∃ ws, Returns ord f none (.ok ws)) {l : List Symbol}
    {fm : Formula} (h : FormulaOf d l fm) :
    (¬ Quantified fm → Scoped d [l, constantsOf d] fm) ∧
    ∀ a s s', AtomAt a s s' fm → ∃ q ∈ d.predicates, q.name = a.name ∧ a.vars.length = q.vars.length := by
  have hok := formula_ok ((C23_acceptance hf).mp ha) h
  refine ⟨fun hq a s' hat => ?_, fun a s s' hat => hok.declared a hat.occurs⟩
  obtain ⟨rfl, h1⟩ := hat.free hq
  obtain ⟨q, h2, h3, _⟩ := hok.declared a hat.occurs
  exact ⟨q, h2, h3, hok.typed a h1 q h2 h3⟩

/-- C47, the part that holds for problems: goals without quantifiers are checked completely. -/
theorem C47_goal_partial (hf : Parses f (.domain d)) (hg : Parses g (.problem p))
    (ha : ∃ ws, Returns ord f (some g) (.ok ws)) {fm : Formula} (h : p.goal = some fm) (hq : ¬ Quantified fm) :
    Scoped d [p.objects, constantsOf d] fm := by
  obtain ⟨ws, ha⟩ := ha
  have := ((returns_ok_some hf hg).mp ha).2
  intro a s' hat
  obtain ⟨rfl, h1⟩ := hat.free hq
  exact this.goal fm h a h1

omit [Env] in
/-- C47 does not hold: a variable that is not bound anywhere is accepted below `forall`, and a goal with an undeclared
predicate is accepted below any quantifier. -/
theorem C47_refuted :
    @Returns Env.plain HashOrd.id b!"(define (domain d) (:predicates (p ?x)) (:action a :parameters () :precondition
      (forall (?x) (p ?y))))\n" none (.ok []) ∧
    @Returns Env.plain HashOrd.id b!"(define (domain d))\n"
      (some b!"(define (problem q) (domain d) (:goal (exists (?x) (p ?y))))\n") (.ok []) :=
  ⟨@returns_run Env.plain _ _ _ 40 _ (by decide +kernel) (by simp),
    @returns_run Env.plain _ _ _ 40 _ (by decide +kernel) (by simp)⟩

/-- Instance of the first part: an accepted domain with a formula that is not quantified. -/
example : @Returns Env.plain HashOrd.id b!"(define (domain d) (:predicates (p ?x)) (:action a :parameters (?x) :precondition
    (and (p ?x) (not (p ?x)))))\n" none (.ok []) :=
  @returns_run Env.plain _ _ _ 40 _ (by decide +kernel) (by simp)

/-! ### C48: declared types -/

/-- C48, the part that holds: in an accepted domain the types of the parameters of predicates, of tasks, and of actions
and methods with a formula are declared.  Missing: actions and methods without formulas, and constants, see
`C48_refuted`. -/
theorem C48_types_partial (hf : Parses f (.domain d)) (ha : ∃ ws, Returns ord f none (.ok ws)) {s : Symbol} {t : Name}
    (hs : Declares d s) (ht : s.ty = some t) :
    TypeKnown (typesOf d) t ∨ (∃ a ∈ d.actions, s ∈ a.params ∧ a.pre = none ∧ a.eff = none) ∨
      (∃ m ∈ d.methods, s ∈ m.params ∧ m.pre = none) ∨ s ∈ constantsOf d := by
  have hd := (C23_acceptance hf).mp ha
  cases hs with
  | predicate h1 h2 => exact .inl (hd.predicateTypes _ h1 s h2 t ht)
  | task h1 h2 => exact .inl (hd.taskTypes _ h1 s h2 t ht)
  | constant h => exact .inr (.inr (.inr h))
  | @action a h1 h2 =>
    cases h3 : a.pre with
    | some fm => exact .inl (((hd.actions a h1).pre fm h3).paramTypes s h2 t ht)
    | none =>
      cases h4 : a.eff with
      | some fm => exact .inl (((hd.actions a h1).eff fm h4).paramTypes s h2 t ht)
      | none => exact .inr (.inl ⟨a, h1, h2, h3, h4⟩)
  | @method m h1 h2 =>
    cases h3 : m.pre with
    | some fm => exact .inl (((hd.methods m h1).pre fm h3).paramTypes s h2 t ht)
    | none => exact .inr (.inr (.inl ⟨m, h1, h2, h3⟩))

omit [Env] in
/-- C48 does not hold: a constant and the parameter of an action have a type that is not declared. -/
theorem C48_refuted :
    @Returns Env.plain HashOrd.id b!"(define (domain d) (:types a - b) (:constants c - zzz))\n" none (.ok []) ∧
    @Returns Env.plain HashOrd.id b!"(define (domain d) (:types a - b) (:action c :parameters (?x - zzz)))\n" none
      (.ok []) :=
  ⟨@returns_run Env.plain _ _ _ 40 _ (by decide +kernel) (by simp),
    @returns_run Env.plain _ _ _ 40 _ (by decide +kernel) (by simp)⟩

end Verif
