import Verif.Model.Cli
import Verif.Model.Lsp
import Verif.Proofs.Json
import Verif.Spec.Output
import Verif.Props.Lexical
import Verif.Props.Recursion

/-! C39, C40, C43 and C44: what is printed. -/

namespace Verif

open Spec

variable [Env] {ord ord' : HashOrd} {f g : Bytes} {prob prob' : Option Bytes} {d : DomainAST} {p : ProblemAST}

/-! ### C39: JSON -/

/-- `to_json` returns `j` (for some budget, hence for all larger ones). -/
def Exports (ord : HashOrd) (f : Bytes) (prob : Option Bytes) (j : Json) : Prop :=
  ∃ N, ∀ n, N ≤ n → toJson ord n f prob = .ok j

/-- The files have these syntax trees. -/
def TreesOf (f : Bytes) (prob : Option Bytes) (d : DomainAST) (p : Option ProblemAST) : Prop :=
  Parses f (.domain d) ∧ match prob, p with
    | none, none => True
    | some g, some p => Parses g (.problem p)
    | _, _ => False

/-- `j` is an object with the trees as members, in any order. -/
def Shows (d : DomainAST) (p : Option ProblemAST) (j : Json) : Prop :=
  ∃ l, j = .obj l ∧ l.Perm (("domain", jDomain d) :: (p.map fun p => ("problem", jProblem p)).toList)

theorem exports_shows {n : Nat} {j : Json} (h : toJson ord n f prob = .ok j) : ∃ d p, TreesOf f prob d p ∧ Shows d p j := by
  unfold toJson at h
  obtain ⟨a, ha, h⟩ := R.bind_ok_iff.mp h
  cases a with
  | problem p => cases h
  | domain d =>
    cases prob with
    | none => cases h; exact ⟨d, none, ⟨.of_ok ha, trivial⟩, _, rfl, arrange_perm _ _ _⟩
    | some g =>
      obtain ⟨b, hb, h⟩ := R.bind_ok_iff.mp h
      cases b with
      | domain _ => cases h
      | problem p => cases h; exact ⟨d, some p, ⟨.of_ok ha, .of_ok hb⟩, _, rfl, arrange_perm _ _ _⟩

omit [Env] in
theorem Shows.inj {d d' : DomainAST} {p p' : Option ProblemAST} {j : Json} (h : Shows d p j) (h' : Shows d' p' j) :
    d = d' ∧ p = p' := by
  obtain ⟨l, rfl, h1⟩ := h
  obtain ⟨l', h2, h3⟩ := h'
  cases h2
  have hp := h1.symm.trans h3
  have hd : ("domain", jDomain d) ∈ ("domain", jDomain d') :: (p'.map fun p => ("problem", jProblem p)).toList :=
    hp.subset List.mem_cons_self
  have hd : d = d' := by
    rcases List.mem_cons.mp hd with h | h
    · exact jDomain_inj (by simpa using h)
    · cases p' <;> simp at h
  cases hd
  refine ⟨rfl, ?_⟩
  have hl := hp.length_eq
  cases p with
  | none =>
    cases p' with
    | none => rfl
    | some p' => simp at hl
  | some p =>
    cases p' with
    | none => simp at hl
    | some p' =>
      have : ("problem", jProblem p) ∈ [("domain", jDomain d), ("problem", jProblem p')] := hp.subset (by simp)
      simp only [List.mem_cons, Prod.mk.injEq, List.not_mem_nil, or_false] at this
      rcases this with ⟨h, _⟩ | ⟨_, h⟩
      · exact absurd h (by decide)
      · rw [jProblem_inj h]

/-- C39: there is a function that recovers the syntax trees of domain and problem from every JSON value returned by
`to_json`, whatever the files and the order in which hash maps are iterated. -/
theorem C39_recovered : ∃ read : Json → Option (DomainAST × Option ProblemAST), ∀ ord f prob j,
    Exports ord f prob j → ∃ d p, read j = some (d, p) ∧ TreesOf f prob d p := by
  classical
  refine ⟨fun j => if h : ∃ x : DomainAST × Option ProblemAST, Shows x.1 x.2 j then some h.choose else none, ?_⟩
  rintro ord f prob j ⟨N, hN⟩
  obtain ⟨d, p, h1, h2⟩ := exports_shows (hN N (Nat.le_refl _))
  have hx : ∃ x : DomainAST × Option ProblemAST, Shows x.1 x.2 j := ⟨(d, p), h2⟩
  refine ⟨d, p, ?_, h1⟩
  simp only [hx, dite_true, Option.some.injEq]
  obtain ⟨h3, h4⟩ := hx.choose_spec.inj h2
  exact Prod.ext h3 h4

/-- C39: different syntax trees give different JSON. -/
theorem C39_distinct {j j' : Json} {d d' : DomainAST} {p p' : Option ProblemAST} {f' : Bytes}
    (h : Exports ord f prob j) (h' : Exports ord' f' prob' j') (ht : TreesOf f prob d p) (ht' : TreesOf f' prob' d' p')
    (hne : d ≠ d' ∨ p ≠ p') : j ≠ j' := by
  rintro rfl
  have key {ord f prob d p} (h : Exports ord f prob j) (ht : TreesOf f prob d p) : Shows d p j := by
    obtain ⟨N, hN⟩ := h
    obtain ⟨d', p', h1, h2⟩ := exports_shows (hN N (Nat.le_refl _))
    cases ht.1.det h1.1
    cases prob with
    | none =>
      cases p with
      | some p => exact ht.2.elim
      | none =>
        cases p' with
        | some p => exact h1.2.elim
        | none => exact h2
    | some g =>
      cases p with
      | none => exact ht.2.elim
      | some p =>
        cases p' with
        | none => exact h1.2.elim
        | some p' => cases (show Parses g (.problem p) from ht.2).det h1.2; exact h2
  obtain ⟨h1, h2⟩ := (key h ht).inj (key h' ht')
  rcases hne with h | h
  · exact h h1
  · exact h h2

/-- C39: every pair of files that parses is exported. -/
theorem C39_total {p : Option ProblemAST} (h : TreesOf f prob d p) : ∃ j, Exports ord f prob j := by
  obtain ⟨⟨N, hN⟩, h2⟩ := h
  cases prob with
  | none => exact ⟨_, N, fun n hn => by simp only [toJson, hN n hn, R.bind]; rfl⟩
  | some g =>
    cases p with
    | none => exact h2.elim
    | some p =>
      obtain ⟨M, hM⟩ := h2
      exact ⟨_, max N M, fun n hn => by simp only [toJson, hN n (by omega), hM n (by omega), R.bind]; rfl⟩

/-- Instance: a domain with a quantified effect, and a problem with an ordering and a goal. -/
example : ∃ d p, @TreesOf Env.plain
    b!"(define (domain d) (:types a - o) (:action x :parameters (?y - a) :effect (forall (?z - a) (not (p ?z)))))\n"
    (some b!"(define (problem q) (domain d) (:htn :subtasks (and (u (x c)) (v (x c))) :ordering (< u v)) (:goal (p c)))\n")
    d (some p) := by
  obtain ⟨a, ha, h⟩ := @parses_holds _ Env.plain 60 (fun | .domain _ => true | _ => false) (by decide +kernel :
    (@parse Env.plain 60
      b!"(define (domain d) (:types a - o) (:action x :parameters (?y - a) :effect (forall (?z - a) (not (p ?z)))))\n").holds
      _ = true)
  obtain ⟨b, hb, h'⟩ := @parses_holds _ Env.plain 60 (fun | .problem _ => true | _ => false) (by decide +kernel :
    (@parse Env.plain 60
      b!"(define (problem q) (domain d) (:htn :subtasks (and (u (x c)) (v (x c))) :ordering (< u v)) (:goal (p c)))\n").holds
      _ = true)
  cases a with
  | problem _ => cases h
  | domain d =>
    cases b with
    | domain _ => cases h'
    | problem p => exact ⟨d, p, ha, hb⟩

/-! ### C40: texts of errors -/

/-- The errors of `verify`, with what is true of them. -/
theorem returns_err_cases {e : PErr} (h : Returns ord f prob (.err e)) :
    (∃ file, InFile ord f prob file ∧ ParserErr file e) ∨ ∃ se, e = .semantic se := by
  cases e with
  | semantic se => exact .inr ⟨se, rfl⟩
  | _ =>
    left
    rcases returns_inv h with ⟨e, he, h1⟩ | ⟨x, _, h1⟩ | ⟨_, _, h1⟩ | ⟨d, hd, h2⟩
    · cases h1; exact ⟨f, .inl rfl, he⟩
    · cases h1
    · cases h1
    rcases h2 with ⟨e, hc, h1⟩ | ⟨x, _, h1⟩ | ⟨ws, hac, h2⟩
    · cases h1
      obtain ⟨se', h3, _⟩ := checkDomain_report hc
      cases h3
    · cases h1
    rcases h2 with ⟨_, h1⟩ | ⟨g, hg, h2⟩
    · cases h1
    rcases h2 with ⟨e, he, h1⟩ | ⟨x, _, h1⟩ | ⟨_, _, h1⟩ | ⟨p, hp, h1⟩
    · cases h1; exact ⟨g, .inr ⟨hg, ws, (returns_ok_none hd).mpr hac⟩, he⟩
    · cases h1
    · cases h1
    · obtain ⟨se', h3, _⟩ := verifyProblem_report (accepts_iff.mp ⟨_, hac⟩) h1.symm
      cases h3

omit [Env] in
theorem typeErr_shows {e : TypeErr} (h : ¬ (e.expected = none ∧ e.found = none)) : ∃ t, e.show = .ok t := by
  unfold TypeErr.show
  cases h1 : e.expected <;> cases h2 : e.found
  · exact absurd ⟨h1, h2⟩ h
  all_goals exact ⟨_, rfl⟩

/-- C40, rendering: the error returned by `verify` has a text, unless the problem gives a typed object to a predicate
parameter without a type.  Missing: that case, see `C40_refuted`. -/
theorem C40_text_partial {e : PErr} (h : Returns ord f prob (.err e)) : (∃ t, e.show = .ok t) ∨
    ∃ d g p, prob = some g ∧ Parses f (.domain d) ∧ Parses g (.problem p) ∧ TypedForUntyped d p := by
  have fits {types : List Symbol} {e : TypeErr} (h : ¬ Fits types e.found e.expected) : ∃ t, e.show = .ok t := by
    refine typeErr_shows fun ⟨h1, h2⟩ => h ?_
    rw [h1, h2]; exact .untyped
  cases e with
  | lexical e => exact .inl ⟨_, rfl⟩
  | syntactic e => exact .inl ⟨_, rfl⟩
  | semantic se =>
    obtain ⟨d, hd, ⟨_, h1⟩ | ⟨g, p, ws, hg, hp, _, hac, _, h1⟩⟩ := returns_semantic h
    · left
      cases h1 with
      | predArgType _ _ _ _ h6 => obtain ⟨_, _, _, _, _, _, _, _, _, h7⟩ := h6; exact fits h7
      | methodTaskType _ _ _ h6 => obtain ⟨_, _, _, _, _, _, _, _, _, h7⟩ := h6; exact fits h7
      | subtaskType _ _ _ h6 => obtain ⟨_, _, _, _, _, _, _, _, _, h7⟩ := h6; exact fits h7
      | _ => exact ⟨_, rfl⟩
    · cases h1 with
      | constantType _ _ _ _ _ _ _ hx => exact .inl (fits (e := ⟨_, _, _, _⟩) hx)
      | termType _ _ _ _ _ _ hx => exact .inl (fits (e := ⟨_, _, _, _⟩) hx)
      | termConstantType _ _ _ _ _ _ _ hx => exact .inl (fits (e := ⟨_, _, _, _⟩) hx)
      | @objectType a q i v w ty ha hq hn hv hf ht hx =>
        by_cases hnn : w.ty = none ∧ v.ty = none
        · right
          cases ty with
          | none => rw [hnn.1] at hx; exact absurd .untyped hx
          | some t => exact ⟨d, g, p, hg, hd, hp, a, q, i, v, w, t, ha, hq, hn, hv, hf, hnn.1, ht⟩
        · exact .inl (typeErr_shows (e := ⟨_, _, _, _⟩) hnn)
      | _ => exact .inl ⟨_, rfl⟩

/-- C40 for domains: the error returned by `verify` for a domain without a problem always has a text. -/
theorem C40_domain_text {e : PErr} (h : Returns ord f none (.err e)) : ∃ t, e.show = .ok t := by
  rcases C40_text_partial h with h | ⟨_, _, _, h, _⟩
  · exact h
  · cases h

/-- C40, lines: the text of an error with a line starts with "line " and the line, unless it is a duplicate or a wrong
number of arguments of a task.  Missing: these, see `C40_line_refuted`. -/
theorem C40_line_partial {e : PErr} {t : Text} {l : Nat} (ht : e.show = .ok t) (hl : lineOf e = some l)
    (hd : ¬ Duplicate e) (ha : ∀ x, e ≠ .semantic (.taskArity x)) : ∃ rest, t = .s "line " :: .i l :: rest := by
  have ty {e : TypeErr} {t} (h : e.show = .ok t) : ∃ rest, t = .s "line " :: .i e.pos :: rest := by
    unfold TypeErr.show at h
    simp only at h
    split at h <;> first | (cases h; exact ⟨_, rfl⟩) | cases h
  cases e with
  | lexical e =>
    cases hl; cases ht
    unfold LexError.show
    split <;> exact ⟨_, rfl⟩
  | syntactic e => cases hl; cases ht; exact ⟨_, rfl⟩
  | semantic se =>
    cases se with
    | predArgType e => cases hl; exact ty ht
    | taskArgType e => cases hl; exact ty ht
    | taskArity e => exact absurd rfl (ha e)
    | dupRequirement r => cases hl
    | cyclicType => cases hl
    | _ => first | exact absurd trivial hd | (cases hl; cases ht; exact ⟨_, rfl⟩)

omit [Env] in
/-- C40 does not hold for problems: `verify` reports a type error whose text cannot be computed, because neither type is
recorded: the object `o` has a type and the parameter of `p` has none. -/
theorem C40_refuted : ∃ e : PErr, @Returns Env.plain HashOrd.id
    b!"(define (domain d) (:types a - c) (:predicates (p ?x)))\n"
    (some b!"(define (problem q) (domain d) (:objects o - a)\n (:init (p o)))\n") (.err e) ∧
    @PErr.show Env.plain e = .panic .typeErrorDisplay :=
  ⟨.semantic (.predArgType ⟨none, none, b!"p", 2⟩), @returns_run Env.plain _ _ _ 40 _ (by decide +kernel) (by simp), rfl⟩

omit [Env] in
/-- The text of a wrong number of arguments of a task has no line, and that of a duplicate starts with a name. -/
theorem C40_line_refuted : ∃ e e' : PErr, @Returns Env.plain HashOrd.id
    b!"(define (domain d) (:task t :parameters (?x))\n (:method m :parameters () :task (t) :subtasks ()))\n" none (.err e) ∧
    lineOf e = some 2 ∧ @PErr.show Env.plain e = .ok [.s "Task ", .n b!"t", .s " takes ", .i 0, .s " parameters, but ",
      .i 1, .s " are given."] ∧
    @Returns Env.plain HashOrd.id b!"(define (domain d)\n(:predicates (p)\n (q)\n (p ?x)))\n" none (.err e') ∧
    lineOf e' = some 4 ∧ @PErr.show Env.plain e' = .ok [.s "predicate ", .s "'", .n b!"p", .s "' is first defined in line ",
      .i 2, .s ", and then redefined in line ", .i 4, .s "."] :=
  ⟨.semantic (.taskArity ⟨b!"t", 0, 1, 2⟩), .semantic (.dupPredicate ⟨b!"p", 2, 4⟩),
    @returns_run Env.plain _ _ _ 40 _ (by decide +kernel) (by simp), rfl, rfl,
    @returns_run Env.plain _ _ _ 40 _ (by decide +kernel) (by simp), rfl, rfl⟩

/-- Instance: an undefined predicate on line 2. -/
example : @Returns Env.plain HashOrd.id b!"(define (domain d)\n(:action a :parameters () :effect (p)))\n" none
    (.err (.semantic (.undefPredicate ⟨b!"p", 2⟩))) ∧
    @PErr.show Env.plain (.semantic (.undefPredicate ⟨b!"p", 2⟩)) =
      .ok [.s "line ", .i 2, .s ": ", .s "predicate", .s " ", .n b!"p", .s " is not defined."] :=
  ⟨@returns_run Env.plain _ _ _ 40 _ (by decide +kernel) (by simp), rfl⟩

/-! ### C43: diagnostics -/

/-- Lines of reported errors count from one. -/
theorem line_pos {e : PErr} {l : Nat} (h : Returns ord f prob (.err e)) (hl : lineOf e = some l) : 1 ≤ l := by
  have wr {file : Bytes} {x : Name} {l : Nat} (h : WrittenAt file x l) : 1 ≤ l := by
    obtain ⟨_, _, _, _, _, _, _, _, rfl⟩ := h; omega
  rcases returns_err_cases h with ⟨file, _, h1⟩ | ⟨se, rfl⟩
  · cases e with
    | lexical e =>
      cases hl
      obtain ⟨peek, s, s', hr, hx⟩ := h1
      obtain ⟨_, _, _, _, _, _, _, _, h2⟩ := C01_error_line file s s' e peek hr hx
      omega
    | syntactic e =>
      cases hl
      obtain ⟨s, ⟨peek, s0, hr, hx⟩, h2⟩ := h1
      obtain ⟨_, _, _, _, _, _, _, _, _, _, h3⟩ := C01_token_line file s0 s _ peek hr hx
      omega
    | semantic e => exact h1.elim
  · by_cases hty : isTypeErr se = true
    · obtain ⟨te, hte⟩ : ∃ te, se = .predArgType te ∨ se = .taskArgType te := by
        cases se with
        | predArgType e => exact ⟨e, .inl rfl⟩
        | taskArgType e => exact ⟨e, .inr rfl⟩
        | _ => cases hty
      have hl : te.pos = l := by rcases hte with rfl | rfl <;> (cases hl; rfl)
      subst hl
      obtain ⟨d, hd, ⟨_, h1⟩ | ⟨g, p, ws, hg, hp, _, hac, _, h1⟩⟩ := returns_semantic h
      · have := h1.mentioned (te.var, te.pos) (by rcases hte with rfl | rfl <;> exact List.mem_cons_self)
        exact wr (written hd this)
      · subst hg
        obtain ⟨_, _, _, _, _, _, _, _, _, _, _, _, _, _, _, _, _, h2, _⟩ :=
          C27_problem_partial se te hte ⟨ws, (returns_ok_none hd).mpr hac⟩ h
        exact wr h2
    · by_cases hco : ∃ pos, se = .cyclicOrdering pos
      · obtain ⟨pos, rfl⟩ := hco
        cases hl
        obtain ⟨_, _, _, _, _, _, _, _, _, _, _, _, h2⟩ := C22_line l h
        omega
      · have hm : ∃ x, (x, l) ∈ mentions se := by
          cases se <;> first
            | exact absurd ⟨_, rfl⟩ hco
            | exact absurd rfl hty
            | (cases hl; exact ⟨_, List.mem_cons_self⟩)
            | (cases hl; exact ⟨_, List.mem_cons_of_mem _ List.mem_cons_self⟩)
            | cases hl
        obtain ⟨x, hx⟩ := hm
        obtain ⟨d, hd, ⟨_, h1⟩ | ⟨g, p, ws, hg, hp, _, _, _, h1⟩⟩ := returns_semantic h
        · exact wr (written hd (h1.mentioned _ hx))
        · exact wr (written hp (h1.mentioned (by simpa using hty) _ hx))

/-- C43, lines: a diagnostic for an error with a line covers just that line (counted from zero), is an error, and has the
text of the error. -/
theorem C43_line_partial {e : PErr} {x : Diag} {l : Nat} (h : toDiag e = .ok x) (hl : lineOf e = some l) :
    x.startLine + 1 = l ∧ x.endLine = l ∧ x.severity = .error ∧ e.show = .ok x.message := by
  have key {m : R Text} {l : Nat} (h : diagAt l m = .ok x) :
      x.startLine + 1 = l ∧ x.endLine = l ∧ x.severity = .error ∧ m = .ok x.message := by
    unfold diagAt at h
    split at h
    · cases h
    · obtain ⟨t, ht, h⟩ := R.bind_ok_iff.mp h
      cases h
      exact ⟨by simp only; omega, rfl, rfl, ht⟩
  have dup {e : DupErr} (h : dupDiag e = .ok x) : False := by
    unfold dupDiag at h
    split at h <;> cases h
  cases e with
  | lexical e => cases hl; exact key h
  | syntactic e => cases hl; exact key h
  | semantic se =>
    cases se <;> first
      | exact (dup h).elim
      | (cases hl; exact key h)
      | cases hl

/-- C43, conversion: converting the error of `verify` gives a diagnostic, unless something is defined twice or a typed
object is given to a predicate parameter without a type.  Missing: these, see `C43_refuted`. -/
theorem C43_converts_partial {e : PErr} (h : Returns ord f prob (.err e)) :
    (∃ x, toDiag e = .ok x ∧ e.show = .ok x.message) ∨ Duplicate e ∨
    ∃ d g p, prob = some g ∧ Parses f (.domain d) ∧ Parses g (.problem p) ∧ TypedForUntyped d p := by
  rcases C40_text_partial h with ⟨t, ht⟩ | h1
  · have hp : ∀ l, lineOf e = some l → 1 ≤ l := fun l => line_pos h
    have key {m : R Text} {l : Nat} (hl : lineOf e = some l) (hm : m = .ok t) (he : e.show = m) (hd : toDiag e = diagAt l m) :
        ∃ x, toDiag e = .ok x ∧ e.show = .ok x.message := by
      refine ⟨⟨l - 1, l, .error, t⟩, ?_, by rw [he, hm]⟩
      have := hp l hl
      rw [hd, diagAt, if_neg (by omega), hm]
      rfl
    cases e with
    | lexical e => exact .inl (key rfl ht rfl rfl)
    | syntactic e => exact .inl (key rfl ht rfl rfl)
    | semantic se =>
      cases se <;> first
        | exact .inr (.inl trivial)
        | exact .inl (key rfl ht rfl rfl)
        | exact .inl ⟨_, rfl, rfl⟩
  · exact .inr (.inr h1)

/-- C43 does not hold for duplicates: every one of them makes the conversion panic. -/
theorem C43_refuted {e : PErr} (h : Returns ord f prob (.err e)) (hd : Duplicate e) : toDiag e = .panic .dummyUrl := by
  have key {x : DupErr} (hl : lineOf e = some x.second) : dupDiag x = .panic .dummyUrl := by
    have := line_pos h hl
    rw [dupDiag, if_neg (by omega)]
  cases e with
  | lexical e => exact hd.elim
  | syntactic e => exact hd.elim
  | semantic se => cases se <;> first | exact hd.elim | exact key rfl

/-- Instances: an undefined predicate becomes a diagnostic, a repeated one makes the conversion panic. -/
example : @Returns Env.plain HashOrd.id b!"(define (domain d)\n(:action a :parameters () :effect (p)))\n" none
    (.err (.semantic (.undefPredicate ⟨b!"p", 2⟩))) ∧
    @toDiag Env.plain (.semantic (.undefPredicate ⟨b!"p", 2⟩)) =
      .ok ⟨1, 2, .error, [.s "line ", .i 2, .s ": ", .s "predicate", .s " ", .n b!"p", .s " is not defined."]⟩ ∧
    @Returns Env.plain HashOrd.id b!"(define (domain d)\n(:predicates (p)\n (q)\n (p ?x)))\n" none
      (.err (.semantic (.dupPredicate ⟨b!"p", 2, 4⟩))) ∧
    Duplicate (.semantic (.dupPredicate ⟨b!"p", 2, 4⟩)) :=
  ⟨@returns_run Env.plain _ _ _ 40 _ (by decide +kernel) (by simp), rfl,
    @returns_run Env.plain _ _ _ 40 _ (by decide +kernel) (by simp), trivial⟩

/-! ### C44: the command line -/

/-- The `verify` command, given readable files, ends in this way. -/
def Ends (ord : HashOrd) (f : Bytes) (prob : Option Bytes) (r : R (List OutLine)) : Prop :=
  ∃ N, ∀ n, N ≤ n → cliVerify ord n (.ok f) (prob.map .ok) = r

theorem cliVerify_ok (n : Nat) : cliVerify ord n (.ok f) (prob.map .ok) = verifyOutput (verify ord n f prob) := by
  cases prob <;> rfl

theorem ends_of_returns {r : R (List Warning)} (h : Returns ord f prob r) : Ends ord f prob (verifyOutput r) := by
  obtain ⟨_, N, hN⟩ := h
  exact ⟨N, fun n hn => by rw [cliVerify_ok, hN n hn]⟩

theorem Ends.det {r r' : R (List OutLine)} (h : Ends ord f prob r) (h' : Ends ord f prob r') : r = r' := by
  obtain ⟨N, hN⟩ := h
  obtain ⟨M, hM⟩ := h'
  rw [← hN (max N M) (by omega), ← hM (max N M) (by omega)]

theorem Ends.returns {out : List OutLine} (h : Ends ord f prob (.ok out)) :
    ∃ r, Returns ord f prob r ∧ verifyOutput r = .ok out := by
  obtain ⟨N, hN⟩ := h
  have h1 := hN N (Nat.le_refl _)
  rw [cliVerify_ok] at h1
  refine ⟨_, returns_iff.mpr ⟨?_, N, rfl⟩, h1⟩
  intro h2
  rw [h2] at h1
  cases h1

/-- Text of the line that reports success. -/
def okText : Text := [.s "\x1b[32m[Ok]\x1b[0m"]

/-- Text of the line for a warning. -/
def warningText (w : Warning) : Text := [.s "\x1b[33m[Warning]\x1b[0m ", .s "line ", .i w.pos, .s ": compound task ",
  .n w.symbol, .s " does not have a primitive refinement"]

/-- C44: `[Ok]` is printed on standard output exactly if `verify` accepts; then the lines before it are the warnings, each
printed once and in order, and nothing is printed on standard error. -/
theorem C44_accepted_partial (ws : List Warning) : Returns ord f prob (.ok ws) ↔
    Ends ord f prob (.ok (ws.map (fun w => .stdout (warningText w)) ++ [.stdout okText])) := by
  refine ⟨fun h => ends_of_returns h, fun h => ?_⟩
  obtain ⟨r, hr, h1⟩ := h.returns
  cases r with
  | ok ws' =>
    have : ws'.map warnLine = ws.map (fun w => .stdout (warningText w)) := by
      have h1 : ws'.map warnLine ++ [okLine] = ws.map (fun w => .stdout (warningText w)) ++ [.stdout okText] := by
        simpa [verifyOutput] using h1
      exact (List.append_inj' h1 rfl).1
    have hw : ws' = ws := by
      have hinj : Function.Injective fun w => OutLine.stdout (warningText w) := ?_
      · exact List.map_injective_iff.mpr hinj this
      rintro ⟨a, b⟩ ⟨a', b'⟩ h
      simp only [warningText, OutLine.stdout.injEq, List.cons.injEq, Piece.i.injEq, Piece.n.injEq] at h
      simp [h]
    rw [← hw]; exact hr
  | err e =>
    obtain ⟨t, _, h1⟩ := R.bind_ok_iff.mp (show e.show.bind (fun t => .ok [errorLine t]) = _ from h1)
    cases ws with
    | nil => simp [errorLine] at h1
    | cons w ws => simp [errorLine] at h1
  | panic x => cases h1
  | timeout => cases h1

/-- C44: if `verify` returns an error, the only line printed goes to standard error and has the text of the error; the
converse holds as well. -/
theorem C44_rejected_partial (t : Text) : Ends ord f prob (.ok [.stderr ([.s "\x1b[31m[Error]\x1b[0m "] ++ t)]) ↔
    ∃ e, Returns ord f prob (.err e) ∧ e.show = .ok t := by
  constructor
  · intro h
    obtain ⟨r, hr, h1⟩ := h.returns
    cases r with
    | ok ws =>
      have h1 : ws.map warnLine ++ [okLine] = [.stderr ([.s "\x1b[31m[Error]\x1b[0m "] ++ t)] := by
        simpa [verifyOutput] using h1
      cases ws with
      | nil => simp [okLine] at h1
      | cons w ws => simp [warnLine] at h1
    | err e =>
      obtain ⟨t', ht, h1⟩ := R.bind_ok_iff.mp (show e.show.bind (fun t => .ok [errorLine t]) = _ from h1)
      refine ⟨e, hr, ?_⟩
      rw [ht]
      simpa [errorLine] using h1
    | panic x => cases h1
    | timeout => cases h1
  · rintro ⟨e, h, ht⟩
    have := ends_of_returns h
    simp only [verifyOutput, ht, R.bind] at this
    exact this

/-- C44: nothing else is printed: every run that ends normally has one of the two outputs. -/
theorem C44_outputs_partial {out : List OutLine} (h : Ends ord f prob (.ok out)) :
    (∃ ws, Returns ord f prob (.ok ws) ∧ out = ws.map (fun w => .stdout (warningText w)) ++ [.stdout okText]) ∨
    ∃ e t, Returns ord f prob (.err e) ∧ e.show = .ok t ∧ out = [.stderr ([.s "\x1b[31m[Error]\x1b[0m "] ++ t)] := by
  obtain ⟨r, hr, h1⟩ := h.returns
  cases r with
  | ok ws => cases h1; exact .inl ⟨ws, hr, rfl⟩
  | err e =>
    obtain ⟨t, ht, h1⟩ := R.bind_ok_iff.mp (show e.show.bind (fun t => .ok [errorLine t]) = _ from h1)
    cases h1
    exact .inr ⟨e, t, hr, ht, rfl⟩
  | panic x => cases h1
  | timeout => cases h1

omit [Env] in
/-- C44 does not hold in the case of `C40_refuted`: `verify` returns an error, but the command panics and prints nothing. -/
theorem C44_refuted : ∃ e : PErr, @Returns Env.plain HashOrd.id
    b!"(define (domain d) (:types a - c) (:predicates (p ?x)))\n"
    (some b!"(define (problem q) (domain d) (:objects o - a)\n (:init (p o)))\n") (.err e) ∧
    @Ends Env.plain HashOrd.id
    b!"(define (domain d) (:types a - c) (:predicates (p ?x)))\n"
    (some b!"(define (problem q) (domain d) (:objects o - a)\n (:init (p o)))\n") (.panic .typeErrorDisplay) := by
  obtain ⟨e, h, h1⟩ := C40_refuted
  refine ⟨e, h, ?_⟩
  have := @ends_of_returns Env.plain _ _ _ _ h
  simp only [verifyOutput, h1, R.bind] at this
  exact this

/-- Instances: an accepted domain with a warning, and a rejected one. -/
example : @Returns Env.plain HashOrd.id b!"(define (domain d)\n(:task t :parameters ()))\n" none (.ok [⟨b!"t", 2⟩]) ∧
    @Ends Env.plain HashOrd.id b!"(define (domain d)\n(:action a :parameters () :effect (p)))\n" none
      (.ok [.stderr [.s "\x1b[31m[Error]\x1b[0m ", .s "line ", .i 2, .s ": ", .s "predicate", .s " ", .n b!"p",
        .s " is not defined."]]) :=
  ⟨@returns_run Env.plain _ _ _ 40 _ (by decide +kernel) (by simp),
    @ends_of_returns Env.plain _ _ _ _ (@returns_run Env.plain _ _ _ 40 (.err (.semantic (.undefPredicate ⟨b!"p", 2⟩)))
      (by decide +kernel) (by simp))⟩

end Verif
