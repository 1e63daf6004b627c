import Verif.Proofs.CutOff
import Verif.Props.Relaid
import Verif.Props.Trailing
import Verif.Props.Clash
import Verif.Props.Invariance

/-! C99: files that are cut off. -/

namespace Verif

open Spec

variable [Env] {ord : HashOrd}

theorem feeds_headed {f : Bytes} {a b : List Tk} (ha : Feeds (LexState.init f) a) (hb : Feeds (LexState.init f) b)
    (h : a.length = b.length) : a = b := by
  obtain ⟨r, rfl⟩ := feeds_prefix ha hb (by omega)
  have : r = [] := List.length_eq_zero_iff.1 (by simpa using h)
  rw [this, List.append_nil]

/-- An initial part of a domain file that is parsed contains the whole definition. -/
theorem prefix_domain {f q : Bytes} {d : DomainAST} (hf : Parses f (.domain d)) (hq : q <+: f) {a : AST} (ha : Parses q a) :
    ∃ pre post, q = pre ++ 41 :: post ∧ ∀ junk, Parses (pre ++ 41 :: junk) (.domain d) := by
  obtain ⟨y, rfl⟩ := hq
  cases a with
  | domain d' =>
    obtain ⟨pre, post, rfl, h⟩ := C15_any_file _ _ ha
    have := h (post ++ y)
    rw [show pre ++ 41 :: (post ++ y) = pre ++ 41 :: post ++ y by simp] at this
    cases hf.det this
    exact ⟨pre, post, rfl, h⟩
  | problem p =>
    exfalso
    rcases C15_any_problem _ _ ha with ⟨pre, post, rfl, h⟩ | ⟨ts, l, h1, h2⟩
    · have := h (post ++ y)
      rw [show pre ++ 41 :: (post ++ y) = pre ++ 41 :: post ++ y by simp] at this
      cases hf.det this
    · obtain ⟨ts', h3, h4⟩ := (C45_grammar _ _).1 hf
      rcases FileText.ends h1 with ⟨b, k, hb⟩ | ⟨b, k, ⟨c, k', rfl⟩, hb⟩
      · have := (List.append_inj' hb rfl).2
        cases this
      obtain ⟨rfl, hl⟩ := List.append_inj' hb rfl
      obtain ⟨u, v, hu, hv⟩ := h2.append.local
      have h5 := hv (v ++ y)
      rw [show (⟨u ++ 41 :: (v ++ y), (LexState.init q).line⟩ : LexState) = LexState.init (q ++ y) by
        simp only [LexState.init] at hu ⊢; simp [hu]] at h5
      generalize hx : c ++ [(rpar, k')] ++ [(Token.eof, l)] = xs at h1
      cases h1 with
      | @problem name dname bs ts1 l1 l2 l3 l4 l5 l6 l7 l8 l9 l10 hb =>
        generalize hd : AST.domain d = e at h3
        cases h3 with
        | problem => cases hd
        | @domain name' bs' ts2 m1 m2 m3 m4 m5 m6 hb' =>
          obtain ⟨x, z, rfl⟩ := List.eq_nil_or_concat ts1 |>.resolve_left (body_ne hb)
          rw [List.concat_eq_append] at hx
          obtain ⟨h6, _⟩ := List.append_inj' (show c ++ [(rpar, k')] ++ [(Token.eof, l)] = ((lpar, l1) :: (.kw .define, l2) ::
            (lpar, l3) :: (.kw .problem, l4) :: (.ident name, l5) :: (rpar, l6) :: (lpar, l7) :: (.kw .domain, l8) ::
            (.ident dname, l9) :: (rpar, l10) :: x) ++ [z] from hx) rfl
          rw [h6] at h5
          have h7 := feeds_headed (a := [(lpar, l1), (.kw .define, l2), (lpar, l3), (.kw .problem, l4)])
            (b := [(lpar, m1), (.kw .define, m2), (lpar, m3), (.kw .domain, m4)])
            (Feeds.append (b := (.ident name, l5) :: (rpar, l6) :: (lpar, l7) :: (.kw .domain, l8) ::
              (.ident dname, l9) :: (rpar, l10) :: x) h5)
            (Feeds.append (b := (.ident name', m5) :: (rpar, m6) :: ts2) h4) rfl
          simp at h7

/-- C99: a domain file that is parsed has a closing parenthesis such that what follows it does not matter, and such that no part of
the file that ends before it is parsed. -/
theorem C99_domain {f : Bytes} {d : DomainAST} (hf : Parses f (.domain d)) :
    ∃ pre post, f = pre ++ 41 :: post ∧ (∀ junk, Parses (pre ++ 41 :: junk) (.domain d)) ∧
      ∀ q, q <+: pre → ∀ a, ¬ Parses q a := by
  classical
  have hex : ∃ k, ∃ a, Parses (f.take k) a := ⟨f.length, .domain d, by rwa [List.take_length]⟩
  obtain ⟨a, ha⟩ := Nat.find_spec hex
  obtain ⟨pre, post, h1, h2⟩ := prefix_domain hf (List.take_prefix _ _) ha
  obtain ⟨y, hy⟩ := List.take_prefix (Nat.find hex) f
  rw [h1] at hy
  refine ⟨pre, post ++ y, by rw [← hy]; simp, h2, fun q hq b hb => ?_⟩
  have hqf : q <+: f := hq.trans ⟨41 :: (post ++ y), by rw [← hy]; simp⟩
  refine Nat.find_min hex (m := q.length) ?_ ⟨b, by rwa [← List.prefix_iff_eq_take.1 hqf]⟩
  have hl := hq.length_le
  have : pre.length < (f.take (Nat.find hex)).length := by rw [h1]; simp
  have := List.length_take_le (Nat.find hex) f
  omega

/-- C99: if a file is parsed, then an error of the parser on an initial part of it is reported on the last line of this part. -/
theorem C99_line {f q : Bytes} {a : AST} (hf : Parses f a) (hq : q <+: f) {n : Nat} :
    (∀ e, parse n q = .err (.syntactic e) → e.pos = 1 + newlines q) ∧
    ∀ e, parse n q = .err (.lexical e) → e.pos = 1 + newlines q := by
  obtain ⟨y, rfl⟩ := hq
  refine ⟨fun e he => ?_, fun e he => ?_⟩
  · obtain ⟨c, t, h1, _⟩ := syntactic_sound he
    exact cut_wrong hf h1
  · obtain ⟨s, h1⟩ := (C65_lexical_error q e).1 ⟨n, he⟩
    exact cut_unreadable hf h1

/-- C99 for the functions of the library: with a domain file that is cut off before the place of `C99_domain`, nothing is accepted,
checked or exported, and an error is reported on the last line. -/
theorem C99_answer {f : Bytes} {d : DomainAST} (hf : Parses f (.domain d)) :
    ∃ pre post, f = pre ++ 41 :: post ∧
      (∀ junk ord prob r, Returns ord (pre ++ 41 :: junk) prob r ↔ Returns ord f prob r) ∧
      ∀ q, q <+: pre → ∀ ord prob,
        (∀ r, Returns ord q prob r → (∃ e, r = .err (.syntactic e) ∧ e.pos = 1 + newlines q) ∨
          (∃ e, r = .err (.lexical e) ∧ e.pos = 1 + newlines q) ∨ ∃ x, r = .panic x) ∧
        (∀ n md, getMetadata ord n q ≠ .ok md) ∧ ∀ n j, toJson ord n q prob ≠ .ok j := by
  obtain ⟨pre, post, rfl, h1, h2⟩ := C99_domain hf
  refine ⟨pre, post, rfl, fun junk ord prob r => ?_, fun q hq ord prob => ⟨fun r hr => ?_, fun n md h => ?_, fun n j h => ?_⟩⟩
  · rw [returns_parsed (h1 junk), returns_parsed hf]
  · have hl := fun n => C99_line (n := n) hf (hq.trans (List.prefix_append _ _))
    rcases returns_reading hr with ⟨a, ha⟩ | ⟨n, e, he, rfl⟩ | ⟨n, x, _, rfl⟩
    · exact absurd ha (h2 q hq a)
    · cases e with
      | syntactic e => exact .inl ⟨e, rfl, (hl n).1 e he⟩
      | lexical e => exact .inr (.inl ⟨e, rfl, (hl n).2 e he⟩)
      | semantic e => exact (parse_err he).elim
    · exact .inr (.inr ⟨x, rfl⟩)
  · unfold getMetadata at h
    cases hp : parse n q with
    | ok a => exact h2 q hq a (.of_ok hp)
    | _ => rw [hp] at h; cases h
  · unfold toJson at h
    cases hp : parse n q with
    | ok a => exact h2 q hq a (.of_ok hp)
    | _ => rw [hp] at h; cases h

/-- C99: an initial part of a problem file that is parsed is a problem with the first blocks of the file. -/
theorem C99_problem {f q : Bytes} {p : ProblemAST} (hf : Parses f (.problem p)) (hq : q <+: f) {a : AST} (ha : Parses q a) :
    ∃ bs bs', a = .problem (problemOf bs) ∧ p = problemOf (bs ++ bs') := by
  obtain ⟨y, rfl⟩ := hq
  cases a with
  | domain d' =>
    exfalso
    obtain ⟨pre, post, rfl, h⟩ := C15_any_file _ _ ha
    have := h (post ++ y)
    rw [show pre ++ 41 :: (post ++ y) = pre ++ 41 :: post ++ y by simp] at this
    cases hf.det this
  | problem p' =>
    obtain ⟨ts, h1, h2⟩ := (C45_grammar _ _).1 ha
    rcases FileText.ends h1 with ⟨c, k, rfl⟩ | ⟨b, l, ⟨c, k, rfl⟩, rfl⟩
    · obtain ⟨u, v, hu, hv⟩ := h2.local
      have h5 := hv (v ++ y)
      rw [show (⟨u ++ 41 :: (v ++ y), (LexState.init q).line⟩ : LexState) = LexState.init (q ++ y) by
        simp only [LexState.init] at hu ⊢; simp [hu]] at h5
      cases hf.det ((C45_grammar _ _).2 ⟨_, h1, h5⟩)
      generalize hx : AST.problem p = x at h1
      generalize c ++ [(rpar, k)] = ts at h1
      cases h1 with
      | domain => cases hx
      | @problem _ _ bs => cases hx; exact ⟨bs, [], rfl, by simp⟩
    · obtain ⟨u, v, hu, hv⟩ := h2.append.local
      have h5 := hv (v ++ y)
      rw [show (⟨u ++ 41 :: (v ++ y), (LexState.init q).line⟩ : LexState) = LexState.init (q ++ y) by
        simp only [LexState.init] at hu ⊢; simp [hu]] at h5
      generalize hx : c ++ [(rpar, k)] ++ [(Token.eof, l)] = xs at h1
      cases h1 with
      | @problem name dname bs ts1 l1 l2 l3 l4 l5 l6 l7 l8 l9 l10 hb =>
        obtain ⟨x, z, rfl⟩ := List.eq_nil_or_concat ts1 |>.resolve_left (body_ne hb)
        rw [List.concat_eq_append] at hx hb
        obtain ⟨h6, h7⟩ := List.append_inj' (show c ++ [(rpar, k)] ++ [(Token.eof, l)] =
          (headToks name dname l1 l2 l3 l4 l5 l6 l7 l8 l9 l10 ++ x) ++ [z] from hx) rfl
        cases h7
        rw [h6] at h5
        obtain ⟨bs', hp⟩ := problem_goes hf hb h5
        exact ⟨bs, bs', rfl, hp⟩

/-- C99: so the requirements and objects that are read are the first ones of the file, and a goal or an initial task network is read
only if the file has one. -/
theorem C99_problem_parts {f q : Bytes} {p p' : ProblemAST} (hf : Parses f (.problem p)) (hq : q <+: f)
    (ha : Parses q (.problem p')) :
    p'.requirements <+: p.requirements ∧ p'.objects <+: p.objects ∧ (p.goal = none → p'.goal = none) ∧
      (p.initTn = none → p'.initTn = none) := by
  obtain ⟨bs, bs', h1, rfl⟩ := C99_problem hf hq ha
  cases h1
  refine ⟨?_, ?_, fun h => ?_, fun h => ?_⟩
  · simp [problemOf]
  · simp [problemOf]
  · simp only [problemOf, List.filterMap_append, List.getLast?_eq_none_iff, List.append_eq_nil_iff] at h ⊢
    exact h.1
  · simp only [problemOf, List.filterMap_append, List.getLast?_eq_none_iff, List.append_eq_nil_iff] at h ⊢
    exact h.1

/-- C99: when exactly an initial part of a problem file is parsed: it contains the whole definition, or it ends where a problem
could end, that is behind a block. -/
theorem C99_problem_iff {f q : Bytes} {p : ProblemAST} (hf : Parses f (.problem p)) (hq : q <+: f) :
    (∃ a, Parses q a) ↔ (∃ pre post, q = pre ++ 41 :: post ∧ ∀ junk, Parses (pre ++ 41 :: junk) (.problem p)) ∨
      ∃ c l, CanEnd c ∧ Feeds (LexState.init q) (c ++ [(.eof, l)]) := by
  constructor
  · rintro ⟨a, ha⟩
    obtain ⟨bs, bs', rfl, h1⟩ := C99_problem hf hq ha
    rcases C15_any_problem _ _ ha with ⟨pre, post, rfl, h⟩ | ⟨ts, l, h2, h3⟩
    · left
      obtain ⟨y, rfl⟩ := hq
      have := h (post ++ y)
      rw [show pre ++ 41 :: (post ++ y) = pre ++ 41 :: post ++ y by simp] at this
      cases hf.det this
      exact ⟨pre, post, rfl, h⟩
    · exact .inr ⟨ts, l, ⟨_, l, h2⟩, h3⟩
  · rintro (⟨pre, post, rfl, h⟩ | ⟨c, l, ⟨p', l', h1⟩, h2⟩)
    · exact ⟨_, h post⟩
    · have : Renamed id (c ++ [(Token.eof, l')]) (c ++ [(Token.eof, l)]) := renamed_iff_same.2 (by simp [SameTokens])
      obtain ⟨a, ha, _⟩ := fileText_rn h1 this
      exact ⟨a, (C45_grammar _ _).2 ⟨_, ha, h2⟩⟩

/-- C99: with an accepted domain, an error of the parser on an initial part of a problem file is reported on the last line of this
part. -/
theorem C99_problem_line {dom f q : Bytes} {p : ProblemAST} (hd : ∃ ws, Returns ord dom none (.ok ws)) (hf : Parses f (.problem p))
    (hq : q <+: f) :
    (∀ e, Returns ord dom (some q) (.err (.syntactic e)) → e.pos = 1 + newlines q) ∧
    ∀ e, Returns ord dom (some q) (.err (.lexical e)) → e.pos = 1 + newlines q := by
  obtain ⟨ws, hd⟩ := hd
  obtain ⟨d, h1, h2, _⟩ := returns_ok_parses hd
  have ha := returns_accepts h1 hd
  refine ⟨fun e he => ?_, fun e he => ?_⟩
  all_goals
    rcases returns_reading_problem h1 ha he with ⟨a, hp⟩ | ⟨n, e', he', hr⟩ | ⟨n, x, _, hr⟩
    · exfalso
      obtain ⟨bs, bs', rfl, _⟩ := C99_problem hf hq hp
      rcases (returns_err_some h1 hp).1 he with h3 | ⟨ws', h3, h4⟩
      · obtain ⟨se, h5, _⟩ := checkDomain_report h3
        cases h5
      · obtain ⟨se, h5, _⟩ := verifyProblem_report h2 h4
        cases h5
    · cases hr
      first | exact (C99_line hf hq).1 e he' | exact (C99_line hf hq).2 e he'
    · cases hr

/-! ### What can go wrong -/

def cutDomain : Bytes := b!"(define (domain d) (:predicates (r ?x)) (:task t :parameters ()) (:method m :parameters () :task (t) :subtasks ()))"

omit [Env] in
/-- C99: a problem file that is cut off behind a block can be accepted although the whole file is not, and the other way round. -/
theorem C99_problem_accepted : ∃ dom f q f' q', ∃ p p', @Parses Env.plain f (.problem p) ∧ q <+: f ∧
    (∃ e, @Returns Env.plain .id dom (some f) (.err (.semantic e))) ∧ (∃ ws, @Returns Env.plain .id dom (some q) (.ok ws)) ∧
    @Parses Env.plain f' (.problem p') ∧ q' <+: f' ∧
    (∃ ws, @Returns Env.plain .id dom (some f') (.ok ws)) ∧ ∃ e, @Returns Env.plain .id dom (some q') (.err (.semantic e)) := by
  have h1 : (match @parse Env.plain 200 b!"(define (problem x) (:domain d)\n(:htn :subtasks (t))\n(:init (q)))\n" with
    | .ok (.problem _) => true | _ => false) = true := by decide +kernel
  have h2 : (match @parse Env.plain 200 b!"(define (problem x) (:domain d)\n(:htn :subtasks (t))\n(:init (r a))\n(:objects a))\n" with
    | .ok (.problem _) => true | _ => false) = true := by decide +kernel
  split at h1 <;> [rename_i p hp; cases h1]
  split at h2 <;> [rename_i p' hp'; cases h2]
  refine ⟨cutDomain, _, b!"(define (problem x) (:domain d)\n(:htn :subtasks (t))\n", _,
    b!"(define (problem x) (:domain d)\n(:htn :subtasks (t))\n(:init (r a))\n", p, p', @Parses.of_ok Env.plain _ _ _ hp,
    ⟨b!"(:init (q)))\n", rfl⟩, ⟨.undefPredicate ⟨b!"q", 3⟩, ?_⟩, ⟨[], ?_⟩, @Parses.of_ok Env.plain _ _ _ hp',
    ⟨b!"(:objects a))\n", rfl⟩, ⟨[], ?_⟩, ⟨.undefObject ⟨b!"a", 3⟩, ?_⟩⟩
  · exact @returns_run Env.plain _ _ _ 200 _ (by decide +kernel) (by simp)
  · exact @returns_run Env.plain _ _ _ 200 _ (by decide +kernel) (by simp)
  · exact @returns_run Env.plain _ _ _ 200 _ (by decide +kernel) (by simp)
  · exact @returns_run Env.plain _ _ _ 200 _ (by decide +kernel) (by simp)

omit [Env] in
/-- C99: a domain file that is cut off within a name can make the parser run for ever. -/
theorem C99_hangs : ∃ f q d, @Parses Env.plain f (.domain d) ∧ q <+: f ∧ ∀ n, @parse Env.plain n q = .timeout := by
  have h : (match @parse Env.plain 200 b!"(define (domain d) (:types a))" with
    | .ok (.domain _) => true | _ => false) = true := by decide +kernel
  split at h <;> [rename_i d hd; cases h]
  exact ⟨_, _, d, @Parses.of_ok Env.plain _ _ _ hd, ⟨b!"))", rfl⟩, @C06_refuted Env.plain⟩

omit [Env] in
/-- C99: a domain file that is cut off within a comment makes the parser panic. -/
theorem C99_panics : ∃ f q d, @Parses Env.plain f (.domain d) ∧ q <+: f ∧
    @Returns Env.plain .id q none (.panic .commentEof) := by
  have h : (match @parse Env.plain 200 b!"(define (domain d) ; end\n)" with
    | .ok (.domain _) => true | _ => false) = true := by decide +kernel
  split at h <;> [rename_i d hd; cases h]
  exact ⟨_, b!"(define (domain d) ; e", d, @Parses.of_ok Env.plain _ _ _ hd, ⟨b!"nd\n)", rfl⟩,
    @returns_run Env.plain _ _ _ 200 _ (by decide +kernel) (by simp)⟩

/-- A domain file with text behind it, cut off in its third line. -/
example : ∃ f q d, @Parses Env.plain f (.domain d) ∧ q <+: f ∧ d.predicates.length = 1 ∧
    ∃ e, @Returns Env.plain .id q none (.err (.syntactic e)) ∧ e.pos = 3 := by
  have h : (match @parse Env.plain 200 b!"(define (domain d)\n (:predicates (p))\n (:action a :parameters ()))\n; end" with
    | .ok (.domain d) => decide (d.predicates.length = 1) | _ => false) = true := by decide +kernel
  split at h <;> [rename_i d hd; cases h]
  exact ⟨_, b!"(define (domain d)\n (:predicates (p))\n (:action a :parameters ", d, @Parses.of_ok Env.plain _ _ _ hd,
    ⟨b!"()))\n; end", rfl⟩, of_decide_eq_true h, ⟨[.s "'(' after :parameters"], .eof, 3⟩,
    @returns_run Env.plain _ _ _ 200 _ (by decide +kernel) (by simp), rfl⟩

end Verif
