import Verif.Proofs.Printing
import Verif.Props.Declarations
import Verif.Props.Types

/-! Writing a model as a file and reading it back. -/

namespace Verif

open Spec

variable [Env] {ord ord' : HashOrd} {f f' g : Bytes} {d d' : DomainAST} {p p' : ProblemAST} {ts : List Tk}

/-! ### C81: every model can be written and is read back -/

omit [Env] in
theorem renamed_zz : ∀ {ts : List Token} {us rest : List Tk}, us.map Prod.fst = ts ++ rest.map Prod.fst →
    ∃ us', us = us' ++ us.drop ts.length ∧ Renamed id (zz ts) us'
  | [], us, _, _ => ⟨[], rfl, .nil⟩
  | t :: ts, [], _, h => by cases h
  | t :: ts, (u, l) :: us, rest, h => by
    simp only [List.map_cons, List.cons_append, List.cons.injEq] at h
    obtain ⟨us', h1, h2⟩ := renamed_zz h.2
    refine ⟨(u, l) :: us', by simpa using h1, .cons ?_ h2⟩
    rw [h.1]
    exact (rnToken_id t).symm

theorem parses_printed {a : AST} {toks rest : List Token} (h : FileText true a (zz toks)) (hw : Written ts 1 f)
    (ht : ts.map Prod.fst = toks ++ rest) : ∃ a', Parses f a' ∧ rnAST id a' = rnAST id a := by
  obtain ⟨us, h1, h2⟩ := renamed_zz (rest := zz rest) (by simpa [zz, Function.comp_def] using ht)
  obtain ⟨a', h3, h4⟩ := fileText_rn h h2
  obtain ⟨s, h5, _⟩ := C04_layout_independence ts f hw
  rw [h1] at h5
  exact ⟨a', (C45_grammar f a').mpr ⟨us, h3, h5.feeds.append⟩, h4⟩

theorem parses_printed_domain {toks rest : List Token} (h : FileText true (.domain (rnDomain id d)) (zz toks)) (hw : Written ts 1 f)
    (ht : ts.map Prod.fst = toks ++ rest) : ∃ d', Parses f (.domain d') ∧ rnDomain id d' = rnDomain id d := by
  obtain ⟨a', h1, h2⟩ := parses_printed h hw ht
  cases a' with
  | problem p => simp [rnAST] at h2
  | domain d' =>
    simp only [rnAST, AST.domain.injEq] at h2
    exact ⟨d', h1, by rw [h2, rnDomain_rnDomain, Function.id_comp]⟩

theorem parses_printed_problem {toks rest : List Token} (h : FileText true (.problem (rnProblem id p)) (zz toks)) (hw : Written ts 1 f)
    (ht : ts.map Prod.fst = toks ++ rest) : ∃ p', Parses f (.problem p') ∧ rnProblem id p' = rnProblem id p := by
  obtain ⟨a', h1, h2⟩ := parses_printed h hw ht
  cases a' with
  | domain p => simp [rnAST] at h2
  | problem p' =>
    simp only [rnAST, AST.problem.injEq] at h2
    exact ⟨p', h1, by rw [h2, rnProblem_rnProblem, Function.id_comp]⟩

/-- C81: the tree of every domain file has the shape `DomainShape`. -/
theorem C81_domain_shape (h : Parses f (.domain d)) : DomainShape d := by
  obtain ⟨_, h, _⟩ := (C45_grammar f _).mp h
  exact domain_shape h

theorem C81_problem_shape (h : Parses f (.problem p)) : ProblemShape p := by
  obtain ⟨_, h, _⟩ := (C45_grammar f _).mp h
  exact problem_shape h

/-- C81: a domain of that shape, written in any layout and with any comments, is read back up to line numbers - except for the
methods after the first one with `:ordered-subtasks` and `:constraints`. -/
theorem C81_domain (h : DomainShape d) (hw : Written ts 1 f) (ht : ts.map Prod.fst = domainToks true d) :
    ∃ d', Parses f (.domain d') ∧ rnDomain id d' = rnDomain id (readDomain d) := by
  obtain ⟨rest, hr⟩ := domainToks_kept d
  exact parses_printed_domain (domain_print h.read) hw (ht.trans hr)

/-- C81: a problem is read back up to line numbers - except for the goal, if the initial task network has `:ordered-subtasks` and
`:constraints`. -/
theorem C81_problem {name dname : Name} (h : ProblemShape p) (hw : Written ts 1 f)
    (ht : ts.map Prod.fst = problemToks true name dname p) :
    ∃ p', Parses f (.problem p') ∧ rnProblem id p' = rnProblem id (readProblem p) := by
  obtain ⟨rest, hr⟩ := problemToks_kept name dname p
  exact parses_printed_problem (problem_print name dname h.read) hw (ht.trans hr)

/-- C81: without the closing parentheses of such methods, every domain of that shape is read back. -/
theorem C81_domain_lenient (h : DomainShape d) (hw : Written ts 1 f) (ht : ts.map Prod.fst = domainToks false d) :
    ∃ d', Parses f (.domain d') ∧ rnDomain id d' = rnDomain id d :=
  parses_printed_domain (rest := []) (domain_print h) hw (by simpa using ht)

theorem C81_problem_lenient {name dname : Name} (h : ProblemShape p) (hw : Written ts 1 f)
    (ht : ts.map Prod.fst = problemToks false name dname p) :
    ∃ p', Parses f (.problem p') ∧ rnProblem id p' = rnProblem id p :=
  parses_printed_problem (rest := []) (problem_print name dname h) hw (by simpa using ht)

/-- C81: the verdict on the written file is the verdict on the model. -/
theorem C81_domain_verdict (h : DomainShape d) (hw : Written ts 1 f) (ht : ts.map Prod.fst = domainToks true d) :
    (∃ ws, Returns ord f none (.ok ws)) ↔ DomainOk (readDomain d) := by
  obtain ⟨d', h1, h2⟩ := C81_domain h hw ht
  rw [accepts_domain_iff, ← domainOk_congr injective_id h2]
  constructor
  · rintro ⟨d2, h3, h4⟩
    cases h1.det h3
    exact h4
  · exact fun h3 => ⟨d', h1, h3⟩

theorem C81_problem_verdict {us : List Tk} {name dname : Name} (h : DomainShape d) (hw : Written ts 1 f)
    (ht : ts.map Prod.fst = domainToks true d) (h' : ProblemShape p) (hw' : Written us 1 g)
    (ht' : us.map Prod.fst = problemToks true name dname p) :
    (∃ ws, Returns ord f (some g) (.ok ws)) ↔ DomainOk (readDomain d) ∧ ProblemOk (readDomain d) (readProblem p) := by
  obtain ⟨d', h1, h2⟩ := C81_domain h hw ht
  obtain ⟨p', h3, h4⟩ := C81_problem h' hw' ht'
  rw [accepts_problem_iff, ← domainOk_congr injective_id h2, ← problemOk_congr injective_id h2 h4]
  constructor
  · rintro ⟨d2, p2, h5, h6, h7, h8⟩
    cases h1.det h5
    cases h3.det h7
    exact ⟨h6, h8⟩
  · exact fun h5 => ⟨d', p', h1, h5.1, h3, h5.2⟩

/-- C81: if all its tokens can be spelled, there is a file for the domain. -/
theorem C81_domain_file (h : DomainShape d) (hu : ∀ t ∈ domainToks false d, Utterable t) :
    ∃ f d', Parses f (.domain d') ∧ rnDomain id d' = rnDomain id d := by
  obtain ⟨us, f, h1, h2⟩ := written_toks hu 1
  exact ⟨f, C81_domain_lenient h h2 h1⟩

theorem C81_problem_file (h : ProblemShape p) (hu : ∀ t ∈ problemToks false b!"p" b!"d" p, Utterable t) :
    ∃ f p', Parses f (.problem p') ∧ rnProblem id p' = rnProblem id p := by
  obtain ⟨us, f, h1, h2⟩ := written_toks hu 1
  exact ⟨f, C81_problem_lenient h h2 h1⟩

omit [Env] in
theorem keptMethods_all : ∀ {ms : List Method}, (∀ m ∈ ms.dropLast, ¬ ConstrainedTotal m.tn) → keptMethods ms = ms
  | [], _ => rfl
  | [m], _ => by simp [keptMethods]
  | m :: m' :: ms, h => by
    have h1 : ¬ ConstrainedTotal m.tn := h m (by simp)
    rw [keptMethods, if_neg h1, keptMethods_all fun x hx => h x (by simp [hx])]

/-- C81, normal form: every file with ASCII names in which at most the last method has `:ordered-subtasks` and `:constraints` can be
rewritten, with all parentheses, in the order requirements, types, constants, predicates, functions, tasks, actions, methods;
the new file has the same tree up to line numbers and the same verdict. -/
theorem C81_normal_form (h : Parses f (.domain d)) (hu : ∀ t ∈ domainToks true d, Utterable t)
    (hl : ∀ m ∈ d.methods.dropLast, ¬ ConstrainedTotal m.tn) :
    ∃ ts f' d', ts.map Prod.fst = domainToks true d ∧ Written ts 1 f' ∧ Parses f' (.domain d') ∧
      rnDomain id d' = rnDomain id d ∧ ((∃ ws, Returns ord f none (.ok ws)) ↔ ∃ ws, Returns ord' f' none (.ok ws)) := by
  obtain ⟨us, f', h1, h2⟩ := written_toks hu 1
  have hd := C81_domain_shape h
  obtain ⟨d', h3, h4⟩ := C81_domain hd h2 h1
  have hk : readDomain d = d := by rw [readDomain, keptMethods_all hl]
  refine ⟨us, f', d', h1, h2, h3, by rw [h4, hk], ?_⟩
  rw [C81_domain_verdict hd h2 h1, hk, accepts_domain_iff]
  constructor
  · rintro ⟨d2, h3, h4⟩
    cases h.det h3
    exact h4
  · exact fun h3 => ⟨d, h, h3⟩

/-! ### Instance -/

/-- A domain with types, a constant, nested formulas and all kinds of task networks, written as
`domainToks true` prescribes; the last method has `:ordered-subtasks` and `:constraints`. -/
def printedDomain : Bytes := b!"(define (domain d) ; as written by a program
  (:requirements :typing :hierarchy) (:types a - b) (:types b - object) (:constants c - a)
  (:predicates (p ?x - a ?y) (q)) (:functions (cost ?x - a))
  (:task t :parameters (?x - a))
  (:action go :parameters (?x - a) :precondition (forall (?y - b) (not (p ?x ?y))) :effect (oneof (q) (not (q))))
  (:method m0 :parameters (?x - a) :task (t ?x) :precondition (and (q) (= ?x c))
    :subtasks (and (s1 (go ?x)) (s2 (t ?x)) (go c)) :ordering (and (< s1 s2)) :constraints (and (not (= ?x c))))
  (:method m1 :parameters (?x - a) :task (t ?x) :ordered-subtasks (and))
  (:method m2 :parameters (?x - a) :task (t ?x) :ordered-subtasks (and (go ?x)) :constraints (and (= ?x c))))\n"

/-- A tree of a file, checked by computation. -/
def treeCheck (n : Nat) (f : Bytes) (test : DomainAST → List Tk → Bool) : Bool :=
  match parse n f, scan n 1 f with
  | .ok (.domain d), some ts => test d ts
  | _, _ => false

theorem tree_of_check {n : Nat} {test : DomainAST → List Tk → Bool} (h : treeCheck n f test = true) :
    ∃ d ts, Parses f (.domain d) ∧ Written ts 1 f ∧ test d ts = true := by
  unfold treeCheck at h
  split at h
  · rename_i d ts h1 h2
    exact ⟨d, ts, .of_ok h1, scan_written h2, h⟩
  · cases h

def spellable : Token → Bool
  | .ident x => decide (Word x)
  | .num (.int n) => decide (n < 2 ^ 63)
  | .num (.real l) => match l.span (· ≠ 46) with
    | (w, _ :: u) => decide (w ++ 46 :: u = l) && decide (w ≠ []) && w.all (decide <| Digit ·) && u.all (decide <| Digit ·)
    | _ => false
  | .req r => decide (r ≠ .probabilisticEffects)
  | .eof => false
  | _ => true

omit [Env] in
theorem spellable_sound {t : Token} (h : spellable t = true) : Utterable t := by
  cases t with
  | num v =>
    cases v with
    | int n => simpa [spellable, Utterable] using h
    | real l =>
      simp only [spellable] at h
      split at h
      · rename_i w c u _
        simp only [Bool.and_eq_true, decide_eq_true_eq, List.all_eq_true] at h
        exact ⟨w, u, h.1.1.1.symm, h.1.1.2, h.1.2, h.2⟩
      · cases h
  | ident x => simpa [spellable, Utterable] using h
  | req r => simpa [spellable, Utterable] using h
  | eof => cases h
  | _ => trivial

/-- Another order of the methods: the method with `:ordered-subtasks` and `:constraints` comes first, and the tree `lostTree` below
has one method more than the tree that is read. -/
def lostMethod : Bytes := b!"(define (domain d) (:requirements) (:predicates) (:functions) (:task t :parameters ())
  (:method m1 :parameters () :task (t) :ordered-subtasks (and) :constraints (and))
  (:method m0 :parameters () :task (t) :ordered-subtasks (and)))\n"

def lostTree : DomainAST :=
  ⟨b!"d", none, none, [], [], [⟨b!"t", 1, []⟩],
    [⟨⟨b!"m1", 2, none, none⟩, ⟨b!"t", 2, none, none⟩, [], [], none, ⟨[], none, .total, some []⟩⟩,
      ⟨⟨b!"m0", 3, none, none⟩, ⟨b!"t", 3, none, none⟩, [], [], none, ⟨[], none, .total, none⟩⟩], [], []⟩

omit [Env] in
/-- Instance: the domain `printedDomain` meets the hypotheses of `C81_domain` and `C81_normal_form`. -/
theorem printedDomain_spec : ∃ d ts, @Parses Env.plain printedDomain (.domain d) ∧ Written ts 1 printedDomain ∧
    ts.map Prod.fst = domainToks true d ∧ (∀ t ∈ domainToks true d, Utterable t) ∧ DomainShape d ∧ d.methods.length = 3 ∧
    ∀ m ∈ d.methods.dropLast, ¬ ConstrainedTotal m.tn := by
  obtain ⟨d, ts, h1, h2, h3⟩ := @tree_of_check Env.plain printedDomain 400
    (fun d ts => decide (ts.map Prod.fst = domainToks true d) && (domainToks true d).all spellable &&
      decide (d.methods.length = 3) && decide (∀ m ∈ d.methods.dropLast, ¬ ConstrainedTotal m.tn)) (by decide +kernel)
  simp only [Bool.and_eq_true, decide_eq_true_eq, List.all_eq_true] at h3
  obtain ⟨⟨⟨h3, h4⟩, h5⟩, h6⟩ := h3
  exact ⟨d, ts, h1, h2, h3, fun t ht => spellable_sound (h4 t ht), @C81_domain_shape Env.plain _ _ h1, h5, h6⟩

omit [Env] in
/-- C81 is false without the exception: a domain that is written with all parentheses is not read back. -/
theorem C81_refuted : DomainShape lostTree ∧ ∃ ts, Written ts 1 lostMethod ∧ ts.map Prod.fst = domainToks true lostTree ∧
    ¬ ∃ d', @Parses Env.plain lostMethod (.domain d') ∧ rnDomain id d' = rnDomain id lostTree := by
  have hs : DomainShape lostTree := by
    refine ⟨by simp [lostTree], by simp [lostTree, typesOf], by simp [lostTree], by simp [lostTree, constantsOf], by simp [lostTree],
      ?_, ?_, by simp [lostTree], by simp [lostTree]⟩
    · intro t ht
      simp only [lostTree, List.mem_singleton] at ht
      subst ht
      exact ⟨by simp, by simp⟩
    · intro m hm
      simp only [lostTree, List.mem_cons, List.not_mem_nil, or_false] at hm
      rcases hm with rfl | rfl <;>
        exact ⟨⟨rfl, rfl⟩, ⟨rfl, rfl⟩, ⟨by simp, by simp⟩, ⟨by simp, by simp⟩, by simp, ⟨by simp, by simp, by simp⟩⟩
  obtain ⟨d, ts, h1, h2, h3⟩ := @tree_of_check Env.plain lostMethod 400
    (fun d ts => decide (ts.map Prod.fst = domainToks true lostTree) && decide (d.methods.length = 1)) (by decide +kernel)
  simp only [Bool.and_eq_true, decide_eq_true_eq] at h3
  refine ⟨hs, ts, h2, h3.1, ?_⟩
  rintro ⟨d', h4, h5⟩
  cases @Parses.det Env.plain _ _ _ h1 h4
  have := congrArg (fun d => d.methods.length) h5
  simp [rnDomain, lostTree, h3.2] at this

end Verif
