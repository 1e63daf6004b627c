import Verif.Proofs.RenameText
import Verif.Proofs.WrittenCheck
import Verif.Props.Commands
import Verif.Props.Recursion

/-! Which changes of the input do not change the verdict. -/

namespace Verif

open Spec

variable [Env] {ord ord' : HashOrd} {f f' g g' : Bytes} {d d' : DomainAST} {p p' : ProblemAST} {ρ : Name → Name}

/-! ### C59: renaming and layout -/

theorem getToken_end (n : Nat) : getToken ⟨[], n⟩ = .tok .eof ⟨[], n⟩ := by
  simp [getToken, lex, skipLayout]

theorem feeds_end_rn {n : Nat} (n' : Nat) {us : List Tk} (h : Feeds ⟨[], n⟩ us) : ∃ us', Feeds ⟨[], n'⟩ us' ∧ Renamed ρ us us' := by
  induction us with
  | nil => exact ⟨[], trivial, .nil⟩
  | cons u us ih =>
    obtain ⟨t, l⟩ := u
    obtain ⟨s1, h1, h2, h3⟩ := h
    rw [getToken_end] at h1
    cases h1
    obtain ⟨us', h4, h5⟩ := ih h3
    exact ⟨(.eof, n') :: us', ⟨_, getToken_end n', rfl, h4⟩, .cons rfl h5⟩

theorem reads_rn {s s1 s' s1' : LexState} {ts ts' us : List Tk} {n n' : Nat} (h : Reads s ts s1)
    (he : getToken s1 = .tok .eof ⟨[], n⟩) (h' : Reads s' ts' s1') (he' : getToken s1' = .tok .eof ⟨[], n'⟩)
    (hr : Renamed ρ ts ts') (hu : Feeds s us) : ∃ us', Feeds s' us' ∧ Renamed ρ us us' := by
  induction h generalizing s' ts' us with
  | nil =>
    cases hr.unnil
    cases h'
    cases us with
    | nil => exact ⟨[], trivial, .nil⟩
    | cons u us =>
      obtain ⟨t, l⟩ := u
      obtain ⟨s2, h1, h2, h3⟩ := hu
      rw [he] at h1
      cases h1
      obtain ⟨us', h4, h5⟩ := feeds_end_rn (ρ := ρ) n' h3
      exact ⟨(.eof, n') :: us', ⟨_, he', rfl, h4⟩, .cons rfl h5⟩
  | @cons s s2 s3 t ts h1 h2 ih =>
    obtain ⟨l', ws, rfl, hr1⟩ := hr.uncons
    cases us with
    | nil => exact ⟨[], trivial, .nil⟩
    | cons u us =>
      obtain ⟨t2, l⟩ := u
      obtain ⟨s4, h3, h4, h5⟩ := hu
      rw [h1] at h3
      cases h3
      cases h' with
      | cons h6 h7 =>
        obtain ⟨us', h8, h9⟩ := ih he h7 hr1 h5
        exact ⟨(rnToken ρ t, _) :: us', ⟨_, h6, rfl, h8⟩, .cons rfl h9⟩

theorem parses_rn {a : AST} (h : SameText ρ f f') (hf : Parses f a) : ∃ a', Parses f' a' ∧ rnAST id a' = rnAST ρ a := by
  obtain ⟨ts, ts', h1, h2, h3⟩ := h
  obtain ⟨us, h4, h5⟩ := (C45_grammar f a).mp hf
  obtain ⟨s1, h6, h7⟩ := C04_layout_independence ts f h1
  obtain ⟨s2, h8, h9⟩ := C04_layout_independence ts' f' h2
  obtain ⟨us', h10, h11⟩ := reads_rn h6 h7 h8 h9 h3 h5
  obtain ⟨a', h12, h13⟩ := fileText_rn h4 h11
  exact ⟨a', (C45_grammar f' a').mpr ⟨us', h12, h10⟩, h13⟩

omit [Env] in
theorem Spec.SameText.symm {σ : Name → Name} (hσ : ∀ x, σ (ρ x) = x) (h : SameText ρ f f') : SameText σ f' f := by
  obtain ⟨ts, ts', h1, h2, h3⟩ := h
  refine ⟨ts', ts, h2, h1, ?_⟩
  refine List.Forall₂.flip (List.Forall₂.imp (fun t t' h => ?_) h3)
  obtain ⟨t, l⟩ := t
  obtain ⟨t', l'⟩ := t'
  simp only at h
  subst h
  cases t <;> simp [flip, rnToken, hσ]

/-- C59: both files parse to trees that are equal up to lines and the renaming, or neither parses. -/
theorem C59_trees (hρ : Function.Injective ρ) (h : SameText ρ f f') :
    (∀ a, Parses f a → ∃ a', Parses f' a' ∧ rnAST id a' = rnAST ρ a) ∧
    ∀ a', Parses f' a' → ∃ a, Parses f a ∧ rnAST id a' = rnAST ρ a := by
  refine ⟨fun a ha => parses_rn h ha, fun a' ha' => ?_⟩
  obtain ⟨a, h1, _⟩ := parses_rn (h.symm (Function.leftInverse_invFun hρ)) ha'
  obtain ⟨a2, h3, h4⟩ := parses_rn h h1
  cases h3.det ha'
  exact ⟨a, h1, h4⟩

omit [Env] in
theorem injective_id : Function.Injective (id : Name → Name) := fun _ _ h => h

omit [Env] in
theorem domainOk_congr (hρ : Function.Injective ρ) (h : rnDomain id d' = rnDomain ρ d) : DomainOk d' ↔ DomainOk d := by
  rw [← domainOk_rn injective_id, h, domainOk_rn hρ]

omit [Env] in
theorem problemOk_congr (hρ : Function.Injective ρ) (h : rnDomain id d' = rnDomain ρ d) (h' : rnProblem id p' = rnProblem ρ p) :
    ProblemOk d' p' ↔ ProblemOk d p := by
  rw [← problemOk_rn injective_id, h, h', problemOk_rn hρ]

/-- A file that `verify` accepts parses to a domain. -/
theorem returns_ok_parses {prob : Option Bytes} {ws : List Warning} (h : Returns ord f prob (.ok ws)) :
    ∃ d, Parses f (.domain d) ∧ DomainOk d ∧ (prob = none ∨ ∃ g p, prob = some g ∧ Parses g (.problem p) ∧ ProblemOk d p) := by
  rcases returns_inv h with ⟨e, _, h1⟩ | ⟨x, _, h1⟩ | ⟨_, _, h1⟩ | ⟨d, hd, h2⟩
  · cases h1
  · cases h1
  · cases h1
  refine ⟨d, hd, ?_⟩
  rcases h2 with ⟨e, hc, h1⟩ | ⟨x, _, h1⟩ | ⟨ws', hac, h2⟩
  · cases h1
  · cases h1
  refine ⟨accepts_iff.mp ⟨_, hac⟩, ?_⟩
  rcases h2 with ⟨h1, _⟩ | ⟨g, rfl, h3⟩
  · exact .inl h1
  rcases h3 with ⟨e, _, h1⟩ | ⟨x, _, h1⟩ | ⟨_, _, h1⟩ | ⟨p, hp, _⟩
  · cases h1
  · cases h1
  · cases h1
  · exact .inr ⟨g, p, rfl, hp, ((returns_ok_some hd hp).mp h).2⟩

theorem accepts_domain_iff : (∃ ws, Returns ord f none (.ok ws)) ↔ ∃ d, Parses f (.domain d) ∧ DomainOk d := by
  constructor
  · rintro ⟨ws, h⟩
    obtain ⟨d, h1, h2, _⟩ := returns_ok_parses h
    exact ⟨d, h1, h2⟩
  · rintro ⟨d, h1, h2⟩
    exact (C23_acceptance h1).mpr h2

theorem accepts_problem_iff : (∃ ws, Returns ord f (some g) (.ok ws)) ↔
    ∃ d p, Parses f (.domain d) ∧ DomainOk d ∧ Parses g (.problem p) ∧ ProblemOk d p := by
  constructor
  · rintro ⟨ws, h⟩
    obtain ⟨d, h1, h2, h3 | ⟨g', p, h3, h4, h5⟩⟩ := returns_ok_parses h
    · cases h3
    · cases h3
      exact ⟨d, p, h1, h2, h4, h5⟩
  · rintro ⟨d, p, h1, h2, h4, h5⟩
    exact (C24_acceptance h1 h4 ((C23_acceptance h1).mpr h2)).mpr h5

/-- C59: renaming all names injectively and changing the layout (blanks, line breaks, comments, aliases of keywords,
question marks) does not change whether `verify` accepts a domain. -/
theorem C59_domain (hρ : Function.Injective ρ) (h : SameText ρ f f') :
    (∃ ws, Returns ord f none (.ok ws)) ↔ ∃ ws, Returns ord' f' none (.ok ws) := by
  rw [accepts_domain_iff, accepts_domain_iff]
  obtain ⟨h1, h2⟩ := C59_trees hρ h
  constructor
  · rintro ⟨d, h3, h4⟩
    obtain ⟨a', h5, h6⟩ := h1 _ h3
    cases a' with
    | problem p => simp [rnAST] at h6
    | domain d' =>
      simp only [rnAST, AST.domain.injEq] at h6
      exact ⟨d', h5, (domainOk_congr hρ h6).mpr h4⟩
  · rintro ⟨d', h3, h4⟩
    obtain ⟨a, h5, h6⟩ := h2 _ h3
    cases a with
    | problem p => simp [rnAST] at h6
    | domain d =>
      simp only [rnAST, AST.domain.injEq] at h6
      exact ⟨d, h5, (domainOk_congr hρ h6).mp h4⟩

/-- C59 for problems: domain and problem are renamed by the same renaming. -/
theorem C59_problem (hρ : Function.Injective ρ) (h : SameText ρ f f') (hg : SameText ρ g g') :
    (∃ ws, Returns ord f (some g) (.ok ws)) ↔ ∃ ws, Returns ord' f' (some g') (.ok ws) := by
  rw [accepts_problem_iff, accepts_problem_iff]
  obtain ⟨h1, h2⟩ := C59_trees hρ h
  obtain ⟨g1, g2⟩ := C59_trees hρ hg
  constructor
  · rintro ⟨d, p, h3, h4, g3, g4⟩
    obtain ⟨a', h5, h6⟩ := h1 _ h3
    obtain ⟨b', g5, g6⟩ := g1 _ g3
    cases a' with
    | problem p => simp [rnAST] at h6
    | domain d' =>
      cases b' with
      | domain d => simp [rnAST] at g6
      | problem p' =>
        simp only [rnAST, AST.domain.injEq] at h6
        simp only [rnAST, AST.problem.injEq] at g6
        exact ⟨d', p', h5, (domainOk_congr hρ h6).mpr h4, g5, (problemOk_congr hρ h6 g6).mpr g4⟩
  · rintro ⟨d', p', h3, h4, g3, g4⟩
    obtain ⟨a, h5, h6⟩ := h2 _ h3
    obtain ⟨b, g5, g6⟩ := g2 _ g3
    cases a with
    | problem p => simp [rnAST] at h6
    | domain d =>
      cases b with
      | domain d => simp [rnAST] at g6
      | problem p =>
        simp only [rnAST, AST.domain.injEq] at h6
        simp only [rnAST, AST.problem.injEq] at g6
        exact ⟨d, p, h5, (domainOk_congr hρ h6).mp h4, g5, (problemOk_congr hρ h6 g6).mp g4⟩

omit [Env] in
theorem sameText_scan {k : Nat} {ts ts' : List Tk} (h : scan k 1 f = some ts) (h' : scan k 1 f' = some ts')
    (he : ts'.map (·.1) = ts.map fun t => rnToken ρ t.1) : SameText ρ f f' := by
  refine ⟨ts, ts', scan_written h, scan_written h', ?_⟩
  clear h h'
  induction ts generalizing ts' with
  | nil =>
    cases ts' with
    | nil => exact .nil
    | cons _ _ => cases he
  | cons t ts ih =>
    cases ts' with
    | nil => cases he
    | cons t' ts' =>
      simp only [List.map_cons, List.cons.injEq] at he
      exact .cons he.1 (ih he.2)

omit [Env] in
/-- Two files are the same text, as decided by a scanner. -/
def sameScan (ρ : Name → Name) (k : Nat) (f f' : Bytes) : Bool :=
  match scan k 1 f, scan k 1 f' with
  | some ts, some ts' => decide (ts'.map (·.1) = ts.map fun t => rnToken ρ t.1)
  | _, _ => false

omit [Env] in
theorem sameText_of {k : Nat} (h : sameScan ρ k f f' = true) : SameText ρ f f' := by
  unfold sameScan at h
  split at h
  · rename_i ts ts' h1 h2
    exact sameText_scan h1 h2 (by simpa using h)
  · cases h

omit [Env] in
/-- An injective renaming. -/
def underscore (x : Name) : Name := 95 :: x

omit [Env] in
theorem underscore_injective : Function.Injective underscore := fun _ _ h => List.cons.inj h |>.2

def oneLine : Bytes := b!"(define (domain d) (:types a - b) (:predicates (p ?x - b)) (:action m :parameters (?y - a) :precondition (p ?y)) (:task t :parameters ()) (:method k :parameters () :task (t) :subtasks (and (x (t)) (y (t))) :ordering (< x y)))\n"

def manyLines : Bytes := b!"; renamed
(define (domain _d)
  (:types _a - _b)
  (:predicates (_p _x - _b))
  (:action _m
    :parameters (?_y - _a)
    :precondition (_p ?_y)) ; the only action
  (:task _t :parameters ( ))
  (:method _k :parameters ( ) :task (_t)
    :tasks (and (_x (_t)) (?_y (_t)))
    :order (< _x _y)))
"

/-- Instance: the two files are accepted. -/
example : SameText underscore oneLine manyLines ∧ @Returns Env.plain HashOrd.id oneLine none (.ok [⟨b!"t", 1⟩]) :=
  ⟨sameText_of (k := 200) (by decide +kernel), @returns_run Env.plain _ _ _ 200 _ (by decide +kernel) (by simp)⟩

/-- A recursive method whose second subtask is labelled `j`. -/
def shortLabel : Bytes := b!"(define (domain d) (:task t :parameters ()) (:action a :parameters ())
    (:method m :parameters () :task (t) :subtasks (and (i (t)) (j (a))) :ordering (< i j)))\n"

/-- The same with `ii` in place of `j`. -/
def longLabel : Bytes := b!"(define (domain d) (:task t :parameters ()) (:action a :parameters ())
    (:method m :parameters () :task (t) :subtasks (and (i (t)) (ii (a))) :ordering (< i ii)))\n"

omit [Env] in
/-- The metadata is not invariant: with another label, `get_metadata` does not return on an accepted domain. -/
theorem C59_metadata_refuted : SameText (Equiv.swap b!"j" b!"ii") shortLabel longLabel ∧
    (∃ ws, @Returns Env.plain HashOrd.id longLabel none (.ok ws)) ∧
    (∃ md, @Metadata Env.plain HashOrd.id shortLabel md) ∧ ¬ ∃ ord md, @Metadata Env.plain ord longLabel md := by
  refine ⟨sameText_of (k := 80) (by decide +kernel),
    ⟨_, @returns_run Env.plain _ _ _ 80 (.ok []) (by decide +kernel) (by simp)⟩,
    ⟨_, @metadata_run Env.plain _ _ 80 ⟨.growingEmptyPrefix [(b!"t", b!"m"), (b!"t", b!"m")], [], [], 1, 1, 1⟩ (by decide +kernel)⟩, fun ⟨ord, hm⟩ => ?_⟩
  obtain ⟨a, h1, h2⟩ := @parses_holds longLabel Env.plain 80 (fun a => match a with
    | .domain d => decide (d.methods.map (fun m => (m.task.name, m.tn)) = [(b!"t",
        ⟨[⟨some ⟨b!"i", 2, none, none⟩, ⟨b!"t", 2, none, none⟩, []⟩, ⟨some ⟨b!"ii", 2, none, none⟩, ⟨b!"a", 2, none, none⟩, []⟩],
          some 2, .partial_ [(b!"i", b!"ii")], none⟩)])
    | .problem _ => false) (by decide +kernel)
  cases a with
  | problem p => cases h2
  | domain d =>
    simp only [decide_eq_true_eq] at h2
    obtain ⟨m, ms, hms, h3, _⟩ := List.map_eq_cons_iff.mp h2
    simp only [Prod.mk.injEq] at h3
    obtain ⟨_, _, ht⟩ := (@C37_returns_iff Env.plain ord _ d h1).mp hm
    have hs := ht m (by rw [hms]; exact .head _) ⟨some ⟨b!"i", 2, none, none⟩, ⟨b!"t", 2, none, none⟩, []⟩
      (by rw [h3.2]; exact .head _) (by rw [h3.1]) [(b!"i", b!"ii")] (by rw [h3.2])
    refine hs.2.1 b!"i" b!"ii" b!"i" ?_ ?_ ?_ ⟨[], b!"i", rfl⟩
    · exact ⟨_, by rw [h3.2]; exact .head _, rfl, _, rfl, rfl⟩
    · exact ⟨_, by rw [h3.2], .head _⟩
    · exact ⟨_, by rw [h3.2]; exact .head _, rfl, _, rfl, rfl⟩

end Verif
