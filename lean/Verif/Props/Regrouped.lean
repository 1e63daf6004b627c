import Verif.Proofs.Regrouped
import Verif.Props.Relaid
import Verif.Props.Skeleton
import Verif.Props.Changes

/-! C92: the blocks in which declarations are written have no effect. -/

namespace Verif

open Spec

variable [Env] {ord : HashOrd} {f f' g g' : Bytes} {Λ Μ : Nat → Nat → Prop} {r : R (List Warning)} {d d' : DomainAST}
  {p p' : ProblemAST}

/-- C92: files whose domains agree up to lines get the same answer, with the lines of corresponding places. -/
theorem C92_domain (hf : Parses f (.domain d)) (hf' : Parses f' (.domain d')) (h : Corresponds Λ d d')
    (hr : Returns ord f none r) : ∃ r', Returns ord f' none r' ∧ SameAnswer id Λ Λ r r' := by
  obtain ⟨e, φ₁, φ₂, rfl, rfl, h1⟩ := h
  rcases domain_relaid (ord := ord) Function.injective_id h1 hf hf' with ⟨ws, _, i1, i2⟩ | ⟨s, s', i1, i2, i3, _⟩
  · cases hr.det i1
    exact ⟨_, i2, sameAnswer_mv (r := .ok ws) h1 h1 (by simp)⟩
  · cases hr.det (i1 none)
    exact ⟨_, i2 none, i3⟩

/-- C92 with a problem: the lines of an error are lines of the problem file if the domain is accepted, and otherwise lines of
the domain file. -/
theorem C92_problem (hf : Parses f (.domain d)) (hf' : Parses f' (.domain d')) (hg : Parses g (.problem p))
    (hg' : Parses g' (.problem p')) (h : Corresponds Λ d d') (h' : CorrespondsP Μ p p') (hr : Returns ord f (some g) r) :
    ∃ r', Returns ord f' (some g') r' ∧
      (((∃ ws, Returns ord f none (.ok ws)) ∧ SameAnswer id Λ Μ r r') ∨
        ((¬ ∃ ws, Returns ord f none (.ok ws)) ∧ SameAnswer id Λ Λ r r')) := by
  obtain ⟨e, φ₁, φ₂, rfl, rfl, h1⟩ := h
  obtain ⟨e', ψ₁, ψ₂, rfl, rfl, h2⟩ := h'
  rcases domain_relaid (ord := ord) Function.injective_id h1 hf hf' with ⟨ws, hac, i1, i2⟩ | ⟨s, s', i1, i2, i3, i4⟩
  · obtain ⟨s, s', l1, l2, l3⟩ := problem_relaid (ord := ord) Function.injective_id h1 h2 hf hf' hg hg' hac
    cases hr.det l1
    exact ⟨s', l2, .inl ⟨⟨_, i1⟩, l3⟩⟩
  · cases hr.det (i1 _)
    refine ⟨_, i2 _, .inr ⟨?_, i3⟩⟩
    rintro ⟨ws, hws⟩
    exact i4 ws ((i1 none).det hws)

/-- C92: agreement up to lines is all that is needed for answers that agree up to lines. -/
theorem C92_lines (hf : Parses f (.domain d)) (hf' : Parses f' (.domain d')) (h : rnDomain id d = rnDomain id d')
    (hr : Returns ord f none r) :
    ∃ r', Returns ord f' none r' ∧ SameAnswer id (fun _ _ => True) (fun _ _ => True) r r' :=
  C92_domain hf hf' (corresponds_iff.mpr h) hr

/-- C92: such domains have the same metadata. -/
theorem C92_metadata {md : MetaData} (hf : Parses f (.domain d)) (hf' : Parses f' (.domain d')) (h : rnDomain id d = rnDomain id d') :
    Metadata ord f md ↔ Metadata ord f' md :=
  C82_metadata hf hf' (by rw [← skeleton_rn (d := d), h, skeleton_rn])

/-- C92 for blocks: the blocks of one file are those of the other, regrouped: split, merged, and reordered as long as
declarations of the same sort keep their order.  `line` and `line'` are the lines of the places in the two files. -/
theorem C92_blocks {n : Name} {bs bs' : List (DBlock × Ending)} {ts ts' more more' : List Tk} {cs cs' : List DBlock}
    {line line' : Nat → Nat} (h : DomainFile n bs ts) (h' : DomainFile n bs' ts') (hl : LastOnly bs) (hl' : LastOnly bs')
    (hw : Written (ts ++ more) 1 f) (hw' : Written (ts' ++ more') 1 f') (hb : bs.map (·.1) = cs.map (mvDBlock id line))
    (hb' : bs'.map (·.1) = cs'.map (mvDBlock id line')) (hc : Regrouped cs cs') (hr : Returns ord f none r) :
    ∃ r', Returns ord f' none r' ∧
      SameAnswer id (fun l l' => ∃ k, l = line k ∧ l' = line' k) (fun l l' => ∃ k, l = line k ∧ l' = line' k) r r' := by
  refine C92_domain (C13_domain_partial n bs ts more f h hl hw) (C13_domain_partial n bs' ts' more' f' h' hl' hw')
    ⟨domainOf n cs, line, line', ?_, ?_, fun k => ⟨k, rfl, rfl⟩⟩ hr
  · rw [hb, domainOf_mv]; rfl
  · rw [hb', regrouped_iff.mp hc, domainOf_mv]; rfl

omit [Env] in
/-- C92: blocks make the same declarations if and only if they are regrouped in this sense. -/
theorem C92_regrouped {n : Name} {bs bs' : List DBlock} : Regrouped bs bs' ↔ domainOf n bs = domainOf n bs' :=
  regrouped_iff

/-- C92 for the blocks of a problem. -/
theorem C92_problem_blocks {bs bs' : List (PBlock × Ending)} {ts ts' more more' : List Tk} {cs cs' : List PBlock}
    {line line' : Nat → Nat} (hf : Parses f (.domain d)) (ha : ∃ ws, Returns ord f none (.ok ws)) (h : ProblemFile bs ts)
    (h' : ProblemFile bs' ts') (hl : LastOnly bs) (hl' : LastOnly bs') (hw : Written (ts ++ more) 1 g)
    (hw' : Written (ts' ++ more') 1 g') (hb : bs.map (·.1) = cs.map (mvPBlock id line))
    (hb' : bs'.map (·.1) = cs'.map (mvPBlock id line')) (hc : RegroupedP cs cs') (hr : Returns ord f (some g) r) :
    ∃ r', Returns ord f (some g') r' ∧ SameAnswer id (fun l l' => l = l') (fun l l' => ∃ k, l = line k ∧ l' = line' k) r r' := by
  obtain ⟨r', h1, ⟨_, h2⟩ | ⟨h2, _⟩⟩ := C92_problem (Λ := fun l l' => l = l') (Μ := fun l l' => ∃ k, l = line k ∧ l' = line' k) hf hf
    (C14_problem_partial bs ts more g h hl hw) (C14_problem_partial bs' ts' more' g' h' hl' hw')
    ⟨d, id, id, (mvDomain_id d).symm, (mvDomain_id d).symm, fun _ => rfl⟩
    ⟨problemOf cs, line, line', by rw [hb, problemOf_mv], by rw [hb', regroupedP_problemOf hc, problemOf_mv], fun k => ⟨k, rfl, rfl⟩⟩ hr
  · exact ⟨r', h1, h2⟩
  · exact absurd ha h2

omit [Env] in
/-- C92 for lists of names: a type may be written again, or left out, in front of names that get the same type. -/
theorem C92_types {ts us : List Tk} {l l' m : Nat} {t : Name} (h : Items ts) (hu : firstType us = some (t, m)) :
    (symbolsOf (ts ++ (.punct .dash, l) :: (.ident t, l') :: us)).map (rnSymbol id) = (symbolsOf (ts ++ us)).map (rnSymbol id) :=
  symbols_again h l l' hu

/-! ### Instances -/

/-- One block for each sort of declarations, and types that are given once. -/
def inBlocks : Bytes := b!"(define (domain d)\n(:types a b - c)\n(:predicates (p ?x - c) (q))\n(:action m :parameters (?x ?y - a) :precondition (p ?z)))\n"

/-- The same declarations in other blocks. -/
def scattered : Bytes := b!"(define (domain d)\n(:action m :parameters (?x - a ?y - a)\n:precondition (p ?z))\n(:predicates (p ?x - c))\n(:types a - c)\n(:predicates (q))\n(:types b - c))\n"

omit [Env] in
/-- Both files are rejected because of `?z`, on line 4 and on line 3. -/
example : (∃ d d', @Parses Env.plain inBlocks (.domain d) ∧ @Parses Env.plain scattered (.domain d') ∧
      rnDomain id d = rnDomain id d' ∧ d ≠ d') ∧
    @Returns Env.plain HashOrd.id inBlocks none (.err (.semantic (.undefParameter ⟨b!"z", 4⟩))) ∧
    @Returns Env.plain HashOrd.id scattered none (.err (.semantic (.undefParameter ⟨b!"z", 3⟩))) :=
  ⟨@parses_pair Env.plain inBlocks scattered 200 (fun d d' => rnDomain id d = rnDomain id d' ∧ d ≠ d') _ (by decide +kernel),
    @returns_run Env.plain _ _ _ 200 _ (by decide +kernel) (by simp),
    @returns_run Env.plain _ _ _ 200 _ (by decide +kernel) (by simp)⟩

omit [Env] in
/-- Blocks that are split and moved. -/
example (p q : Predicate) (a b : Symbol) (m : Action) :
    Regrouped [.types [a, b], .predicates [p, q], .action m] [.action m, .predicates [p], .types [a], .predicates [q], .types [b]] := by
  rw [regrouped_iff (n := b!"d")]
  rfl

def erringFirst : Bytes := b!"(define (domain d) (:action m :parameters () :precondition (p)) (:action n :parameters () :precondition (q)))\n"

def erringSecond : Bytes := b!"(define (domain d) (:action n :parameters () :precondition (q)) (:action m :parameters () :precondition (p)))\n"

omit [Env] in
/-- The order of declarations of the same sort matters: it decides which error is reported. -/
theorem C92_same_sort :
    @Returns Env.plain HashOrd.id erringFirst none (.err (.semantic (.undefPredicate ⟨b!"p", 1⟩))) ∧
    @Returns Env.plain HashOrd.id erringSecond none (.err (.semantic (.undefPredicate ⟨b!"q", 1⟩))) :=
  ⟨@returns_run Env.plain _ _ _ 200 _ (by decide +kernel) (by simp),
    @returns_run Env.plain _ _ _ 200 _ (by decide +kernel) (by simp)⟩

/-- Without, and with: facts that are overridden, objects in two blocks, and a type that is given once. -/
def tidyProblem : Bytes := b!"(define (problem x) (:domain d)\n(:objects o u - a)\n(:init (p o) (q w)))\n"

def untidyProblem : Bytes := b!"(define (problem x) (:domain d)\n(:init (p z))\n(:objects o - a)\n(:init (p o)\n(q w))\n(:objects u - a))\n"

def untidyDomain : Bytes := b!"(define (domain d) (:types a) (:predicates (p ?x - a) (q ?x - a)))\n"

omit [Env] in
/-- The undeclared `w` on line 3 is on line 5 of the other file. -/
example : (∃ p p', @Parses Env.plain tidyProblem (.problem p) ∧ @Parses Env.plain untidyProblem (.problem p') ∧
      rnProblem id p = rnProblem id p' ∧ p ≠ p') ∧
    (∃ ws, @Returns Env.plain HashOrd.id untidyDomain none (.ok ws)) ∧
    @Returns Env.plain HashOrd.id untidyDomain (some tidyProblem) (.err (.semantic (.undefObject ⟨b!"w", 3⟩))) ∧
    @Returns Env.plain HashOrd.id untidyDomain (some untidyProblem) (.err (.semantic (.undefObject ⟨b!"w", 5⟩))) :=
  ⟨@parses_pairP Env.plain tidyProblem untidyProblem 200 (fun d d' => rnProblem id d = rnProblem id d' ∧ d ≠ d') _ (by decide +kernel),
    ⟨_, @returns_run Env.plain _ _ _ 200 (.ok []) (by decide +kernel) (by simp)⟩,
    @returns_run Env.plain _ _ _ 200 _ (by decide +kernel) (by simp),
    @returns_run Env.plain _ _ _ 200 _ (by decide +kernel) (by simp)⟩

end Verif
