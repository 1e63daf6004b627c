import Verif.Props.Syntax

/-! C15 for problem files: the text after the definition is ignored. -/

namespace Verif

open Spec

variable [Env]

theorem api_of_problem {f g : Bytes} {a : AST} (hf : Parses f a) (hg : Parses g a) : ∃ N, ∀ n, N ≤ n → ∀ ord domain,
    verify ord n domain (some f) = verify ord n domain (some g) ∧ toJson ord n domain (some f) = toJson ord n domain (some g) := by
  obtain ⟨N, hN⟩ := hf
  obtain ⟨M, hM⟩ := hg
  refine ⟨max N M, fun n hn ord domain => ?_⟩
  have h1 := hN n (by omega)
  have h2 := hM n (by omega)
  constructor
  · unfold verify; simp only [h1, h2]
  · unfold toJson; simp only [h1, h2]

/-- C15 for every problem file that is parsed: from some closing parenthesis on, the bytes have no influence, or the parser has read up
to the end of the file, where the last parenthesis is missing. -/
theorem C15_any_problem (file : Bytes) (p : ProblemAST) (h : Parses file (.problem p)) :
    (∃ pre post, file = pre ++ 41 :: post ∧ ∀ junk, Parses (pre ++ 41 :: junk) (.problem p)) ∨
    ∃ ts l, FileText true (.problem p) (ts ++ [(.eof, l)]) ∧ Feeds (LexState.init file) (ts ++ [(.eof, l)]) := by
  obtain ⟨ts, h1, h2⟩ := (C45_grammar file _).1 h
  generalize ha : AST.problem p = a at h1 ⊢
  cases h1 with
  | domain => cases ha
  | @problem name dname bs ts l1 l2 l3 l4 l5 l6 l7 l8 l9 l10 hb =>
    obtain ⟨x, y, rfl, ⟨l, rfl⟩ | ⟨_, l, rfl⟩⟩ := Body.last hb
    · have h3 : Feeds (LexState.init file) (((lpar, l1) :: (.kw .define, l2) :: (lpar, l3) :: (.kw .problem, l4) ::
        (.ident name, l5) :: (rpar, l6) :: (lpar, l7) :: (.kw .domain, l8) :: (.ident dname, l9) :: (rpar, l10) :: x) ++
          [(rpar, l)]) := h2
      obtain ⟨u, b, hu, hl⟩ := h3.local
      refine .inl ⟨u, b, hu, fun junk => ?_⟩
      rw [C45_grammar]
      exact ⟨_, .problem hb, hl junk⟩
    · exact .inr ⟨(lpar, l1) :: (.kw .define, l2) :: (lpar, l3) :: (.kw .problem, l4) ::
        (.ident name, l5) :: (rpar, l6) :: (lpar, l7) :: (.kw .domain, l8) :: (.ident dname, l9) :: (rpar, l10) :: x, l,
        .problem hb, h2⟩

/-- C15: bytes added after a well-formed problem definition change neither `verify` nor `to_json`. -/
theorem C15_problem_text (bs : List (PBlock × Ending)) (ts : List Tk) (file junk : Bytes) (h : ProblemFile bs ts)
    (hw : Written ts 1 file) : ∃ N, ∀ n, N ≤ n → ∀ ord domain,
    verify ord n domain (some (file ++ junk)) = verify ord n domain (some file) ∧
    toJson ord n domain (some (file ++ junk)) = toJson ord n domain (some file) := by
  have h1 : Parses file (.problem (problemOf (firstBlocks bs))) := problem_files bs ts [] file h (by simpa using hw)
  refine api_of_problem (a := .problem (problemOf (firstBlocks bs))) ?_ h1
  cases h with
  | @mk name dname _ ts l1 l2 l3 l4 l5 l6 l7 l8 l9 l10 l11 hc =>
    obtain ⟨s', hr, _⟩ := hw.reads
    have hf : Feeds (LexState.init file) (((lpar, l1) :: (.kw .define, l2) :: (lpar, l3) :: (.kw .problem, l4) ::
      (.ident name, l5) :: (rpar, l6) :: (lpar, l7) :: (.kw .domain, l8) :: (.ident dname, l9) :: (rpar, l10) :: ts) ++
        [(rpar, l11)]) := hr.feeds
    obtain ⟨u, b, hu, hl⟩ := hf.local
    have hl' := hl (b ++ junk)
    obtain ⟨t1, t2, h3, h4⟩ := Closed.body (q := false) (stop := closeProblem false) (l := l11) (fun l => .inl ⟨l, rfl⟩) hc
    obtain ⟨N, h5⟩ := parse_complete (FileText.problem (q := false) (name := name) (dname := dname) (l1 := l1) (l2 := l2)
      (l3 := l3) (l4 := l4) (l5 := l5) (l6 := l6) (l7 := l7) (l8 := l8) (l9 := l9) (l10 := l10) h4)
    refine ⟨N, fun n hn => h5 n hn _ ?_⟩
    refine Feeds.append (b := t2) ?_
    have he : file ++ junk = u ++ 41 :: (b ++ junk) := by
      have : file = u ++ 41 :: b := hu
      rw [this]; simp
    unfold LexState.init at hl' ⊢
    rw [he]
    simpa [h3] using hl'

/-- A problem with something behind it. -/
example : ∃ p, @Parses Env.plain b!"(define (problem x) (:domain d) (:objects o) (:init (q o))) ) ?" (.problem p) ∧ p.objects.length = 1 := by
  have h : (match @parse Env.plain 100 b!"(define (problem x) (:domain d) (:objects o) (:init (q o))) ) ?" with
    | .ok (.problem p) => decide (p.objects.length = 1) | _ => false) = true := by decide +kernel
  split at h
  · rename_i p h1
    exact ⟨p, @Parses.of_ok Env.plain _ _ _ h1, of_decide_eq_true h⟩
  · cases h

/-- A problem whose last parenthesis is missing: adding one parenthesis or another block changes what is read. -/
example : ∃ p, @Parses Env.plain b!"(define (problem x) (:domain d) (:init (q o))\n" (.problem p) ∧ p.objects = [] ∧
    ∃ p', @Parses Env.plain (b!"(define (problem x) (:domain d) (:init (q o))\n" ++ b!"(:objects o))\n") (.problem p') ∧ p'.objects.length = 1 := by
  have h : (match @parse Env.plain 100 b!"(define (problem x) (:domain d) (:init (q o))\n" with
    | .ok (.problem p) => decide (p.objects = []) | _ => false) = true := by decide +kernel
  have h' : (match @parse Env.plain 100 (b!"(define (problem x) (:domain d) (:init (q o))\n" ++ b!"(:objects o))\n") with
    | .ok (.problem p) => decide (p.objects.length = 1) | _ => false) = true := by decide +kernel
  split at h
  · rename_i p h1
    refine ⟨p, @Parses.of_ok Env.plain _ _ _ h1, of_decide_eq_true h, ?_⟩
    split at h'
    · rename_i p h1
      exact ⟨p, @Parses.of_ok Env.plain _ _ _ h1, of_decide_eq_true h'⟩
    · cases h'
  · cases h

end Verif
