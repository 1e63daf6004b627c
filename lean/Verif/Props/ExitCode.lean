import Verif.Props.Commands
import Verif.Props.Output

/-! C95: what the exit code of the command line tells. -/

namespace Verif

open Spec

variable [Env] {ord : HashOrd} {f : Bytes} {prob : Option Bytes}

/-- A command, as a function of the fuel, ends with this exit code. -/
def Exits {α : Type} (run : Nat → R α) (code : Nat) : Prop := ∃ N, ∀ n, N ≤ n → exitCode (run n) = some code

omit [Env] in
theorem Exits.det {α : Type} {run : Nat → R α} {a b : Nat} (h : Exits run a) (h' : Exits run b) : a = b := by
  obtain ⟨N, hN⟩ := h
  obtain ⟨M, hM⟩ := h'
  have h1 := hN (max N M) (by omega)
  rw [hM (max N M) (by omega)] at h1
  exact (Option.some.inj h1).symm

/-- An error has a text, or printing it panics. -/
theorem show_cases (e : PErr) : (∃ t, e.show = .ok t) ∨ ∃ x, e.show = .panic x := by
  have ty (e : TypeErr) : (∃ t, e.show = .ok t) ∨ ∃ x, e.show = .panic x := by
    unfold TypeErr.show
    simp only
    split <;> first | exact .inl ⟨_, rfl⟩ | exact .inr ⟨_, rfl⟩
  cases e with
  | lexical e => exact .inl ⟨_, rfl⟩
  | syntactic e => exact .inl ⟨_, rfl⟩
  | semantic e => cases e <;> first | exact .inl ⟨_, rfl⟩ | exact ty _

/-- The `verify` command on files with this content. -/
abbrev verifyCommand (ord : HashOrd) (f : Bytes) (prob : Option Bytes) : Nat → R (List OutLine) :=
  fun n => cliVerify ord n (.ok f) (prob.map .ok)

/-- C95: if the files are accepted, the exit code is 0. -/
theorem C95_accepted_partial {ws : List Warning} (h : Returns ord f prob (.ok ws)) : Exits (verifyCommand ord f prob) 0 := by
  obtain ⟨N, hN⟩ := ends_of_returns h
  exact ⟨N, fun n hn => by rw [verifyCommand, hN n hn]; rfl⟩

/-- C95, the converse does not hold, for any file: if the files are rejected and the error is printed, the exit code is 0
as well. -/
theorem C95_rejected {e : PErr} {t : Text} (h : Returns ord f prob (.err e)) (ht : e.show = .ok t) :
    Exits (verifyCommand ord f prob) 0 := by
  obtain ⟨N, hN⟩ := (C44_rejected_partial t).2 ⟨e, h, ht⟩
  exact ⟨N, fun n hn => by rw [verifyCommand, hN n hn]; rfl⟩

theorem exits_result {c : Nat} (h : Exits (verifyCommand ord f prob) c) :
    ∃ r, Returns ord f prob r ∧ exitCode (verifyOutput r) = some c := by
  obtain ⟨N, hN⟩ := h
  have h1 := hN N (Nat.le_refl _)
  rw [verifyCommand, cliVerify_ok] at h1
  refine ⟨_, returns_iff.mpr ⟨?_, N, rfl⟩, h1⟩
  intro h2
  rw [h2] at h1
  cases h1

/-- C95: the exit code is 0 exactly if the files are accepted, or rejected with an error that is printed. -/
theorem C95_zero : Exits (verifyCommand ord f prob) 0 ↔
    (∃ ws, Returns ord f prob (.ok ws)) ∨ ∃ e t, Returns ord f prob (.err e) ∧ e.show = .ok t := by
  constructor
  · intro h
    obtain ⟨r, hr, h1⟩ := exits_result h
    cases r with
    | ok ws => exact .inl ⟨ws, hr⟩
    | err e =>
      rcases show_cases e with ⟨t, ht⟩ | ⟨x, hx⟩
      · exact .inr ⟨e, t, hr, ht⟩
      · simp [verifyOutput, hx, R.bind, exitCode] at h1
    | panic => simp [verifyOutput, exitCode] at h1
    | timeout => simp [verifyOutput, exitCode] at h1
  · rintro (⟨ws, h⟩ | ⟨e, t, h, ht⟩)
    · exact C95_accepted_partial h
    · exact C95_rejected h ht

/-- C95: the exit code is 101 exactly if the checks panic, or if printing the error does. -/
theorem C95_crash : Exits (verifyCommand ord f prob) 101 ↔
    (∃ x, Returns ord f prob (.panic x)) ∨ ∃ e x, Returns ord f prob (.err e) ∧ e.show = .panic x := by
  constructor
  · intro h
    obtain ⟨r, hr, h1⟩ := exits_result h
    cases r with
    | ok ws => simp [verifyOutput, exitCode] at h1
    | err e =>
      rcases show_cases e with ⟨t, ht⟩ | ⟨x, hx⟩
      · simp [verifyOutput, ht, R.bind, exitCode] at h1
      · exact .inr ⟨e, x, hr, hx⟩
    | panic x => exact .inl ⟨x, hr⟩
    | timeout => simp [verifyOutput, exitCode] at h1
  · rintro (⟨x, h⟩ | ⟨e, x, h, hx⟩)
    · obtain ⟨N, hN⟩ := ends_of_returns h
      exact ⟨N, fun n hn => by rw [verifyCommand, hN n hn]; rfl⟩
    · obtain ⟨N, hN⟩ := ends_of_returns h
      exact ⟨N, fun n hn => by rw [verifyCommand, hN n hn]; simp [verifyOutput, hx, R.bind, exitCode]⟩

/-- C95: there are no other exit codes, and a run has only one. -/
theorem C95_codes {c : Nat} (h : Exits (verifyCommand ord f prob) c) : c = 0 ∨ c = 101 := by
  obtain ⟨r, _, h1⟩ := exits_result h
  cases r with
  | ok ws => simp [verifyOutput, exitCode] at h1; omega
  | err e =>
    rcases show_cases e with ⟨t, ht⟩ | ⟨x, hx⟩
    · simp [verifyOutput, ht, R.bind, exitCode] at h1; omega
    · simp [verifyOutput, hx, R.bind, exitCode] at h1; omega
  | panic => simp [verifyOutput, exitCode] at h1; omega
  | timeout => simp [verifyOutput, exitCode] at h1

/-- C95: for a domain alone, every error is printed, so every domain that is not accepted and does not crash the program
has the exit code of one that is accepted. -/
theorem C95_domain {e : PErr} (h : Returns ord f none (.err e)) : Exits (verifyCommand ord f none) 0 := by
  obtain ⟨t, ht⟩ := C40_domain_text h
  exact C95_rejected h ht

/-- C95: usual files have exit code 0: valid UTF-8, ended by a newline, not a problem, and no existential quantifier. -/
theorem C95_usual (hu : (decodeUtf8 f).isSome) (hn : ∃ i, f = i ++ [10]) (hp : classify f ≠ .ok .problem)
    (he : ∀ d, Parses f (.domain d) → ∀ l fm, FormulaOf d l fm → ¬ ExistsIn fm) : Exits (verifyCommand ord f none) 0 := by
  rcases C07_no_crash_partial (ord := ord) hu hn hp he with ⟨ws, h⟩ | ⟨e, h⟩
  · exact C95_accepted_partial h
  · exact C95_domain h

/-- C95, what tells accepted from rejected files instead: the last line on standard output. -/
theorem C95_told {out : List OutLine} (h : Ends ord f prob (.ok out)) :
    Exits (verifyCommand ord f prob) 0 ∧ ((∃ ws, Returns ord f prob (.ok ws)) ↔ out.getLast? = some (.stdout okText)) := by
  constructor
  · obtain ⟨N, hN⟩ := h
    exact ⟨N, fun n hn => by rw [verifyCommand, hN n hn]; rfl⟩
  · rcases C44_outputs_partial h with ⟨ws, h1, rfl⟩ | ⟨e, t, h1, _, rfl⟩
    · simp [List.getLast?_append]
      exact ⟨ws, h1⟩
    · simp only [List.getLast?_singleton, Option.some.injEq, reduceCtorEq, iff_false]
      rintro ⟨ws, h2⟩
      cases h1.det h2

/-- C95: a file that cannot be read gives exit code 0, for all commands. -/
theorem C95_unreadable (t : Text) (f : Bytes) (p : Option ReadResult) (real : List UInt8 → Option Bytes) (o : Option OutFile) :
    Exits (fun n => cliVerify ord n (.error t) p) 0 ∧ Exits (fun n => cliVerify ord n (.ok f) (some (.error t))) 0 ∧
    Exits (fun n => cliMetadata ord n (.error t)) 0 ∧ Exits (fun n => cliSerialize real ord n (.error t) p o) 0 ∧
    Exits (fun n => cliSerialize real ord n (.ok f) (some (.error t)) o) 0 :=
  ⟨⟨0, fun _ _ => rfl⟩, ⟨0, fun _ _ => rfl⟩, ⟨0, fun _ _ => rfl⟩, ⟨0, fun _ _ => rfl⟩, ⟨0, fun _ _ => rfl⟩⟩

/-- C95: the same for `metadata`: the exit code is 0 if metadata is printed or the file has an error of the parser. -/
theorem C95_metadata {out : List OutLine} (h : Prints ord f (.ok out)) : Exits (fun n => cliMetadata ord n (.ok f)) 0 := by
  obtain ⟨N, hN⟩ := h
  exact ⟨N, fun n hn => by simp only [hN n hn]; rfl⟩

/-- C95: the same for `to_json`, also if the file could not be written. -/
theorem C95_json {real : List UInt8 → Option Bytes} {o : Option OutFile} {out : List OutLine × Option Bytes}
    (h : Serializes real ord f prob o (.ok out)) : Exits (fun n => cliSerialize real ord n (.ok f) (prob.map .ok) o) 0 := by
  obtain ⟨N, hN⟩ := h
  exact ⟨N, fun n hn => by simp only [hN n hn]; rfl⟩

omit [Env] in
/-- C95 does not hold as expected: an accepted and a rejected domain with the same exit code. -/
theorem C95_refuted : ∃ f g : Bytes, (∃ ws, @Returns Env.plain HashOrd.id f none (.ok ws)) ∧
    (∃ e, @Returns Env.plain HashOrd.id g none (.err e)) ∧
    @Exits _ (@verifyCommand Env.plain HashOrd.id f none) 0 ∧ @Exits _ (@verifyCommand Env.plain HashOrd.id g none) 0 := by
  have h1 : @Returns Env.plain HashOrd.id b!"(define (domain d)\n(:task t :parameters ()))\n" none (.ok [⟨b!"t", 2⟩]) :=
    @returns_run Env.plain _ _ _ 40 _ (by decide +kernel) (by simp)
  have h2 : @Returns Env.plain HashOrd.id b!"(define (domain d)\n(:action a :parameters () :effect (p)))\n" none
      (.err (.semantic (.undefPredicate ⟨b!"p", 2⟩))) := @returns_run Env.plain _ _ _ 40 _ (by decide +kernel) (by simp)
  exact ⟨_, _, ⟨_, h1⟩, ⟨_, h2⟩, @C95_accepted_partial Env.plain _ _ _ _ h1, @C95_domain Env.plain _ _ _ h2⟩

omit [Env] in
/-- Instances of a crash of the checks and of a crash while printing. -/
example : @Exits _ (@verifyCommand Env.plain HashOrd.id b!"(define (problem p) (domain d))\n" none) 101 ∧
    @Exits _ (@verifyCommand Env.plain HashOrd.id b!"(define (domain d) (:types a - c) (:predicates (p ?x)))\n"
      (some b!"(define (problem q) (domain d) (:objects o - a)\n (:init (p o)))\n")) 101 := by
  refine ⟨(@C95_crash Env.plain _ _ _).2 (.inl ⟨.expectedDomain, @returns_run Env.plain _ _ _ 40 _ (by decide +kernel) (by simp)⟩), ?_⟩
  obtain ⟨e, h1, h2⟩ := C40_refuted
  exact (@C95_crash Env.plain _ _ _).2 (.inr ⟨e, _, h1, h2⟩)

end Verif
