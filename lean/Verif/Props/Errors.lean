import Verif.Props.Syntax
import Verif.Props.Lexical
import Verif.Proofs.ErrorText
import Verif.Proofs.DecEq

/-! C63, C64: errors are reported at the first wrong token. -/

namespace Verif

open Spec

variable [Env]

omit [Env] in
theorem renamed_iff_same {ts ts' : List Tk} : Renamed id ts ts' ↔ SameTokens ts ts' := by
  unfold Renamed SameTokens
  constructor
  · intro h
    induction h with
    | nil => rfl
    | cons h _ ih => simp_all
  · intro h
    induction ts generalizing ts' with
    | nil => cases ts' <;> simp_all
    | cons x ts ih =>
      cases ts' with
      | nil => simp at h
      | cons y ts' =>
        simp only [List.map_cons, List.cons.injEq] at h
        exact .cons (by simp [h.1]) (ih h.2)

theorem parse_err_file {n : Nat} {file : Bytes} {e : PErr} (h : parse n file = .err e) :
    parseFile n (LexState.init file) = .err e := by
  unfold parse at h
  split at h <;> first | (cases h; assumption) | cases h

/-- `Startable c`: some file that starts with the tokens `c` is parsed. -/
def Startable (c : List Tk) : Prop :=
  ∃ file a c' r, Parses file a ∧ SameTokens c c' ∧ Feeds (LexState.init file) (c' ++ r)

/-- The tokens start a file of the grammar, or are one. -/
def Live (c : List Tk) : Prop := Ext LFile c

/-- Where the parser stops in a file. -/
theorem file_bad (n : Nat) (file : Bytes) : Bad Live (parseFile n) (fun (_ : Unit) n => parseFile n) (LexState.init file) :=
  parseFile_bad (fun _ h => h) fun _ _ h => ⟨[], by simp, by simpa using h⟩

/-- If the file is not parsed, the tokens read so far can be completed. -/
theorem Live.ext {c : List Tk} {n : Nat} {file : Bytes} (h : Live c) (hf : Feeds (LexState.init file) c)
    (hn : parse n file ≠ .timeout) (ho : ∀ a, parse n file ≠ .ok a) : Unfinished c := by
  obtain ⟨Q, h1, a, h⟩ := h
  by_cases hQ : Q = []
  · exfalso
    subst hQ
    rw [List.append_nil] at h
    obtain ⟨N, hN⟩ := parse_complete h
    have h1 := hN (max N n) (by omega) file hf
    rw [parse_fuel (by omega : n ≤ max N n) hn] at h1
    exact ho a h1
  · exact ⟨Q, hQ, h1, a, h⟩

/-- C63: a syntax error is reported at the first wrong token.  The tokens `c` before it start some file that is parsed;
no file whose tokens start with `c` and `t` is parsed: every such file, in whatever layout and whatever follows, gives
the same message, with the line of `t` in that file. -/
theorem C63_first_wrong_token (fuel : Nat) (file : Bytes) (e : SynError) (h : parse fuel file = .err (.syntactic e)) :
    ∃ c t, Feeds (LexState.init file) (c ++ [(t, e.pos)]) ∧ (e.found = t ∨ e.found = shown t) ∧ Startable c ∧
      ∀ file' c' l', SameTokens c c' → Feeds (LexState.init file') (c' ++ [(t, l')]) →
        ∃ N, ∀ n, N ≤ n → parse n file' = .err (.syntactic ⟨e.expected, e.found, l'⟩) := by
  obtain ⟨c, t, h1, h2, h3, h4⟩ := (file_bad fuel file).syn e (parse_err_file h)
  have h3 := Live.ext (n := fuel) h3.1 h1.append (by simp [h]) (by simp [h])
  refine ⟨c, t, h1, h2, ?_, fun file' c' l' hs hf => ?_⟩
  · obtain ⟨f, c', r, a, N, i1, i2, i3⟩ := parses_completed h1.append h3
    exact ⟨f, a, c', r, ⟨N, i3⟩, renamed_iff_same.1 i1, i2⟩
  · obtain ⟨N, hN⟩ := h4 () c' l' _ (renamed_iff_same.2 hs) hf
    exact ⟨N, fun n hn => by unfold parse; rw [hN n hn]⟩

/-- C63: hence no file that starts like this is parsed. -/
theorem C63_not_parsed (fuel : Nat) (file : Bytes) (e : SynError) (h : parse fuel file = .err (.syntactic e)) :
    ∃ c t, Feeds (LexState.init file) (c ++ [(t, e.pos)]) ∧ Startable c ∧ ∀ l, ¬ Startable (c ++ [(t, l)]) := by
  obtain ⟨c, t, h1, _, h3, h4⟩ := C63_first_wrong_token fuel file e h
  refine ⟨c, t, h1, h3, ?_⟩
  rintro l ⟨f, a, d, r, ⟨N, i1⟩, i2, i3⟩
  obtain ⟨c', d', rfl, i4, i5⟩ := (renamed_iff_same.2 i2).unappend
  obtain ⟨l', us, rfl, i6⟩ := i5.uncons
  cases i6.unnil
  rw [rnToken_id] at i3
  obtain ⟨M, i7⟩ := h4 f c' l' (renamed_iff_same.1 i4) i3.append
  have i8 := i1 (max N M) (by omega)
  rw [i7 (max N M) (by omega)] at i8
  cases i8

/-- Looking ahead does not matter for what is read. -/
theorem reads_of_steps {s s1 s2 : LexState} {c : List Tk} {e : LexError} (h : Steps s c s1)
    (he : getToken s1 = .err e s2) : ∃ s3, Reads s c s3 ∧ getToken s3 = .err e s2 := by
  induction h with
  | nil => exact ⟨_, .nil, he⟩
  | tok h1 _ ih =>
    obtain ⟨s3, h3, h4⟩ := ih he
    exact ⟨s3, .cons h1 h3, h4⟩
  | @peek s s1 s2 t ts h1 _ ih =>
    obtain ⟨s3, h3, h4⟩ := ih he
    have hp := (C02_peeks_change_nothing s s1 (.tok h1 .refl)).1
    cases h3 with
    | nil => exact ⟨s, .nil, by rw [← hp]; exact h4⟩
    | cons h5 h6 => exact ⟨s3, .cons (by rw [← hp]; exact h5) h6, h4⟩

/-- C64: an unreadable token is reported only if everything before it is right: the tokens `c` before it start some
file that is parsed. -/
theorem C64_first_unreadable (fuel : Nat) (file : Bytes) (e : LexError) (h : parse fuel file = .err (.lexical e)) :
    ∃ c s s', Reads (LexState.init file) c s ∧ getToken s = .err e s' ∧ Startable c := by
  obtain ⟨c, s, s', h1, h2, h3⟩ := (file_bad fuel file).lex e (parse_err_file h)
  have h3 := Live.ext (n := fuel) h3 h1.feeds' (by simp [h]) (by simp [h])
  obtain ⟨s1, h4, h5⟩ := reads_of_steps h1 h2
  obtain ⟨f, c', r, a, N, i1, i2, i3⟩ := parses_completed h1.feeds' h3
  exact ⟨c, s1, s', h4, h5, f, a, c', r, ⟨N, i3⟩, renamed_iff_same.1 i1, i2⟩

/-- Instance for C63: in the third line a number stands where a name or a parenthesis should be. -/
example : @parse Env.plain 40 b!"(define (domain d)\n(:types a b)\n(:predicates (p ?x 7)))" =
    .err (.syntactic ⟨[.s "an identifier"], .num (.int 7), 3⟩) := by decide +kernel

/-- Instance for C64: an unknown keyword in the second line. -/
example : @parse Env.plain 40 b!"(define (domain d)\n(:durative-action a))" =
    .err (.lexical ⟨.invalidKeyword, b!"durative-action", 2⟩) := by decide +kernel

end Verif
