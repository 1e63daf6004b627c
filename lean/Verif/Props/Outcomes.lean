import Verif.Props.Errors
import Verif.Proofs.Crash
import Verif.Proofs.Outcome
import Verif.Proofs.DecEq

/-! C65, C66: when exactly the parser reports an error, crashes, or runs for ever. -/

namespace Verif

open Spec

variable [Env]

/-! ### Texts that start a file -/

theorem Startable.start {a b : List Tk} (h : Startable (a ++ b)) : Startable a := by
  obtain ⟨f, x, c', r, h1, h2, h3⟩ := h
  obtain ⟨a', b', rfl, h4, _⟩ := (renamed_iff_same.2 h2).unappend
  exact ⟨f, x, a', b' ++ r, h1, renamed_iff_same.1 h4, by simpa using h3⟩

theorem Startable.same {a b : List Tk} (h : Startable a) (hs : SameTokens a b) : Startable b := by
  obtain ⟨f, x, c', r, h1, h2, h3⟩ := h
  exact ⟨f, x, c', r, h1, by unfold SameTokens at *; rw [h2, hs], h3⟩

omit [Env] in
theorem SameTokens.symm {a b : List Tk} (h : SameTokens a b) : SameTokens b a := Eq.symm h

theorem Parses.startable {file : Bytes} {a : AST} {c : List Tk} (h : Parses file a) (hf : Feeds (LexState.init file) c) :
    Startable c := ⟨file, a, c, [], h, rfl, by simpa using hf⟩

/-- `FirstWrong file c t l`: the tokens `c` of the file are right, and the next token `t`, on line `l`, is wrong: some
file that starts with `c` is parsed, and no file that starts with `c` and `t` is parsed. -/
def FirstWrong (file : Bytes) (c : List Tk) (t : Token) (l : Nat) : Prop :=
  Feeds (LexState.init file) (c ++ [(t, l)]) ∧ Startable c ∧ ¬ Startable (c ++ [(t, l)])

/-- `CanEnd c`: a problem file could end after `c`. -/
def CanEnd (c : List Tk) : Prop := ∃ p l, FileText true (.problem p) (c ++ [(.eof, l)])

theorem wrong_unique {file : Bytes} {c c' t t' l l'} (h : FirstWrong file c t l) (h' : FirstWrong file c' t' l') :
    c' = c ∧ t' = t ∧ l' = l := by
  obtain ⟨h1, h2, h3⟩ := h
  obtain ⟨i1, i2, i3⟩ := h'
  have key : ∀ {c c' : List Tk} {t t' : Token} {l l' : Nat}, Feeds (LexState.init file) (c ++ [(t, l)]) →
      Feeds (LexState.init file) (c' ++ [(t', l')]) → Startable c' → ¬ Startable (c ++ [(t, l)]) →
      c'.length ≤ c.length := by
    intro c c' t t' l l' h1 i1 i2 h3
    by_contra hlt
    obtain ⟨r, hr⟩ := feeds_prefix h1 i1.append (by simp; omega)
    rw [hr] at i2
    exact h3 i2.start
  have hl := Nat.le_antisymm (key h1 i1 i2 h3) (key i1 h1 h2 i3)
  obtain ⟨r, hr⟩ := feeds_prefix h1 i1 (by simp [hl])
  have : r = [] := by
    have := congrArg List.length hr
    simp [hl] at this
    exact this
  subst this
  rw [List.append_nil] at hr
  obtain ⟨h5, h6⟩ := List.append_inj' hr rfl
  cases h6
  exact ⟨h5, rfl, rfl⟩

/-! ### What the outcomes mean -/

theorem parse_panic_file {n : Nat} {file : Bytes} {x : Panic} (h : parse n file = .panic x) :
    parseFile n (LexState.init file) = .panic x := by
  unfold parse at h
  split at h <;> first | (cases h; assumption) | cases h

/-- Looking ahead does not matter for what is read. -/
theorem reads_of_steps_state {s s1 : LexState} {c : List Tk} (h : Steps s c s1) :
    ∃ s3, Reads s c s3 ∧ getToken s3 = getToken s1 := by
  induction h with
  | nil => exact ⟨_, .nil, rfl⟩
  | tok h1 _ ih =>
    obtain ⟨s3, h3, h4⟩ := ih
    exact ⟨s3, .cons h1 h3, h4⟩
  | @peek s s1 s2 t ts h1 _ ih =>
    obtain ⟨s3, h3, h4⟩ := ih
    have hp := (C02_peeks_change_nothing s s1 (.tok h1 .refl)).1
    cases h3 with
    | nil => exact ⟨s, .nil, by rw [← hp]; exact h4⟩
    | cons h5 h6 => exact ⟨s3, .cons (by rw [← hp]; exact h5) h6, h4⟩

omit [Env] in
theorem ended_or {c : List Tk} {l : Nat}
    (hl : Live (c ++ [(.eof, l)])) : CanEnd c := by
  obtain ⟨Q, _, a, h2⟩ := hl
  by_cases h1 : Q = []
  · subst h1
    rw [List.append_nil] at h2
    cases a with
    | problem p => exact ⟨p, l, h2⟩
    | domain d =>
      exfalso
      generalize hts : c ++ [(Token.eof, l)] = ts at h2
      cases h2 with
      | domain hb =>
        obtain ⟨x, y, rfl, ⟨l2, rfl⟩, _⟩ := Body.ends hb
        rw [show ∀ (a b c d e f : Tk), a :: b :: c :: d :: e :: f :: (x ++ [(rpar, l2)]) =
          (a :: b :: c :: d :: e :: f :: x) ++ [(rpar, l2)] from fun _ _ _ _ _ _ => rfl] at hts
        have := (List.append_inj' hts rfl).2
        cases this
  · have := (file_eofLast h2).start h1
    simp at this

/-- A panic comes from the tokenizer, after tokens that are right, or from the first wrong token, at a place where a
problem file could end. -/
theorem crash_sound {n : Nat} {file : Bytes} {x : Panic} (h : parse n file = .panic x) :
    (x = .problemToken ∧ ∃ c t l, FirstWrong file c t l ∧ CanEnd c) ∨
    ∃ c s, Reads (LexState.init file) c s ∧ getToken s = .panic x ∧ Startable c := by
  rcases (file_bad n file).pan x (parse_panic_file h) with ⟨c, s, h1, h2, h3⟩ | ⟨c, t, l, h1, h2, h3, h4, h5⟩
  · right
    have h3 := Live.ext (n := n) h3 h1.feeds' (by simp [h]) (by simp [h])
    obtain ⟨s1, h4, h5⟩ := reads_of_steps_state h1
    obtain ⟨f, c', r, a, N, i1, i2, i3⟩ := parses_completed h1.feeds' h3
    exact ⟨c, s1, h4, h5.trans h2, f, a, c', r, ⟨N, i3⟩, renamed_iff_same.1 i1, i2⟩
  · left
    have h3 := Live.ext (n := n) h3 h1.append (by simp [h]) (by simp [h])
    refine ⟨h2, c, t, l, ⟨h1, ?_, ?_⟩, ended_or h4⟩
    · obtain ⟨f, c', r, a, N, i1, i2, i3⟩ := parses_completed h1.append h3
      exact ⟨f, a, c', r, ⟨N, i3⟩, renamed_iff_same.1 i1, i2⟩
    · rintro ⟨f, a, d, r, ⟨N, i1⟩, i2, i3⟩
      obtain ⟨c', d', rfl, i4, i5⟩ := (renamed_iff_same.2 i2).unappend
      obtain ⟨l', us, rfl, i6⟩ := i5.uncons
      cases i6.unnil
      rw [rnToken_id] at i3
      obtain ⟨M, i7⟩ := h5 () c' l' _ i4 i3.append
      have i8 := i1 (max N M) (by omega)
      unfold parse at i8
      rw [i7 (max N M) (by omega)] at i8
      cases i8

/-- At a place where a problem file could end, the first wrong token makes the parser panic. -/
theorem wrong_crash {file : Bytes} {c t l} (h : FirstWrong file c t l) (hc : CanEnd c) :
    ∃ N, ∀ n, N ≤ n → parse n file = .panic .problemToken := by
  obtain ⟨p, l0, hp⟩ := hc
  obtain ⟨h1, h2, h3⟩ := h
  have hs : Stray t := by
    refine ⟨?_, ?_, ?_⟩
    · rintro rfl
      obtain ⟨f, c', r, a, N, i1, i2, i3⟩ := parses_completed h1 ((file_extend hp).2 l)
      exact h3 ⟨f, a, c', r, ⟨N, i3⟩, renamed_iff_same.1 i1, i2⟩
    · rintro rfl
      obtain ⟨a, ha⟩ := (file_extend hp).1 l
      exact h3 (Parses.startable ((C45_grammar _ _).2 ⟨_, ha, h1⟩) h1)
    · rintro rfl
      have : Renamed id (c ++ [(Token.eof, l0)]) (c ++ [(Token.eof, l)]) :=
        renamed_iff_same.2 (by simp [SameTokens])
      obtain ⟨a, ha, _⟩ := fileText_rn hp this
      exact h3 (Parses.startable ((C45_grammar _ _).2 ⟨_, ha, h1⟩) h1)
  obtain ⟨N, hN⟩ := parseFile_crash hp hs l
  refine ⟨N, fun n hn => ?_⟩
  unfold parse
  rw [hN n hn _ h1]

theorem syntactic_sound {n : Nat} {file : Bytes} {e : SynError} (h : parse n file = .err (.syntactic e)) :
    ∃ c t, FirstWrong file c t e.pos ∧ ¬ CanEnd c ∧ (e.found = t ∨ e.found = shown t) := by
  obtain ⟨c, t, h1, h2, h3, h4⟩ := C63_first_wrong_token n file e h
  have hw : FirstWrong file c t e.pos := by
    refine ⟨h1, h3, ?_⟩
    rintro ⟨f, a, d, r, ⟨N, i1⟩, i2, i3⟩
    obtain ⟨c', d', rfl, i4, i5⟩ := (renamed_iff_same.2 i2).unappend
    obtain ⟨l', us, rfl, i6⟩ := i5.uncons
    cases i6.unnil
    rw [rnToken_id] at i3
    obtain ⟨M, i7⟩ := h4 f c' l' (renamed_iff_same.1 i4) i3.append
    have i8 := i1 (max N M) (by omega)
    rw [i7 (max N M) (by omega)] at i8
    cases i8
  refine ⟨c, t, hw, fun hc => ?_, h2⟩
  obtain ⟨N, hN⟩ := wrong_crash hw hc
  have h5 := hN (max N n) (by omega)
  rw [parse_fuel (by omega : n ≤ max N n) (by simp [h]), h] at h5
  cases h5

/-! ### Running for ever -/

/-- The file is never parsed to the end. -/
def Hangs (file : Bytes) : Prop := ∀ n, parse n file = .timeout

theorem hangs_sound {file : Bytes} (h : Hangs file) :
    ∃ c l, ∀ k, Feeds (LexState.init file) (c ++ List.replicate k (.ident [], l)) ∧
      Startable (c ++ List.replicate k (.ident [], l)) := by
  have hm : ¬ Advances (LexState.init file) := by
    intro hm
    have := (parseFile_tm (A := fun _ => True) trivial (file.length + 1) (LexState.init file)
      ⟨hm, .inl fun _ => trivial⟩ (by simp [LexState.init])).run
    have h1 := h (file.length + 1)
    unfold parse at h1
    split at h1
    · cases h1
    · cases h1
    · cases h1
    · rename_i he; rw [he] at this; exact this
  obtain ⟨c, l, hf⟩ := stuck_of_not_moves hm
  refine ⟨c, l, fun k => ⟨hf k, ?_⟩⟩
  generalize hT : c ++ List.replicate k (Token.ident [], l) = T
  have hT1 : Feeds (LexState.init file) (T ++ [(.ident [], l)]) := by
    have := hf (k + 1)
    rw [List.replicate_succ', ← List.append_assoc, hT] at this
    exact this
  have hTf := hT1.append
  have hn : NoEof T := noEof_before hT1 (by simp)
  -- another file with these tokens, on which the parser comes to an end
  obtain ⟨F, T', i1, i2, i3⟩ := write_lines (writable_feeds hTf hn) 1
  have i1' := renamed_iff_same.1 i1
  have hterm := (C06_terminates_partial F (i3.imp id fun h => ⟨10, h, by decide⟩)).1
  -- a message at one of these tokens would also be given for the first file
  have copy : ∀ {d r : List Tk}, T' = d ++ r → ∃ d', SameTokens d d' ∧ Feeds (LexState.init file) d' := by
    rintro d r rfl
    obtain ⟨T1, T2, rfl, j1, _⟩ := (renamed_iff_same.2 i1'.symm).unappend
    exact ⟨T1, renamed_iff_same.1 j1, hTf.append⟩
  have long : ∀ {d r : List Tk}, Startable d → d = T' ++ r → Startable T := by
    rintro d r hd rfl
    exact hd.start.same i1'.symm
  cases hr : parse (F.length + 1) F with
  | ok a => exact (Parses.startable (Parses.of_ok hr) i2).same i1'.symm
  | timeout => exact absurd hr hterm
  | err e =>
    cases e with
    | lexical e =>
      obtain ⟨d, s, s', j1, j2, j3⟩ := C64_first_unreadable _ _ _ hr
      obtain ⟨r, hr⟩ := feeds_end j1 i2 (by simp [j2])
      exact long j3 hr
    | syntactic e =>
      obtain ⟨d, t, j1, j2, j3, j4⟩ := C63_first_wrong_token _ _ _ hr
      by_cases hl : T'.length ≤ d.length
      · obtain ⟨r, hr⟩ := feeds_prefix i2 j1.append hl
        exact long j3 hr
      · exfalso
        obtain ⟨r, hr⟩ := feeds_prefix j1 i2 (by simp; omega)
        obtain ⟨d', j5, j6⟩ := copy hr
        obtain ⟨d1, d2, rfl, j7, j8⟩ := (renamed_iff_same.2 j5).unappend
        obtain ⟨l', us, rfl, j9⟩ := j8.uncons
        cases j9.unnil
        rw [rnToken_id] at j6
        obtain ⟨N, hN⟩ := j4 file d1 l' (renamed_iff_same.1 j7) j6
        have := hN N (Nat.le_refl _)
        rw [h N] at this
        cases this
    | semantic e => exact (parse_err hr).elim
  | panic x =>
    rcases (file_bad (F.length + 1) F).pan x (parse_panic_file hr) with ⟨d, s, j1, j2, j3⟩ | ⟨d, t, l, j1, _, j3, _, j4⟩
    · have j3 := Live.ext (n := F.length + 1) j3 j1.feeds' (by simp [hr]) (by simp [hr])
      obtain ⟨s1, j4, j5⟩ := reads_of_steps_state j1
      obtain ⟨f, c', r, a, N, k1, k2, k3⟩ := parses_completed j1.feeds' j3
      obtain ⟨r, hr⟩ := feeds_end j4 i2 (by simp [j5, j2])
      exact long (r := r) ⟨f, a, c', _, ⟨N, k3⟩, renamed_iff_same.1 k1, k2⟩ hr
    · by_cases hl : T'.length ≤ d.length
      · have j3 := Live.ext (n := F.length + 1) j3 j1.append (by simp [hr]) (by simp [hr])
        obtain ⟨f, c', r, a, N, k1, k2, k3⟩ := parses_completed j1.append j3
        obtain ⟨r, hr⟩ := feeds_prefix i2 j1.append hl
        exact long (r := r) ⟨f, a, c', _, ⟨N, k3⟩, renamed_iff_same.1 k1, k2⟩ hr
      · exfalso
        obtain ⟨r, hr⟩ := feeds_prefix j1 i2 (by simp; omega)
        obtain ⟨d', j5, j6⟩ := copy hr
        obtain ⟨d1, d2, rfl, j7, j8⟩ := (renamed_iff_same.2 j5).unappend
        obtain ⟨l', us, rfl, j9⟩ := j8.uncons
        cases j9.unnil
        rw [rnToken_id] at j6
        obtain ⟨N, hN⟩ := j4 () d1 l' _ j7 j6
        have := h N
        unfold parse at this
        rw [hN N (Nat.le_refl _)] at this
        cases this

/-! ### The four reasons for not being parsed -/

/-- `Unreadable file r`: after tokens that are right, the tokenizer fails with `r`. -/
def Unreadable (file : Bytes) (r : LexOut) : Prop :=
  (∀ a, ¬ Parses file a) ∧ ∃ c s, Reads (LexState.init file) c s ∧ Startable c ∧ getToken s = r ∧
    ∀ t s', r ≠ .tok t s'

/-- `Stuck file`: from some place on, the tokenizer returns empty names for ever, and any number of them is right. -/
def Stuck (file : Bytes) : Prop :=
  (∀ a, ¬ Parses file a) ∧ ∃ c l, ∀ k, Feeds (LexState.init file) (c ++ List.replicate k (.ident [], l)) ∧
    Startable (c ++ List.replicate k (.ident [], l))

theorem FirstWrong.not_parses {file : Bytes} {c t l} (h : FirstWrong file c t l) (a : AST) : ¬ Parses file a :=
  fun ha => h.2.2 (ha.startable h.1)

theorem FirstWrong.not_unreadable {file : Bytes} {c t l r} (h : FirstWrong file c t l) : ¬ Unreadable file r := by
  rintro ⟨_, d, s, h1, h2, rfl, h4⟩
  obtain ⟨q, rfl⟩ := feeds_end h1 h.1 h4
  exact h.2.2 h2.start

theorem FirstWrong.not_stuck {file : Bytes} {c t l} (h : FirstWrong file c t l) : ¬ Stuck file := by
  rintro ⟨_, d, l', h1⟩
  obtain ⟨h2, h3⟩ := h1 (c.length + 1)
  obtain ⟨q, hq⟩ := feeds_prefix h.1 h2 (by simp)
  rw [hq] at h3
  exact h.2.2 h3.start

theorem Unreadable.not_stuck {file : Bytes} {r} (h : Unreadable file r) : ¬ Stuck file := by
  obtain ⟨_, c, s, h1, h2, rfl, h4⟩ := h
  rintro ⟨_, d, l', h5⟩
  obtain ⟨q, hq⟩ := feeds_end h1 (h5 (c.length + 1)).1 h4
  have := congrArg List.length hq
  simp at this
  omega

theorem Unreadable.unique {file : Bytes} {r r'} (h : Unreadable file r) (h' : Unreadable file r') : r = r' := by
  obtain ⟨_, c, s, h1, h2, rfl, h4⟩ := h
  obtain ⟨_, d, s', i1, i2, rfl, i4⟩ := h'
  obtain ⟨q, hq⟩ := feeds_end h1 i1.feeds h4
  obtain ⟨q', hq'⟩ := feeds_end i1 h1.feeds i4
  have : q = [] := by
    have := congrArg List.length hq
    have := congrArg List.length hq'
    simp at *
    exact List.length_eq_zero_iff.1 (by omega)
  subst this
  rw [List.append_nil] at hq
  subst hq
  rw [h1.det i1]

/-- A file that is not parsed fails for one of these reasons, and the outcome is known. -/
theorem outcomes (file : Bytes) :
    (∃ a, Parses file a) ∨
    (∃ N c t l e, FirstWrong file c t l ∧ ¬ CanEnd c ∧ (∀ n, N ≤ n → parse n file = .err (.syntactic e)) ∧
      e.pos = l ∧ (e.found = t ∨ e.found = shown t)) ∨
    (∃ N c t l, FirstWrong file c t l ∧ CanEnd c ∧ ∀ n, N ≤ n → parse n file = .panic .problemToken) ∨
    (∃ N e s, Unreadable file (.err e s) ∧ ∀ n, N ≤ n → parse n file = .err (.lexical e)) ∨
    (∃ N x, Unreadable file (.panic x) ∧ ∀ n, N ≤ n → parse n file = .panic x) ∨
    (Stuck file ∧ Hangs file) := by
  by_cases hp : ∃ a, Parses file a
  · exact .inl hp
  have hp' : ∀ a, ¬ Parses file a := fun a ha => hp ⟨a, ha⟩
  by_cases hh : Hangs file
  · exact .inr (.inr (.inr (.inr (.inr ⟨⟨hp', hangs_sound hh⟩, hh⟩))))
  unfold Hangs at hh
  push Not at hh
  obtain ⟨N, hN⟩ := hh
  have hc : ∀ n, N ≤ n → parse n file = parse N file := fun n hn => parse_fuel hn hN
  cases hr : parse N file with
  | timeout => exact absurd hr hN
  | ok a => exact absurd ⟨N, fun n hn => (hc n hn).trans hr⟩ (hp' a)
  | panic x =>
    rcases crash_sound hr with ⟨rfl, c, t, l, h1, h2⟩ | ⟨c, s, h1, h2, h3⟩
    · exact .inr (.inr (.inl ⟨N, c, t, l, h1, h2, fun n hn => (hc n hn).trans hr⟩))
    · exact .inr (.inr (.inr (.inr (.inl ⟨N, x, ⟨hp', c, s, h1, h3, h2, by simp⟩, fun n hn => (hc n hn).trans hr⟩))))
  | err e =>
    cases e with
    | semantic e => exact (parse_err hr).elim
    | lexical e =>
      obtain ⟨c, s, s', h1, h2, h3⟩ := C64_first_unreadable _ _ _ hr
      exact .inr (.inr (.inr (.inl ⟨N, e, s', ⟨hp', c, s, h1, h3, h2, by simp⟩, fun n hn => (hc n hn).trans hr⟩)))
    | syntactic e =>
      obtain ⟨c, t, h1, h2, h3⟩ := syntactic_sound hr
      exact .inr (.inl ⟨N, c, t, e.pos, e, h1, h2, fun n hn => (hc n hn).trans hr, rfl, h3⟩)

/-- C65: a file with a wrong token is answered with a syntax error that names the first wrong token and its line,
unless a problem file could end before this token; then the parser panics. -/
theorem C65_wrong_token (file : Bytes) (c : List Tk) (t : Token) (l : Nat) (h : FirstWrong file c t l) :
    (¬ CanEnd c → ∃ N e, (∀ n, N ≤ n → parse n file = .err (.syntactic e)) ∧ e.pos = l ∧
      (e.found = t ∨ e.found = shown t)) ∧
    (CanEnd c → ∃ N, ∀ n, N ≤ n → parse n file = .panic .problemToken) := by
  refine ⟨fun hc => ?_, wrong_crash h⟩
  rcases outcomes file with ⟨a, ha⟩ | ⟨N, c', t', l', e, h1, h2, h3, h4, h5⟩ | ⟨N, c', t', l', h1, h2, _⟩ |
    ⟨N, e, s, h1, _⟩ | ⟨N, x, h1, _⟩ | ⟨h1, _⟩
  · exact absurd ha (h.not_parses a)
  · obtain ⟨rfl, rfl, rfl⟩ := wrong_unique h h1
    exact ⟨N, e, h3, h4, h5⟩
  · obtain ⟨rfl, rfl, rfl⟩ := wrong_unique h h1
    exact absurd h2 hc
  · exact absurd h1 h.not_unreadable
  · exact absurd h1 h.not_unreadable
  · exact absurd h1 h.not_stuck

/-- C65: the parser reports a syntax error on line `l` if and only if the first wrong token stands on this line, and
no problem file could end before it. -/
theorem C65_syntax_error (file : Bytes) (l : Nat) :
    (∃ n e, parse n file = .err (.syntactic e) ∧ e.pos = l) ↔ ∃ c t, FirstWrong file c t l ∧ ¬ CanEnd c := by
  constructor
  · rintro ⟨n, e, h, rfl⟩
    obtain ⟨c, t, h1, h2, _⟩ := syntactic_sound h
    exact ⟨c, t, h1, h2⟩
  · rintro ⟨c, t, h1, h2⟩
    obtain ⟨N, e, h3, h4, _⟩ := (C65_wrong_token file c t l h1).1 h2
    exact ⟨N, e, h3 N (Nat.le_refl _), h4⟩

/-- An unreadable place is answered accordingly. -/
theorem unreadable_outcome {file : Bytes} {r : LexOut} (h : Unreadable file r) :
    ∃ N, (∃ e s, r = .err e s ∧ ∀ n, N ≤ n → parse n file = .err (.lexical e)) ∨
      ∃ x, r = .panic x ∧ ∀ n, N ≤ n → parse n file = .panic x := by
  rcases outcomes file with ⟨a, ha⟩ | ⟨N, c', t', l', e, h1, _⟩ | ⟨N, c', t', l', h1, _⟩ |
    ⟨N, e, s, h1, h2⟩ | ⟨N, x, h1, h2⟩ | ⟨h1, _⟩
  · exact absurd ha (h.1 a)
  · exact absurd h h1.not_unreadable
  · exact absurd h h1.not_unreadable
  · exact ⟨N, .inl ⟨e, s, h.unique h1, h2⟩⟩
  · exact ⟨N, .inr ⟨x, h.unique h1, h2⟩⟩
  · exact absurd h1 h.not_stuck

/-- C65: the parser reports a lexical error if and only if the tokenizer fails with this error after tokens that are
right. -/
theorem C65_lexical_error (file : Bytes) (e : LexError) :
    (∃ n, parse n file = .err (.lexical e)) ↔ ∃ s, Unreadable file (.err e s) := by
  constructor
  · rintro ⟨n, h⟩
    obtain ⟨c, s, s', h1, h2, h3⟩ := C64_first_unreadable _ _ _ h
    refine ⟨s', fun a ⟨N, ha⟩ => ?_, c, s, h1, h3, h2, by simp⟩
    have := ha (max n N) (by omega)
    rw [parse_fuel (by omega : n ≤ max n N) (by simp [h]), h] at this
    cases this
  · rintro ⟨s, h⟩
    obtain ⟨N, ⟨e', s', h1, h2⟩ | ⟨x, h1, _⟩⟩ := unreadable_outcome h
    · cases h1
      exact ⟨N, h2 N (Nat.le_refl _)⟩
    · cases h1

/-- C65: the parser panics in exactly two situations: the tokenizer panics after tokens that are right, or the first
wrong token follows a text that could be a whole problem file. -/
theorem C65_panic (file : Bytes) (x : Panic) :
    (∃ n, parse n file = .panic x) ↔
      Unreadable file (.panic x) ∨ (x = .problemToken ∧ ∃ c t l, FirstWrong file c t l ∧ CanEnd c) := by
  constructor
  · rintro ⟨n, h⟩
    rcases crash_sound h with h1 | ⟨c, s, h1, h2, h3⟩
    · exact .inr h1
    · refine .inl ⟨fun a ⟨N, ha⟩ => ?_, c, s, h1, h3, h2, by simp⟩
      have := ha (max n N) (by omega)
      rw [parse_fuel (by omega : n ≤ max n N) (by simp [h]), h] at this
      cases this
  · rintro (h | ⟨rfl, c, t, l, h1, h2⟩)
    · obtain ⟨N, ⟨e', s', h1, _⟩ | ⟨x', h1, h2⟩⟩ := unreadable_outcome h
      · cases h1
      · cases h1
        exact ⟨N, h2 N (Nat.le_refl _)⟩
    · obtain ⟨N, hN⟩ := wrong_crash h1 h2
      exact ⟨N, hN N (Nat.le_refl _)⟩

/-- C66: the parser runs for ever if and only if the file is not a text of the grammar and, from some place on, the
tokenizer returns empty names without end, any number of which is acceptable there. -/
theorem C66_hangs (file : Bytes) : (∀ n, parse n file = .timeout) ↔ Stuck file := by
  constructor
  · intro h
    refine ⟨fun a ⟨N, ha⟩ => ?_, hangs_sound h⟩
    have := ha N (Nat.le_refl _)
    rw [h N] at this
    cases this
  · intro h
    rcases outcomes file with ⟨a, ha⟩ | ⟨N, c', t', l', e, h1, _⟩ | ⟨N, c', t', l', h1, _⟩ |
      ⟨N, e, s, h1, h2⟩ | ⟨N, x, h1, h2⟩ | ⟨_, h1⟩
    · exact absurd ha (h.1 a)
    · exact absurd h h1.not_stuck
    · exact absurd h h1.not_stuck
    · exact absurd h h1.not_stuck
    · exact absurd h h1.not_stuck
    · exact h1

/-- C66: every file is either parsed, or has a first wrong token, or has a first unreadable place, or is stuck; these
four exclude each other. -/
theorem C66_four_cases (file : Bytes) :
    ((∃ a, Parses file a) ∨ (∃ c t l, FirstWrong file c t l) ∨ (∃ r, Unreadable file r) ∨ Stuck file) ∧
    (∀ a c t l, Parses file a → ¬ FirstWrong file c t l) ∧ (∀ a r, Parses file a → ¬ Unreadable file r) ∧
    (∀ a, Parses file a → ¬ Stuck file) ∧ (∀ c t l r, FirstWrong file c t l → ¬ Unreadable file r) ∧
    (∀ c t l, FirstWrong file c t l → ¬ Stuck file) ∧ ∀ r, Unreadable file r → ¬ Stuck file := by
  refine ⟨?_, fun a c t l h h' => h'.not_parses a h, fun a r h h' => h'.1 a h, fun a h h' => h'.1 a h,
    fun c t l r h => h.not_unreadable, fun c t l h => h.not_stuck, fun r h => h.not_stuck⟩
  rcases outcomes file with h | ⟨N, c, t, l, e, h, _⟩ | ⟨N, c, t, l, h, _⟩ | ⟨N, e, s, h, _⟩ | ⟨N, x, h, _⟩ | ⟨h, _⟩
  · exact .inl h
  · exact .inr (.inl ⟨c, t, l, h⟩)
  · exact .inr (.inl ⟨c, t, l, h⟩)
  · exact .inr (.inr (.inl ⟨_, h⟩))
  · exact .inr (.inr (.inl ⟨_, h⟩))
  · exact .inr (.inr (.inr h))

/-- Instance for C65: after `(:objects a)` a problem file could end, so the name `b` makes the parser panic. -/
example : @parse Env.plain 40 b!"(define (problem p) (:domain d)\n(:objects a) b)" = .panic .problemToken := by
  decide +kernel

/-- Instance for C65: the same name in a domain file is reported. -/
example : @parse Env.plain 40 b!"(define (domain d)\n(:types a) b)" =
    .err (.syntactic ⟨[.s "either ')' to close the definition of ", .n b!"d", .s ", or '(' to start defining new components"],
      .ident b!"b", 2⟩) := by
  decide +kernel

/-- Instance for C66: a file that ends in the middle of a list of types runs for ever, so it is stuck. -/
example : Stuck b!"(define (domain d) (:types a" := (C66_hangs _).1 C06_refuted

end Verif
