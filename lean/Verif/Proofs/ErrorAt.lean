import Verif.Proofs.Complete
import Verif.Proofs.RenameText
import Verif.Proofs.Fuel
import Verif.Spec.Viable
import Verif.Spec.Expected

/-! Where the parser stops: tools. -/

namespace Verif

open Spec

/-! ### Completions -/

/-- The name used in completions. -/
def anyName : Name := b!"x"

/-- The tokens used in completions: parentheses, keywords, operators, and one name. -/
def Simple : Token → Prop
  | .punct _ => True
  | .kw _ => True
  | .op o => o = .and ∨ o = .lt ∨ o = .equal
  | .ident x => x = anyName
  | _ => False

/-- Simple tokens only. -/
def Simples (ts : List Tk) : Prop := ∀ x ∈ ts, Simple x.1

@[simp] theorem simples_nil : Simples [] := by simp [Simples]

@[simp] theorem simples_cons {x : Tk} {ts : List Tk} : Simples (x :: ts) ↔ Simple x.1 ∧ Simples ts := by simp [Simples]

@[simp] theorem simples_append {a b : List Tk} : Simples (a ++ b) ↔ Simples a ∧ Simples b := by
  simp [Simples, or_imp, forall_and]

/-- `c` can be completed to a text in `L`. -/
def Ext (L : List Tk → Prop) (c : List Tk) : Prop := ∃ Q, Simples Q ∧ L (c ++ Q)

/-- After `c`, what the message `m` asks for can be completed. -/
def Hinted (V : List Tk → Prop) (m : Text) (c : List Tk) : Prop := ∃ K, Says m K ∧ ∀ u, K u → ∀ l, V (c ++ [(u, l)])

/-! ### Reading and peeking -/

variable [Env]

theorem lex_line {peek : Bool} {s s' : LexState} {t : Token} (h : lex peek s = .tok t s') :
    ∃ st, skipLayout s.rest s.line false = some st ∧ s'.line = st.line := by
  unfold lex at h
  cases hsk : skipLayout s.rest s.line false with
  | none => rw [hsk] at h; cases h
  | some st =>
    refine ⟨st, rfl, ?_⟩
    obtain ⟨rst, n⟩ := st
    rw [hsk] at h
    cases rst with
    | nil => cases h; rfl
    | cons c cs =>
      cases peek
      · simp only [Bool.false_eq_true, if_false, orderingType] at h
        repeat' split at h
        all_goals first | (cases h; rfl) | cases h
      · simp only [if_true, orderingType] at h
        repeat' split at h
        all_goals first | (cases h; rfl) | cases h

theorem lex_lines {p p' : Bool} {s s1 s2 : LexState} {t t' : Token} (h : lex p s = .tok t s1)
    (h' : lex p' s = .tok t' s2) : s1.line = s2.line := by
  obtain ⟨st, h1, h2⟩ := lex_line h
  obtain ⟨st', h3, h4⟩ := lex_line h'
  rw [h1] at h3
  cases h3
  rw [h2, h4]

theorem lex_peek_ne {s s' : LexState} {t : Token} (h : lex true s = .tok t s') : t ≠ .op .le ∧ t ≠ .op .ge := by
  have hc : ∀ l t, colonWord l = some t → t ≠ .op .le ∧ t ≠ .op .ge := by
    intro l t h
    have : ∀ x ∈ colonTable, x.2 ≠ .op .le ∧ x.2 ≠ .op .ge := by decide
    exact this _ ((colonWord_iff l t).1 h)
  have hp : ∀ l t, plainWord l = some t → t ≠ .op .le ∧ t ≠ .op .ge := by
    intro l t h
    have : ∀ x ∈ plainTable, x.2 ≠ .op .le ∧ x.2 ≠ .op .ge := by decide
    exact this _ ((plainWord_iff l t).1 h)
  unfold lex at h
  cases hsk : skipLayout s.rest s.line false with
  | none => rw [hsk] at h; cases h
  | some st =>
    obtain ⟨rst, n⟩ := st
    rw [hsk] at h
    cases rst with
    | nil => cases h; simp
    | cons c cs =>
      simp only [if_true, orderingType] at h
      repeat' split at h
      all_goals first
        | (cases h; first | exact hc _ _ (by assumption) | exact hp _ _ (by assumption) | (simp; done) | simp_all)
        | cases h

theorem peek_of_get {s s2 : LexState} {t : Token} (h : getToken s = .tok t s2) :
    ∃ s1, lookahead s = .tok (shown t) s1 ∧ s1.line = s2.line := by
  obtain ⟨h1, h2, h3⟩ := lex_peek_get s
  unfold getToken at h
  unfold lookahead
  cases hl : lex true s with
  | tok u s1 =>
    refine ⟨s1, ?_, lex_lines hl h⟩
    rcases h1 u s1 hl with ⟨s3, h4⟩ | ⟨lay, r, s3, _, ⟨_, hu, h4⟩ | ⟨_, hu, h4⟩⟩
    · rw [h] at h4
      cases h4
      -- a peeked token is never `<=` or `>=`
      have hne := lex_peek_ne hl
      unfold shown
      split
      · exact absurd rfl hne.1
      · exact absurd rfl hne.2
      · rfl
    · rw [h] at h4; cases h4; rw [hu]; rfl
    · rw [h] at h4; cases h4; rw [hu]; rfl
  | err e s1 =>
    obtain ⟨s3, h4⟩ := h2 e s1 hl
    rw [h] at h4; cases h4
  | panic p =>
    have := h3 p hl
    rw [h] at this; cases this

/-- Peeking shows the next token, up to the confusion about `<=` and `>=`; the line is the same. -/
theorem get_of_peek {s s1 : LexState} {u : Token} (h : lookahead s = .tok u s1) :
    ∃ t s2, getToken s = .tok t s2 ∧ getToken s1 = .tok t s2 ∧ u = shown t ∧ s1.line = s2.line := by
  have h6 : getToken s1 = getToken s := lex_peek_state (.inl ⟨_, h⟩) false
  have key : ∃ t s2, getToken s = .tok t s2 := by
    obtain ⟨h1, _, _⟩ := lex_peek_get s
    rcases h1 u s1 h with ⟨s3, h4⟩ | ⟨lay, r, s3, _, ⟨_, hu, h4⟩ | ⟨_, hu, h4⟩⟩
    · exact ⟨_, _, h4⟩
    · exact ⟨_, _, h4⟩
    · exact ⟨_, _, h4⟩
  obtain ⟨t, s2, h2⟩ := key
  obtain ⟨s1', h3, h4⟩ := peek_of_get h2
  rw [h] at h3
  cases h3
  exact ⟨t, s2, h2, h6.trans h2, rfl, h4⟩

theorem get_of_peek_err {s s1 : LexState} {e : LexError} (h : lookahead s = .err e s1) :
    ∃ s2, getToken s = .err e s2 := (lex_peek_get s).2.1 e s1 h

/-! ### The invariant -/

variable {α β ι κ : Type} {V : List Tk → Prop} {s : LexState}

omit [Env] in
theorem Hinted.append {m : Text} {c c2 : List Tk} (h : Hinted (fun c2 => V (c ++ c2)) m c2) : Hinted V m (c ++ c2) := by
  obtain ⟨K, h1, h2⟩ := h
  exact ⟨K, h1, fun u hu l => by rw [List.append_assoc]; exact h2 u hu l⟩

omit [Env] in
theorem Hinted.tok {m : Text} {t : Token} (h : Says m (· = t)) (hv : ∀ l, V [(t, l)]) : Hinted V m [] :=
  ⟨_, h, fun u hu l => by subst hu; exact hv l⟩

omit [Env] in
theorem Hinted.name {m : Text} (h : Says m (fun t => ∃ x, t = .ident x)) (hv : ∀ x l, V [(.ident x, l)]) :
    Hinted V m [] :=
  ⟨_, h, fun u hu l => by obtain ⟨x, rfl⟩ := hu; exact hv x l⟩

/-- If `p` stops with a message about a token, then the tokens `c` before that token could have been completed
(as far as `V` knows), also if they are followed by what the message asks for, and every `y i`, from any state with the
same tokens, stops with the same message.  If `p` stops
with a lexical error or crashes in the tokenizer, the tokens before could have been completed.  If it crashes itself, then
at a token `t` where the end of the file would have been accepted. -/
structure Bad (V : List Tk → Prop) (p : P α) (y : ι → Nat → P α) (s : LexState) : Prop where
  syn : ∀ e, p s = .err (.syntactic e) → ∃ c t, Feeds s (c ++ [(t, e.pos)]) ∧ (e.found = t ∨ e.found = shown t) ∧
    (V c ∧ Hinted V e.expected c) ∧ ∀ i c' l' s', Renamed id c c' → Feeds s' (c' ++ [(t, l')]) →
      ∃ N, ∀ m, N ≤ m → y i m s' = .err (.syntactic ⟨e.expected, e.found, l'⟩)
  lex : ∀ e, p s = .err (.lexical e) → ∃ c s1 s2, Steps s c s1 ∧ getToken s1 = .err e s2 ∧ V c
  pan : ∀ x, p s = .panic x → (∃ c s1, Steps s c s1 ∧ getToken s1 = .panic x ∧ V c) ∨ ∃ c t l,
    Feeds s (c ++ [(t, l)]) ∧ x = .problemToken ∧ V c ∧ V (c ++ [(.eof, l)]) ∧
    ∀ i c' l' s', Renamed id c c' → Feeds s' (c' ++ [(t, l')]) → ∃ N, ∀ m, N ≤ m → y i m s' = .panic x

/-- Errors do not depend on values. -/
theorem Bad.reindex {p : P α} {y : ι → Nat → P α} (h : Bad V p y s) {z : κ → Nat → P α} (g : κ → ι)
    (hg : ∀ j n, z j n = y (g j) n) : Bad V p z s where
  syn e he := by
    obtain ⟨c, t, h1, h2, h3, h4⟩ := h.syn e he
    refine ⟨c, t, h1, h2, h3, fun j c' l' s' hr hf => ?_⟩
    obtain ⟨N, hN⟩ := h4 (g j) c' l' s' hr hf
    exact ⟨N, fun m hm => by rw [hg]; exact hN m hm⟩
  lex := h.lex
  pan x hx := by
    rcases h.pan x hx with h1 | ⟨c, t, l, h1, h2, h3, h3', h4⟩
    · exact .inl h1
    · refine .inr ⟨c, t, l, h1, h2, h3, h3', fun j c' l' s' hr hf => ?_⟩
      obtain ⟨N, hN⟩ := h4 (g j) c' l' s' hr hf
      exact ⟨N, fun m hm => by rw [hg]; exact hN m hm⟩

theorem Bad.weaken {p : P α} {y : ι → Nat → P α} {V' : List Tk → Prop} (h : Bad V p y s) (hv : ∀ c, V c → V' c) :
    Bad V' p y s where
  syn e he := by
    obtain ⟨c, t, h1, h2, h3, h4⟩ := h.syn e he
    obtain ⟨h3, K, h5, h6⟩ := h3
    exact ⟨c, t, h1, h2, ⟨hv _ h3, K, h5, fun u hu l => hv _ (h6 u hu l)⟩, h4⟩
  lex e he := by
    obtain ⟨c, s1, s2, h1, h2, h3⟩ := h.lex e he
    exact ⟨c, s1, s2, h1, h2, hv _ h3⟩
  pan x hx := by
    rcases h.pan x hx with ⟨c, s1, h1, h2, h3⟩ | ⟨c, t, l, h1, h2, h3, h3', h4⟩
    · exact .inl ⟨c, s1, h1, h2, hv _ h3⟩
    · exact .inr ⟨c, t, l, h1, h2, hv _ h3, hv _ h3', h4⟩

theorem Bad.succ {p : P α} {y : ι → Nat → P α} (h : Bad V p (fun i n => y i (n + 1)) s) : Bad V p y s where
  syn e he := by
    obtain ⟨c, t, h1, h2, h3, h4⟩ := h.syn e he
    refine ⟨c, t, h1, h2, h3, fun i c' l' s' hr hf => ?_⟩
    obtain ⟨N, hN⟩ := h4 i c' l' s' hr hf
    refine ⟨N + 1, fun m hm => ?_⟩
    obtain ⟨k, rfl⟩ : ∃ k, m = k + 1 := ⟨m - 1, by omega⟩
    exact hN k (by omega)
  lex := h.lex
  pan x hx := by
    rcases h.pan x hx with h1 | ⟨c, t, l, h1, h2, h3, h3', h4⟩
    · exact .inl h1
    · refine .inr ⟨c, t, l, h1, h2, h3, h3', fun i c' l' s' hr hf => ?_⟩
      obtain ⟨N, hN⟩ := h4 i c' l' s' hr hf
      refine ⟨N + 1, fun m hm => ?_⟩
      obtain ⟨k, rfl⟩ : ∃ k, m = k + 1 := ⟨m - 1, by omega⟩
      exact hN k (by omega)

theorem Bad.ok {p : P α} {y : ι → Nat → P α} {r} (h : p s = .ok r) : Bad V p y s where
  syn e he := by rw [h] at he; cases he
  lex e he := by rw [h] at he; cases he
  pan e he := by rw [h] at he; cases he

theorem Bad.ret {a : α} {y : ι → Nat → P α} : Bad V (pure a) y s := .ok rfl

theorem Bad.timeout {y : ι → Nat → P α} : Bad V P.timeout y s where
  syn e he := by cases he
  lex e he := by cases he
  pan e he := by cases he

omit [Env] in
theorem P.bind_err {x : P α} {f : α → P β} {e : PErr} (h : (x >>= f) s = .err e) :
    x s = .err e ∨ ∃ a s1, x s = .ok (a, s1) ∧ f a s1 = .err e := by
  change P.bind' x f s = .err e at h
  unfold P.bind' at h
  split at h
  · rename_i a s1 h1
    exact .inr ⟨a, s1, h1, h⟩
  · rename_i e' h1
    cases h
    exact .inl h1
  · cases h
  · cases h

omit [Env] in
theorem P.bind_panic {x : P α} {f : α → P β} {e : Panic} (h : (x >>= f) s = .panic e) :
    x s = .panic e ∨ ∃ a s1, x s = .ok (a, s1) ∧ f a s1 = .panic e := by
  change P.bind' x f s = .panic e at h
  unfold P.bind' at h
  split at h
  · rename_i a s1 h1
    exact .inr ⟨a, s1, h1, h⟩
  · cases h
  · rename_i e' h1
    cases h
    exact .inl h1
  · cases h

omit [Env] in
theorem P.bind_of_panic {x : P α} {f : α → P β} {e : Panic} (h : x s = .panic e) : (x >>= f) s = .panic e := by
  show P.bind' x f s = .panic e
  unfold P.bind'
  rw [h]

omit [Env] in
theorem P.bind_of_err {x : P α} {f : α → P β} {e : PErr} (h : x s = .err e) : (x >>= f) s = .err e := by
  show P.bind' x f s = .err e
  unfold P.bind'
  rw [h]

/-- What may happen after reading or peeking a token: it is rejected, or the rest goes on. -/
inductive Next (V : List Tk → Prop) (W : List Tk → Prop) (u : Token) (p : P α) (y : ι → Nat → P α) (s : LexState) : Prop
  | stop {m : Text} : V [] → Hinted V m [] → p = synErr m u → (∀ i n, 1 ≤ n → y i n = synErr m u) → Next V W u p y s
  | crash : V [] → V [(.eof, s.line)] → p = P.panic .problemToken → (∀ i n, 1 ≤ n → y i n = P.panic .problemToken) →
    Next V W u p y s
  | go : Bad W p y s → Next V W u p y s

theorem Next.reindex {W : List Tk → Prop} {u : Token} {p : P α} {y : ι → Nat → P α} (h : Next V W u p y s)
    {z : κ → Nat → P α} (g : κ → ι) (hg : ∀ j n, z j n = y (g j) n) : Next V W u p z s := by
  cases h with
  | stop h1 h2 h3 h4 => exact .stop h1 h2 h3 fun j n hn => by rw [hg]; exact h4 _ _ hn
  | crash h1 h2 h3 h4 => exact .crash h1 h2 h3 fun j n hn => by rw [hg]; exact h4 _ _ hn
  | go h => exact .go (h.reindex g hg)

theorem feeds_cons {t : Token} {l : Nat} {ts : List Tk} {s : LexState} (h : Feeds s ((t, l) :: ts)) :
    ∃ s1, getToken s = .tok t s1 ∧ s1.line = l ∧ Feeds s1 ts := h

omit [Env] in
@[simp] theorem rnToken_id (t : Token) : rnToken id t = t := by cases t <;> rfl

/-- The first token of a text that can be read from `s`, and its copy elsewhere. -/
theorem first_copy {s s1 : LexState} {t t0 : Token} {l : Nat} {c : List Tk} (h : Feeds s (c ++ [(t, l)]))
    (h1 : getToken s = .tok t0 s1) : ∀ c' l' s', Renamed id c c' → Feeds s' (c' ++ [(t, l')]) →
      ∃ s1', getToken s' = .tok t0 s1' := by
  intro c' l' s' hr hf
  cases c with
  | nil =>
    cases hr.unnil
    obtain ⟨s2, h2, _⟩ := h
    obtain ⟨s3, h3, _⟩ := hf
    rw [h1] at h2
    cases h2
    exact ⟨_, h3⟩
  | cons x c =>
    obtain ⟨t1, l1⟩ := x
    obtain ⟨l2, us, rfl, hr'⟩ := hr.uncons
    obtain ⟨s2, h2, _⟩ := h
    obtain ⟨s3, h3, _⟩ := hf
    rw [h1] at h2
    cases h2
    rw [rnToken_id] at h3
    exact ⟨_, h3⟩

/-- Reading a token. -/
theorem Bad.get {k : Token → P β} {k' : ι → Nat → Token → P β} (hv : V [])
    (h : ∀ t s1, getToken s = .tok t s1 → Next V (fun c => V ((t, s1.line) :: c)) t (k t) (fun i n => k' i n t) s1) :
    Bad V (getTok >>= k) (fun i n => getTok >>= k' i n) s where
  syn e he := by
    rcases P.bind_err he with h1 | ⟨t, s1, h1, h2⟩
    · unfold getTok at h1
      split at h1 <;> cases h1
    · rw [getTok_ok] at h1
      cases h t s1 h1 with
      | @stop m hv hh hk hk' =>
        rw [hk] at h2
        cases h2
        refine ⟨[], t, ⟨s1, h1, rfl, trivial⟩, .inl rfl, ⟨hv, hh⟩, fun i c' l' s' hr hf => ⟨1, fun n hn => ?_⟩⟩
        cases hr.unnil
        obtain ⟨s2, h3, h4, _⟩ := hf
        rw [P.bind_run (getTok_ok.2 h3), hk' _ _ hn]
        simp [synErr, h4]
      | crash hv hv' hk hk' => rw [hk] at h2; cases h2
      | go hb =>
        obtain ⟨c, t', h3, h4, h5, h6⟩ := hb.syn e h2
        refine ⟨(t, s1.line) :: c, t', ⟨s1, h1, rfl, h3⟩, h4, h5, fun i c' l' s' hr hf => ?_⟩
        obtain ⟨l2, us, rfl, hr'⟩ := hr.uncons
        obtain ⟨s2, h7, h8, h9⟩ := hf
        rw [rnToken_id] at h7
        obtain ⟨N, hN⟩ := h6 i us l' s2 hr' h9
        refine ⟨N, fun m hm => ?_⟩
        rw [P.bind_run (getTok_ok.2 h7)]
        exact hN m hm
  lex e he := by
    rcases P.bind_err he with h1 | ⟨t, s1, h1, h2⟩
    · unfold getTok at h1
      split at h1
      · cases h1
      · rename_i e' s1 h2
        cases h1
        exact ⟨[], s, s1, .nil, h2, hv⟩
      · cases h1
    · rw [getTok_ok] at h1
      cases h t s1 h1 with
      | @stop m hv hh hk hk' => rw [hk] at h2; cases h2
      | crash hv hv' hk hk' => rw [hk] at h2; cases h2
      | go hb =>
        obtain ⟨c, s2, s3, h3, h4, h5⟩ := hb.lex e h2
        exact ⟨(t, s1.line) :: c, s2, s3, .tok h1 h3, h4, h5⟩
  pan x hx := by
    rcases P.bind_panic hx with h1 | ⟨t, s1, h1, h2⟩
    · unfold getTok at h1
      split at h1
      · cases h1
      · cases h1
      · rename_i e' h2
        cases h1
        exact .inl ⟨[], s, .nil, h2, hv⟩
    · rw [getTok_ok] at h1
      cases h t s1 h1 with
      | @stop m hv hh hk hk' => rw [hk] at h2; cases h2
      | crash hv hv' hk hk' =>
        rw [hk] at h2
        cases h2
        refine .inr ⟨[], t, s1.line, ⟨s1, h1, rfl, trivial⟩, rfl, hv, hv', fun i c' l' s' hr hf => ⟨1, fun n hn => ?_⟩⟩
        cases hr.unnil
        obtain ⟨s2, h3, h4, _⟩ := hf
        rw [P.bind_run (getTok_ok.2 h3), hk' _ _ hn]
        rfl
      | go hb =>
        rcases hb.pan x h2 with ⟨c, s2, h3, h4, h5⟩ | ⟨c, t', l, h3, h4, h5, h5', h6⟩
        · exact .inl ⟨(t, s1.line) :: c, s2, .tok h1 h3, h4, h5⟩
        · refine .inr ⟨(t, s1.line) :: c, t', l, ⟨s1, h1, rfl, h3⟩, h4, h5, h5', fun i c' l' s' hr hf => ?_⟩
          obtain ⟨l2, us, rfl, hr'⟩ := hr.uncons
          obtain ⟨s2, h7, h8, h9⟩ := hf
          rw [rnToken_id] at h7
          obtain ⟨N, hN⟩ := h6 i us l' s2 hr' h9
          refine ⟨N, fun m hm => ?_⟩
          rw [P.bind_run (getTok_ok.2 h7)]
          exact hN m hm

/-- Reading a token that has been peeked. -/
theorem Bad.getKnown {k : Token → P β} {k' : ι → Nat → Token → P β} {t : Token} {s1 : LexState}
    (h1 : getToken s = .tok t s1) (h : Bad (fun c => V ((t, s1.line) :: c)) (k t) (fun i n => k' i n t) s1) :
    Bad V (getTok >>= k) (fun i n => getTok >>= k' i n) s where
  syn e he := by
    rw [P.bind_run (getTok_ok.2 h1)] at he
    obtain ⟨c, t', h3, h4, h5, h6⟩ := h.syn e he
    refine ⟨(t, s1.line) :: c, t', ⟨s1, h1, rfl, h3⟩, h4, h5, fun i c' l' s' hr hf => ?_⟩
    obtain ⟨l2, us, rfl, hr'⟩ := hr.uncons
    obtain ⟨s2, h7, h8, h9⟩ := hf
    rw [rnToken_id] at h7
    obtain ⟨N, hN⟩ := h6 i us l' s2 hr' h9
    refine ⟨N, fun m hm => ?_⟩
    rw [P.bind_run (getTok_ok.2 h7)]
    exact hN m hm
  lex e he := by
    rw [P.bind_run (getTok_ok.2 h1)] at he
    obtain ⟨c, s2, s3, h3, h4, h5⟩ := h.lex e he
    exact ⟨(t, s1.line) :: c, s2, s3, .tok h1 h3, h4, h5⟩
  pan x hx := by
    rw [P.bind_run (getTok_ok.2 h1)] at hx
    rcases h.pan x hx with ⟨c, s2, h3, h4, h5⟩ | ⟨c, t', l, h3, h4, h5, h5', h6⟩
    · exact .inl ⟨(t, s1.line) :: c, s2, .tok h1 h3, h4, h5⟩
    · refine .inr ⟨(t, s1.line) :: c, t', l, ⟨s1, h1, rfl, h3⟩, h4, h5, h5', fun i c' l' s' hr hf => ?_⟩
      obtain ⟨l2, us, rfl, hr'⟩ := hr.uncons
      obtain ⟨s2, h7, h8, h9⟩ := hf
      rw [rnToken_id] at h7
      obtain ⟨N, hN⟩ := h6 i us l' s2 hr' h9
      refine ⟨N, fun m hm => ?_⟩
      rw [P.bind_run (getTok_ok.2 h7)]
      exact hN m hm

/-- Skipping a token that has been peeked. -/
theorem Bad.skip {f : Unit → P β} {f' : ι → Nat → Unit → P β} {t : Token} {s1 : LexState}
    (h1 : getToken s = .tok t s1) (h : Bad (fun c => V ((t, s1.line) :: c)) (f ()) (fun i n => f' i n ()) s1) :
    Bad V (skipTok >>= f) (fun i n => skipTok >>= f' i n) s where
  syn e he := by
    rw [P.bind_run (a := ()) (s1 := s1) (skipTok_ok.2 (.inl ⟨_, h1⟩))] at he
    obtain ⟨c, t', h3, h4, h5, h6⟩ := h.syn e he
    refine ⟨(t, s1.line) :: c, t', ⟨s1, h1, rfl, h3⟩, h4, h5, fun i c' l' s' hr hf => ?_⟩
    obtain ⟨l2, us, rfl, hr'⟩ := hr.uncons
    obtain ⟨s2, h7, h8, h9⟩ := hf
    rw [rnToken_id] at h7
    obtain ⟨N, hN⟩ := h6 i us l' s2 hr' h9
    refine ⟨N, fun m hm => ?_⟩
    rw [P.bind_run (a := ()) (s1 := s2) (skipTok_ok.2 (.inl ⟨_, h7⟩))]
    exact hN m hm
  lex e he := by
    rw [P.bind_run (a := ()) (s1 := s1) (skipTok_ok.2 (.inl ⟨_, h1⟩))] at he
    obtain ⟨c, s2, s3, h3, h4, h5⟩ := h.lex e he
    exact ⟨(t, s1.line) :: c, s2, s3, .tok h1 h3, h4, h5⟩
  pan x hx := by
    rw [P.bind_run (a := ()) (s1 := s1) (skipTok_ok.2 (.inl ⟨_, h1⟩))] at hx
    rcases h.pan x hx with ⟨c, s2, h3, h4, h5⟩ | ⟨c, t', l, h3, h4, h5, h5', h6⟩
    · exact .inl ⟨(t, s1.line) :: c, s2, .tok h1 h3, h4, h5⟩
    · refine .inr ⟨(t, s1.line) :: c, t', l, ⟨s1, h1, rfl, h3⟩, h4, h5, h5', fun i c' l' s' hr hf => ?_⟩
      obtain ⟨l2, us, rfl, hr'⟩ := hr.uncons
      obtain ⟨s2, h7, h8, h9⟩ := hf
      rw [rnToken_id] at h7
      obtain ⟨N, hN⟩ := h6 i us l' s2 hr' h9
      refine ⟨N, fun m hm => ?_⟩
      rw [P.bind_run (a := ()) (s1 := s2) (skipTok_ok.2 (.inl ⟨_, h7⟩))]
      exact hN m hm

/-- Peeking a token. -/
theorem Bad.peek {k : Token → P β} {k' : ι → Nat → Token → P β} (hv : V [])
    (h : ∀ u s1 t s2, getToken s1 = .tok t s2 → u = shown t → Next V V u (k u) (fun i n => k' i n u) s1) :
    Bad V (peekTok >>= k) (fun i n => peekTok >>= k' i n) s where
  syn e he := by
    rcases P.bind_err he with h1 | ⟨u, s1, h1, h2⟩
    · unfold peekTok at h1
      split at h1 <;> cases h1
    · rw [peekTok_ok] at h1
      obtain ⟨t, s2, h3, h4, h5, h6⟩ := get_of_peek h1
      cases h u s1 t s2 h4 h5 with
      | @stop m hv hh hk hk' =>
        rw [hk] at h2
        cases h2
        refine ⟨[], t, ⟨s2, h3, h6.symm, trivial⟩, .inr h5, ⟨hv, hh⟩, fun i c' l' s' hr hf => ⟨1, fun n hn => ?_⟩⟩
        cases hr.unnil
        obtain ⟨s3, h7, h8, _⟩ := hf
        obtain ⟨s4, h9, h10⟩ := peek_of_get h7
        rw [← h5] at h9
        rw [P.bind_run (peekTok_ok.2 h9), hk' _ _ hn]
        simp [synErr, h10, h8]
      | crash hv hv' hk hk' => rw [hk] at h2; cases h2
      | go hb =>
        obtain ⟨c, t', h7, h8, h9, h10⟩ := hb.syn e h2
        have hf0 := (Feeds.peek h1).1 h7
        refine ⟨c, t', hf0, h8, h9, fun i c' l' s' hr hf => ?_⟩
        obtain ⟨s3, h11⟩ := first_copy hf0 h3 c' l' s' hr hf
        obtain ⟨s4, h12, _⟩ := peek_of_get h11
        rw [← h5] at h12
        obtain ⟨N, hN⟩ := h10 i c' l' s4 hr ((Feeds.peek h12).2 hf)
        refine ⟨N, fun m hm => ?_⟩
        rw [P.bind_run (peekTok_ok.2 h12)]
        exact hN m hm
  lex e he := by
    rcases P.bind_err he with h1 | ⟨u, s1, h1, h2⟩
    · unfold peekTok at h1
      split at h1
      · cases h1
      · rename_i e' s1 h2
        cases h1
        obtain ⟨s2, h3⟩ := get_of_peek_err h2
        exact ⟨[], s, s2, .nil, h3, hv⟩
      · cases h1
    · rw [peekTok_ok] at h1
      obtain ⟨t, s2, h3, h4, h5, h6⟩ := get_of_peek h1
      cases h u s1 t s2 h4 h5 with
      | @stop m hv hh hk hk' => rw [hk] at h2; cases h2
      | crash hv hv' hk hk' => rw [hk] at h2; cases h2
      | go hb =>
        obtain ⟨c, s3, s4, h7, h8, h9⟩ := hb.lex e h2
        exact ⟨c, s3, s4, .peek h1 h7, h8, h9⟩
  pan x hx := by
    rcases P.bind_panic hx with h1 | ⟨u, s1, h1, h2⟩
    · unfold peekTok at h1
      split at h1
      · cases h1
      · cases h1
      · rename_i e' h2
        cases h1
        exact .inl ⟨[], s, .nil, (lex_peek_get s).2.2 _ h2, hv⟩
    · rw [peekTok_ok] at h1
      obtain ⟨t, s2, h3, h4, h5, h6⟩ := get_of_peek h1
      cases h u s1 t s2 h4 h5 with
      | @stop m hv hh hk hk' => rw [hk] at h2; cases h2
      | crash hv hv' hk hk' =>
        rw [hk] at h2
        cases h2
        rw [h6] at hv'
        refine .inr ⟨[], t, s2.line, ⟨s2, h3, rfl, trivial⟩, rfl, hv, hv', fun i c' l' s' hr hf => ⟨1, fun n hn => ?_⟩⟩
        cases hr.unnil
        obtain ⟨s3, h7, h8, _⟩ := hf
        obtain ⟨s4, h9, h10⟩ := peek_of_get h7
        rw [← h5] at h9
        rw [P.bind_run (peekTok_ok.2 h9), hk' _ _ hn]
        rfl
      | go hb =>
        rcases hb.pan x h2 with ⟨c, s3, h7, h8, h9⟩ | ⟨c, t', l, h7, h8, h9, h9', h10⟩
        · exact .inl ⟨c, s3, .peek h1 h7, h8, h9⟩
        · have hf0 := (Feeds.peek h1).1 h7
          refine .inr ⟨c, t', l, hf0, h8, h9, h9', fun i c' l' s' hr hf => ?_⟩
          obtain ⟨s3, h11⟩ := first_copy hf0 h3 c' l' s' hr hf
          obtain ⟨s4, h12, _⟩ := peek_of_get h11
          rw [← h5] at h12
          obtain ⟨N, hN⟩ := h10 i c' l' s4 hr ((Feeds.peek h12).2 hf)
          refine ⟨N, fun m hm => ?_⟩
          rw [P.bind_run (peekTok_ok.2 h12)]
          exact hN m hm

/-- The position of the last token. -/
theorem Bad.pos {f : Nat → P β} {f' : ι → Nat → Nat → P β}
    (h : ∀ l, Bad V (f l) (fun (j : ι × Nat) n => f' j.1 n j.2) s) :
    Bad V (getPos >>= f) (fun i n => getPos >>= f' i n) s where
  syn e he := by
    rw [P.bind_run (getPos_ok.2 ⟨rfl, rfl⟩)] at he
    obtain ⟨c, t', h3, h4, h5, h6⟩ := (h _).syn e he
    refine ⟨c, t', h3, h4, h5, fun i c' l' s' hr hf => ?_⟩
    obtain ⟨N, hN⟩ := h6 (i, s'.line) c' l' s' hr hf
    exact ⟨N, fun m hm => hN m hm⟩
  lex e he := by
    rw [P.bind_run (getPos_ok.2 ⟨rfl, rfl⟩)] at he
    exact (h _).lex e he
  pan x hx := by
    rw [P.bind_run (getPos_ok.2 ⟨rfl, rfl⟩)] at hx
    rcases (h _).pan x hx with h1 | ⟨c, t', l, h3, h4, h5, h5', h6⟩
    · exact .inl h1
    · refine .inr ⟨c, t', l, h3, h4, h5, h5', fun i c' l' s' hr hf => ?_⟩
      obtain ⟨N, hN⟩ := h6 (i, s'.line) c' l' s' hr hf
      exact ⟨N, fun m hm => hN m hm⟩

/-- A given token. -/
theorem Bad.exact {t : Token} {m : Text} {f : Unit → P β} {m' : ι → Text} {f' : ι → Nat → Unit → P β} (hv : V [])
    (hh : Hinted V m []) (hm : ∀ i, m' i = m)
    (h : ∀ s1, getToken s = .tok t s1 → Bad (fun c => V ((t, s1.line) :: c)) (f ()) (fun i n => f' i n ()) s1) :
    Bad V (expectTok t m >>= f) (fun i n => expectTok t (m' i) >>= f' i n) s := by
  have key : ∀ (m : Text) (f : Unit → P β), (expectTok t m >>= f) =
      (getTok >>= fun tok => if tok = t then f () else synErr m tok) := by
    intro m f
    funext s
    show P.bind' (P.bind' getTok _) f s = P.bind' getTok _ s
    unfold P.bind'
    cases getTok s with
    | ok r =>
      obtain ⟨tok, s1⟩ := r
      by_cases hc : tok = t
      · simp only [hc, if_true]; rfl
      · simp only [hc, if_false]; rfl
    | err e => rfl
    | panic p => rfl
    | timeout => rfl
  simp only [key]
  refine Bad.get hv fun tok s1 h1 => ?_
  by_cases hc : tok = t
  · subst hc
    simp only [if_true]
    exact .go (h s1 h1)
  · simp only [hc, if_false]
    exact .stop hv hh rfl fun i n _ => by rw [hm]

/-- A name. -/
theorem Bad.ident {m : Text} {f : Name → P β} {m' : ι → Text} {f' : ι → Nat → Name → P β} (hv : V [])
    (hh : Hinted V m []) (hm : ∀ i, m' i = m)
    (h : ∀ x s1, getToken s = .tok (.ident x) s1 →
      Bad (fun c => V ((.ident x, s1.line) :: c)) (f x) (fun i n => f' i n x) s1) :
    Bad V (expectIdent m >>= f) (fun i n => expectIdent (m' i) >>= f' i n) s := by
  have key : ∀ (m : Text) (f : Name → P β), (expectIdent m >>= f) =
      (getTok >>= fun tok => match tok with | .ident x => f x | tok => synErr m tok) := by
    intro m f
    funext s
    show P.bind' (P.bind' getTok _) f s = P.bind' getTok _ s
    unfold P.bind'
    cases getTok s with
    | ok r =>
      obtain ⟨tok, s1⟩ := r
      cases tok <;> rfl
    | err e => rfl
    | panic p => rfl
    | timeout => rfl
  simp only [key]
  refine Bad.get hv fun tok s1 h1 => ?_
  cases tok with
  | ident x => exact .go (h x s1 h1)
  | _ => exact .stop hv hh rfl fun i n _ => by rw [hm]

omit [Env] in
theorem P.Le.ok_of_le {x : Nat → P α} (h : ∀ n, P.Le (x n) (x (n + 1))) {n m : Nat} (hnm : n ≤ m) {r}
    (hr : x n s = .ok r) : x m s = .ok r := by
  induction hnm with
  | refl => exact hr
  | @step k _ ih =>
    rcases (h k).run s with h1 | h1
    · rw [h1] at ih; cases ih
    · rw [← h1]; exact ih

/-- A part of the text. -/
theorem Bad.bindQ {x : P α} {x' : ι → Nat → P α} {f : α → P β} {f' : ι → Nat → α → P β}
    (R : α → α → Prop) (hm : ∀ i n, P.Le (x' i n) (x' i (n + 1))) (hx : Bad V x x' s)
    (hs : ∀ a s1, x s = .ok (a, s1) → ∃ c, ∃ Q : List Tk → Prop, Steps s c s1 ∧
      (∀ c2 t l, Feeds s1 (c2 ++ [(t, l)]) → ∀ c2' l', Renamed id c2 c2' → Q (c2' ++ [(t, l')])) ∧
      (∀ i c', Renamed id c c' → ∃ a', R a a' ∧ Acc Q (x' i) c' a') ∧
      Bad (fun c2 => V (c ++ c2)) (f a) (fun (j : ι × {a' // R a a'}) n => f' j.1 n j.2.1) s1) :
    Bad V (x >>= f) (fun i n => x' i n >>= f' i n) s where
  syn e he := by
    rcases P.bind_err he with h1 | ⟨a, s1, h1, h2⟩
    · obtain ⟨c, t', h3, h4, h5, h6⟩ := hx.syn e h1
      refine ⟨c, t', h3, h4, h5, fun i c' l' s' hr hf => ?_⟩
      obtain ⟨N, hN⟩ := h6 i c' l' s' hr hf
      exact ⟨N, fun m hm => P.bind_of_err (hN m hm)⟩
    · obtain ⟨c, Q, hst, hq, ha, hb⟩ := hs a s1 h1
      obtain ⟨c2, t', h3, h4, h5, h6⟩ := hb.syn e h2
      refine ⟨c ++ c2, t', by rw [List.append_assoc]; exact hst.feeds h3, h4, ⟨h5.1, h5.2.append⟩, fun i c' l' s' hr hf => ?_⟩
      obtain ⟨d, d2, rfl, hr1, hr2⟩ := hr.unappend
      obtain ⟨a', hra, N1, hN1⟩ := ha i d hr1
      rw [List.append_assoc] at hf
      obtain ⟨s2, h7, h8⟩ := hN1 N1 (Nat.le_refl _) s' _ hf (hq _ _ _ h3 _ _ hr2)
      obtain ⟨N2, hN2⟩ := h6 (i, ⟨a', hra⟩) d2 l' s2 hr2 h8
      refine ⟨max N1 N2, fun m hmm => ?_⟩
      rw [P.bind_run (P.Le.ok_of_le (hm i) (by omega : N1 ≤ m) h7)]
      exact hN2 m (by omega)
  lex e he := by
    rcases P.bind_err he with h1 | ⟨a, s1, h1, h2⟩
    · exact hx.lex e h1
    · obtain ⟨c, Q, hst, hq, ha, hb⟩ := hs a s1 h1
      obtain ⟨c2, s2, s3, h3, h4, h5⟩ := hb.lex e h2
      exact ⟨c ++ c2, s2, s3, hst.append h3, h4, h5⟩
  pan e he := by
    rcases P.bind_panic he with h1 | ⟨a, s1, h1, h2⟩
    · rcases hx.pan e h1 with h3 | ⟨c, t', l, h3, h4, h5, h5', h6⟩
      · exact .inl h3
      · refine .inr ⟨c, t', l, h3, h4, h5, h5', fun i c' l' s' hr hf => ?_⟩
        obtain ⟨N, hN⟩ := h6 i c' l' s' hr hf
        exact ⟨N, fun m hm => P.bind_of_panic (hN m hm)⟩
    · obtain ⟨c, Q, hst, hq, ha, hb⟩ := hs a s1 h1
      rcases hb.pan e h2 with ⟨c2, s2, h3, h4, h5⟩ | ⟨c2, t', l, h3, h4, h5, h5', h6⟩
      · exact .inl ⟨c ++ c2, s2, hst.append h3, h4, h5⟩
      refine .inr ⟨c ++ c2, t', l, by rw [List.append_assoc]; exact hst.feeds h3, h4, h5,
        by rw [List.append_assoc]; exact h5', fun i c' l' s' hr hf => ?_⟩
      obtain ⟨d, d2, rfl, hr1, hr2⟩ := hr.unappend
      obtain ⟨a', hra, N1, hN1⟩ := ha i d hr1
      rw [List.append_assoc] at hf
      obtain ⟨s2, h7, h8⟩ := hN1 N1 (Nat.le_refl _) s' _ hf (hq _ _ _ h3 _ _ hr2)
      obtain ⟨N2, hN2⟩ := h6 (i, ⟨a', hra⟩) d2 l' s2 hr2 h8
      refine ⟨max N1 N2, fun m hmm => ?_⟩
      rw [P.bind_run (P.Le.ok_of_le (hm i) (by omega : N1 ≤ m) h7)]
      exact hN2 m (by omega)

theorem Bad.bindR {x : P α} {x' : ι → Nat → P α} {f : α → P β} {f' : ι → Nat → α → P β} (R : α → α → Prop)
    (hm : ∀ i n, P.Le (x' i n) (x' i (n + 1))) (hx : Bad V x x' s)
    (hs : ∀ a s1, x s = .ok (a, s1) → ∃ c, Steps s c s1 ∧
      (∀ i c', Renamed id c c' → ∃ a', R a a' ∧ Acc Any (x' i) c' a') ∧
      Bad (fun c2 => V (c ++ c2)) (f a) (fun (j : ι × {a' // R a a'}) n => f' j.1 n j.2.1) s1) :
    Bad V (x >>= f) (fun i n => x' i n >>= f' i n) s := by
  refine Bad.bindQ R hm hx fun a s1 h => ?_
  obtain ⟨c, h1, h2, h3⟩ := hs a s1 h
  exact ⟨c, Any, h1, fun _ _ _ _ _ _ _ => trivial, h2, h3⟩

theorem Bad.bind {x : P α} {x' : ι → Nat → P α} {f : α → P β} {f' : ι → Nat → α → P β}
    (hm : ∀ i n, P.Le (x' i n) (x' i (n + 1))) (hx : Bad V x x' s)
    (hs : ∀ a s1, x s = .ok (a, s1) → ∃ c, Steps s c s1 ∧
      (∀ i c', Renamed id c c' → ∃ a', Acc Any (x' i) c' a') ∧
      Bad (fun c2 => V (c ++ c2)) (f a) (fun (j : ι × α) n => f' j.1 n j.2) s1) :
    Bad V (x >>= f) (fun i n => x' i n >>= f' i n) s := by
  refine Bad.bindR (fun _ _ => True) hm hx fun a s1 h => ?_
  obtain ⟨c, h1, h2, h3⟩ := hs a s1 h
  refine ⟨c, h1, fun i c' hr => ?_, h3.reindex (fun j => (j.1, j.2.1)) fun _ _ => rfl⟩
  obtain ⟨a', h4⟩ := h2 i c' hr
  exact ⟨a', trivial, h4⟩

end Verif
