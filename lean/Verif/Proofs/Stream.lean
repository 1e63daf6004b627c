import Verif.Proofs.Reads
import Verif.Model.Parser
import Verif.Spec.Grammar

/-! Token streams and parser actions. -/

namespace Verif

open Spec

/-! ### The parser monad -/

theorem P.bind_ok {α β} {x : P α} {f : α → P β} {s : LexState} {r : β × LexState} :
    (x >>= f) s = .ok r ↔ ∃ a s1, x s = .ok (a, s1) ∧ f a s1 = .ok r := by
  show P.bind' x f s = .ok r ↔ _
  unfold P.bind'
  cases h : x s with
  | ok p => obtain ⟨a, s1⟩ := p; simp
  | err e => simp
  | panic p => simp
  | timeout => simp

theorem P.pure_ok {α} {a : α} {s : LexState} {r : α × LexState} : (pure a : P α) s = .ok r ↔ r = (a, s) := by
  show P.pure' a s = .ok r ↔ _
  unfold P.pure'
  constructor
  · intro h; cases h; rfl
  · rintro rfl; rfl

theorem P.timeout_ok {α} {s : LexState} {r : α × LexState} : (P.timeout : P α) s = .ok r ↔ False := by simp [P.timeout]

theorem P.panic_ok {α} {p} {s : LexState} {r : α × LexState} : (P.panic p : P α) s = .ok r ↔ False := by simp [P.panic]

theorem P.bind_run {α β} {x : P α} {f : α → P β} {s s1 : LexState} {a : α} (h : x s = .ok (a, s1)) :
    (x >>= f) s = f a s1 := by
  show P.bind' x f s = _
  unfold P.bind'
  rw [h]

theorem P.pure_run {α} {a : α} {s : LexState} : (pure a : P α) s = .ok (a, s) := rfl

variable [Env]

theorem getTok_ok {s s' : LexState} {t : Token} : getTok s = .ok (t, s') ↔ getToken s = .tok t s' := by
  unfold getTok
  cases getToken s <;> simp

theorem peekTok_ok {s s' : LexState} {t : Token} : peekTok s = .ok (t, s') ↔ lookahead s = .tok t s' := by
  unfold peekTok
  cases lookahead s <;> simp

omit [Env] in
theorem getPos_ok {s : LexState} {r : Nat × LexState} : getPos s = .ok r ↔ s.line = r.1 ∧ s = r.2 := by
  unfold getPos
  constructor
  · intro h; cases h; exact ⟨rfl, rfl⟩
  · rintro ⟨h1, h2⟩; rw [h1, h2]

omit [Env] in
theorem synErr_ok {α} {m t} {s : LexState} {r : α × LexState} : (synErr m t : P α) s = .ok r ↔ False := by simp [synErr]

theorem expectTok_ok {t : Token} {m : Text} {s : LexState} {r : Unit × LexState} :
    expectTok t m s = .ok r ↔ getToken s = .tok t r.2 := by
  unfold expectTok
  rw [P.bind_ok]
  constructor
  · rintro ⟨a, s1, h1, h2⟩
    split at h2
    · rename_i hc
      subst hc
      rw [P.pure_ok] at h2
      subst h2
      exact getTok_ok.1 h1
    · exact absurd h2 (by simp [synErr])
  · intro h
    exact ⟨t, r.2, getTok_ok.2 h, by simp [P.pure_ok]⟩

theorem expectIdent_ok {m : Text} {s : LexState} {x : Name} {s' : LexState} :
    expectIdent m s = .ok (x, s') ↔ getToken s = .tok (.ident x) s' := by
  unfold expectIdent
  rw [P.bind_ok]
  constructor
  · rintro ⟨a, s1, h1, h2⟩
    split at h2
    · rw [P.pure_ok] at h2
      cases h2
      exact getTok_ok.1 h1
    · exact absurd h2 (by simp [synErr])
  · intro h
    exact ⟨_, s', getTok_ok.2 h, by simp [P.pure_ok]⟩

/-! ### Streams -/

/-- `Steps s ts s'`: reading from `s`, with peeks in between, yields the tokens `ts` and leads to `s'`. -/
inductive Steps : LexState → List Tk → LexState → Prop
  | nil {s} : Steps s [] s
  | tok {s s1 s2 t ts} : getToken s = .tok t s1 → Steps s1 ts s2 → Steps s ((t, s1.line) :: ts) s2
  | peek {s s1 s2 t ts} : lookahead s = .tok t s1 → Steps s1 ts s2 → Steps s ts s2

theorem Steps.append {s s1 s2 : LexState} {a b : List Tk} (h : Steps s a s1) (h' : Steps s1 b s2) :
    Steps s (a ++ b) s2 := by
  induction h with
  | nil => exact h'
  | tok h1 _ ih => exact .tok h1 (ih h')
  | peek h1 _ ih => exact .peek h1 (ih h')

theorem Steps.one {s s' : LexState} {t : Token} (h : getToken s = .tok t s') : Steps s [(t, s'.line)] s' := .tok h .nil

/-- `Feeds s ts`: the tokens read from `s` start with `ts`. -/
def Feeds : LexState → List Tk → Prop
  | _, [] => True
  | s, (t, l) :: ts => ∃ s1, getToken s = .tok t s1 ∧ s1.line = l ∧ Feeds s1 ts

theorem Feeds.peek {s s1 : LexState} {t : Token} {ts : List Tk} (h : lookahead s = .tok t s1) :
    Feeds s1 ts ↔ Feeds s ts := by
  cases ts with
  | nil => exact Iff.rfl
  | cons x ts =>
    obtain ⟨t', l⟩ := x
    unfold Feeds
    have : getToken s1 = getToken s := lex_peek_state (.inl ⟨_, h⟩) false
    rw [this]

theorem Steps.feeds {s s1 : LexState} {a : List Tk} (h : Steps s a s1) : ∀ {b}, Feeds s1 b → Feeds s (a ++ b) := by
  induction h with
  | nil => exact fun h => h
  | tok h1 _ ih => exact fun h => ⟨_, h1, rfl, ih h⟩
  | peek h1 _ ih => exact fun h => (Feeds.peek h1).1 (ih h)

theorem Steps.feeds' {s s1 : LexState} {a : List Tk} (h : Steps s a s1) : Feeds s a := by
  have := h.feeds (b := []) trivial
  simpa using this

theorem Reads.feeds {s s1 : LexState} {a : List Tk} (h : Reads s a s1) : Feeds s a := by
  induction h with
  | nil => exact trivial
  | cons h1 _ ih => exact ⟨_, h1, rfl, ih⟩

theorem Feeds.append {s : LexState} {a b : List Tk} (h : Feeds s (a ++ b)) : Feeds s a := by
  induction a generalizing s with
  | nil => exact trivial
  | cons x a ih =>
    obtain ⟨t, l⟩ := x
    obtain ⟨s1, h1, h2, h3⟩ := h
    exact ⟨s1, h1, h2, ih h3⟩

/-- A token that can be read can be peeked, up to the confusion about `<=` and `>=`. -/
theorem lookahead_of_get {s s1 : LexState} {t : Token} (h : getToken s = .tok t s1) (hle : t ≠ .op .le)
    (hge : t ≠ .op .ge) : ∃ s2, lookahead s = .tok t s2 := by
  obtain ⟨h1, h2, h3⟩ := lex_peek_get s
  unfold getToken at h
  unfold lookahead
  cases hl : lex true s with
  | tok t' s2 =>
    rcases h1 t' s2 hl with ⟨s3, h4⟩ | ⟨lay, r, s3, _, ⟨_, _, h4⟩ | ⟨_, _, h4⟩⟩
    · rw [h] at h4; cases h4; exact ⟨_, rfl⟩
    · rw [h] at h4; cases h4; exact absurd rfl hle
    · rw [h] at h4; cases h4; exact absurd rfl hge
  | err e s2 =>
    obtain ⟨s3, h4⟩ := h2 e s2 hl
    rw [h] at h4; cases h4
  | panic p =>
    have := h3 p hl
    rw [h] at this; cases this

/-- A peeked token, other than `<` and `>`, is the next token. -/
theorem get_of_lookahead {s s1 : LexState} {t : Token} (h : lookahead s = .tok t s1) (hlt : t ≠ .op .lt)
    (hgt : t ≠ .op .gt) : ∃ s2, getToken s = .tok t s2 := by
  obtain ⟨h1, _, _⟩ := lex_peek_get s
  rcases h1 t s1 h with h | ⟨lay, r, s3, _, ⟨_, ht, _⟩ | ⟨_, ht, _⟩⟩
  · exact h
  · exact absurd ht hlt
  · exact absurd ht hgt

end Verif
