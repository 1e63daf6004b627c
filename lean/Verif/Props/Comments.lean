import Verif.Spec.Comments
import Verif.Props.Cursor
import Verif.Props.Invariance

/-! C89: how deep the calls of the tokenizer are nested. -/

namespace Verif

open Spec

variable [Env]

omit [Env] in
theorem comment_body (l : Bytes) : ∀ (body pre : Bytes), 10 ∉ body →
    commentEnd (pre ++ (body ++ 10 :: l)) pre.length = some (pre ++ body).length
  | [], pre, _ => by rw [List.nil_append, comment_cons]; simp
  | b :: body, pre, h => by
    simp only [List.mem_cons, not_or] at h
    rw [List.cons_append, comment_cons_ne _ _ (Ne.symm h.1), comment_body l body _ h.2]
    simp

omit [Env] in
theorem comment_none (l : Bytes) : ∀ (pre : Bytes), 10 ∉ l → commentEnd (pre ++ l) pre.length = none := by
  induction l with
  | nil => intro pre _; exact comment_nil pre
  | cons b l ih =>
    intro pre h
    simp only [List.mem_cons, not_or] at h
    rw [comment_cons_ne _ _ (Ne.symm h.1), ih _ h.2]

omit [Env] in
theorem ite_ne {p : Prop} [Decidable p] {a b : CursorOut} (h : a ≠ .stuck) (h' : b ≠ .stuck) : (if p then a else b) ≠ .stuck := by
  split <;> assumption

omit [Env] in
theorem ordering_ne {prog : Bytes} {one two : Op} {peek : Bool} {c : Cursor} : orderingAt prog one two peek c ≠ .stuck := by
  unfold orderingAt
  intro h
  split at h <;> cases h

/-- A blank in front does not matter. -/
theorem parse_blank (chk peek : Bool) (n : Nat) (pre l : Bytes) (c : UInt8) (N : Nat) (hc : Blank c)
    (hn : chk = true → N + newlines (c :: l) < 2 ^ 32) :
    Cursor.parse chk (pre ++ c :: l) peek n ⟨pre.length, UInt32.ofNat N⟩ =
      Cursor.parse chk ((pre ++ [c]) ++ l) peek n ⟨(pre ++ [c]).length, UInt32.ofNat (N + newlines [c])⟩ := by
  cases n with
  | zero => rfl
  | succ n =>
    have hw := (isWs_iff c).2 hc
    have hs : Cursor.skip chk (pre ++ c :: l) ⟨pre.length, UInt32.ofNat N⟩ =
        Cursor.skip chk ((pre ++ [c]) ++ l) ⟨(pre ++ [c]).length, UInt32.ofNat (N + newlines [c])⟩ := by
      rw [skip_cons, if_neg (by simp [hw])]
      rw [newlines_cons] at hn
      by_cases h10 : c = 10
      · subst h10
        rw [if_pos rfl] at hn
        rw [if_pos rfl, if_neg, line_succ]
        · rfl
        · simp only [Bool.and_eq_true, beq_iff_eq, not_and]
          intro h
          exact line_max (by have := hn h; omega)
      · rw [if_neg h10]
        have e : newlines [c] = 0 := by rw [newlines_cons, if_neg h10]; rfl
        rw [e]; rfl
    rw [Cursor.parse, Cursor.parse, hs, snoc_eq pre c l]

/-- The calls for one token are nested exactly as deep as there are comments before it, plus one. -/
theorem parse_depth (chk peek : Bool) {k : Nat} {lay post : Bytes} (hl : LayoutWith k lay) (hp : NoLayout post) :
    ∀ (n N : Nat) (pre : Bytes), (chk = true → N + newlines (lay ++ post) < 2 ^ 32) →
    (Cursor.parse chk (pre ++ (lay ++ post)) peek n ⟨pre.length, UInt32.ofNat N⟩ ≠ .stuck ↔ k < n) := by
  induction hl with
  | nil =>
    intro n N pre _
    cases n with
    | zero => simp [Cursor.parse]
    | succ n =>
      simp only [Nat.zero_lt_succ, iff_true, List.nil_append]
      rw [Cursor.parse]
      cases post with
      | nil => rw [skip_nil]; simp
      | cons b r =>
        obtain ⟨h1, h2⟩ := hp b r rfl
        have hw : isWs b = false := by
          cases h : isWs b with
          | false => rfl
          | true => exact absurd ((isWs_iff b).1 h) h1
        rw [skip_cons, if_pos (by simp [hw])]
        dsimp only
        rw [if_neg (by simp), at_append]
        dsimp only
        by_cases h59 : b = 59
        · subst h59
          have e : commentEnd (pre ++ 59 :: r) (if peek = true then (⟨pre.length, UInt32.ofNat N⟩ : Cursor)
              else { pos := pre.length + 1, line := UInt32.ofNat N }).pos = none := by
            have := comment_none (59 :: r) pre (by simp [h2 rfl])
            cases peek with
            | true => simpa using this
            | false =>
              rw [comment_cons_ne _ _ (by decide)] at this
              simpa using this
          rw [e]
          simp
        · generalize (if peek = true then (⟨pre.length, UInt32.ofNat N⟩ : Cursor)
              else { pos := pre.length + 1, line := UInt32.ofNat N }) = d
          simp only [h59, if_false]
          repeat' first
            | exact ordering_ne
            | (intro h; cases h)
            | refine ite_ne ?_ ?_
            | split
  | @blank k l c hc _ ih =>
    intro n N pre hn
    rw [List.cons_append] at hn ⊢
    rw [parse_blank _ _ _ _ _ _ _ hc hn]
    refine ih n _ _ fun h => ?_
    have := hn h
    have e : newlines (c :: (l ++ post)) = newlines [c] + newlines (l ++ post) := newlines_append [c] _
    omega
  | @comment k l body hb _ ih =>
    intro n N pre hn
    cases n with
    | zero => simp [Cursor.parse]
    | succ n =>
      have e0 : (59 :: (body ++ 10 :: l) : Bytes) ++ post = (59 :: body) ++ 10 :: (l ++ post) := by simp
      have ez : newlines (59 :: body) = 0 := by
        rw [newlines_cons, if_neg (by decide)]
        simp [newlines, List.count_eq_zero, hb]
      rw [e0] at hn ⊢
      rw [newlines_append, ez, Nat.zero_add] at hn
      have e : commentEnd (pre ++ ((59 :: body) ++ 10 :: (l ++ post))) (if peek = true then (⟨pre.length, UInt32.ofNat N⟩ : Cursor)
          else { pos := pre.length + 1, line := UInt32.ofNat N }).pos = some (pre ++ 59 :: body).length := by
        cases peek with
        | true => exact comment_body _ (59 :: body) pre (by simp [hb])
        | false =>
          have := comment_body (l ++ post) body (pre ++ [59]) hb
          simpa using this
      have hs : Cursor.skip chk (pre ++ ((59 :: body) ++ 10 :: (l ++ post))) ⟨pre.length, UInt32.ofNat N⟩ =
          .ok ⟨pre.length, UInt32.ofNat N⟩ := by
        rw [List.cons_append, skip_cons, if_pos (by decide)]
      rw [Cursor.parse, hs]
      dsimp only
      rw [if_neg (by simp)]
      have ea : (pre ++ ((59 :: body) ++ 10 :: (l ++ post)))[pre.length]? = some 59 := by simp
      rw [ea, e]
      dsimp only
      simp (decide := true) only [if_false, if_true]
      have hcl : (if peek = true then (⟨pre.length, UInt32.ofNat N⟩ : Cursor)
          else { pos := pre.length + 1, line := UInt32.ofNat N }).line = UInt32.ofNat N := by split <;> rfl
      rw [hcl, ← List.append_assoc, parse_blank _ _ _ _ _ _ _ (by decide) hn]
      refine (ih n _ _ fun h => ?_).trans (by omega)
      have := hn h
      have e1 : newlines (10 :: (l ++ post)) = newlines [10] + newlines (l ++ post) := newlines_append [10] _
      omega

/-- C89: for a token, the calls of `parse` are nested exactly as deep as there are comments between the cursor and the
token, plus one, whatever was read before. -/
theorem C89_exact {checked : Bool} {file : Bytes} {c : Cursor} (hr : CursorReach checked file c)
    (hn : checked = true → 1 + newlines file < 2 ^ 32) {k : Nat} {done lay post : Bytes} (hf : file = done ++ (lay ++ post))
    (hc : c.pos = done.length) (hl : LayoutWith k lay) (hp : NoLayout post) (peek : Bool) (n : Nat) :
    Cursor.parse checked file peek n c ≠ .stuck ↔ k + 1 ≤ n := by
  obtain ⟨pre, l, rfl, rfl⟩ := hr.at
  obtain ⟨rfl, rfl⟩ := List.append_inj hf hc
  refine parse_depth checked peek hl hp n _ pre fun h => ?_
  have := hn h
  rw [newlines_append] at this
  omega

omit [Env] in
theorem layoutWith_split : ∀ (n : Nat) (l : Bytes), l.length < n → ∃ k lay post, l = lay ++ post ∧ LayoutWith k lay ∧ NoLayout post
  | 0, _, h => by omega
  | n + 1, l, h => by
    cases l with
    | nil => exact ⟨0, [], [], rfl, .nil, fun _ _ h => by cases h⟩
    | cons b l =>
      simp only [List.length_cons] at h
      by_cases hb : Blank b
      · obtain ⟨k, lay, post, rfl, h2, h3⟩ := layoutWith_split n l (by omega)
        exact ⟨k, b :: lay, post, rfl, .blank b hb h2, h3⟩
      · by_cases hc : b = 59 ∧ 10 ∈ l
        · obtain ⟨rfl, hc⟩ := hc
          obtain ⟨body, r, rfl, h10⟩ := List.eq_append_cons_of_mem hc
          simp only [List.length_append, List.length_cons] at h
          obtain ⟨k, lay, post, rfl, h2, h3⟩ := layoutWith_split n r (by omega)
          exact ⟨k + 1, 59 :: (body ++ 10 :: lay), post, by simp, .comment body h10 h2, h3⟩
        · refine ⟨0, [], b :: l, rfl, .nil, ?_⟩
          rintro _ _ ⟨⟩
          exact ⟨hb, fun h1 h2 => hc ⟨h1, h2⟩⟩

/-- C89: the number of calls is determined at every place of a file. -/
theorem C89_determined {checked : Bool} {file : Bytes} {c : Cursor} (hr : CursorReach checked file c)
    (hn : checked = true → 1 + newlines file < 2 ^ 32) :
    ∃ k done lay post, file = done ++ (lay ++ post) ∧ c.pos = done.length ∧ LayoutWith k lay ∧ NoLayout post ∧
      ∀ peek n, Cursor.parse checked file peek n c ≠ .stuck ↔ k + 1 ≤ n := by
  obtain ⟨pre, l, rfl, rfl⟩ := hr.at
  obtain ⟨k, lay, post, rfl, h2, h3⟩ := layoutWith_split _ l (Nat.lt_succ_self _)
  exact ⟨k, pre, lay, post, rfl, rfl, h2, h3, C89_exact hr hn rfl rfl h2 h3⟩

/-- C89: if there are never more than `k` comments in a row, no more than `k + 1` calls are nested. -/
theorem C89_bounded {checked : Bool} {file : Bytes} (hn : checked = true → 1 + newlines file < 2 ^ 32) {k : Nat}
    (hk : ∀ j done lay post, file = done ++ (lay ++ post) → LayoutWith j lay → j ≤ k) {c : Cursor}
    (hr : CursorReach checked file c) (peek : Bool) : Cursor.parse checked file peek (k + 1) c ≠ .stuck := by
  obtain ⟨j, done, lay, post, h1, _, h3, _, h5⟩ := C89_determined hr hn
  exact (h5 peek _).2 (by have := hk j done lay post h1 h3; omega)

/-- `k` empty comments. -/
def commentLines : Nat → Bytes
  | 0 => []
  | k + 1 => 59 :: 10 :: commentLines k

omit [Env] in
theorem commentLines_layout : ∀ k, LayoutWith k (commentLines k)
  | 0 => .nil
  | k + 1 => .comment [] (by simp) (commentLines_layout k)

omit [Env] in
theorem Spec.LayoutWith.layout {k : Nat} {l : Bytes} (h : LayoutWith k l) : Layout l := by
  induction h with
  | nil => exact .nil
  | blank c hc _ ih => exact .blank c _ hc ih
  | comment body hb _ ih => exact .comment body _ hb ih

omit [Env] in
theorem Spec.Layout.append {l l' : Bytes} (h : Layout l) (h' : Layout l') : Layout (l ++ l') := by
  induction h with
  | nil => exact h'
  | blank c l hc _ ih => exact .blank c _ hc ih
  | comment body l hb _ ih =>
    have e : (59 :: (body ++ 10 :: l) : Bytes) ++ l' = 59 :: (body ++ 10 :: (l ++ l')) := by simp
    rw [e]
    exact .comment body _ hb ih

omit [Env] in
/-- Layout in front of a text moves the lines. -/
theorem Spec.Written.shift {ts : List Tk} {n : Nat} {f : Bytes} (h : Written ts n f) (m : Nat) :
    Written (ts.map fun t => (t.1, t.2 + m)) (n + m) f := by
  induction h with
  | done hl => exact .done hl
  | @token t ts n lay w rest hl hs hf _ ih =>
    have e : n + newlines lay + m = n + m + newlines lay := by omega
    rw [e] at ih
    have := Written.token hl hs hf ih
    simpa [e] using this

omit [Env] in
theorem Spec.Written.prefix {ts : List Tk} {n : Nat} {f lay : Bytes} (hl : Layout lay) (h : Written ts (n + newlines lay) f) :
    Written ts n (lay ++ f) := by
  generalize hm : n + newlines lay = m at h
  cases h with
  | done h => exact .done (hl.append h)
  | @token t ts _ lay' w rest h hs hf h' =>
    subst hm
    have e : n + newlines lay + newlines lay' = n + newlines (lay ++ lay') := by rw [newlines_append]; omega
    rw [e] at h' ⊢
    rw [← List.append_assoc]
    exact .token (hl.append h) hs hf h'

omit [Env] in
theorem sameText_prefix {ts : List Tk} {f lay : Bytes} (hl : Layout lay) (h : Written ts 1 f) : SameText id f (lay ++ f) := by
  refine ⟨ts, _, h, (h.shift (newlines lay)).prefix hl, ?_⟩
  clear h
  induction ts with
  | nil => exact .nil
  | cons t ts ih => exact .cons (by cases t with | mk t l => cases t <;> rfl) ih

/-- C89: there is no bound.  Comments in front of a file that is accepted do not change the verdict, and they all are
skipped by nested calls when the first token is read. -/
theorem C89_unbounded {ord : HashOrd} {f : Bytes} {ts : List Tk} (hw : Written ts 1 f) (hb : NoLayout f)
    (ha : ∃ ws, Returns ord f none (.ok ws)) (k : Nat) :
    (commentLines k ++ f).length = 2 * k + f.length ∧ (∃ ws, Returns ord (commentLines k ++ f) none (.ok ws)) ∧
    ∀ n, Cursor.parse false (commentLines k ++ f) false n .new ≠ .stuck ↔ k + 1 ≤ n := by
  refine ⟨?_, (C59_domain Function.injective_id (sameText_prefix (commentLines_layout k).layout hw)).1 ha,
    C89_exact .init (by simp) (done := []) rfl rfl (commentLines_layout k) hb false⟩
  rw [List.length_append]
  congr 1
  induction k with
  | zero => rfl
  | succ k ih => simp only [commentLines, List.length_cons, ih]; omega

/-- A file to which C89_unbounded applies. -/
example : (∃ ts, Written ts 1 b!"(define (domain d))\n") ∧ NoLayout b!"(define (domain d))\n" ∧
    @Returns Env.plain HashOrd.id b!"(define (domain d))\n" none (.ok []) := by
  refine ⟨?_, ?_, @returns_run Env.plain _ _ _ 40 _ (by decide +kernel) (by simp)⟩
  · obtain ⟨ts, hs⟩ : ∃ ts, scan 60 1 b!"(define (domain d))\n" = some ts := ⟨_, rfl⟩
    exact ⟨ts, scan_written hs⟩
  · rintro b r ⟨⟩
    decide

/-- Three comments before the second token: four calls. -/
example (n : Nat) : Cursor.parse false b!"( ; a\n;\n ;b ; c\n define\n" false n ⟨1, 1⟩ ≠ .stuck ↔ 4 ≤ n := by
  refine parse_depth false false (k := 3) (lay := b!" ; a\n;\n ;b ; c\n ") (post := b!"define\n") ?_ ?_ n 1 [40] (by simp)
  · exact .blank _ (by decide) (.comment b!" a" (by decide) (.comment [] (by decide) (.blank _ (by decide)
      (.comment b!"b ; c" (by decide) (.blank _ (by decide) .nil)))))
  · rintro b r ⟨⟩
    decide

end Verif
