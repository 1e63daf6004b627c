import Verif.Proofs.Relaid
import Verif.Proofs.RelaidText
import Verif.Props.Outcomes
import Mathlib.Data.Nat.Pairing

/-! Files with other layout: the tokenizer and the parser. -/

namespace Verif

open Spec

variable [Env] {ρ : Name → Name} {Λ : Nat → Nat → Prop}

/-! ### The tokenizer -/

def LexState.shift (k : Nat) (s : LexState) : LexState := ⟨s.rest, s.line + k⟩

def LexOut.shift (k : Nat) : LexOut → LexOut
  | .tok t s => .tok t (s.shift k)
  | .err e s => .err ⟨e.kind, e.lexeme, e.pos + k⟩ (s.shift k)
  | .panic x => .panic x

omit [Env] in
theorem skipLayout_shift (k : Nat) (r : Bytes) (n : Nat) (b : Bool) :
    skipLayout r (n + k) b = (skipLayout r n b).map (LexState.shift k) := by
  induction r generalizing n b with
  | nil => cases b <;> rfl
  | cons c cs ih =>
    cases b with
    | true =>
      unfold skipLayout
      split
      · rw [← ih, Nat.add_right_comm]
      · exact ih _ _
    | false =>
      unfold skipLayout
      split
      · exact ih _ _
      · split
        · split
          · rw [← ih, Nat.add_right_comm]
          · exact ih _ _
        · rfl

omit [Env] in
theorem orderingType_shift (k : Nat) (a b : Op) (peek : Bool) (s : LexState) :
    orderingType a b peek (s.shift k) = (orderingType a b peek s).shift k := by
  obtain ⟨r, n⟩ := s
  rcases r with _ | ⟨c, cs⟩
  · rfl
  · by_cases h : c = 61
    · subst h; cases peek <;> rfl
    · unfold orderingType LexState.shift
      split
      · rename_i h'; cases h'; exact absurd rfl h
      · rfl

omit [Env] in
theorem ite_shift {c : Prop} [Decidable c] {k : Nat} {a b a' b' : LexOut} (h1 : a' = a.shift k) (h2 : b' = b.shift k) :
    (if c then a' else b') = (if c then a else b).shift k := by
  subst h1 h2
  by_cases h : c
  · rw [if_pos h, if_pos h]
  · rw [if_neg h, if_neg h]

theorem getToken_shift (k : Nat) (r : Bytes) (n : Nat) : getToken ⟨r, n + k⟩ = (getToken ⟨r, n⟩).shift k := by
  unfold getToken lex
  simp only [skipLayout_shift k r n false]
  cases skipLayout r n false with
  | none => rfl
  | some s =>
    obtain ⟨r, n⟩ := s
    cases r with
    | nil => rfl
    | cons c cs =>
      have e := orderingType_shift k
      simp only [Option.map, LexState.shift, Bool.false_eq_true, if_false] at e ⊢
      refine ite_shift rfl (ite_shift rfl (ite_shift rfl (ite_shift ?_ (ite_shift ?_ (ite_shift rfl (ite_shift ?_
        (ite_shift ?_ (ite_shift ?_ ?_))))))))
      · exact e _ _ false ⟨cs, n⟩
      · exact e _ _ false ⟨cs, n⟩
      · cases peekLexeme cs <;> rfl
      · cases peekLexeme cs with
        | ok l r => dsimp only; cases colonWord l <;> rfl
        | _ => rfl
      · cases peekNumber (c :: cs) <;> rfl
      · cases peekLexeme (c :: cs) with
        | ok l r =>
          dsimp only
          cases plainWord l with
          | some t => rfl
          | none => dsimp only; split <;> rfl
        | _ => rfl

/-- The answers of the tokenizer in two files that correspond. -/
inductive SameOut (ρ : Name → Name) (Λ : Nat → Nat → Prop) : LexOut → LexOut → Prop
  | tok {t s s'} : Λ s.line s'.line → Relaid ρ Λ s.line s'.line s.rest s'.rest →
      SameOut ρ Λ (.tok t s) (.tok (rnToken ρ t) s')
  | err {k w p p' s s'} : Λ p p' → SameOut ρ Λ (.err ⟨k, w, p⟩ s) (.err ⟨k, w, p'⟩ s')
  | panic {x} : SameOut ρ Λ (.panic x) (.panic x)

theorem getToken_relaid {s s' : LexState} (h : Relaid ρ Λ s.line s'.line s.rest s'.rest) :
    SameOut ρ Λ (getToken s) (getToken s') := by
  obtain ⟨r, n⟩ := s
  obtain ⟨r', n'⟩ := s'
  dsimp only at h
  cases h with
  | done h1 h2 h3 =>
    rw [getToken_layout h1, getToken_layout h2]
    exact .tok (t := .eof) h3 (.done .nil .nil h3)
  | @token _ _ lay lay' t w w' r r' h1 h2 h3 h4 h5 h6 h7 h8 =>
    have h6' : Follows (rnToken ρ t) r' := by cases t <;> exact h6
    rw [getToken_written h1 h3 h5, getToken_written h2 h4 h6']
    exact .tok h7 h8
  | @same _ _ lay lay' r h0 h1 h2 h3 =>
    have i1 := lex_skip h1 false r n
    have i2 := lex_skip h2 false r n'
    have i3 := getToken_shift (n + newlines lay) r 0
    have i4 := getToken_shift (n' + newlines lay') r 0
    rw [Nat.zero_add] at i3 i4
    unfold getToken at i3 i4 ⊢
    rw [i1, i2, i3, i4]
    cases ho : lex false ⟨r, 0⟩ with
    | panic x => exact .panic
    | err e s =>
      obtain ⟨l, w, j1, j2, j3, j4, j5, _⟩ := lex_err_spec ho
      obtain ⟨k, x, p⟩ := e
      refine .err ?_
      dsimp only at j2 j4
      have := h3 p (by rw [j2, newlines_append]; omega)
      rwa [Nat.add_comm, Nat.add_comm (n' + _)] at this
    | tok t s =>
      obtain ⟨l, w, r1, j1, j2, j3, j4, j5, _⟩ := lex_tok_spec ho
      obtain ⟨r2, m⟩ := s
      dsimp only [Bool.false_eq_true, if_false] at j2 j4 j5
      simp only [Bool.false_eq_true, if_false] at j4
      subst j4
      have e : newlines r = m + newlines w + newlines r2 := by rw [j2, newlines_append, newlines_append]; omega
      have ht : rnToken ρ t = t := by cases t <;> simp [rnToken, h0]
      have key : SameOut ρ Λ (.tok t (LexState.shift (n + newlines lay) ⟨r2, m⟩))
          (.tok (rnToken ρ t) (LexState.shift (n' + newlines lay') ⟨r2, m⟩)) := by
        refine .tok ?_ (.same (lay := []) (lay' := []) h0 .nil .nil fun k hk => ?_)
        · have := h3 m (by omega)
          rwa [Nat.add_comm, Nat.add_comm (n' + _)] at this
        · have := h3 (m + k) (by omega)
          simp only [LexState.shift, newlines, List.count_nil, Nat.add_zero]
          rwa [Nat.add_comm m, Nat.add_comm m, Nat.add_assoc, Nat.add_assoc (n' + _)]
      rw [ht] at key
      exact key

theorem feeds_relaid {ts : List Tk} : ∀ {s s' : LexState}, Relaid ρ Λ s.line s'.line s.rest s'.rest → Feeds s ts →
    ∃ ts', Feeds s' ts' ∧ Laid ρ Λ ts ts' := by
  induction ts with
  | nil => exact fun _ _ => ⟨[], trivial, .nil⟩
  | cons x ts ih =>
    intro s s' h hf
    obtain ⟨t, l⟩ := x
    obtain ⟨s1, h1, rfl, h2⟩ := hf
    have h3 := getToken_relaid h
    rw [h1] at h3
    generalize ho : getToken s' = o at h3
    cases h3 with
    | @tok _ _ s1' h4 h5 =>
      obtain ⟨ts', i1, i2⟩ := ih h5 h2
      exact ⟨(_, s1'.line) :: ts', ⟨s1', ho, rfl, i1⟩, .cons ⟨rfl, h4⟩ i2⟩

theorem reads_relaid {ts : List Tk} {s s1 : LexState} (hr : Reads s ts s1) : ∀ {s' : LexState},
    Relaid ρ Λ s.line s'.line s.rest s'.rest →
    ∃ ts' s1', Reads s' ts' s1' ∧ Laid ρ Λ ts ts' ∧ Relaid ρ Λ s1.line s1'.line s1.rest s1'.rest := by
  induction hr with
  | nil => exact fun h => ⟨[], _, .nil, .nil, h⟩
  | @cons s s1 s2 t ts h1 _ ih =>
    intro s' h
    have h3 := getToken_relaid h
    rw [h1] at h3
    generalize ho : getToken s' = o at h3
    cases h3 with
    | @tok _ _ s1' h4 h5 =>
      obtain ⟨ts', s2', i1, i2, i3⟩ := ih h5
      exact ⟨(_, s1'.line) :: ts', s2', .cons ho i1, .cons ⟨rfl, h4⟩ i2, i3⟩

omit [Env] in
theorem Spec.Laid.same {ts ts' : List Tk} (h : Laid id Λ ts ts') : SameTokens ts ts' := by
  unfold SameTokens
  induction h with
  | nil => rfl
  | @cons a b _ _ h1 _ ih =>
    have : b.1 = a.1 := by rw [h1.1]; cases a.1 <;> rfl
    simp [this, ih]

/-! ### The parser -/

omit [Env] in
/-- Pairs of lines as lines. -/
theorem laid_pair {ts ts' : List Tk} (h : Laid ρ Λ ts ts') (hne : ts ≠ []) : ∃ (us : List Tk) (φ₁ φ₂ : Nat → Nat),
    (∀ l, Λ (φ₁ l) (φ₂ l)) ∧ ts = us.map (mvTk id φ₁) ∧ ts' = us.map (mvTk ρ φ₂) := by
  classical
  obtain ⟨l₀, l₀', h₀⟩ : ∃ l l', Λ l l' := by
    cases h with
    | nil => exact absurd rfl hne
    | cons h _ => exact ⟨_, _, h.2⟩
  let ok (l : Nat) : Prop := Λ l.unpair.1 l.unpair.2
  refine ⟨List.zipWith (fun t t' => (t.1, Nat.pair t.2 t'.2)) ts ts', fun l => if ok l then l.unpair.1 else l₀,
    fun l => if ok l then l.unpair.2 else l₀', fun l => ?_, ?_, ?_⟩
  · dsimp only
    split
    · assumption
    · exact h₀
  all_goals
    clear hne
    induction h with
    | nil => rfl
    | @cons a b _ _ h1 _ ih =>
      have hok : ok (Nat.pair a.2 b.2) := by simpa [ok] using h1.2
      have : rnToken id a.1 = a.1 := by cases a.1 <;> rfl
      simp only [List.zipWith_cons_cons, List.map_cons, mvTk, if_pos hok, Nat.unpair_pair, ← ih, this, ← h1.1]

theorem parses_relaid {f f' : Bytes} {a : AST} (h : Relaid ρ Λ 1 1 f f') (hp : Parses f a) : ∃ A φ₁ φ₂,
    (∀ l, Λ (φ₁ l) (φ₂ l)) ∧ a = mvAST id φ₁ A ∧ Parses f' (mvAST ρ φ₂ A) := by
  obtain ⟨ts, h1, h2⟩ := (C45_grammar f a).mp hp
  obtain ⟨ts', h3, h4⟩ := feeds_relaid (s := LexState.init f) (s' := LexState.init f') h h2
  have hne : ts ≠ [] := by cases h1 <;> simp
  obtain ⟨us, φ₁, φ₂, h5, rfl, rfl⟩ := laid_pair h4 hne
  have h6 : Renamed id (us.map (mvTk id φ₁)) us := by
    clear h1 h2 h3 h4 hne
    unfold Renamed
    induction us with
    | nil => exact .nil
    | cons u us ih =>
      refine .cons ?_ ih
      obtain ⟨t, l⟩ := u
      cases t <;> rfl
  obtain ⟨A, h7, _⟩ := fileText_rn h1 h6
  exact ⟨A, φ₁, φ₂, h5, hp.det ((C45_grammar f _).mpr ⟨_, fileText_mv h7, h2⟩),
    (C45_grammar f' _).mpr ⟨_, fileText_mv h7, h3⟩⟩

omit [Env] in
theorem Spec.Relaid.symm {n n' : Nat} {r r' : Bytes} (h : Relaid id Λ n n' r r') :
    Relaid id (fun l l' => Λ l' l) n' n r' r := by
  induction h with
  | done h1 h2 h3 => exact .done h2 h1 h3
  | same h1 h2 h3 h4 => exact .same h1 h3 h2 h4
  | @token n n' lay lay' t w w' r r' h1 h2 h3 h4 h5 h6 h7 _ ih =>
    have e : rnToken id t = t := by cases t <;> rfl
    exact .token h2 h1 (t := t) (by rwa [e] at h4) (by rwa [e]) h6 h5 h7 ih

theorem parses_back {f f' : Bytes} (h : Relaid id Λ 1 1 f f') (hp : ∀ a, ¬ Parses f a) (a : AST) : ¬ Parses f' a := by
  intro ha
  obtain ⟨A, φ₁, φ₂, _, _, h1⟩ := parses_relaid h.symm ha
  exact hp _ h1

omit [Env] in
theorem Spec.Laid.unappend {a b ts' : List Tk} (h : Laid ρ Λ (a ++ b) ts') :
    ∃ a' b', ts' = a' ++ b' ∧ Laid ρ Λ a a' ∧ Laid ρ Λ b b' := by
  induction a generalizing ts' with
  | nil => exact ⟨[], ts', rfl, .nil, h⟩
  | cons t a ih =>
    cases h with
    | cons h1 h2 =>
      obtain ⟨a', b', rfl, h3, h4⟩ := ih h2
      exact ⟨_ :: a', b', rfl, .cons h1 h3, h4⟩

omit [Env] in
theorem Spec.Laid.unsnoc {c ts' : List Tk} {t : Token} {l : Nat} (h : Laid id Λ (c ++ [(t, l)]) ts') :
    ∃ c' l', ts' = c' ++ [(t, l')] ∧ Laid id Λ c c' ∧ Λ l l' := by
  obtain ⟨c', b', rfl, h1, h2⟩ := h.unappend
  cases h2 with
  | @cons _ y _ _ h3 h4 =>
    cases h4
    obtain ⟨u, l'⟩ := y
    have : u = t := by
      have := h3.1
      dsimp only at this
      rw [this]; cases t <;> rfl
    subst this
    exact ⟨c', l', rfl, h1, h3.2⟩

omit [Env] in
theorem CanEnd.same {c c' : List Tk} (h : CanEnd c) (hs : SameTokens c c') : CanEnd c' := by
  obtain ⟨p, l, h1⟩ := h
  have h2 : Renamed id (c ++ [(.eof, l)]) (c' ++ [(.eof, l)]) :=
    renamed_iff_same.2 (by unfold SameTokens at hs ⊢; simp [hs])
  obtain ⟨a, h3, h4⟩ := fileText_rn h1 h2
  cases a with
  | domain d => simp [rnAST] at h4
  | problem p' => exact ⟨p', l, h3⟩

theorem unreadable_relaid {f f' : Bytes} {o : LexOut} (h : Relaid id Λ 1 1 f f') (hu : Unreadable f o) :
    ∃ o', Unreadable f' o' ∧ SameOut id Λ o o' := by
  obtain ⟨h1, c, s, h2, h3, rfl, h5⟩ := hu
  obtain ⟨c', s', i1, i2, i3⟩ := reads_relaid h2 (s' := LexState.init f') h
  have i4 := getToken_relaid i3
  refine ⟨getToken s', ⟨parses_back h h1, c', s', i1, h3.same i2.same, rfl, fun t s1 ht => ?_⟩, i4⟩
  generalize ho : getToken s = o at i4 h5
  rw [ht] at i4
  cases i4
  exact h5 _ _ rfl

theorem wrong_relaid {f f' : Bytes} {c : List Tk} {t : Token} {l : Nat} (h : Relaid id Λ 1 1 f f') (hw : FirstWrong f c t l) :
    ∃ c' l', FirstWrong f' c' t l' ∧ SameTokens c c' ∧ Λ l l' := by
  obtain ⟨h1, h2, h3⟩ := hw
  obtain ⟨ts', i1, i2⟩ := feeds_relaid (s' := LexState.init f') h h1
  obtain ⟨c', l', rfl, i3, i4⟩ := i2.unsnoc
  refine ⟨c', l', ⟨i1, h2.same i3.same, fun hs => h3 (hs.same ?_)⟩, i3.same, i4⟩
  have := i3.same
  unfold SameTokens at this ⊢
  simp [this]

/-- Two files that correspond are rejected alike by the parser. -/
theorem err_relaid {f f' : Bytes} {e : PErr} {n : Nat} (h : Relaid id Λ 1 1 f f') (he : parse n f = .err e) :
    ∃ e' N, (∀ n, N ≤ n → parse n f' = .err e') ∧ mvErr id (fun _ => 0) e' = mvErr id (fun _ => 0) e ∧
      List.Forall₂ Λ (PErr.lines e) (PErr.lines e') := by
  cases e with
  | semantic e => exact absurd (parse_err he) (by simp [ParserErr])
  | lexical e =>
    obtain ⟨s, h1⟩ := (C65_lexical_error f e).mp ⟨n, he⟩
    obtain ⟨o', h2, h3⟩ := unreadable_relaid h h1
    cases h3 with
    | @err k w p p' _ _ h4 =>
      obtain ⟨N, hN⟩ := (C65_lexical_error f' _).mpr ⟨_, h2⟩
      exact ⟨.lexical ⟨k, w, p'⟩, N, fun n hn => by rw [parse_fuel hn (by simp [hN]), hN], rfl, .cons h4 .nil⟩
  | syntactic e =>
    obtain ⟨c, t, h1, h2, h3, h4⟩ := C63_first_wrong_token n f e he
    obtain ⟨ts', i1, i2⟩ := feeds_relaid (s' := LexState.init f') h h1
    obtain ⟨c', l', rfl, i3, i4⟩ := i2.unsnoc
    obtain ⟨N, hN⟩ := h4 f' c' l' i3.same i1
    exact ⟨_, N, hN, rfl, .cons i4 .nil⟩

theorem panic_relaid {f f' : Bytes} {x : Panic} {n : Nat} (h : Relaid id Λ 1 1 f f') (he : parse n f = .panic x) :
    ∃ N, ∀ n, N ≤ n → parse n f' = .panic x := by
  have key : ∃ n, parse n f' = .panic x := by
    rw [C65_panic]
    rcases (C65_panic f x).mp ⟨n, he⟩ with h1 | ⟨rfl, c, t, l, h1, h2⟩
    · obtain ⟨o', h2, h3⟩ := unreadable_relaid h h1
      cases h3
      exact .inl h2
    · obtain ⟨c', l', h3, h4, _⟩ := wrong_relaid h h1
      exact .inr ⟨rfl, c', t, l', h3, h2.same h4⟩
  obtain ⟨N, hN⟩ := key
  exact ⟨N, fun n hn => by rw [parse_fuel hn (by simp [hN]), hN]⟩

/-! ### The answers -/

omit [Env] in
theorem mvErr_zero (e : PErr) (φ : Nat → Nat) (ρ : Name → Name) :
    mvErr id (fun _ => 0) (mvErr ρ φ e) = mvErr ρ (fun _ => 0) e := by
  cases e with
  | lexical e => rfl
  | syntactic e => obtain ⟨_, t, _⟩ := e; cases t <;> rfl
  | semantic e => cases e <;> simp [mvErr, mvSemErr, mvDup, mvUndef, mvArity, mvType]

omit [Env] in
theorem lines_mvErr (e : PErr) (φ : Nat → Nat) (ρ : Name → Name) : PErr.lines (mvErr ρ φ e) = (PErr.lines e).map φ := by
  cases e with
  | semantic e => cases e <;> rfl
  | _ => rfl

omit [Env] in
theorem forall₂_mv {α β γ : Type} {P : β → γ → Prop} {f : α → β} {g : α → γ} (h : ∀ a, P (f a) (g a)) (l : List α) :
    List.Forall₂ P (l.map f) (l.map g) := by
  induction l with
  | nil => exact .nil
  | cons a l ih => exact .cons (h a) ih

omit [Env] in
/-- Two ways of placing and naming one answer. -/
theorem sameAnswer_mv {Μ : Nat → Nat → Prop} {φ₁ φ₂ ψ₁ ψ₂ : Nat → Nat} (hφ : ∀ l, Λ (φ₁ l) (φ₂ l)) (hψ : ∀ l, Μ (ψ₁ l) (ψ₂ l))
    {r : R (List Warning)} (hr : r ≠ .timeout) :
    SameAnswer ρ Λ Μ (r.mv id ψ₁ (List.map (mvWarning id φ₁))) (r.mv ρ ψ₂ (List.map (mvWarning ρ φ₂))) := by
  cases r with
  | ok ws => exact .ok (forall₂_mv (fun w => ⟨rfl, hφ _⟩) ws)
  | err e =>
    refine .err ?_ ?_
    · rw [mvErr_zero]
      cases e with
      | lexical e => rfl
      | syntactic e => obtain ⟨_, t, _⟩ := e; cases t <;> rfl
      | semantic e => cases e <;> simp [mvErr, mvSemErr, mvDup, mvUndef, mvArity, mvType]
    · rw [lines_mvErr, lines_mvErr]
      exact forall₂_mv hψ _
  | panic x => exact .panic
  | timeout => exact absurd rfl hr

variable {ord : HashOrd} {f f' g g' : Bytes} {φ₁ φ₂ ψ₁ ψ₂ : Nat → Nat} {D : DomainAST} {P : ProblemAST}

omit [Env] in
theorem accepts_mv {φ : Nat → Nat} (hρ : Function.Injective ρ) {ws : List Warning} (h : Accepts ord D ws) :
    Accepts ord (mvDomain ρ φ D) (ws.map (mvWarning ρ φ)) ∧
      tableOf (ws.map (mvWarning ρ φ)) (mvDomain ρ φ D) = (tableOf ws D).mv ρ φ := by
  have e : tableOf (ws.map (mvWarning ρ φ)) (mvDomain ρ φ D) = (tableOf ws D).mv ρ φ := by
    simp only [tableOf, constantsOf, SymbolTable.mv, mvDomain, getD_mv, typeGraph_mv]
  obtain ⟨N, hN⟩ := h
  exact ⟨⟨N, fun n hn => by rw [e]; exact verifyDomain_mv hρ (hN n hn)⟩, e⟩

/-- The answers about two parsed domains that correspond. -/
theorem domain_relaid (hρ : Function.Injective ρ) (hφ : ∀ l, Λ (φ₁ l) (φ₂ l)) (hf : Parses f (.domain (mvDomain id φ₁ D)))
    (hf' : Parses f' (.domain (mvDomain ρ φ₂ D))) :
    (∃ ws, Accepts ord D ws ∧ Returns ord f none (.ok (ws.map (mvWarning id φ₁))) ∧
      Returns ord f' none (.ok (ws.map (mvWarning ρ φ₂)))) ∨
    ∃ r r', (∀ prob, Returns ord f prob r) ∧ (∀ prob, Returns ord f' prob r') ∧ SameAnswer ρ Λ Λ r r' ∧ ∀ ws, r ≠ .ok ws := by
  have h1 := checkDomain_mv (ord := ord) (d := D) (φ := φ₁) (ρ := id) Function.injective_id
  have h2 := checkDomain_mv (ord := ord) (d := D) (φ := φ₂) hρ
  rcases verifyDomain_eventually ord D with ⟨ws, _, hac⟩ | ⟨e, hc, _⟩ | ⟨x, hc, _⟩
  · refine .inl ⟨ws, hac, (returns_ok_none hf).mpr (accepts_mv Function.injective_id hac).1,
      (returns_ok_none hf').mpr (accepts_mv hρ hac).1⟩
  · rw [hc] at h1 h2
    exact .inr ⟨_, _, fun _ => returns_of_err hf h1, fun _ => returns_of_err hf' h2,
      sameAnswer_mv (r := .err e) hφ hφ (by simp), by simp⟩
  · rw [hc] at h1 h2
    exact .inr ⟨_, _, fun _ => returns_of_panic hf h1, fun _ => returns_of_panic hf' h2, .panic, by simp⟩

/-- The answers about two parsed problems that correspond, for domains that are accepted. -/
theorem problem_relaid {Μ : Nat → Nat → Prop} (hρ : Function.Injective ρ) (hφ : ∀ l, Λ (φ₁ l) (φ₂ l)) (hψ : ∀ l, Μ (ψ₁ l) (ψ₂ l))
    (hf : Parses f (.domain (mvDomain id φ₁ D))) (hf' : Parses f' (.domain (mvDomain ρ φ₂ D)))
    (hg : Parses g (.problem (mvProblem id ψ₁ P))) (hg' : Parses g' (.problem (mvProblem ρ ψ₂ P))) {ws : List Warning}
    (h : Accepts ord D ws) :
    ∃ r r', Returns ord f (some g) r ∧ Returns ord f' (some g') r' ∧ SameAnswer ρ Λ Μ r r' := by
  obtain ⟨h1, e1⟩ := accepts_mv (φ := φ₁) (ρ := id) Function.injective_id h
  obtain ⟨h2, e2⟩ := accepts_mv (φ := φ₂) hρ h
  have i1 := returns_of_accepts hf hg h1
  have i2 := returns_of_accepts hf' hg' h2
  rw [e1, verifyProblem_mv Function.injective_id] at i1
  rw [e2, verifyProblem_mv hρ] at i2
  exact ⟨_, _, i1, i2, sameAnswer_mv hφ hψ (verifyProblem_timeout _)⟩

end Verif
