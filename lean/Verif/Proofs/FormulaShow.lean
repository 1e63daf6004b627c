import Verif.Model.FormulaShow
import Verif.Proofs.StackFiles
import Verif.Proofs.Messages

/-! How long the text of a formula is and how much is written to build it. -/

namespace Verif

open Spec

namespace Fmt

theorem bytes_append (x y : Fmt) : (x ++ y).bytes = x.bytes ++ y.bytes := rfl
theorem work_append (x y : Fmt) : (x ++ y).work = x.work + y.work := rfl
theorem bytes_lit (b : Bytes) : (lit b).bytes = b := rfl
theorem work_lit (b : Bytes) : (lit b).work = b.length := rfl
theorem bytes_copied (x : Fmt) : x.copied.bytes = x.bytes := rfl
theorem work_copied (x : Fmt) : x.copied.work = x.work + x.bytes.length := rfl

theorem glue_upper (sep : Bytes) : ∀ l : List Bytes, (glue sep l).length ≤ (l.map fun b => b.length + sep.length).sum
  | [] => Nat.le_refl _
  | [x] => by simp [glue]
  | x :: y :: xs => by
    have := glue_upper sep (y :: xs)
    rw [glue, List.map_cons, List.sum_cons, List.length_append, List.length_append]
    omega

theorem glue_lower (sep : Bytes) : ∀ l : List Bytes, (l.map List.length).sum ≤ (glue sep l).length
  | [] => Nat.le_refl _
  | [x] => by simp [glue]
  | x :: y :: xs => by
    have := glue_lower sep (y :: xs)
    rw [glue, List.map_cons, List.sum_cons, List.length_append, List.length_append]
    omega

end Fmt

/-! ### Work and length -/

theorem vars_work (vs : List Symbol) : (varsText vs).copied.work ≤ 3 * (varsText vs).bytes.length := by
  have h := Fmt.glue_lower [44, 32] ((vs.map fun v => Fmt.lit v.name).map Fmt.bytes)
  have h' : ((vs.map fun v => Fmt.lit v.name).map Fmt.work) =
      (((vs.map fun v => Fmt.lit v.name).map Fmt.bytes).map List.length) := by simp [Fmt.lit]
  rw [Fmt.work_copied]
  unfold varsText
  simp only [Fmt.join]
  rw [h']
  omega

/-- `join` and the following copy. -/
theorem join_work {sep : Bytes} {l : List Fmt} {c : Nat} (h : ∀ x ∈ l, x.work ≤ c * x.bytes.length) :
    (Fmt.join sep l).copied.work ≤ (c + 2) * (Fmt.join sep l).bytes.length := by
  have h1 : (l.map Fmt.work).sum ≤ c * ((l.map Fmt.bytes).map List.length).sum := by
    clear sep
    induction l with
    | nil => simp
    | cons x l ih =>
      have := ih fun y hy => h y (List.mem_cons_of_mem _ hy)
      have := h x List.mem_cons_self
      simp only [List.map_cons, List.sum_cons, Nat.mul_add]
      omega
  have h2 := Nat.mul_le_mul_left c (Fmt.glue_lower sep (l.map Fmt.bytes))
  rw [Fmt.work_copied]
  simp only [Fmt.join, Nat.add_mul]
  omega

theorem mono_work {x : Fmt} {a b : Nat} (h : x.work ≤ (2 * a + 2) * x.bytes.length) (hab : a ≤ b) :
    x.work ≤ (2 * b + 2) * x.bytes.length := h.trans (Nat.mul_le_mul_right _ (by omega))

/-- A text in parentheses. -/
theorem paren_work {x : Fmt} {c : Nat} (h : x.work ≤ (c + 2) * x.bytes.length) (a b : Bytes) :
    (Fmt.lit a ++ x ++ Fmt.lit b).work ≤ (c + 2) * (Fmt.lit a ++ x ++ Fmt.lit b).bytes.length := by
  simp only [Fmt.work_append, Fmt.bytes_append, Fmt.work_lit, Fmt.bytes_lit, List.length_append, Nat.mul_add]
  have h1 : a.length ≤ (c + 2) * a.length := Nat.le_mul_of_pos_left _ (by omega)
  have h2 : b.length ≤ (c + 2) * b.length := Nat.le_mul_of_pos_left _ (by omega)
  omega

theorem quant_work {x : Fmt} {c : Nat} (h : x.work ≤ (c + 3) * x.bytes.length) (vs : List Symbol) (a b : Bytes) :
    (Fmt.lit a ++ (varsText vs).copied ++ Fmt.lit b ++ x).work ≤
      (c + 3) * (Fmt.lit a ++ (varsText vs).copied ++ Fmt.lit b ++ x).bytes.length := by
  simp only [Fmt.work_append, Fmt.bytes_append, Fmt.work_lit, Fmt.bytes_lit, Fmt.bytes_copied, List.length_append, Nat.mul_add]
  have h1 : a.length ≤ (c + 3) * a.length := Nat.le_mul_of_pos_left _ (by omega)
  have h2 : b.length ≤ (c + 3) * b.length := Nat.le_mul_of_pos_left _ (by omega)
  have h3 := vars_work vs
  have h4 : 3 * (varsText vs).bytes.length ≤ (c + 3) * (varsText vs).bytes.length := Nat.mul_le_mul_right _ (by omega)
  omega

theorem list_work {sep a b : Bytes} {l : List Fmt} {h : Nat} (hl : ∀ x ∈ l, ∃ k, k + 1 ≤ h ∧ x.work ≤ (2 * k + 2) * x.bytes.length) :
    (Fmt.lit a ++ (Fmt.join sep l).copied ++ Fmt.lit b).work ≤
      (2 * h + 2) * (Fmt.lit a ++ (Fmt.join sep l).copied ++ Fmt.lit b).bytes.length := by
  refine paren_work ?_ a b
  exact join_work (c := 2 * h) fun x hx => by
    obtain ⟨k, h1, h2⟩ := hl x hx
    exact h2.trans (Nat.mul_le_mul_right _ (by omega))

variable [Env]

mutual

/-- Every level of a formula copies its text at most twice. -/
theorem fmt_work : ∀ f : Formula, f.fmt.work ≤ (2 * height f + 2) * f.fmt.bytes.length
  | .empty => by simp [Formula.fmt, Fmt.lit, height]
  | .atom p => by simp only [Formula.fmt, Fmt.work_copied, Fmt.bytes_copied, Fmt.work_lit, Fmt.bytes_lit, height]; omega
  | .not f => by
    rw [Formula.fmt]
    exact paren_work (mono_work (fmt_work f) (Nat.le_succ _)) _ _
  | .and fs => by
    rw [Formula.fmt]
    exact list_work (h := heightOver fs) (fmts_work fs)
  | .or fs => by
    rw [Formula.fmt]
    exact list_work (h := heightOver fs) (fmts_work fs)
  | .xor fs => by
    rw [Formula.fmt]
    exact list_work (h := heightOver fs) (fmts_work fs)
  | .imply ps qs => by
    rw [Formula.fmt, height]
    have h1 := list_work (sep := andSep) (a := [40]) (b := [41, 32, 0xE2, 0x87, 0x92, 32, 40]) (fmts_work ps)
    have h2 := list_work (sep := andSep) (a := []) (b := [41]) (fmts_work qs)
    have h3 := mono_work h1 (Nat.le_max_left _ (heightOver qs))
    have h4 := mono_work h2 (Nat.le_max_right (heightOver ps) _)
    simp only [Fmt.work_append, Fmt.bytes_append, Fmt.work_lit, Fmt.bytes_lit, List.length_append, Nat.mul_add] at h3 h4 ⊢
    simp only [List.length_nil] at h4
    omega
  | .exists_ vs f => by
    rw [Formula.fmt]
    have := mono_work (fmt_work f) (Nat.le_succ _)
    exact quant_work (c := 2 * height f + 1) this _ _ _
  | .forall_ vs f => by
    rw [Formula.fmt]
    have := mono_work (fmt_work f) (Nat.le_succ _)
    exact quant_work (c := 2 * height f + 1) this _ _ _
  | .weighted w f => by
    rw [Formula.fmt]
    have h := fmt_work f
    have h1 := paren_work (c := 2 * height f) (x := Fmt.lit w.show.bytes) (by
      rw [Fmt.work_lit, Fmt.bytes_lit]; exact Nat.le_mul_of_pos_left _ (by omega)) b!"weight: " b!", formula: "
    rw [Fmt.work_append, Fmt.bytes_append, List.length_append, Nat.mul_add, height]
    exact Nat.add_le_add h1 h
  | .equals a b => by
    rw [Formula.fmt]
    simp only [Fmt.work_append, Fmt.bytes_append, Fmt.work_lit, Fmt.bytes_lit, List.length_append, height]
    omega

theorem fmts_work : ∀ fs : List Formula, ∀ x ∈ Formula.fmts fs, ∃ k, k + 1 ≤ heightOver fs ∧
    x.work ≤ (2 * k + 2) * x.bytes.length
  | [], _, hx => nomatch hx
  | f :: fs, x, hx => by
    rw [Formula.fmts, List.mem_cons] at hx
    rw [heightOver]
    rcases hx with rfl | hx
    · exact ⟨height f, Nat.le_max_left _ _, fmt_work f⟩
    · obtain ⟨k, h1, h2⟩ := fmts_work fs x hx
      exact ⟨k, h1.trans (Nat.le_max_right _ _), h2⟩

end

/-! ### Length of the text and of the file -/

omit [Env] in
theorem decimal_length : ∀ (n k : Nat), n < 10 ^ (k + 1) → (Verif.decimal n).length ≤ k + 1
  | n, 0, h => by
    unfold Verif.decimal
    rw [if_pos (by simpa using h)]
    simp
  | n, k + 1, h => by
    unfold Verif.decimal
    split
    · simp
    · have := decimal_length (n / 10) k (by rw [Nat.div_lt_iff_lt_mul (by omega), ← Nat.pow_succ]; exact h)
      simp only [List.length_append, List.length_cons, List.length_nil]
      omega

omit [Env] in
theorem spelled_lt : ∀ w : Bytes, (∀ c ∈ w, Digit c) → Spec.decimal w < 10 ^ w.length
  | [], _ => by simp [Spec.decimal]
  | c :: w, h => by
    have ih := spelled_lt w fun x hx => h x (List.mem_cons_of_mem _ hx)
    have hc : Digit c := h c List.mem_cons_self
    have hc : c.toNat - 48 ≤ 9 := by
      have h2 : c ≤ 57 := hc.2
      have : c.toNat ≤ 57 := h2
      omega
    rw [Spec.decimal, List.length_cons, Nat.pow_succ]
    have := Nat.mul_le_mul_right (10 ^ w.length) hc
    omega

/-- A lower bound for the number of bytes of a token. -/
def tokBytes : Token → Nat
  | .ident x => max 1 x.length
  | .num w => max 1 w.show.bytes.length
  | .eof => 0
  | _ => 1

def toksBytes (ts : List Tk) : Nat := (ts.map fun x => tokBytes x.1).sum

theorem toksBytes_cons (x : Tk) (ts : List Tk) : toksBytes (x :: ts) = tokBytes x.1 + toksBytes ts := rfl

theorem toksBytes_append (a b : List Tk) : toksBytes (a ++ b) = toksBytes a + toksBytes b := by
  unfold toksBytes
  rw [List.map_append, List.sum_append]

theorem toksBytes_nil : toksBytes [] = 0 := rfl

/-- The printed form of a number with a fraction is not longer than the way it is written. -/
def ShortReals (_ : Env) : Prop := ∀ w u : Bytes, w ≠ [] → (∀ c ∈ w, Digit c) → (∀ c ∈ u, Digit c) →
  (keyBytes (Env.showReal (w ++ 46 :: u))).length ≤ (w ++ 46 :: u).length

theorem tok_bytes (hr : ShortReals ‹_›) {t : Token} {w : Bytes} (h : TextOf t w) (hw : w ≠ []) : tokBytes t ≤ w.length := by
  have h1 : 1 ≤ w.length := List.length_pos_iff.mpr hw
  cases h with
  | eof => exact absurd rfl hw
  | variable_ _ => simp only [tokBytes, List.length_cons] at *; omega
  | name _ _ => simp only [tokBytes]; omega
  | spells h =>
    cases h with
    | variable_ _ => simp only [tokBytes, List.length_cons] at *; omega
    | name _ => simp only [tokBytes]; omega
    | int h2 h3 h4 =>
      obtain ⟨k, hk⟩ : ∃ k, w.length = k + 1 := ⟨w.length - 1, by omega⟩
      have := decimal_length (Spec.decimal w) k (by rw [← hk]; exact spelled_lt w h3)
      simp only [tokBytes, Num.show, Piece.bytes]
      omega
    | real h2 h3 h4 =>
      simp only [tokBytes, Num.show, Piece.bytes]
      exact Nat.max_le.mpr ⟨h1, hr _ _ h2 h3 h4⟩
    | colon h =>
      have : ∀ p ∈ colonTable, tokBytes p.2 = 1 := by simp [colonTable, tokBytes]
      rw [this _ h]
      exact h1
    | plain h =>
      have : ∀ p ∈ plainTable, tokBytes p.2 = 1 := by simp [plainTable, tokBytes]
      rw [this _ h]
      exact h1
    | _ => simp [tokBytes]

/-- Tokens of a file are written next to each other, except that the tokenizer may return empty names at the end. -/
theorem feeds_bytes (hr : ShortReals ‹_›) : ∀ {ts : List Tk} {s : LexState}, Feeds s ts →
    toksBytes ts ≤ s.rest.length ∨ ∃ l, ts.getLast? = some (.ident [], l)
  | [], _, _ => .inl (Nat.zero_le _)
  | (t, l) :: ts, s, ⟨s1, h1, hl, h2⟩ => by
    have ih := feeds_bytes hr h2
    obtain ⟨lay, w, r, hlay, hrest, htext, hs, hline, he, hw⟩ := lex_tok_spec h1
    simp only [Bool.false_eq_true, if_false] at hs
    have last : (∃ l, ts.getLast? = some (Token.ident [], l)) → ∃ l', ((t, l) :: ts).getLast? = some (Token.ident [], l') := by
      rintro ⟨l', h⟩
      cases ts with
      | nil => cases h
      | cons y ts => exact ⟨l', by rw [List.getLast?_cons_cons]; exact h⟩
    by_cases hw0 : w = []
    · subst hw0
      by_cases ht : t = .eof
      · subst ht
        rcases ih with ih | ih
        · left
          rw [toksBytes_cons, hrest, List.length_append, List.length_append]
          rw [hs] at ih
          simp only [tokBytes]
          omega
        · exact .inr (last ih)
      · right
        obtain ⟨rfl, c, rfl, _, _⟩ := hw rfl ht
        -- the tokenizer is stuck
        have hstuck : getToken s1 = .tok (.ident []) s1 := by
          obtain ⟨r1, n1⟩ := s1
          obtain ⟨r0, n0⟩ := s
          simp only at hs hline hrest
          subst hs hline hrest
          have := h1
          unfold getToken at this ⊢
          rw [List.nil_append, lex_skip hlay] at this
          exact this
        have all : ∀ {us : List Tk}, Feeds s1 us → ∀ x ∈ us, x.1 = .ident [] := by
          intro us
          induction us with
          | nil => intro _ x hx; cases hx
          | cons y us ihu =>
            obtain ⟨t2, l2⟩ := y
            rintro ⟨s2, g1, g2, g3⟩ x hx
            rw [hstuck] at g1
            cases g1
            rcases List.mem_cons.mp hx with rfl | hx
            · rfl
            · exact ihu g3 x hx
        cases hts : ts.getLast? with
        | none =>
          rw [List.getLast?_eq_none_iff] at hts
          subst hts
          exact ⟨l, rfl⟩
        | some y =>
          refine last ⟨y.2, ?_⟩
          rw [hts, ← all h2 y (List.mem_of_getLast? hts)]
    · rcases ih with ih | ih
      · left
        have := tok_bytes hr htext hw0
        rw [toksBytes_cons, hrest, List.length_append, List.length_append]
        rw [hs] at ih
        simp only
        omega
      · exact .inr (last ih)

theorem items_bytes {ts : List Tk} (h : Items ts) : ((symbolsOf ts).map fun v => max 1 v.name.length).sum ≤ toksBytes ts := by
  induction h with
  | nil => exact Nat.zero_le _
  | name _ ih => simp only [symbolsOf, List.map_cons, List.sum_cons, toksBytes_cons, tokBytes]; omega
  | type _ ih => simp only [symbolsOf, toksBytes_cons, tokBytes]; omega

theorem typed_bytes {ss : List Symbol} {ts : List Tk} (h : TypedList ss ts) :
    (ss.map fun v => max 1 v.name.length).sum ≤ toksBytes ts := by
  rw [h.2]; exact items_bytes h.1

omit [Env] in
theorem vars_bytes (vs : List Symbol) : (varsText vs).bytes.length ≤ 3 * (vs.map fun v => max 1 v.name.length).sum := by
  refine (Fmt.glue_upper _ _).trans ?_
  induction vs with
  | nil => simp
  | cons v vs ih =>
    simp only [List.map_cons, List.sum_cons, Fmt.lit, List.length_cons, List.length_nil] at ih ⊢
    omega

omit [Env] in
theorem pred_bytes (p : Predicate) :
    p.text.length ≤ p.name.length + 2 + 2 * (p.vars.map fun v => max 1 v.name.length).sum := by
  obtain ⟨n, _, vs⟩ := p
  simp only [Predicate.text, List.length_append, List.length_cons, List.length_nil]
  have : (vs.flatMap fun v => v.name ++ [44]).length ≤ 2 * (vs.map fun v => max 1 v.name.length).sum := by
    induction vs with
    | nil => simp
    | cons v vs ih =>
      simp only [List.flatMap_cons, List.length_append, List.map_cons, List.sum_cons, List.length_cons, List.length_nil]
      omega
  omega

theorem join_bytes (sep : Bytes) (fs : List Formula) (h5 : sep.length = 5) :
    (Fmt.join sep (Formula.fmts fs)).bytes.length ≤ (fs.map fun f => f.fmt.bytes.length + 5).sum := by
  refine (Fmt.glue_upper _ _).trans ?_
  rw [h5]
  induction fs with
  | nil => simp [Formula.fmts]
  | cons f fs ih =>
    simp only [Formula.fmts, List.map_cons, List.sum_cons]
    omega

/-- The text of a formula is at most eight times as long as the formula is in the file. -/
theorem formula_bytes {q : Bool} {f : Formula} {ts : List Tk} (h : FormulaText q f ts) :
    f.fmt.bytes.length ≤ 8 * toksBytes ts ∧ (f ≠ .empty → f.fmt.bytes.length + 17 ≤ 8 * toksBytes ts) := by
  refine FormulaText.rec
    (motive_1 := fun f ts _ => f.fmt.bytes.length ≤ 8 * toksBytes ts ∧
      (f ≠ .empty → f.fmt.bytes.length + 17 ≤ 8 * toksBytes ts))
    (motive_2 := fun fs ts _ => (fs.map fun f => f.fmt.bytes.length + 5).sum + 8 ≤ 8 * toksBytes ts)
    (motive_3 := fun fs ts _ => (fs.map fun f => f.fmt.bytes.length + 5).sum + 8 ≤ 8 * toksBytes ts)
    ?_ ?_ ?_ ?_ ?_ ?_ ?_ ?_ ?_ ?_ ?_ ?_ ?_ ?_ ?_ ?_ h
  · -- empty
    intro l1 l2
    refine ⟨?_, fun h => absurd rfl h⟩
    simp [Formula.fmt, Fmt.lit, toksBytes, tokBytes]
  · -- missing
    intro l _
    refine ⟨?_, fun h => absurd rfl h⟩
    simp [Formula.fmt, Fmt.lit, toksBytes, tokBytes]
  · -- atom
    intro name l1 l2 l3 vars items h
    have h1 := typed_bytes h
    have h2 := pred_bytes ⟨name, l2, vars⟩
    simp only [Formula.fmt, Fmt.bytes_lit, Fmt.bytes_copied, toksBytes_cons, toksBytes_append, toksBytes_nil, tokBytes] at h2 ⊢
    omega
  · -- not
    intro l1 l2 l3 f ts h ih
    simp only [Formula.fmt, Fmt.bytes_append, Fmt.bytes_lit, List.length_append, List.length_cons, List.length_nil, toksBytes_cons,
      toksBytes_append, toksBytes_nil, tokBytes]
    omega
  · -- and
    intro l1 l2 fs ts h ih
    have := join_bytes andSep fs rfl
    simp only [Formula.fmt, Fmt.bytes_append, Fmt.bytes_lit, Fmt.bytes_copied, List.length_append, List.length_cons, List.length_nil,
      toksBytes_cons, tokBytes]
    omega
  · -- or
    intro l1 l2 fs ts h ih
    have := join_bytes orSep fs rfl
    simp only [Formula.fmt, Fmt.bytes_append, Fmt.bytes_lit, Fmt.bytes_copied, List.length_append, List.length_cons, List.length_nil,
      toksBytes_cons, tokBytes]
    omega
  · -- xor
    intro l1 l2 fs ts h ih
    have := join_bytes xorSep fs rfl
    simp only [Formula.fmt, Fmt.bytes_append, Fmt.bytes_lit, Fmt.bytes_copied, List.length_append, List.length_cons, List.length_nil,
      toksBytes_cons, tokBytes]
    omega
  · -- equals
    intro l1 l2 l3 l4 l5 a b
    simp only [Formula.fmt, Fmt.bytes_append, Fmt.bytes_lit, List.length_append, List.length_cons, List.length_nil, toksBytes_cons,
      toksBytes_nil, tokBytes]
    omega
  · -- forall
    intro l1 l2 l3 l4 l5 vars items f ts h _ ih
    have h1 := typed_bytes h
    have h2 := vars_bytes vars
    simp only [Formula.fmt, Fmt.bytes_append, Fmt.bytes_lit, Fmt.bytes_copied, List.length_append, List.length_cons, List.length_nil,
      toksBytes_cons, toksBytes_append, toksBytes_nil, tokBytes]
    omega
  · -- exists
    intro l1 l2 l3 l4 l5 vars items f ts h _ ih
    have h1 := typed_bytes h
    have h2 := vars_bytes vars
    simp only [Formula.fmt, Fmt.bytes_append, Fmt.bytes_lit, Fmt.bytes_copied, List.length_append, List.length_cons, List.length_nil,
      toksBytes_cons, toksBytes_append, toksBytes_nil, tokBytes]
    omega
  · -- probabilistic
    intro l1 l2 fs ts h ih
    have := join_bytes andSep fs rfl
    simp only [Formula.fmt, Fmt.bytes_append, Fmt.bytes_lit, Fmt.bytes_copied, List.length_append, List.length_cons, List.length_nil,
      toksBytes_cons, tokBytes]
    omega
  · -- no operands
    intro l
    simp [toksBytes, tokBytes]
  · intro l1 l2 _
    simp [toksBytes, tokBytes]
  · intro f fs ts ts' _ hne _ ih1 ih2
    have := ih1.2 hne
    simp only [List.map_cons, List.sum_cons, toksBytes_append]
    omega
  · -- no branches
    intro l
    simp [toksBytes, tokBytes]
  · intro w l f fs ts ts' _ hne _ ih1 ih2
    have := ih1.2 hne
    simp only [Formula.fmt, Fmt.bytes_append, Fmt.bytes_lit, List.length_append, List.length_cons, List.length_nil,
      List.map_cons, List.sum_cons, toksBytes_cons, toksBytes_append, tokBytes]
    omega

theorem action_bytes {q : Bool} {a : Action} {ts : List Tk} (h : ActionText q a ts) :
    ((a.eff.map Formula.fmt).toList.map fun x => x.bytes.length).sum ≤ 8 * toksBytes ts := by
  cases h with
  | mk _ _ h =>
    cases h with
    | none => exact Nat.zero_le _
    | some h =>
      have := (formula_bytes h).1
      simp only [Option.map_some, Option.toList_some, List.map_cons, List.map_nil, List.sum_cons, List.sum_nil, toksBytes_append,
        toksBytes_cons, toksBytes_nil]
      omega

theorem block_bytes {q : Bool} {b : DBlock} {ts : List Tk} {e : Ending} (h : DBlockText q b ts e) :
    ((b.actions.filterMap fun a => a.eff.map Formula.fmt).map fun x => x.bytes.length).sum ≤ 8 * toksBytes ts := by
  cases h with
  | action h =>
    have := action_bytes h
    simp only [DBlock.actions, List.filterMap_cons, List.filterMap_nil, toksBytes_cons]
    cases he : (Option.map Formula.fmt _ : Option Fmt) with
    | none => simp
    | some x =>
      rw [he] at this
      simp only [Option.toList_some, List.map_cons, List.map_nil, List.sum_cons, List.sum_nil] at this ⊢
      omega
  | _ => exact Nat.zero_le _

omit [Env] in
theorem body_ends {β : Type} {q : Bool} {block : β → List Tk → Ending → Prop} {bs : List β} {ts : List Tk}
    (h : Body q block closeParen bs ts) : ∃ l us, ts = us ++ [(rpar, l)] := by
  induction h with
  | done h => obtain ⟨l, rfl⟩ := h; exact ⟨l, [], rfl⟩
  | @block b bs ts ts' e _ _ _ ih =>
    obtain ⟨l, us, rfl⟩ := ih
    exact ⟨l, ts ++ us, by rw [List.append_assoc]⟩

/-- The texts of the effects of a domain are together at most eight times as long as the file. -/
theorem effects_bytes (hr : ShortReals ‹_›) {f : Bytes} {d : DomainAST} {ts : List Tk} (h : FileText true (.domain d) ts)
    (hf : Feeds (LexState.init f) ts) : ((effectTexts d).map fun x => x.bytes.length).sum ≤ 8 * f.length := by
  cases h with
  | @domain name bs ts l1 l2 l3 l4 l5 l6 h =>
    have hle : ((effectTexts (domainOf name bs)).map fun x => x.bytes.length).sum ≤ 8 * toksBytes ts := by
      clear hf
      unfold effectTexts domainOf
      simp only
      induction h with
      | done => exact Nat.zero_le _
      | block h1 _ _ ih =>
        have := block_bytes h1
        rw [List.flatMap_cons, List.filterMap_append, List.map_append, List.sum_append, toksBytes_append]
        omega
    obtain ⟨l, us, rfl⟩ := body_ends h
    rcases feeds_bytes hr hf with hb | ⟨l', hb⟩
    · simp only [toksBytes_cons, LexState.init] at hb
      omega
    · rw [show ((lpar, l1) :: (Token.kw .define, l2) :: (lpar, l3) :: (Token.kw .domain, l4) :: (Token.ident name, l5) :: (rpar, l6) ::
          (us ++ [(rpar, l)]) : List Tk) = ((lpar, l1) :: (Token.kw .define, l2) :: (lpar, l3) :: (Token.kw .domain, l4) ::
          (Token.ident name, l5) :: (rpar, l6) :: us) ++ [(rpar, l)] from rfl, List.getLast?_concat] at hb
      cases hb

end Verif
