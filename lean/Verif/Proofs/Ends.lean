import Verif.Proofs.Local
import Verif.Proofs.Positions

/-! The text of a file ends with a closing parenthesis, so the last name of an accepted file is not cut off by the end of
the file. -/

namespace Verif

open Spec

/-- The last token is a closing parenthesis. -/
def EndsR (ts : List Tk) : Prop := ∃ a l, ts = a ++ [(rpar, l)]

theorem EndsR.cons {x ts} (h : EndsR ts) : EndsR (x :: ts) := by
  obtain ⟨a, l, rfl⟩ := h
  exact ⟨x :: a, l, rfl⟩

theorem EndsR.append {ts' ts} (h : EndsR ts) : EndsR (ts' ++ ts) := by
  obtain ⟨a, l, rfl⟩ := h
  exact ⟨ts' ++ a, l, by simp⟩

theorem EndsR.one {l} : EndsR [(rpar, l)] := ⟨[], l, rfl⟩

macro "ends" : tactic => `(tactic| repeat' first | exact EndsR.one | assumption | apply EndsR.cons | apply EndsR.append)

mutual

theorem FormulaText.ends {q f ts} (h : FormulaText q f ts) : EndsR ts := by
  cases h with
  | empty => ends
  | missing => ends
  | atom => ends
  | not => ends
  | and h => have := FormulasText.ends h; ends
  | or h => have := FormulasText.ends h; ends
  | xor h => have := FormulasText.ends h; ends
  | equals => ends
  | forall_ => ends
  | exists_ => ends
  | probabilistic h => have := BranchesText.ends h; ends

theorem FormulasText.ends {q fs ts} (h : FormulasText q fs ts) : EndsR ts := by
  cases h with
  | nil => ends
  | unclosed => ends
  | cons _ _ h => have := FormulasText.ends h; ends

theorem BranchesText.ends {q fs ts} (h : BranchesText q fs ts) : EndsR ts := by
  cases h with
  | nil => ends
  | cons _ _ h => have := BranchesText.ends h; ends

end

theorem ConstraintText.ends {c ts} (h : ConstraintText c ts) : EndsR ts := by cases h <;> ends

theorem ConstraintsText.ends {c ts} (h : ConstraintsText c ts) : EndsR ts := by
  cases h with
  | none => ends
  | one h => have := ConstraintText.ends h; ends
  | many => ends

theorem OptFormula.ends {q k f ts} (h : OptFormula q k f ts) : ts = [] ∧ f = none ∨ EndsR ts := by
  cases h with
  | none => exact .inl ⟨rfl, rfl⟩
  | some h => have := FormulaText.ends h; right; ends

theorem ActionText.ends {q a ts} (h : ActionText q a ts) : EndsR ts := by cases h; ends

theorem TaskText.ends {t ts} (h : TaskText t ts) : EndsR ts := by cases h; ends

theorem HtnText.ends {tn ts e} (h : HtnText tn ts e) : ts = [] ∧ e = .atParen ∨ EndsR ts := by
  cases h with
  | empty => exact .inl ⟨rfl, rfl⟩
  | partial_ => right; ends
  | total => right; ends
  | constrained _ h => have := ConstraintsText.ends h; right; ends

theorem MethodText.ends {q m ts e} (h : MethodText q m ts e) : EndsR ts := by
  cases h with
  | mk _ _ hp ht hn =>
    rcases HtnText.ends ht with ⟨rfl, _⟩ | h
    · rcases OptFormula.ends hp with ⟨rfl, rfl⟩ | h
      · exact absurd rfl (hn rfl)
      · simp only [List.append_nil]; ends
    · ends

theorem InitTnText.ends {tn ts e} (h : InitTnText tn ts e) : ts = [] ∧ e = .atParen ∨ EndsR ts := by
  cases h with
  | plain h => exact HtnText.ends h
  | params _ h =>
    right
    rcases HtnText.ends h with ⟨rfl, _⟩ | h <;> ends

theorem DBlockText.ends {q b ts e} (h : DBlockText q b ts e) : EndsR ts := by
  cases h with
  | method h => have := MethodText.ends h; ends
  | action h => have := ActionText.ends h; ends
  | _ => ends

theorem PBlockText.ends {q b ts e} (h : PBlockText q b ts e) : EndsR ts ∨ e = .atParen := by
  cases h with
  | htn h =>
    rcases InitTnText.ends h with ⟨rfl, rfl⟩ | h
    · exact .inr rfl
    · left; ends
  | goal h => have := FormulaText.ends h; left; ends
  | _ => left; ends

theorem Body.ends {β} {q : Bool} {block : β → List Tk → Ending → Prop} {stop : List Tk → Prop} {bs ts}
    (h : Body q block stop bs ts) : ∃ a b, ts = a ++ b ∧ stop b ∧ (a = [] ∨ ∃ b' t e c, block b' t e ∧ a = c ++ t ∧
      Joint q e b) := by
  induction h with
  | done h => exact ⟨[], _, rfl, h, .inl rfl⟩
  | @block b bs ts ts' e hb hj h ih =>
    obtain ⟨x, y, rfl, hs, hx⟩ := ih
    refine ⟨ts ++ x, y, by simp, hs, .inr ?_⟩
    rcases hx with rfl | ⟨b', t, e', c, h1, rfl, h2⟩
    · exact ⟨b, ts, e, [], hb, by simp, by simpa using hj⟩
    · exact ⟨b', t, e', ts ++ c, h1, by simp, h2⟩

/-- A closing parenthesis comes last, or before the end of the file. -/
theorem FileText.ends {q a ts} (h : FileText q a ts) : EndsR ts ∨ ∃ a l, EndsR a ∧ ts = a ++ [(.eof, l)] := by
  cases h with
  | domain hb =>
    obtain ⟨x, y, rfl, ⟨l, rfl⟩, _⟩ := Body.ends hb
    left
    ends
  | @problem name dname bs ts l1 l2 l3 l4 l5 l6 l7 l8 l9 l10 hb =>
    obtain ⟨x, y, rfl, hs | ⟨_, l, hs⟩, hx⟩ := Body.ends hb
    · obtain ⟨l, rfl⟩ := hs
      left
      ends
    · subst hs
      right
      refine ⟨(lpar, l1) :: (.kw .define, l2) :: (lpar, l3) :: (.kw .problem, l4) :: (.ident name, l5) :: (rpar, l6) ::
          (lpar, l7) :: (.kw .domain, l8) :: (.ident dname, l9) :: (rpar, l10) :: x, l, ?_, by simp⟩
      rcases hx with rfl | ⟨b, t, e, c, h1, rfl, h2⟩
      · ends
      · rcases PBlockText.ends h1 with h | rfl
        · ends
        · obtain ⟨l', r, h3⟩ := h2
          cases h3

/-- After a name of the text there is a closing parenthesis. -/
theorem FileText.paren_after {q a ts} (h : FileText q a ts) {u v x l} (he : ts = u ++ (.ident x, l) :: v) :
    ∃ l', (rpar, l') ∈ v := by
  have key : ∀ {w}, EndsR w → ∀ {u v}, w = u ++ (.ident x, l) :: v → ∃ l', (rpar, l') ∈ v := by
    rintro w ⟨y, l', rfl⟩ u v he
    rcases List.eq_nil_or_concat v with rfl | ⟨v', z, rfl⟩
    · have := (List.append_inj' he rfl).2
      cases this
    · refine ⟨l', ?_⟩
      have he' : y ++ [(rpar, l')] = (u ++ (Token.ident x, l) :: v') ++ [z] := by rw [he]; simp
      have := (List.append_inj' he' rfl).2
      cases this
      simp
  rcases FileText.ends h with h | ⟨y, l', h, h'⟩
  · exact key h he
  · rw [he] at h'
    rcases List.eq_nil_or_concat v with rfl | ⟨v', z, rfl⟩
    · have := (List.append_inj' h' rfl).2
      cases this
    · have he' : y ++ [(Token.eof, l')] = (u ++ (Token.ident x, l) :: v') ++ [z] := by rw [← h']; simp
      obtain ⟨h1, h2⟩ := List.append_inj' he' rfl
      obtain ⟨l'', hm⟩ := key h h1
      exact ⟨l'', by simp [hm]⟩

/-! ### The byte after a name -/

theorem scanLexeme_end (s : Bytes) (hs : s ≠ []) : ∃ c r, (scanLexeme s).2.1 = c :: r ∧ (Delim c ∨ r = []) := by
  fun_induction scanLexeme s with
  | case1 => exact absurd rfl hs
  | case2 c => exact ⟨c, [], rfl, .inr rfl⟩
  | case3 c d cs hc l r bad hsc ih =>
    have := ih (by simp)
    rw [hsc] at this
    exact this
  | case4 c d cs hc => exact ⟨c, d :: cs, rfl, .inl ((isLexemeByte_false_iff c).1 (by simpa using hc))⟩

theorem peekLexeme_end {s l r : Bytes} (h : peekLexeme s = .ok l r) : ∃ c r', r = c :: r' ∧ (Delim c ∨ r' = []) := by
  unfold peekLexeme at h
  cases s with
  | nil => cases h
  | cons c cs =>
    have := scanLexeme_end (c :: cs) (by simp)
    simp only at h
    revert h this
    cases scanLexeme (c :: cs) with
    | mk l' p =>
      obtain ⟨r', bad⟩ := p
      simp only
      intro h h'
      split at h
      · split at h
        · cases h
        · cases h; exact h'
      · cases h

variable [Env]

/-- After a name there is a delimiter, or exactly one more byte. -/
theorem getToken_ident_end {s s' : LexState} {x : Name} (h : getToken s = .tok (.ident x) s') :
    ∃ c r, s'.rest = c :: r ∧ (Delim c ∨ r = []) := by
  unfold getToken lex at h
  split at h
  · cases h
  · cases h
  · rename_i c cs n hsk
    simp only [Bool.false_eq_true, if_false] at h
    rcases ite_elim h with ⟨_, h⟩ | ⟨_, h⟩
    · cases h
    rcases ite_elim h with ⟨_, h⟩ | ⟨_, h⟩
    · cases h
    rcases ite_elim h with ⟨_, h⟩ | ⟨_, h⟩
    · cases h
    rcases ite_elim h with ⟨_, h⟩ | ⟨_, h⟩
    · unfold orderingType at h; split at h <;> cases h
    rcases ite_elim h with ⟨_, h⟩ | ⟨_, h⟩
    · unfold orderingType at h; split at h <;> cases h
    rcases ite_elim h with ⟨_, h⟩ | ⟨_, h⟩
    · cases h
    rcases ite_elim h with ⟨_, h⟩ | ⟨_, h⟩
    · cases hp : peekLexeme cs with
      | panic p => rw [hp] at h; cases h
      | err l => rw [hp] at h; cases h
      | ok l r => rw [hp] at h; cases h; exact peekLexeme_end hp
    rcases ite_elim h with ⟨_, h⟩ | ⟨_, h⟩
    · cases hp : peekLexeme cs with
      | panic p => rw [hp] at h; cases h
      | err l => rw [hp] at h; cases h
      | ok l r =>
        rw [hp] at h
        simp only at h
        split at h
        · cases h; exact peekLexeme_end hp
        · cases h
    rcases ite_elim h with ⟨_, h⟩ | ⟨_, h⟩
    · split at h <;> cases h
    cases hp : peekLexeme (c :: cs) with
    | panic p => rw [hp] at h; cases h
    | err l => rw [hp] at h; cases h
    | ok l r =>
      rw [hp] at h
      simp only at h
      split at h
      · cases h; exact peekLexeme_end hp
      · split at h
        · cases h; exact peekLexeme_end hp
        · cases h

/-- A file that ends with one byte that is not a delimiter has no closing parenthesis. -/
theorem Feeds.paren {s : LexState} {ts : List Tk} {l : Nat} (h : Feeds s ts) (hm : (rpar, l) ∈ ts) : 41 ∈ s.rest := by
  induction ts generalizing s with
  | nil => cases hm
  | cons x ts ih =>
    obtain ⟨t, l'⟩ := x
    obtain ⟨s1, h1, h2, h3⟩ := h
    obtain ⟨lay, w, r, _, hr, ht, hs, _⟩ := lex_tok_spec h1
    rcases List.mem_cons.1 hm with hm | hm
    · cases hm
      obtain ⟨lay, hl, _⟩ := getToken_rparen (r := s.rest) (n := s.line) (b := s1.rest) (m := s1.line) h1
      rw [hl]; simp
    · have := ih h3 hm
      simp only [Bool.false_eq_true, if_false] at hs
      rw [hr, ← hs]
      simp [this]

/-- In an accepted file every name is followed by a blank or a parenthesis. -/
theorem FileText.delim_after {q a ts} {file : Bytes} (h : FileText q a ts) (hf : Feeds (LexState.init file) ts) {x l}
    (hm : (Token.ident x, l) ∈ ts) : ∃ s s' c r, Reachable file s ∧ getToken s = .tok (.ident x) s' ∧ s'.line = l ∧
      s'.rest = c :: r ∧ Delim c := by
  obtain ⟨u, v, rfl⟩ := List.append_of_mem hm
  obtain ⟨l', hp⟩ := FileText.paren_after h rfl
  have key : ∀ {s : LexState} {u}, Reachable file s → Feeds s (u ++ (Token.ident x, l) :: v) →
      ∃ s s', Reachable file s ∧ getToken s = .tok (.ident x) s' ∧ s'.line = l ∧ Feeds s' v := by
    intro s u
    induction u generalizing s with
    | nil =>
      rintro hr ⟨s1, h1, h2, h3⟩
      exact ⟨s, s1, hr, h1, h2, h3⟩
    | cons y u ih =>
      obtain ⟨t, l⟩ := y
      rintro hr ⟨s1, h1, _, h3⟩
      exact ih (.tok false hr h1) h3
  obtain ⟨s, s', hr, hg, hl, hv⟩ := key .init hf
  obtain ⟨c, r, he, hd⟩ := getToken_ident_end hg
  refine ⟨s, s', c, r, hr, hg, hl, he, ?_⟩
  rcases hd with hd | rfl
  · exact hd
  · have := hv.paren hp
    rw [he] at this
    simp only [List.mem_singleton] at this
    exact .inr (.inr this.symm)

end Verif
