import Verif.Proofs.ErrorFiles
import Verif.Proofs.LexerSpec

/-! Every token that can be read can be written: files for texts. -/

namespace Verif

open Spec

/-! ### The end of file is no part of a text -/

def NoEof (ts : List Tk) : Prop := ∀ x ∈ ts, x.1 ≠ .eof

@[simp] theorem noEof_nil : NoEof [] := by simp [NoEof]

@[simp] theorem noEof_cons {x : Tk} {ts : List Tk} : NoEof (x :: ts) ↔ x.1 ≠ .eof ∧ NoEof ts := by simp [NoEof]

@[simp] theorem noEof_append {a b : List Tk} : NoEof (a ++ b) ↔ NoEof a ∧ NoEof b := by
  simp [NoEof, or_imp, forall_and]

theorem items_noEof {ts} (h : Items ts) : NoEof ts := by
  induction h <;> simp_all

theorem typedList_noEof {ss ts} (h : TypedList ss ts) : NoEof ts := items_noEof h.1

theorem nameToks_noEof (xs : List (Name × Nat)) : NoEof (nameToks xs) := by
  induction xs <;> simp_all [nameToks]

theorem reqToks_noEof (xs : List (Req × Nat)) : NoEof (reqToks xs) := by
  induction xs <;> simp_all [reqToks]

theorem predicates_noEof {ps ts} (h : Predicates ps ts) : NoEof ts := by
  induction h with
  | nil => simp
  | cons h1 _ ih => simp [typedList_noEof h1, ih]

mutual

theorem formula_noEof {q f ts} (h : FormulaText q f ts) : NoEof ts := by
  cases h with
  | empty => simp
  | missing => simp
  | atom h1 => simp [typedList_noEof h1]
  | not h1 => simp [formula_noEof h1]
  | and h1 => simp [formulas_noEof h1]
  | or h1 => simp [formulas_noEof h1]
  | xor h1 => simp [formulas_noEof h1]
  | equals => simp
  | forall_ h1 h2 => simp [typedList_noEof h1, formula_noEof h2]
  | exists_ h1 h2 => simp [typedList_noEof h1, formula_noEof h2]
  | probabilistic h1 => simp [branches_noEof h1]

theorem formulas_noEof {q fs ts} (h : FormulasText q fs ts) : NoEof ts := by
  cases h with
  | nil => simp
  | unclosed => simp
  | cons h1 _ h2 => simp [formula_noEof h1, formulas_noEof h2]

theorem branches_noEof {q fs ts} (h : BranchesText q fs ts) : NoEof ts := by
  cases h with
  | nil => simp
  | cons h1 _ h2 => simp [formula_noEof h1, branches_noEof h2]

end

theorem optFormula_noEof {q k f ts} (h : OptFormula q k f ts) : NoEof ts := by
  cases h with
  | none => simp
  | some h1 => simp [formula_noEof h1]

theorem task_noEof {t ts} (h : TaskText t ts) : NoEof ts := by
  cases h with
  | mk h1 => simp [typedList_noEof h1]

theorem action_noEof {q x ts} (h : ActionText q x ts) : NoEof ts := by
  cases h with
  | mk h1 h2 h3 => simp [task_noEof h1, optFormula_noEof h2, optFormula_noEof h3]

theorem subtask_noEof {x ts} (h : SubtaskText x ts) : NoEof ts := by
  cases h <;> simp [nameToks_noEof]

theorem subtaskList_noEof {x ts} (h : SubtaskList x ts) : NoEof ts := by
  induction h with
  | nil => simp
  | cons h1 _ ih => simp [subtask_noEof h1, ih]

theorem subtasks_noEof {x ts} (h : SubtasksText x ts) : NoEof ts := by
  cases h with
  | none => simp
  | one h1 => simp [subtask_noEof h1]
  | many h1 => simp [subtaskList_noEof h1]

theorem order_noEof {x ts} (h : OrderText x ts) : NoEof ts := by
  cases h; simp [nameToks_noEof]

theorem orderList_noEof {x ts} (h : OrderList x ts) : NoEof ts := by
  induction h with
  | nil => simp
  | cons h1 _ ih => simp [order_noEof h1, ih]

theorem orders_noEof {x ts} (h : OrdersText x ts) : NoEof ts := by
  cases h with
  | none => simp
  | one h1 => simp [order_noEof h1]
  | many h1 => simp [orderList_noEof h1]

theorem constraint_noEof {x ts} (h : ConstraintText x ts) : NoEof ts := by
  cases h <;> simp

theorem constraintList_noEof {x ts} (h : ConstraintList x ts) : NoEof ts := by
  induction h with
  | nil => simp
  | cons h1 _ ih => simp [constraint_noEof h1, ih]

theorem constraints_noEof {x ts} (h : ConstraintsText x ts) : NoEof ts := by
  cases h with
  | none => simp
  | one h1 => simp [constraint_noEof h1]
  | many h1 => simp [constraintList_noEof h1]

theorem tnItems_noEof {x ts} (h : TnItems x ts) : NoEof ts := by
  induction h with
  | nil => simp
  | ordering h1 _ ih => simp [orders_noEof h1, ih]
  | constraints h1 _ ih => simp [constraints_noEof h1, ih]

theorem htn_noEof {x ts e} (h : HtnText x ts e) : NoEof ts := by
  cases h with
  | empty => simp
  | partial_ h1 h2 => simp [subtasks_noEof h1, tnItems_noEof h2]
  | total h1 => simp [subtasks_noEof h1]
  | constrained h1 h2 => simp [subtasks_noEof h1, constraints_noEof h2]

theorem method_noEof {q x ts e} (h : MethodText q x ts e) : NoEof ts := by
  cases h with
  | mk h1 h2 h3 h4 h5 => simp [typedList_noEof h1, typedList_noEof h2, optFormula_noEof h3, htn_noEof h4]

theorem initTn_noEof {x ts e} (h : InitTnText x ts e) : NoEof ts := by
  cases h with
  | plain h1 => exact htn_noEof h1
  | params h1 h2 => simp [typedList_noEof h1, htn_noEof h2]

theorem dblock_noEof {q x ts e} (h : DBlockText q x ts e) : NoEof ts := by
  cases h with
  | predicates h1 => simp [predicates_noEof h1]
  | functions h1 => simp [predicates_noEof h1]
  | task h1 => simp [task_noEof h1]
  | method h1 => simp [method_noEof h1]
  | action h1 => simp [action_noEof h1]
  | requirements => simp [reqToks_noEof]
  | types h1 => simp [typedList_noEof h1]
  | constants h1 => simp [typedList_noEof h1]

theorem pblock_noEof {q x ts e} (h : PBlockText q x ts e) : NoEof ts := by
  cases h with
  | requirements => simp [reqToks_noEof]
  | objects h1 => simp [typedList_noEof h1]
  | htn h1 => simp [initTn_noEof h1]
  | goal h1 => simp [formula_noEof h1]
  | init h1 => simp [predicates_noEof h1]

/-- All tokens but the last are proper tokens. -/
def EofLast (ts : List Tk) : Prop := ∃ us x, ts = us ++ [x] ∧ NoEof us

theorem EofLast.after {a ts : List Tk} (ha : NoEof a) (h : EofLast ts) : EofLast (a ++ ts) := by
  obtain ⟨us, x, rfl, h⟩ := h
  exact ⟨a ++ us, x, by simp, by simp [ha, h]⟩

theorem body_eofLast {β : Type} {q : Bool} {block : β → List Tk → Ending → Prop} {stop : List Tk → Prop} {bs ts}
    (hb : ∀ {b ts e}, block b ts e → NoEof ts) (hs : ∀ {ts}, stop ts → EofLast ts) (h : Body q block stop bs ts) :
    EofLast ts := by
  induction h with
  | done h => exact hs h
  | block h _ _ ih => exact ih.after (hb h)

theorem file_eofLast {q a ts} (h : FileText q a ts) : EofLast ts := by
  cases h with
  | @domain name bs ts l1 l2 l3 l4 l5 l6 h =>
    have := body_eofLast dblock_noEof (by rintro _ ⟨l, rfl⟩; exact ⟨[], _, rfl, by simp⟩) h
    exact this.after (a := [(lpar, l1), (.kw .define, l2), (lpar, l3), (.kw .domain, l4), (.ident name, l5), (rpar, l6)])
      (by simp)
  | @problem name dname bs ts l1 l2 l3 l4 l5 l6 l7 l8 l9 l10 h =>
    have := body_eofLast pblock_noEof (by rintro _ (⟨l, rfl⟩ | ⟨_, l, rfl⟩) <;> exact ⟨[], _, rfl, by simp⟩) h
    exact this.after (a := [(lpar, l1), (.kw .define, l2), (lpar, l3), (.kw .problem, l4), (.ident name, l5), (rpar, l6),
      (lpar, l7), (.kw .domain, l8), (.ident dname, l9), (rpar, l10)]) (by simp)

theorem EofLast.start {c Q : List Tk} (h : EofLast (c ++ Q)) (hQ : Q ≠ []) : NoEof c := by
  obtain ⟨us, x, h1, h2⟩ := h
  obtain ⟨Q', y, rfl⟩ := List.eq_nil_or_concat Q |>.resolve_left hQ
  rw [List.concat_eq_append, ← List.append_assoc] at h1
  have := List.append_inj_left' h1 rfl
  subst this
  simp at h2
  exact h2.1

/-! ### Writing tokens -/

/-- `t` can be written so that it is read back in front of a newline. -/
def Writable [Env] (t : Token) : Prop := ∃ w, ∀ r n, getToken ⟨w ++ 10 :: r, n⟩ = .tok t ⟨10 :: r, n⟩

theorem follows_newline {t : Token} (ht : t ≠ .eof) (r : Bytes) : Follows t (10 :: r) := by
  have h1 : Delim 10 := by decide
  have h2 : ¬ Digit 10 := by decide
  cases t with
  | op o => cases o <;> simp [Follows, h1]
  | num v => cases v <;> simp [Follows, h2]
  | eof => exact absurd rfl ht
  | _ => simp [Follows, h1]

theorem writable_spells [Env] {t : Token} {w : Bytes} (ht : t ≠ .eof) (h : Spells t w) : Writable t :=
  ⟨w, fun r n => getToken_spells h (follows_newline ht r) n⟩

theorem scanLexeme_good (s : Bytes) (h : (scanLexeme s).2.2 = false) : ∀ c ∈ (scanLexeme s).1, isBadByte c = false := by
  induction s with
  | nil => simp [scanLexeme]
  | cons c s ih =>
    cases s with
    | nil => simp [scanLexeme]
    | cons d cs =>
      unfold scanLexeme at h ⊢
      split
      · rename_i hc
        rw [if_pos hc] at h
        simp only [Bool.or_eq_false_iff] at h
        intro x hx
        rcases List.mem_cons.1 hx with rfl | hx
        · exact h.1
        · exact ih h.2 x hx
      · simp

/-- A lexeme that was read can be read again in front of a newline. -/
theorem peekLexeme_again {s l r : Bytes} (h : peekLexeme s = .ok l r) (r' : Bytes) :
    peekLexeme (l ++ 10 :: r') = .ok l (10 :: r') := by
  cases s with
  | nil => simp [peekLexeme] at h
  | cons c cs =>
    simp only [peekLexeme] at h
    have hb := scanLexeme_good (c :: cs)
    have hl := scanLexeme_bytes (c :: cs)
    generalize scanLexeme (c :: cs) = x at h hb hl
    obtain ⟨l', r0, bad⟩ := x
    simp only at h hb hl
    split at h
    · rename_i hv
      split at h <;> cases h
      rename_i hbad
      have hs := scanLexeme_word l 10 r' hl (hb (by simpa using hbad)) (by decide)
      obtain ⟨d, ds, hd⟩ : ∃ d ds, l ++ 10 :: r' = d :: ds := by
        cases l with
        | nil => exact ⟨10, r', rfl⟩
        | cons y w => exact ⟨y, w ++ 10 :: r', rfl⟩
      rw [hd] at hs ⊢
      simp only [peekLexeme, hs, hv, if_true]
      simp
    · cases h

variable [Env]

/-- A name is what follows a question mark. -/
theorem writable_lexeme {s l r : Bytes} (h : peekLexeme s = .ok l r) : Writable (.ident l) := by
  refine ⟨63 :: l, fun r' n => ?_⟩
  have h1 := peekLexeme_again h r'
  have h2 : skipLayout (63 :: (l ++ 10 :: r')) n false = some ⟨63 :: (l ++ 10 :: r'), n⟩ := rfl
  show lex false ⟨63 :: (l ++ 10 :: r'), n⟩ = _
  unfold lex
  rw [h2]
  simp [h1]

theorem ident_lexeme {s s' : LexState} {x : Name} (h : getToken s = .tok (.ident x) s') :
    ∃ a r, peekLexeme a = .ok x r := by
  have hc : ∀ l, colonWord l ≠ some (.ident x) := by
    intro l h
    have : ∀ p ∈ colonTable, ∀ y, p.2 ≠ .ident y := by simp [colonTable]
    exact this _ ((colonWord_iff l _).1 h) x rfl
  have hp : ∀ l, plainWord l ≠ some (.ident x) := by
    intro l h
    have : ∀ p ∈ plainTable, ∀ y, p.2 ≠ .ident y := by simp [plainTable]
    exact this _ ((plainWord_iff l _).1 h) x rfl
  unfold getToken lex at h
  cases hsk : skipLayout s.rest s.line false with
  | none => rw [hsk] at h; cases h
  | some st =>
    obtain ⟨rst, n⟩ := st
    rw [hsk] at h
    cases rst with
    | nil => cases h
    | cons c cs =>
      simp only [Bool.false_eq_true, if_false, orderingType] at h
      repeat' split at h
      all_goals first
        | (cases h; done)
        | (rename_i h1; cases h; exact ⟨_, _, h1⟩)
        | (rename_i h1 _ _ _; cases h; exact ⟨_, _, h1⟩)
        | (rename_i h1; cases h; exact absurd h1 (hc _))
        | (rename_i h1; cases h; exact absurd h1 (hp _))

theorem writable_read {s s' : LexState} {t : Token} (h : getToken s = .tok t s') (ht : t ≠ .eof) : Writable t := by
  obtain ⟨lay, w, r, _, _, hw, _⟩ := lex_tok_spec h
  cases hw with
  | spells h1 => exact writable_spells ht h1
  | variable_ _ => obtain ⟨a, r, h1⟩ := ident_lexeme h; exact writable_lexeme h1
  | name _ _ => obtain ⟨a, r, h1⟩ := ident_lexeme h; exact writable_lexeme h1
  | eof => exact absurd rfl ht

theorem writable_simple {t : Token} (h : Simple t) : Writable t := by
  have hk : ∀ k : Kw, ∃ p ∈ colonTable ++ plainTable, p.2 = .kw k := by
    intro k
    cases k <;> decide
  cases t with
  | punct p =>
    cases p
    · exact writable_spells (by simp) .dash
    · exact writable_spells (by simp) .lparen
    · exact writable_spells (by simp) .rparen
  | kw k =>
    obtain ⟨⟨w, t⟩, h1, h2⟩ := hk k
    cases h2
    rcases List.mem_append.1 h1 with h1 | h1
    · exact writable_spells (by simp) (.colon h1)
    · exact writable_spells (by simp) (.plain h1)
  | op o =>
    rcases h with rfl | rfl | rfl
    · exact writable_spells (w := b!"and") (by simp) (.plain (by decide))
    · exact writable_spells (by simp) .lt
    · exact writable_spells (by simp) .equal
  | ident x =>
    cases h
    exact writable_spells (w := b!"x") (by simp) (.name ⟨by decide, ⟨_, _, rfl, by decide, by decide⟩, by simp [plainTable, anyName]⟩)
  | _ => exact h.elim

theorem feeds_newline {r : Bytes} {n : Nat} {ts : List Tk} (h : Feeds ⟨r, n + 1⟩ ts) : Feeds ⟨10 :: r, n⟩ ts := by
  cases ts with
  | nil => trivial
  | cons x ts =>
    obtain ⟨t, l⟩ := x
    exact h

/-- A file for a text. -/
theorem write {ts : List Tk} (h : ∀ x ∈ ts, Writable x.1) : ∀ n, ∃ bytes ts', Renamed id ts ts' ∧ Feeds ⟨bytes, n⟩ ts' := by
  induction ts with
  | nil => intro n; exact ⟨[], [], .nil, trivial⟩
  | cons x ts ih =>
    intro n
    obtain ⟨w, hw⟩ := h x List.mem_cons_self
    obtain ⟨b, ts', h1, h2⟩ := ih (fun y hy => h y (List.mem_cons_of_mem _ hy)) (n + 1)
    exact ⟨w ++ 10 :: b, (x.1, n) :: ts', .cons (by simp) h1, ⟨10 :: b, n⟩, hw b n, rfl, feeds_newline h2⟩

theorem writable_feeds {s : LexState} {ts : List Tk} (h : Feeds s ts) (hn : NoEof ts) : ∀ x ∈ ts, Writable x.1 := by
  induction ts generalizing s with
  | nil => simp
  | cons x ts ih =>
    obtain ⟨t, l⟩ := x
    obtain ⟨s1, h1, _, h2⟩ := h
    simp only [noEof_cons] at hn
    intro y hy
    rcases List.mem_cons.1 hy with rfl | hy
    · exact writable_read h1 hn.1
    · exact ih h2 hn.2 y hy

/-- A text that was read and can be completed starts a file that is parsed. -/
theorem parses_completed {s : LexState} {c : List Tk} (hf : Feeds s c) (h : Unfinished c) :
    ∃ file c' r a N, Renamed id c c' ∧ Feeds (LexState.init file) (c' ++ r) ∧ ∀ n, N ≤ n → parse n file = .ok a := by
  obtain ⟨Q, h1, h2, a, h3⟩ := h
  have hn := (file_eofLast h3).start h1
  obtain ⟨b, ts', h4, h5⟩ := write (ts := c ++ Q) (by
    intro x hx
    rcases List.mem_append.1 hx with hx | hx
    · exact writable_feeds hf hn x hx
    · exact writable_simple (h2 x hx)) 1
  obtain ⟨a', h6, _⟩ := fileText_rn h3 h4
  obtain ⟨c', r, rfl, h7, _⟩ := h4.unappend
  obtain ⟨N, hN⟩ := parse_complete h6
  exact ⟨b, c', r, a', N, h7, h5, fun n hn => hN n hn b h5⟩

/-- The same for a text that was read, followed by a token that can be written. -/
theorem parses_followed {s : LexState} {c : List Tk} {u : Token} {l : Nat} (hf : Feeds s c) (hu : Writable u)
    (h : Ext LFile (c ++ [(u, l)])) : ∃ file c' r a N, Renamed id (c ++ [(u, l)]) c' ∧
      Feeds (LexState.init file) (c' ++ r) ∧ ∀ n, N ≤ n → parse n file = .ok a := by
  obtain ⟨Q, h2, a, h3⟩ := h
  have h3' := h3
  rw [List.append_assoc] at h3'
  have hn := (file_eofLast h3').start (by simp)
  obtain ⟨b, ts', h4, h5⟩ := write (ts := c ++ [(u, l)] ++ Q) (by
    intro x hx
    simp only [List.mem_append, List.mem_singleton] at hx
    rcases hx with (hx | rfl) | hx
    · exact writable_feeds hf hn x hx
    · exact hu
    · exact writable_simple (h2 x hx)) 1
  obtain ⟨a', h6, _⟩ := fileText_rn h3 h4
  obtain ⟨c', r, rfl, h7, _⟩ := h4.unappend
  obtain ⟨N, hN⟩ := parse_complete h6
  exact ⟨b, c', r, a', N, h7, h5, fun n hn => hN n hn b h5⟩

end Verif
