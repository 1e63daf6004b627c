import Verif.Proofs.Messages
import Verif.Proofs.Located
import Verif.Proofs.Mentions
import Verif.Proofs.ErrorAt

/-! Which bytes names and lexemes in messages consist of. -/

namespace Verif

open Spec

/-! ### Types have positions -/

mutual

theorem FormulaText.located {q f ts} (h : FormulaText q f ts) : ∀ a, OccursFree a f → Located a.vars := by
  intro a ha
  cases h with
  | empty => cases ha
  | missing => cases ha
  | atom ht => cases ha; exact TypedList.located ht
  | equals => cases ha
  | not hf => cases ha with | not hx => exact FormulaText.located hf a hx
  | and hf => cases ha with | and hm hx => exact FormulasText.located hf _ hm a hx
  | or hf => cases ha with | or hm hx => exact FormulasText.located hf _ hm a hx
  | xor hf => cases ha with | xor hm hx => exact FormulasText.located hf _ hm a hx
  | forall_ => cases ha
  | exists_ => cases ha
  | probabilistic hf => cases ha with | and hm hx => exact BranchesText.located hf _ hm a hx

theorem FormulasText.located {q fs ts} (h : FormulasText q fs ts) : ∀ f ∈ fs, ∀ a, OccursFree a f → Located a.vars := by
  cases h with
  | nil => simp
  | unclosed => simp
  | cons hf _ hfs =>
    intro f hm a hx
    rcases List.mem_cons.1 hm with he | hm
    · rw [he] at hx; exact FormulaText.located hf a hx
    · exact FormulasText.located hfs f hm a hx

theorem BranchesText.located {q fs ts} (h : BranchesText q fs ts) : ∀ f ∈ fs, ∀ a, OccursFree a f → Located a.vars := by
  cases h with
  | nil => simp
  | cons hf _ hfs =>
    intro f hm a hx
    rcases List.mem_cons.1 hm with he | hm
    · rw [he] at hx; cases hx with | weighted hx => exact FormulaText.located hf a hx
    · exact BranchesText.located hfs f hm a hx

end

theorem FileText.constants {q d ts} (h : FileText q (.domain d) ts) : Located (constantsOf d) := by
  cases h with
  | domain hb =>
    intro s hs
    simp only [constantsOf, domainOf, nonEmpty_getD, List.mem_flatMap] at hs
    obtain ⟨b, hm, h⟩ := hs
    obtain ⟨_, _, h1, _⟩ := Body.mem hb hm
    cases h1 with
    | constants ht => exact TypedList.located ht s h
    | _ => simp [DBlock.constSyms] at h

theorem FileText.facts {q p ts} (h : FileText q (.problem p) ts) {a : Predicate} (ha : FactOf p a) : Located a.vars := by
  cases h with
  | problem hb =>
    cases ha with
    | init ha =>
      simp only [problemOf] at ha
      cases hl : ((‹List PBlock›).filterMap PBlock.init?).getLast? with
      | none => simp [hl] at ha
      | some ps =>
        rw [hl] at ha
        obtain ⟨b, hbm, hm⟩ := List.mem_filterMap.1 (List.mem_of_getLast? hl)
        obtain ⟨_, _, h1, _⟩ := Body.mem hb hbm
        cases h1 with
        | init ht =>
          simp only [PBlock.init?, Option.some.injEq] at hm; subst hm
          exact Predicates.located ht a ha
        | _ => simp [PBlock.init?] at hm
    | goal hg ha =>
      simp only [problemOf] at hg
      obtain ⟨b, hbm, hm⟩ := List.mem_filterMap.1 (List.mem_of_getLast? hg)
      obtain ⟨_, _, h1, _⟩ := Body.mem hb hbm
      cases h1 with
      | goal ht =>
        simp only [PBlock.goal?, Option.some.injEq] at hm; subst hm
        exact FormulaText.located ht a ha
      | _ => simp [PBlock.goal?] at hm

theorem FileText.initParams {q p ts} (h : FileText q (.problem p) ts) {i : InitTN} (hi : p.initTn = some i) :
    Located (i.params.getD []) := by
  cases h with
  | problem hb =>
    simp only [problemOf] at hi
    obtain ⟨b, hbm, hm⟩ := List.mem_filterMap.1 (List.mem_of_getLast? hi)
    obtain ⟨_, _, h1, _⟩ := Body.mem hb hbm
    cases h1 with
    | htn ht =>
      simp only [PBlock.htn?, Option.some.injEq] at hm; subst hm
      cases ht with
      | plain => simp [Located]
      | params ht => exact TypedList.located ht
    | _ => simp [PBlock.htn?] at hm

/-- A type in a list of symbols is among the names of the list. -/
theorem Located.names {l : List Symbol} (h : Located l) {s : Symbol} (hs : s ∈ l) {t : Name} (ht : s.ty = some t) :
    ∃ n, (t, n) ∈ l.flatMap symbolNames := by
  have := h s hs (by simp [ht])
  obtain ⟨n, hn⟩ := Option.isSome_iff_exists.mp this
  exact ⟨n, List.mem_flatMap.2 ⟨s, hs, symbolNames_ty ht hn⟩⟩

/-- The type of a name in a scope is written in one of the lists. -/
theorem Spec.TypeIn.mem {ls : List (List Symbol)} {x t : Name} {ty : Option Name} (h : TypeIn ls x ty) (ht : ty = some t) :
    ∃ l ∈ ls, ∃ s ∈ l, s.ty = some t := by
  induction h with
  | here h =>
    obtain ⟨pre, post, rfl, _⟩ := h
    exact ⟨_, List.mem_cons_self, _, by simp, ht⟩
  | outer _ _ ih =>
    obtain ⟨l, hl, h⟩ := ih ht
    exact ⟨l, List.mem_cons_of_mem _ hl, h⟩

/-! ### Bytes of lexemes -/

theorem peekLexeme_bytes {s l r : Bytes} (h : peekLexeme s = .ok l r) :
    ∀ c ∈ l, isLexemeByte c = true ∧ isBadByte c = false := by
  cases s with
  | nil => cases h
  | cons c cs =>
    simp only [peekLexeme] at h
    have hb := scanLexeme_good (c :: cs)
    have hl := scanLexeme_bytes (c :: cs)
    generalize scanLexeme (c :: cs) = x at h hb hl
    obtain ⟨l', r0, bad⟩ := x
    simp only at h hb hl
    split at h
    · rename_i hv
      split at h <;> cases h
      rename_i hbad
      exact fun c hc => ⟨hl c hc, hb (by simpa using hbad) c hc⟩
    · cases h

theorem peekLexeme_err_bytes {s l : Bytes} (h : peekLexeme s = .err l) : ∀ c ∈ l, isLexemeByte c = true := by
  cases s with
  | nil => cases h
  | cons c cs =>
    simp only [peekLexeme] at h
    have hl := scanLexeme_bytes (c :: cs)
    generalize scanLexeme (c :: cs) = x at h hl
    obtain ⟨l', r0, bad⟩ := x
    simp only at h hl
    split at h
    · split at h <;> cases h
      exact hl
    · cases h

theorem peekNumber_err_bytes {s l : Bytes} (h : peekNumber s = .error l) : ∀ c ∈ l, Digit c ∨ c = 46 := by
  have hb := scanNumber_bytes s false
  unfold peekNumber at h
  generalize scanNumber s false = x at h hb
  obtain ⟨l', r0, dot⟩ := x
  cases dot with
  | true => cases h
  | false =>
    simp only at h hb
    split at h <;> cases h
    exact hb

theorem lexemeByte_space {l : Bytes} (h : ∀ c ∈ l, isLexemeByte c = true) : 32 ∉ l := fun h1 => by
  have := h _ h1
  revert this; decide

variable [Env]

theorem lex_ident_bytes {peek : Bool} {s s' : LexState} {x : Name} (h : lex peek s = .tok (.ident x) s') :
    ∀ c ∈ x, isLexemeByte c = true ∧ isBadByte c = false := by
  have key : ∃ s1, getToken s = .tok (.ident x) s1 := by
    cases peek with
    | false => exact ⟨_, h⟩
    | true =>
      obtain ⟨v, s2, h1, _, h2, _⟩ := get_of_peek h
      refine ⟨s2, ?_⟩
      cases v with
      | ident y => cases h2; exact h1
      | op o => cases o <;> cases h2
      | _ => cases h2
  obtain ⟨_, h1⟩ := key
  obtain ⟨_, _, h2⟩ := ident_lexeme h1
  exact peekLexeme_bytes h2

theorem lex_err_bytes {peek : Bool} {s s' : LexState} {e : LexError} (h : lex peek s = .err e s') : 32 ∉ e.lexeme := by
  have key : ∃ s1, lex false s = .err e s1 := by
    cases peek with
    | false => exact ⟨_, h⟩
    | true => exact get_of_peek_err h
  obtain ⟨_, h⟩ := key
  unfold lex at h
  cases hsk : skipLayout s.rest s.line false with
  | none => rw [hsk] at h; cases h
  | some st =>
    obtain ⟨rst, n⟩ := st
    rw [hsk] at h
    cases rst with
    | nil => cases h
    | cons c cs =>
      simp only [Bool.false_eq_true, if_false, orderingType] at h
      repeat' split at h
      all_goals first
        | (cases h; done)
        | (cases h; exact lexemeByte_space (peekLexeme_err_bytes (by assumption)))
        | (have h1 := ‹peekLexeme _ = .ok _ _›; cases h; exact lexemeByte_space fun c hc => (peekLexeme_bytes h1 c hc).1)
        | (have h1 := ‹peekNumber _ = .error _›; cases h; exact fun h2 => by
            rcases peekNumber_err_bytes h1 _ h2 with h3 | h3
            · exact absurd h3 (by decide)
            · exact absurd h3 (by decide))

/-- The text of a token that was read has no quotes. -/
theorem found_quote (hq : ∀ l, 39 ∉ keyBytes (Env.showReal l)) {peek : Bool} {s s' : LexState} {t : Token}
    (h : lex peek s = .tok t s') : 39 ∉ Text.bytes t.show := by
  cases t with
  | ident x =>
    have := lex_ident_bytes h
    intro h1
    simp only [Token.show, bytes_s, bytes_n, bytes_nil, keyLit, List.append_nil, List.mem_append] at h1
    rcases h1 with h1 | h1
    · revert h1; decide
    · have := (this _ h1).2
      revert this; decide
  | kw k => cases k <;> (simp only [Token.show, Kw.show, bytes_s, bytes_nil, keyLit, List.append_nil]; decide)
  | req k => cases k <;> (simp only [Token.show, Req.show, bytes_s, bytes_nil, keyLit, List.append_nil]; decide)
  | op k => cases k <;> (simp only [Token.show, Op.show, bytes_s, bytes_nil, keyLit, List.append_nil]; decide)
  | punct k => cases k <;> (simp only [Token.show, Punct.show, bytes_s, bytes_nil, keyLit, List.append_nil]; decide)
  | eof => simp only [Token.show, bytes_s, bytes_nil, keyLit, List.append_nil]; decide
  | num v =>
    cases v with
    | int n =>
      simp only [Token.show, Num.show, bytes_s, bytes_i, bytes_nil, keyLit, List.append_nil, List.mem_append]
      rintro (h1 | h1)
      · revert h1; decide
      · exact absurd ((decimal_digits n).2 _ h1) (by decide)
    | real l =>
      simp only [Token.show, Num.show, bytes_s, bytes_nil, keyLit, List.append_nil, List.mem_append]
      rintro (h1 | h1)
      · revert h1; decide
      · exact hq l h1

end Verif
