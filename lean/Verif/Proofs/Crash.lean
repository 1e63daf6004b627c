import Verif.Proofs.ErrorText
import Verif.Proofs.Run
import Verif.Proofs.Ends

/-! What the parser does with a token between the blocks of a problem, and where the tokenizer stands still. -/

namespace Verif

open Spec

variable [Env] {α β : Type}

/-- On the tokens `ts`, `p` panics at the last one. -/
def Crashes (p : Nat → P α) (ts : List Tk) : Prop :=
  ∃ N, ∀ n, N ≤ n → ∀ s, Feeds s ts → p n s = .panic .problemToken

theorem Crashes.succ {p : Nat → P α} {ts} (h : Crashes (fun n => p (n + 1)) ts) : Crashes p ts := by
  obtain ⟨N, h⟩ := h
  refine ⟨N + 1, fun n hn => ?_⟩
  obtain ⟨k, rfl⟩ : ∃ k, n = k + 1 := ⟨n - 1, by omega⟩
  exact h k (by omega)

theorem Crashes.tok {f : Nat → Token → P β} {t l ts} (h : Crashes (fun n => f n t) ts) :
    Crashes (fun n => getTok >>= f n) ((t, l) :: ts) := by
  obtain ⟨N, h⟩ := h
  refine ⟨N, fun n hn s ⟨s1, h1, h2, h3⟩ => ?_⟩
  beta_reduce
  rw [P.bind_run (getTok_ok.2 h1)]
  exact h n hn s1 h3

theorem Crashes.bind {Q : List Tk → Prop} {p : Nat → P α} {f : Nat → α → P β} {ts ts' ts0 : List Tk} {a : α}
    (h : Acc Q p ts a) (h' : Crashes (fun n => f n a) ts') (hq : Q ts') (he : ts0 = ts ++ ts') :
    Crashes (fun n => p n >>= f n) ts0 := by
  obtain ⟨N, h⟩ := h
  obtain ⟨N', h'⟩ := h'
  subst he
  refine ⟨max N N', fun n hn s hf => ?_⟩
  obtain ⟨s1, h1, h2⟩ := h n (by omega) s ts' hf hq
  beta_reduce
  rw [P.bind_run h1]
  exact h' n (by omega) s1 h2

/-- A token that neither starts a block nor ends the file. -/
def Stray (t : Token) : Prop := t ≠ lpar ∧ t ≠ rpar ∧ t ≠ .eof

theorem parseProblem_crash {bs : List PBlock} {ts} (h : Body true (PBlockText true) (closeProblem true) bs ts) :
    ∀ c t l l', ts = c ++ [(.eof, l)] → Stray t → ∀ p, Crashes (fun n => parseProblem n p) (c ++ [(t, l')]) := by
  induction h with
  | done h =>
    intro c t l l' he ht p
    apply Crashes.succ
    simp only [parseProblem]
    rcases h with ⟨l2, rfl⟩ | ⟨_, l2, rfl⟩
    · cases c with
      | nil => cases he
      | cons x c => simp at he
    · cases c with
      | cons x c => simp at he
      | nil =>
        refine Crashes.tok ⟨0, fun n _ s _ => ?_⟩
        obtain ⟨h1, h2, h3⟩ := ht
        cases t with
        | punct p => cases p <;> first | exact absurd rfl h1 | exact absurd rfl h2 | rfl
        | eof => exact absurd rfl h3
        | _ => rfl
  | @block b bs ts ts' e hb hj hbody ih =>
    intro c t l l' he ht p
    -- the block comes before the end of the file
    obtain ⟨d, rfl, rfl⟩ : ∃ d, c = ts ++ d ∧ ts' = d ++ [(.eof, l)] := by
      have hne : ts' ≠ [] := by
        cases hbody with
        | done h => rcases h with ⟨_, rfl⟩ | ⟨_, _, rfl⟩ <;> simp
        | block h _ h' => cases h <;> simp
      obtain ⟨d, x, rfl⟩ := List.eq_nil_or_concat ts' |>.resolve_left hne
      rw [List.concat_eq_append, ← List.append_assoc] at he
      obtain ⟨h1, h2⟩ := List.append_inj' he rfl
      cases h2
      exact ⟨d, h1.symm, by simp⟩
    have ih := fun p => ih d t l l' rfl ht p
    have hj : After e (d ++ [(t, l')]) := by
      cases e with
      | closed => trivial
      | open_ => trivial
      | atParen =>
        obtain ⟨l2, r, h⟩ := hj
        cases d with
        | nil => cases h
        | cons x d =>
          simp only [List.cons_append, List.cons.injEq] at h
          exact ⟨l2, d ++ [(t, l')], by rw [h.1]; rfl⟩
    apply Crashes.succ
    simp only [parseProblem]
    cases hb with
    | @requirements l1 l2 l3 rs =>
      exact Crashes.tok (Crashes.tok (Crashes.bind (parseRequirements_complete (lr := l3) rs []) (ih _) trivial (by simp)))
    | @objects l1 l2 l3 ss items hp =>
      refine Crashes.tok (Crashes.tok (Crashes.bind (parseArgs_complete l3 hp) (ts' := d ++ [(t, l')]) ?_ trivial (by simp)))
      rw [addObjects_ok (by rw [hp.2]; exact symbolsOf_tyPos _)]
      exact Crashes.bind lift_complete (ih _) trivial rfl
    | htn hp =>
      exact Crashes.tok (Crashes.tok (Crashes.bind (parseInitialTn_complete hp) (ih _) hj (by simp)))
    | goal hp =>
      exact Crashes.tok (Crashes.tok (Crashes.bind (parseFormula_complete hp) (ih _) trivial (by simp)))
    | @init l1 l2 l3 ps a hp =>
      exact Crashes.tok (Crashes.tok (Crashes.bind (parsePredicates_complete (lr := l3) hp []) (ih _) trivial (by simp)))

omit [Env] in
theorem body_ne {q : Bool} {bs : List PBlock} {ts} (h : Body q (PBlockText q) (closeProblem q) bs ts) : ts ≠ [] := by
  cases h with
  | done h => rcases h with ⟨_, rfl⟩ | ⟨_, _, rfl⟩ <;> simp
  | block h _ h' => cases h <;> simp

/-- Where a problem file could end, every token that neither starts a block nor ends the file makes the parser panic. -/
theorem parseFile_crash {a c l} (h : FileText true a (c ++ [(.eof, l)])) {t} (ht : Stray t) (l' : Nat) :
    Crashes parseFile (c ++ [(t, l')]) := by
  show Crashes (fun n => parseFile n) _
  generalize hts : c ++ [(Token.eof, l)] = ts at h
  cases h with
  | domain hb =>
    exfalso
    obtain ⟨x, y, rfl, ⟨l2, rfl⟩, _⟩ := Body.ends hb
    rw [show ∀ (a b c d e f : Tk), a :: b :: c :: d :: e :: f :: (x ++ [(rpar, l2)]) =
      (a :: b :: c :: d :: e :: f :: x) ++ [(rpar, l2)] from fun _ _ _ _ _ _ => rfl] at hts
    have := (List.append_inj' hts rfl).2
    cases this
  | @problem name dname bs ts l1 l2 l3 l4 l5 l6 l7 l8 l9 l10 hb =>
    obtain ⟨d, x, rfl⟩ := List.eq_nil_or_concat ts |>.resolve_left (body_ne hb)
    rw [List.concat_eq_append] at hb hts
    obtain ⟨h1, h2⟩ := List.append_inj' (show c ++ [(Token.eof, l)] = ((lpar, l1) :: (.kw .define, l2) :: (lpar, l3) ::
      (.kw .problem, l4) :: (.ident name, l5) :: (rpar, l6) :: (lpar, l7) :: (.kw .domain, l8) :: (.ident dname, l9) ::
      (rpar, l10) :: d) ++ [x] from hts) rfl
    cases h2
    subst h1
    simp only [parseFile]
    refine Crashes.bind (Q := Any) (ts := [(lpar, l1)]) (a := ()) ?_ ?_ trivial rfl
    · exact ⟨0, fun n _ s rest ⟨s1, h1, _, h3⟩ _ => ⟨s1, expectTok_ok.2 h1, h3⟩⟩
    refine Crashes.bind (Q := Any) (a := .problem name dname) (ts := [(.kw .define, l2), (lpar, l3), (.kw .problem, l4),
      (.ident name, l5), (rpar, l6), (lpar, l7), (.kw .domain, l8), (.ident dname, l9), (rpar, l10)])
      (ts' := d ++ [(t, l')]) ?_ ?_ trivial rfl
    · simp only [parseDocumentType]
      exact Acc.exact (Acc.at (Acc.exact (Acc.at (Acc.tok (Acc.at (by
        simp only [parseProblemHeader]
        exact Acc.ident (Acc.at (Acc.exact (Acc.at (Acc.exact (Acc.at (Acc.exact (Acc.at (Acc.ident (Acc.at
          (Acc.exact Acc.ret.at))))))))))))))))
    · obtain ⟨N, hN⟩ := parseProblem_crash hb d t l l' rfl ht ProblemAST.new
      exact ⟨N, fun n hn s hf => P.bind_of_panic (hN n hn s hf)⟩

omit [Env] in
/-- Where a problem could end, more blocks can follow. -/
theorem body_extend {bs : List PBlock} {ts} (h : Body true (PBlockText true) (closeProblem true) bs ts) :
    ∀ c l, ts = c ++ [(.eof, l)] → ∀ {bs2 ts2}, Body true (PBlockText true) (closeProblem true) bs2 ts2 →
      Body true (PBlockText true) (closeProblem true) (bs ++ bs2) (c ++ ts2) := by
  induction h with
  | done h =>
    intro c l he bs2 ts2 h2
    have : c = [] := by
      rcases h with ⟨l2, rfl⟩ | ⟨_, l2, rfl⟩ <;> cases c with
      | nil => rfl
      | cons x c => simp at he
    subst this
    exact h2
  | @block b bs ts ts' e hb hj hbody ih =>
    intro c l he bs2 ts2 h2
    obtain ⟨d, x, rfl⟩ := List.eq_nil_or_concat ts' |>.resolve_left (body_ne hbody)
    rw [List.concat_eq_append] at *
    rw [← List.append_assoc] at he
    obtain ⟨h1, h3⟩ := List.append_inj' he rfl
    cases h3
    subst h1
    rw [List.append_assoc]
    refine .block hb ?_ (ih d l rfl h2)
    cases e with
    | closed => trivial
    | open_ => exact .inl rfl
    | atParen =>
      obtain ⟨l2, r, h⟩ := hj
      cases d with
      | nil => cases h
      | cons x d =>
        simp only [List.cons_append, List.cons.injEq] at h
        exact ⟨l2, d ++ ts2, by rw [h.1]; rfl⟩

omit [Env] in
/-- Where a problem file could end, a parenthesis can follow. -/
theorem file_extend {a c l} (h : FileText true a (c ++ [(.eof, l)])) :
    (∀ l', LFile (c ++ [(rpar, l')])) ∧ ∀ l', Unfinished (c ++ [(lpar, l')]) := by
  generalize hts : c ++ [(Token.eof, l)] = ts at h
  cases h with
  | domain hb =>
    exfalso
    obtain ⟨x, y, rfl, ⟨l2, rfl⟩, _⟩ := Body.ends hb
    rw [show ∀ (a b c d e f : Tk), a :: b :: c :: d :: e :: f :: (x ++ [(rpar, l2)]) =
      (a :: b :: c :: d :: e :: f :: x) ++ [(rpar, l2)] from fun _ _ _ _ _ _ => rfl] at hts
    have := (List.append_inj' hts rfl).2
    cases this
  | @problem name dname bs ts l1 l2 l3 l4 l5 l6 l7 l8 l9 l10 hb =>
    obtain ⟨d, x, rfl⟩ := List.eq_nil_or_concat ts |>.resolve_left (body_ne hb)
    rw [List.concat_eq_append] at hb hts
    obtain ⟨h1, h2⟩ := List.append_inj' (show c ++ [(Token.eof, l)] = ((lpar, l1) :: (.kw .define, l2) :: (lpar, l3) ::
      (.kw .problem, l4) :: (.ident name, l5) :: (rpar, l6) :: (lpar, l7) :: (.kw .domain, l8) :: (.ident dname, l9) ::
      (rpar, l10) :: d) ++ [x] from hts) rfl
    cases h2
    subst h1
    constructor
    · intro l'
      exact ⟨_, .problem (body_extend hb d l rfl (.done (.inl ⟨l', rfl⟩)))⟩
    · intro l'
      refine ⟨[(.kw .objects, 0), (rpar, 0), (rpar, 0)], by simp, by simp [Simple], ?_⟩
      have h3 : Body true (PBlockText true) (closeProblem true) _ _ :=
        Body.block (.objects (l1 := l') (l2 := 0) (l3 := 0) (items := []) typedList_nil) trivial
        (.done (stop := closeProblem true) (.inl ⟨0, rfl⟩))
      have := FileText.problem (name := name) (dname := dname) (l1 := l1) (l2 := l2) (l3 := l3) (l4 := l4) (l5 := l5)
        (l6 := l6) (l7 := l7) (l8 := l8) (l9 := l9) (l10 := l10) (body_extend hb d l rfl h3)
      exact ⟨_, by simpa using this⟩

/-! ### Streams of tokens -/

theorem feeds_prefix {s : LexState} {a b : List Tk} (h1 : Feeds s a) (h2 : Feeds s b) (hl : a.length ≤ b.length) :
    ∃ r, b = a ++ r := by
  induction a generalizing s b with
  | nil => exact ⟨b, rfl⟩
  | cons x a ih =>
    cases b with
    | nil => simp at hl
    | cons y b =>
      obtain ⟨t, l⟩ := x
      obtain ⟨u, k⟩ := y
      obtain ⟨s1, h3, h4, h5⟩ := h1
      obtain ⟨s2, h6, h7, h8⟩ := h2
      rw [h3] at h6
      cases h6
      obtain ⟨r, hr⟩ := ih h5 h8 (by simpa using hl)
      exact ⟨r, by simp [hr, ← h4, ← h7]⟩

/-- If the next token cannot be read, no further tokens are read. -/
theorem feeds_end {s s1 : LexState} {c b : List Tk} (h : Reads s c s1) (hb : Feeds s b)
    (he : ∀ t s2, getToken s1 ≠ .tok t s2) : ∃ r, c = b ++ r := by
  by_cases hl : b.length ≤ c.length
  · exact feeds_prefix hb h.feeds hl
  · exfalso
    obtain ⟨r, rfl⟩ := feeds_prefix h.feeds hb (by omega)
    have hr : r ≠ [] := by rintro rfl; simp at hl
    clear hl
    induction h with
    | nil =>
      obtain ⟨⟨t, l⟩, r', rfl⟩ := List.exists_cons_of_ne_nil hr
      obtain ⟨s2, h2, _⟩ := hb
      exact he _ _ h2
    | cons h1 _ ih =>
      obtain ⟨s2, h2, _, h3⟩ := hb
      rw [h1] at h2
      cases h2
      exact ih he h3

theorem feeds_eof {s s1 : LexState} (h : getToken s = .tok .eof s1) : s1.rest = [] := by
  obtain ⟨lay, w, r, _, _, _, hs, _, he, _⟩ := lex_tok_spec h
  have := he.1 rfl
  simp only [Bool.false_eq_true, if_false] at hs
  rw [hs, (List.append_eq_nil_iff.1 this).2]

theorem feeds_rest_nil {s : LexState} {ts : List Tk} (hs : s.rest = []) (h : Feeds s ts) : ∀ x ∈ ts, x.1 = .eof := by
  induction ts generalizing s with
  | nil => simp
  | cons x ts ih =>
    obtain ⟨t, l⟩ := x
    obtain ⟨s1, h1, _, h3⟩ := h
    have : t = .eof := by
      obtain ⟨lay, w, r, _, hr, _, _, _, he, _⟩ := lex_tok_spec h1
      rw [hs] at hr
      exact he.2 (List.append_eq_nil_iff.1 hr.symm).2
    subst this
    intro y hy
    rcases List.mem_cons.1 hy with rfl | hy
    · rfl
    · exact ih (feeds_eof h1) h3 y hy

/-- The end of the file comes last. -/
theorem noEof_before {s : LexState} {c : List Tk} {t : Token} {l : Nat} (h : Feeds s (c ++ [(t, l)])) (ht : t ≠ .eof) :
    NoEof c := by
  induction c generalizing s with
  | nil => simp
  | cons x c ih =>
    obtain ⟨u, k⟩ := x
    obtain ⟨s1, h1, _, h3⟩ := h
    simp only [noEof_cons]
    refine ⟨?_, ih h3⟩
    rintro rfl
    exact ht (feeds_rest_nil (feeds_eof h1) h3 (t, l) (by simp))

/-- If the tokenizer does not move on, it stands on the last byte of the file and returns empty names for ever. -/
theorem stuck_of_not_moves {s : LexState} (h : ¬ Advances s) :
    ∃ c l, ∀ k, Feeds s (c ++ List.replicate k (.ident [], l)) := by
  unfold Advances at h
  push Not at h
  obtain ⟨c, s1, t, s2, h1, h2, h3, h4⟩ := h
  obtain ⟨lay, w, r, _, hr, _, hs, hl, _, hw⟩ := lex_tok_spec h2
  simp only [Bool.false_eq_true, if_false] at hs
  rw [hr, hs] at h4
  simp only [List.length_append] at h4
  have hw0 : w = [] := List.length_eq_zero_iff.1 (by omega)
  have hl0 : lay = [] := List.length_eq_zero_iff.1 (by omega)
  subst hw0 hl0
  obtain ⟨rfl, _⟩ := hw rfl h3
  have : s2 = s1 := by
    obtain ⟨r1, n1⟩ := s1
    obtain ⟨r2, n2⟩ := s2
    simp only [List.nil_append, newlines] at *
    simp_all
  subst this
  refine ⟨c, s2.line, fun k => h1.feeds ?_⟩
  induction k with
  | zero => exact trivial
  | succ k ih => exact ⟨s2, h2, rfl, ih⟩

/-- A file for a text, ending with a newline. -/
theorem write_lines {ts : List Tk} (h : ∀ x ∈ ts, Writable x.1) : ∀ n, ∃ bytes ts', Renamed id ts ts' ∧
    Feeds ⟨bytes, n⟩ ts' ∧ (bytes = [] ∨ bytes.getLast? = some 10) := by
  induction ts with
  | nil => intro n; exact ⟨[], [], .nil, trivial, .inl rfl⟩
  | cons x ts ih =>
    intro n
    obtain ⟨w, hw⟩ := h x List.mem_cons_self
    obtain ⟨b, ts', h1, h2, h3⟩ := ih (fun y hy => h y (List.mem_cons_of_mem _ hy)) (n + 1)
    refine ⟨w ++ 10 :: b, (x.1, n) :: ts', .cons (by simp) h1, ⟨⟨10 :: b, n⟩, hw b n, rfl, feeds_newline h2⟩, .inr ?_⟩
    rcases h3 with rfl | h3
    · simp
    · rw [List.getLast?_append_of_ne_nil _ (by simp)]
      cases b with
      | nil => simp at h3
      | cons y b => rw [List.getLast?_cons_cons]; exact h3

end Verif
