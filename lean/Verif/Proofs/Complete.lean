import Verif.Proofs.Sound

/-! Completeness of the parser: everything in the (lenient) grammar is accepted, with the right syntax tree. -/

namespace Verif

open Spec

variable [Env]

/-- With enough budget `p` reads the tokens `ts`, provided they are followed by tokens satisfying `Q`, and returns `a`. -/
def Acc {α} (Q : List Tk → Prop) (p : Nat → P α) (ts : List Tk) (a : α) : Prop :=
  ∃ N, ∀ n, N ≤ n → ∀ s rest, Feeds s (ts ++ rest) → Q rest → ∃ s1, p n s = .ok (a, s1) ∧ Feeds s1 rest

/-- The same when the token just read is on line `l`. -/
def AccAt {α} (l : Nat) (Q : List Tk → Prop) (p : Nat → P α) (ts : List Tk) (a : α) : Prop :=
  ∃ N, ∀ n, N ≤ n → ∀ s rest, s.line = l → Feeds s (ts ++ rest) → Q rest → ∃ s1, p n s = .ok (a, s1) ∧ Feeds s1 rest

/-- No condition on what follows. -/
abbrev Any : List Tk → Prop := fun _ => True

variable {α β : Type} {Q Q1 : List Tk → Prop} {ts ts' : List Tk} {a : α} {b : β} {l : Nat} {t : Token} {m : Text}

theorem Acc.at {p : Nat → P α} (h : Acc Q p ts a) : AccAt l Q p ts a := by
  obtain ⟨N, h⟩ := h
  exact ⟨N, fun n hn s rest _ => h n hn s rest⟩

theorem Acc.succ {p : Nat → P α} (h : Acc Q (fun n => p (n + 1)) ts a) : Acc Q p ts a := by
  obtain ⟨N, h⟩ := h
  refine ⟨N + 1, fun n hn => ?_⟩
  obtain ⟨k, rfl⟩ : ∃ k, n = k + 1 := ⟨n - 1, by omega⟩
  exact h k (by omega)

theorem AccAt.succ {p : Nat → P α} (h : AccAt l Q (fun n => p (n + 1)) ts a) : AccAt l Q p ts a := by
  obtain ⟨N, h⟩ := h
  refine ⟨N + 1, fun n hn => ?_⟩
  obtain ⟨k, rfl⟩ : ∃ k, n = k + 1 := ⟨n - 1, by omega⟩
  exact h k (by omega)

theorem Acc.ret : Acc Q (fun _ => (pure a : P α)) [] a := ⟨0, fun _ _ s _ h _ => ⟨s, rfl, h⟩⟩

theorem Acc.tok {f : Nat → Token → P β} (h : AccAt l Q (fun n => f n t) ts b) :
    Acc Q (fun n => getTok >>= f n) ((t, l) :: ts) b := by
  obtain ⟨N, h⟩ := h
  refine ⟨N, fun n hn s rest ⟨s1, h1, h2, h3⟩ hq => ?_⟩
  beta_reduce
  rw [P.bind_run (getTok_ok.2 h1)]
  exact h n hn s1 rest h2 h3 hq

theorem Acc.exact {f : Nat → Unit → P β} (h : AccAt l Q (fun n => f n ()) ts b) :
    Acc Q (fun n => expectTok t m >>= f n) ((t, l) :: ts) b := by
  obtain ⟨N, h⟩ := h
  refine ⟨N, fun n hn s rest ⟨s1, h1, h2, h3⟩ hq => ?_⟩
  beta_reduce
  rw [P.bind_run (a := ()) (s1 := s1) (expectTok_ok.2 h1)]
  exact h n hn s1 rest h2 h3 hq

theorem Acc.skip {f : Nat → Unit → P β} (h : AccAt l Q (fun n => f n ()) ts b) :
    Acc Q (fun n => skipTok >>= f n) ((t, l) :: ts) b := by
  obtain ⟨N, h⟩ := h
  refine ⟨N, fun n hn s rest ⟨s1, h1, h2, h3⟩ hq => ?_⟩
  beta_reduce
  rw [P.bind_run (a := ()) (s1 := s1) (skipTok_ok.2 (.inl ⟨_, h1⟩))]
  exact h n hn s1 rest h2 h3 hq

theorem Acc.ident {x : Name} {f : Nat → Name → P β} (h : AccAt l Q (fun n => f n x) ts b) :
    Acc Q (fun n => expectIdent m >>= f n) ((.ident x, l) :: ts) b := by
  obtain ⟨N, h⟩ := h
  refine ⟨N, fun n hn s rest ⟨s1, h1, h2, h3⟩ hq => ?_⟩
  beta_reduce
  rw [P.bind_run (expectIdent_ok.2 h1)]
  exact h n hn s1 rest h2 h3 hq

theorem AccAt.pos {f : Nat → Nat → P β} (h : AccAt l Q (fun n => f n l) ts b) :
    AccAt l Q (fun n => getPos >>= f n) ts b := by
  obtain ⟨N, h⟩ := h
  refine ⟨N, fun n hn s rest hl hf hq => ?_⟩
  beta_reduce
  rw [P.bind_run (a := l) (s1 := s) (getPos_ok.2 ⟨hl, rfl⟩)]
  exact h n hn s rest hl hf hq

theorem Acc.peek {f : Nat → Token → P β} (h : Acc Q (fun n => f n t) ((t, l) :: ts) b) (hle : t ≠ .op .le)
    (hge : t ≠ .op .ge) : Acc Q (fun n => peekTok >>= f n) ((t, l) :: ts) b := by
  obtain ⟨N, h⟩ := h
  refine ⟨N, fun n hn s rest hf hq => ?_⟩
  obtain ⟨s1, h1, _, _⟩ := id hf
  obtain ⟨s2, h2⟩ := lookahead_of_get h1 hle hge
  beta_reduce
  rw [P.bind_run (peekTok_ok.2 h2)]
  exact h n hn s2 rest ((Feeds.peek h2).2 hf) hq

theorem Acc.peekParen {f : Nat → Token → P β} (h : Acc AtParen (fun n => f n rpar) [] b) :
    Acc AtParen (fun n => peekTok >>= f n) [] b := by
  obtain ⟨N, h⟩ := h
  refine ⟨N, fun n hn s rest hf hq => ?_⟩
  obtain ⟨l, r, rfl⟩ := id hq
  obtain ⟨s1, h1, _, _⟩ := id hf
  obtain ⟨s2, h2⟩ := lookahead_of_get h1 (by simp) (by simp)
  beta_reduce
  rw [P.bind_run (peekTok_ok.2 h2)]
  exact h n hn s2 _ ((Feeds.peek h2).2 hf) hq

theorem Acc.bind {p : Nat → P α} {f : Nat → α → P β} {ts0 : List Tk} (h : Acc Q1 p ts a)
    (h' : Acc Q (fun n => f n a) ts' b) (he : ts0 = ts ++ ts') (hq : ∀ rest, Q rest → Q1 (ts' ++ rest)) :
    Acc Q (fun n => p n >>= f n) ts0 b := by
  obtain ⟨N, h⟩ := h
  obtain ⟨N', h'⟩ := h'
  subst he
  refine ⟨max N N', fun n hn s rest hf hq' => ?_⟩
  rw [List.append_assoc] at hf
  obtain ⟨s1, h1, h2⟩ := h n (by omega) s _ hf (hq _ hq')
  beta_reduce
  rw [P.bind_run h1]
  exact h' n (by omega) s1 rest h2 hq'

theorem Acc.bindA {p : Nat → P α} {f : Nat → α → P β} {ts0 : List Tk} (h : Acc Any p ts a)
    (h' : Acc Q (fun n => f n a) ts' b) (he : ts0 = ts ++ ts') : Acc Q (fun n => p n >>= f n) ts0 b :=
  h.bind h' he fun _ _ => trivial

theorem Acc.weaken {p : Nat → P α} (h : Acc Q1 p ts a) (hq : ∀ rest, Q rest → Q1 rest) : Acc Q p ts a := by
  obtain ⟨N, h⟩ := h
  exact ⟨N, fun n hn s rest hf hr => h n hn s rest hf (hq _ hr)⟩

theorem Acc.val {p : Nat → P α} {a' : α} (h : Acc Q p ts a) (he : a = a') : Acc Q p ts a' := he ▸ h

theorem Acc.map {p : Nat → P α} (f : α → β) (h : Acc Q p ts a) :
    Acc Q (fun n => p n >>= fun x => pure (f x)) ts (f a) :=
  Acc.bind h Acc.ret (List.append_nil _).symm fun _ hq => hq

/-! ### Lists -/

theorem argsLoop_complete {items : List Tk} (hi : Items items) : ∀ objs res tok l lr rest,
    (tok, l) :: rest = items ++ [(rpar, lr)] →
    AccAt l Any (fun n => argsLoop n objs res tok) rest
      (res ++ (objs.map fun o => (⟨o.1, o.2, (firstType items).map (·.1), (firstType items).map (·.2)⟩ : Symbol)) ++
        symbolsOf items) := by
  induction hi with
  | nil =>
    intro objs res tok l lr rest he
    cases he
    apply AccAt.succ
    simp only [argsLoop, firstType, symbolsOf, Option.map_none, List.append_nil]
    exact Acc.ret.at
  | @name x l' ts _ ih =>
    intro objs res tok l lr rest he
    simp only [List.cons_append, List.cons.injEq, Prod.mk.injEq] at he
    obtain ⟨⟨rfl, rfl⟩, rfl⟩ := he
    apply AccAt.succ
    simp only [argsLoop]
    apply AccAt.pos
    cases hts : ts ++ [(rpar, lr)] with
    | nil => simp at hts
    | cons y rest =>
      obtain ⟨t, l2⟩ := y
      have := ih (objs ++ [(x, l)]) res t l2 lr rest hts.symm
      refine Acc.at (Acc.tok ?_)
      simpa [firstType, symbolsOf] using this
  | @type l' t l'' ts _ ih =>
    intro objs res tok l lr rest he
    simp only [List.cons_append, List.cons.injEq, Prod.mk.injEq] at he
    obtain ⟨⟨rfl, rfl⟩, rfl⟩ := he
    apply AccAt.succ
    simp only [argsLoop]
    refine Acc.at (Acc.tok (AccAt.pos ?_))
    cases hts : ts ++ [(rpar, lr)] with
    | nil => simp at hts
    | cons y rest =>
      obtain ⟨t', l2⟩ := y
      have := ih [] (res ++ objs.map fun o => ⟨o.1, o.2, some t, some l''⟩) t' l2 lr rest hts.symm
      refine Acc.at (Acc.tok ?_)
      simpa [firstType, symbolsOf] using this

theorem parseArgs_complete {ss items} (lr : Nat) (h : TypedList ss items) : Acc Any parseArgs (items ++ [(rpar, lr)]) ss := by
  obtain ⟨hi, rfl⟩ := h
  show Acc Any (fun n => parseArgs n) _ _
  simp only [parseArgs]
  cases hts : items ++ [(rpar, lr)] with
  | nil => simp at hts
  | cons y rest =>
    obtain ⟨t', l2⟩ := y
    have := argsLoop_complete hi [] [] t' l2 lr rest hts.symm
    apply Acc.tok
    simpa using this

theorem parseRequirements_complete {lr} (rs : List (Req × Nat)) : ∀ acc,
    Acc Any (fun n => parseRequirements n acc) (reqToks rs ++ [(rpar, lr)]) (acc ++ rs.map Prod.fst) := by
  induction rs with
  | nil =>
    intro acc
    apply Acc.succ
    simp only [parseRequirements]
    apply Acc.tok
    simpa using Acc.ret.at
  | cons r rs ih =>
    intro acc
    apply Acc.succ
    simp only [parseRequirements]
    refine Acc.tok (t := .req r.1) (l := r.2) (Acc.at ?_)
    simpa [reqToks] using ih (acc ++ [r.1])

theorem parsePredicates_complete {ps ts lr} (h : Predicates ps ts) : ∀ acc,
    Acc Any (fun n => parsePredicates n acc) (ts ++ [(rpar, lr)]) (acc ++ ps) := by
  induction h with
  | nil =>
    intro acc
    apply Acc.succ
    simp only [parsePredicates]
    apply Acc.tok
    simpa using Acc.ret.at
  | @cons name l1 l2 l3 vars items ps ts ht _ ih =>
    intro acc
    apply Acc.succ
    simp only [parsePredicates, parsePredicateDef]
    refine Acc.tok (Acc.at ?_)
    refine Acc.bindA (a := ⟨name, l2, vars⟩) (ts := (.ident name, l2) :: (items ++ [(rpar, l3)]))
      (Acc.ident (AccAt.pos (Acc.at (Acc.bindA (parseArgs_complete l3 ht) Acc.ret (by simp)))))
      (ts' := ts ++ [(rpar, lr)]) ?_ (by simp)
    refine Acc.val (ih (acc ++ [⟨name, l2, vars⟩])) ?_
    simp

theorem parseFunctions_complete {ps ts lr} (h : Predicates ps ts) : ∀ acc,
    Acc Any (fun n => parseFunctions n acc) (ts ++ [(rpar, lr)]) (acc ++ ps) := by
  induction h with
  | nil =>
    intro acc
    apply Acc.succ
    simp only [parseFunctions]
    apply Acc.tok
    simpa using Acc.ret.at
  | @cons name l1 l2 l3 vars items ps ts ht _ ih =>
    intro acc
    apply Acc.succ
    simp only [parseFunctions, parseFunctionDef]
    refine Acc.tok (Acc.at ?_)
    refine Acc.bindA (a := ⟨name, l2, vars⟩) (ts := (.ident name, l2) :: (items ++ [(rpar, l3)]))
      (Acc.ident (AccAt.pos (Acc.at (Acc.bindA (parseArgs_complete l3 ht) Acc.ret (by simp)))))
      (ts' := ts ++ [(rpar, lr)]) ?_ (by simp)
    refine Acc.val (ih (acc ++ [⟨name, l2, vars⟩])) ?_
    simp

/-! ### Formulas -/

omit [Env] in
theorem isEmpty_eq_false {f : Formula} (h : f ≠ .empty) : f.isEmpty = false := by
  cases f <;> simp_all [Formula.isEmpty]

theorem parseFormula_empty {l1 l2} : Acc Any parseFormula [(lpar, l1), (rpar, l2)] .empty := by
  apply Acc.succ
  simp only [parseFormula]
  exact Acc.tok (Acc.at (Acc.tok Acc.ret.at))

theorem parseFormula_missing {l} : Acc Any parseFormula [(rpar, l)] .empty := by
  apply Acc.succ
  simp only [parseFormula]
  exact Acc.tok Acc.ret.at

mutual

theorem parseFormula_complete {q : Bool} {f ts} (h : FormulaText q f ts) : Acc Any parseFormula ts f := by
  apply Acc.succ
  simp only [parseFormula]
  cases h with
  | empty => exact Acc.tok (Acc.at (Acc.tok Acc.ret.at))
  | missing _ => exact Acc.tok Acc.ret.at
  | @atom name l1 l2 l3 vars items ht =>
    exact Acc.tok (Acc.at (Acc.tok (AccAt.pos (Acc.at (Acc.bindA (parseArgs_complete l3 ht) Acc.ret (by simp))))))
  | not hf =>
    exact Acc.tok (Acc.at (Acc.tok (Acc.at (Acc.bindA (parseFormula_complete hf) (Acc.exact Acc.ret.at) rfl))))
  | and hf => exact Acc.tok (Acc.at (Acc.tok (Acc.at (Acc.bindA (parseFormulas_complete hf []) Acc.ret (by simp)))))
  | or hf => exact Acc.tok (Acc.at (Acc.tok (Acc.at (Acc.bindA (parseFormulas_complete hf []) Acc.ret (by simp)))))
  | xor hf => exact Acc.tok (Acc.at (Acc.tok (Acc.at (Acc.bindA (parseFormulas_complete hf []) Acc.ret (by simp)))))
  | equals =>
    exact Acc.tok (Acc.at (Acc.tok (Acc.at (Acc.ident (Acc.at (Acc.ident (Acc.at (Acc.exact Acc.ret.at))))))))
  | @forall_ l1 l2 l3 l4 l5 vars items f ts ht hf =>
    exact Acc.tok (Acc.at (Acc.tok (Acc.at (Acc.exact (Acc.at (Acc.bindA (parseArgs_complete l4 ht)
      (Acc.bindA (parseFormula_complete hf) (Acc.exact (l := l5) Acc.ret.at) rfl) (by simp)))))))
  | @exists_ l1 l2 l3 l4 l5 vars items f ts ht hf =>
    exact Acc.tok (Acc.at (Acc.tok (Acc.at (Acc.exact (Acc.at (Acc.bindA (parseArgs_complete l4 ht)
      (Acc.bindA (parseFormula_complete hf) (Acc.exact (l := l5) Acc.ret.at) rfl) (by simp)))))))
  | probabilistic hf =>
    exact Acc.tok (Acc.at (Acc.tok (Acc.at (Acc.bindA (parseBranches_complete hf []) Acc.ret (by simp)))))

theorem parseFormulas_complete {q : Bool} {fs ts} (h : FormulasText q fs ts) (acc : List Formula) :
    Acc Any (fun n => parseFormulas n acc) ts (acc ++ fs) := by
  apply Acc.succ
  simp only [parseFormulas]
  cases h with
  | nil =>
    refine Acc.bindA (a := .empty) (ts' := []) parseFormula_missing ?_ rfl
    simpa [Formula.isEmpty] using Acc.ret
  | unclosed _ =>
    refine Acc.bindA (a := .empty) (ts' := []) parseFormula_empty ?_ rfl
    simpa [Formula.isEmpty] using Acc.ret
  | cons hf he hfs =>
    refine Acc.bindA (parseFormula_complete hf) ?_ rfl
    simp only [isEmpty_eq_false he]
    refine Acc.val (parseFormulas_complete hfs _) ?_
    simp

theorem parseBranches_complete {q : Bool} {fs ts} (h : BranchesText q fs ts) (acc : List Formula) :
    Acc Any (fun n => parseBranches n acc) ts (acc ++ fs) := by
  apply Acc.succ
  simp only [parseBranches]
  cases h with
  | nil => exact Acc.tok (by simpa using Acc.ret.at)
  | cons hf he hfs =>
    refine Acc.tok (Acc.at (Acc.bindA (parseFormula_complete hf) ?_ rfl))
    simp only [isEmpty_eq_false he]
    refine Acc.val (parseBranches_complete hfs _) ?_
    simp

end

/-! ### Task networks -/

theorem termsLoop_complete {msg lr} (xs : List (Name × Nat)) : ∀ acc,
    Acc Any (fun n => termsLoop msg n acc) (nameToks xs ++ [(rpar, lr)]) (acc ++ nameSyms xs) := by
  induction xs with
  | nil =>
    intro acc
    apply Acc.succ
    simp only [termsLoop]
    exact Acc.tok (by simpa [nameSyms] using Acc.ret.at)
  | cons x xs ih =>
    intro acc
    apply Acc.succ
    simp only [termsLoop]
    refine Acc.tok (t := .ident x.1) (l := x.2) (AccAt.pos (Acc.at ?_))
    refine Acc.val (ih (acc ++ [⟨x.1, x.2, none, none⟩])) ?_
    simp [nameSyms]

theorem parseSubtask_complete {x ts} (h : SubtaskText x ts) : Acc Any parseSubtask ts x := by
  show Acc Any (fun n => parseSubtask n) _ _
  simp only [parseSubtask]
  cases h with
  | @plain task l1 l2 xs =>
    cases xs with
    | nil => exact Acc.ident (AccAt.pos (Acc.at (Acc.tok Acc.ret.at)))
    | cons y xs =>
      refine Acc.ident (AccAt.pos (Acc.at (Acc.tok (t := .ident y.1) (l := y.2) (AccAt.pos (Acc.at ?_)))))
      exact Acc.bindA (termsLoop_complete (lr := l2) xs [⟨y.1, y.2, none, none⟩]) Acc.ret (by simp [nameToks])
  | @labelled id l1 l2 task l3 l4 l5 xs =>
    refine Acc.ident (AccAt.pos (Acc.at (Acc.tok (Acc.at (Acc.ident (AccAt.pos (Acc.at ?_)))))))
    exact Acc.bindA (termsLoop_complete (lr := l4) xs []) (Acc.exact (l := l5) Acc.ret.at) (by simp)

theorem subtasksLoop_complete {xs ts lr} (h : SubtaskList xs ts) : ∀ acc,
    Acc Any (fun n => subtasksLoop n acc) (ts ++ [(rpar, lr)]) (acc ++ xs) := by
  induction h with
  | nil =>
    intro acc
    apply Acc.succ
    simp only [subtasksLoop]
    exact Acc.tok (by simpa using Acc.ret.at)
  | @cons l t ts a b ht _ ih =>
    intro acc
    apply Acc.succ
    simp only [subtasksLoop]
    exact Acc.tok (Acc.at (Acc.bindA (parseSubtask_complete ht) ((ih _).val (by simp)) (by simp)))

theorem parseSubtasks_complete {xs ts} (h : SubtasksText xs ts) : Acc Any parseSubtasks ts xs := by
  show Acc Any (fun n => parseSubtasks n) _ _
  simp only [parseSubtasks]
  cases h with
  | none => exact Acc.exact (Acc.at (Acc.peek (Acc.tok Acc.ret.at) (by simp) (by simp)))
  | one hx =>
    have := (parseSubtask_complete hx).map fun x => [x]
    cases hx with
    | plain => exact Acc.exact (Acc.at (Acc.peek this (by simp) (by simp)))
    | labelled => exact Acc.exact (Acc.at (Acc.peek this (by simp) (by simp)))
  | @many l1 l2 l3 ts a hx =>
    exact Acc.exact (Acc.at (Acc.peek (Acc.tok (Acc.at (subtasksLoop_complete hx []))) (by simp) (by simp)))

theorem afterLoop_complete {t1 msg lr} (bs : List (Name × Nat)) : ∀ acc,
    Acc Any (fun n => afterLoop t1 msg n acc) (nameToks bs ++ [(rpar, lr)]) (acc ++ bs.map fun b => (t1, b.1)) := by
  induction bs with
  | nil =>
    intro acc
    apply Acc.succ
    simp only [afterLoop]
    exact Acc.tok (by simpa using Acc.ret.at)
  | cons x xs ih =>
    intro acc
    apply Acc.succ
    simp only [afterLoop]
    refine Acc.tok (t := .ident x.1) (l := x.2) (Acc.at ?_)
    refine Acc.val (ih (acc ++ [(t1, x.1)])) ?_
    simp

theorem parseOrdering_complete {o ts} (h : OrderText o ts) : Acc Any parseOrdering ts o := by
  show Acc Any (fun n => parseOrdering n) _ _
  simp only [parseOrdering]
  cases h with
  | mk => exact Acc.exact (Acc.at (Acc.ident (Acc.at (afterLoop_complete _ []))))

theorem orderingsLoop_complete {os ts lr} (h : OrderList os ts) : ∀ acc,
    Acc Any (fun n => orderingsLoop n acc) (ts ++ [(rpar, lr)]) (acc ++ os) := by
  induction h with
  | nil =>
    intro acc
    apply Acc.succ
    simp only [orderingsLoop]
    exact Acc.tok (by simpa using Acc.ret.at)
  | @cons l t ts a b ht _ ih =>
    intro acc
    apply Acc.succ
    simp only [orderingsLoop]
    exact Acc.tok (Acc.at (Acc.bindA (parseOrdering_complete ht) ((ih _).val (by simp)) (by simp)))

theorem parseOrderingBlock_complete {os ts} (h : OrdersText os ts) (acc) :
    Acc Any (fun n => parseOrderingBlock n acc) ts (acc ++ os) := by
  simp only [parseOrderingBlock]
  cases h with
  | none => exact Acc.exact (Acc.at (Acc.tok (Acc.ret.val (by simp)).at))
  | one ho =>
    cases ho with
    | mk => exact Acc.exact (Acc.at (Acc.tok (Acc.at (Acc.ident (Acc.at (afterLoop_complete _ acc))))))
  | many ho => exact Acc.exact (Acc.at (Acc.tok (Acc.at (orderingsLoop_complete ho acc))))

theorem parseConstraint_complete {c ts} (h : ConstraintText c ts) : Acc Any (fun _ => parseConstraint) ts c := by
  simp only [parseConstraint]
  cases h with
  | equal => exact Acc.tok (Acc.at (Acc.ident (Acc.at (Acc.ident (Acc.at (Acc.exact Acc.ret.at))))))
  | notEqual =>
    exact Acc.tok (Acc.at (Acc.exact (Acc.at (Acc.exact (Acc.at (Acc.ident (Acc.at (Acc.ident (Acc.at
      (Acc.exact (Acc.at (Acc.exact Acc.ret.at))))))))))))

theorem constraintsLoop_complete {cs ts lr} (h : ConstraintList cs ts) : ∀ acc,
    Acc Any (fun n => constraintsLoop n acc) (ts ++ [(rpar, lr)]) (acc ++ cs) := by
  induction h with
  | nil =>
    intro acc
    apply Acc.succ
    simp only [constraintsLoop]
    exact Acc.tok (by simpa using Acc.ret.at)
  | @cons l t ts a b ht _ ih =>
    intro acc
    apply Acc.succ
    simp only [constraintsLoop]
    exact Acc.tok (Acc.at (Acc.bindA (parseConstraint_complete ht) ((ih _).val (by simp)) (by simp)))

theorem parseConstraints_complete {cs ts} (h : ConstraintsText cs ts) : Acc Any parseConstraints ts cs := by
  show Acc Any (fun n => parseConstraints n) _ _
  simp only [parseConstraints]
  cases h with
  | none => exact Acc.exact (Acc.at (Acc.peek (Acc.skip Acc.ret.at) (by simp) (by simp)))
  | one hx =>
    have := (parseConstraint_complete hx).map fun x => [x]
    cases hx with
    | equal => exact Acc.exact (Acc.at (Acc.peek this (by simp) (by simp)))
    | notEqual => exact Acc.exact (Acc.at (Acc.peek this (by simp) (by simp)))
  | many hx =>
    exact Acc.exact (Acc.at (Acc.peek (Acc.skip (Acc.at (constraintsLoop_complete hx []))) (by simp) (by simp)))

theorem htnLoop_complete {sts is ts lr} (h : TnItems is ts) : ∀ opos os cs,
    Acc Any (fun n => htnLoop sts n opos os cs) (ts ++ [(rpar, lr)])
      ⟨sts, (is.filterMap TnItem.line?).getLast?.or opos, .partial_ (os ++ is.flatMap TnItem.pairs),
        (is.filterMap TnItem.constraints?).getLast?.or cs⟩ := by
  induction h with
  | nil =>
    intro opos os cs
    apply Acc.succ
    simp only [htnLoop]
    exact Acc.tok (Acc.ret.val (by simp)).at
  | @ordering l os1 is a b ho _ ih =>
    intro opos os cs
    apply Acc.succ
    simp only [htnLoop]
    refine Acc.tok (AccAt.pos (Acc.at (Acc.bindA (parseOrderingBlock_complete ho os) ((ih _ _ _).val ?_) (by simp))))
    simp only [List.filterMap_cons, TnItem.line?, TnItem.constraints?, List.flatMap_cons, TnItem.pairs,
      List.append_assoc]
    rw [getLast?_or]
    simp
  | @constraints l cs1 is a b ho _ ih =>
    intro opos os cs
    apply Acc.succ
    simp only [htnLoop]
    refine Acc.tok (Acc.at (Acc.bindA (parseConstraints_complete ho) ((ih _ _ _).val ?_) (by simp)))
    simp only [List.filterMap_cons, TnItem.line?, TnItem.constraints?, List.flatMap_cons, TnItem.pairs,
      List.nil_append]
    rw [getLast?_or]
    simp

/-- What must follow a block. -/
def After : Ending → List Tk → Prop
  | .atParen, ts => AtParen ts
  | _, _ => True

theorem parseHtn_complete {tn ts e} (h : HtnText tn ts e) : Acc (After e) parseHtn ts tn := by
  show Acc _ (fun n => parseHtn n) _ _
  simp only [parseHtn]
  cases h with
  | empty => exact Acc.peekParen Acc.ret
  | @partial_ l1 l2 ts is a b ha hb =>
    refine Acc.peek (Acc.tok (Acc.at ?_)) (by simp) (by simp)
    refine Acc.bindA (parseSubtasks_complete ha) (((htnLoop_complete (lr := l2) hb none [] none).val ?_).weaken
      fun _ _ => trivial) (by simp)
    simp
  | total ha =>
    refine Acc.peek (Acc.tok (Acc.at ?_)) (by simp) (by simp)
    exact Acc.bindA (parseSubtasks_complete ha) (Acc.tok Acc.ret.at) rfl
  | constrained ha hb =>
    refine Acc.peek (Acc.tok (Acc.at ?_)) (by simp) (by simp)
    exact Acc.bindA (parseSubtasks_complete ha) (Acc.tok (Acc.at (((parseConstraints_complete hb).map
      fun cs => HTN.mk _ none .total (some cs)).weaken fun _ _ => trivial))) rfl

theorem parseInitialTn_complete {tn ts e} (h : InitTnText tn ts e) : Acc (After e) parseInitialTn ts tn := by
  show Acc _ (fun n => parseInitialTn n) _ _
  simp only [parseInitialTn]
  cases h with
  | @plain tn a e ha =>
    have hp := (parseHtn_complete ha).map fun tn => InitTN.mk none tn
    cases ha with
    | empty => exact Acc.peekParen Acc.ret
    | partial_ => exact Acc.peek hp (by simp) (by simp)
    | total => exact Acc.peek hp (by simp) (by simp)
    | constrained => exact Acc.peek hp (by simp) (by simp)
  | @params l1 l2 l3 ps items tn a e ht ha =>
    refine Acc.peek (Acc.tok (Acc.at (Acc.exact (Acc.at ?_)))) (by simp) (by simp)
    exact Acc.bindA (parseArgs_complete l3 ht) ((parseHtn_complete ha).map fun tn => InitTN.mk (some ps) tn) (by simp)

/-! ### Blocks -/

theorem parseTask_complete {t ts} (h : TaskText t ts) : Acc Any parseTask ts t := by
  show Acc _ (fun n => parseTask n) _ _
  simp only [parseTask]
  cases h with
  | @mk name l1 l2 l3 l4 params items ht =>
    exact Acc.ident (AccAt.pos (Acc.at (Acc.exact (Acc.at (Acc.exact (Acc.at (Acc.bindA (parseArgs_complete l4 ht)
      Acc.ret (List.append_nil _).symm)))))))

theorem parseAction_complete {q x ts} (h : ActionText q x ts) : Acc Any parseAction ts x := by
  show Acc _ (fun n => parseAction n) _ _
  simp only [parseAction]
  cases h with
  | @mk name pos params pre eff l a b c ha hb hc =>
    have hpeek : ∀ ts : List Tk, OptFormula q .effect eff c → ts = c ++ [(rpar, l)] →
        ∃ t l' r, ts = (t, l') :: r ∧ (t = .kw .effect ∨ t = rpar) := by
      intro ts hc hts
      cases hc with
      | none => exact ⟨_, _, _, hts, .inr rfl⟩
      | some _ => exact ⟨_, _, _, hts, .inl rfl⟩
    refine Acc.bindA (parseTask_complete ha) (ts' := b ++ c ++ [(rpar, l)]) ?_ (by simp)
    refine Acc.bind (Q1 := fun ts => ∃ t l' r, ts = (t, l') :: r ∧ (t = .kw .effect ∨ t = rpar)) (a := pre)
      (ts := b) (ts' := c ++ [(rpar, l)]) ?_ ?_ (by simp) ?_
    · cases hb with
      | none =>
        refine ⟨0, fun n _ s rest hf ⟨t, l', r, hr, ht⟩ => ?_⟩
        subst hr
        obtain ⟨s1, h1, _⟩ := id hf
        have hne : t ≠ .op .le ∧ t ≠ .op .ge := by rcases ht with rfl | rfl <;> simp
        obtain ⟨s2, h2⟩ := lookahead_of_get h1 hne.1 hne.2
        refine ⟨s2, ?_, (Feeds.peek h2).2 hf⟩
        beta_reduce
        rw [P.bind_run (peekTok_ok.2 h2)]
        rcases ht with rfl | rfl <;> rfl
      | some hf =>
        exact Acc.peek (Acc.skip (Acc.at (((parseFormula_complete hf).map some).weaken fun _ _ => trivial)))
          (by simp) (by simp)
    · cases hc with
      | none =>
        refine Acc.bind (Q1 := AtParen) (a := none) (ts := []) (ts' := [(rpar, l)]) (Acc.peekParen Acc.ret) ?_ rfl
          (fun r _ => ⟨l, r, rfl⟩)
        exact Acc.exact Acc.ret.at
      | some hf =>
        refine Acc.bindA (Acc.peek (Acc.skip (Acc.at ((parseFormula_complete hf).map some))) (by simp) (by simp)) (ts' := [(rpar, l)]) ?_ rfl
        exact Acc.exact Acc.ret.at
    · intro rest _
      obtain ⟨t, l', r, he, ht⟩ := hpeek _ hc rfl
      exact ⟨t, l', r ++ rest, by rw [he]; rfl, ht⟩

theorem parseMethod_complete {q m ts e} (h : MethodText q m ts e) : Acc (After e) parseMethod ts m := by
  show Acc _ (fun n => parseMethod n) _ _
  simp only [parseMethod]
  cases h with
  | @mk name task n1 n2 l1 l2 l3 l4 l5 l6 params pitems terms titems pre tn b c e hp ht hb hc hne =>
    refine Acc.ident (AccAt.pos (Acc.at (Acc.exact (Acc.at (Acc.exact (Acc.at ?_))))))
    refine Acc.bindA (parseArgs_complete l3 hp) (ts' := (.kw .task, l4) :: (lpar, l5) :: (.ident task, n2) ::
      (titems ++ (rpar, l6) :: (b ++ c))) ?_ (by simp)
    refine Acc.exact (Acc.at (Acc.exact (Acc.at (Acc.ident (AccAt.pos (Acc.at ?_))))))
    refine Acc.bindA (parseArgs_complete l6 ht) (ts' := b ++ c) ?_ (by simp)
    have htn := parseHtn_complete hc
    cases hb with
    | some hf =>
      refine Acc.peek (Acc.skip (Acc.at ?_)) (by simp) (by simp)
      exact Acc.bindA (parseFormula_complete hf) (htn.map fun tn => Method.mk _ _ _ _ (some _) tn) rfl
    | none =>
      have hp := htn.map fun tn => Method.mk ⟨name, n1, none, none⟩ ⟨task, n2, none, none⟩ terms params none tn
      cases hc with
      | empty => exact absurd rfl (hne rfl)
      | partial_ => exact Acc.peek hp (by simp) (by simp)
      | total => exact Acc.peek hp (by simp) (by simp)
      | constrained => exact Acc.peek hp (by simp) (by simp)

omit [Env] in
theorem after_of_joint {q e ts rest} (h : Joint q e ts) : After e (ts ++ rest) := by
  cases e with
  | closed => trivial
  | open_ => trivial
  | atParen =>
    obtain ⟨l, r, rfl⟩ := h
    exact ⟨l, r ++ rest, rfl⟩

theorem parseDomain_complete {q name bs ts} (h : Body q (DBlockText q) closeParen bs ts) : ∀ bs0,
    Acc Any (fun n => parseDomain name n (domainOf name bs0)) ts (domainOf name (bs0 ++ bs)) := by
  induction h with
  | done h =>
    obtain ⟨l, rfl⟩ := h
    intro bs0
    apply Acc.succ
    simp only [parseDomain]
    exact Acc.tok (Acc.ret.val (by simp)).at
  | @block b bs ts ts' e hb hj _ ih =>
    intro bs0
    apply Acc.succ
    simp only [parseDomain]
    have ih : ∀ d, d = domainOf name (bs0 ++ [b]) →
        Acc Any (fun n => parseDomain name n d) ts' (domainOf name (bs0 ++ b :: bs)) := by
      rintro d rfl
      refine Acc.val (ih (bs0 ++ [b])) ?_
      simp
    cases hb with
    | @predicates l1 l2 l3 ps a hp =>
      refine Acc.tok (Acc.at (Acc.tok (Acc.at (Acc.bindA (parsePredicates_complete (lr := l3) hp []) (ih _ ?_) (by simp)))))
      simp [domainOf, DBlock.preds, DBlock.funs, DBlock.tasks, DBlock.methods, DBlock.actions, DBlock.typeSyms,
        DBlock.constSyms, DBlock.reqs]
    | @functions l1 l2 l3 ps a hp =>
      refine Acc.tok (Acc.at (Acc.tok (Acc.at (Acc.bindA (parseFunctions_complete (lr := l3) hp []) (ih _ ?_) (by simp)))))
      simp [domainOf, DBlock.preds, DBlock.funs, DBlock.tasks, DBlock.methods, DBlock.actions, DBlock.typeSyms,
        DBlock.constSyms, DBlock.reqs]
    | @task l1 l2 l3 x a hp =>
      refine Acc.tok (Acc.at (Acc.tok (Acc.at (Acc.bindA (parseTask_complete hp) (Acc.exact (l := l3) (Acc.at (ih _ ?_)))
        (by simp)))))
      simp [domainOf, DBlock.preds, DBlock.funs, DBlock.tasks, DBlock.methods, DBlock.actions, DBlock.typeSyms,
        DBlock.constSyms, DBlock.reqs]
    | method hp =>
      refine Acc.tok (Acc.at (Acc.tok (Acc.at (Acc.bind (parseMethod_complete hp) (ih _ ?_) (by simp)
        fun _ _ => after_of_joint hj))))
      simp [domainOf, DBlock.preds, DBlock.funs, DBlock.tasks, DBlock.methods, DBlock.actions, DBlock.typeSyms,
        DBlock.constSyms, DBlock.reqs]
    | action hp =>
      refine Acc.tok (Acc.at (Acc.tok (Acc.at (Acc.bindA (parseAction_complete hp) (ih _ ?_) (by simp)))))
      simp [domainOf, DBlock.preds, DBlock.funs, DBlock.tasks, DBlock.methods, DBlock.actions, DBlock.typeSyms,
        DBlock.constSyms, DBlock.reqs]
    | @requirements l1 l2 l3 rs =>
      refine Acc.tok (Acc.at (Acc.tok (Acc.at (Acc.bindA (parseRequirements_complete (lr := l3) rs []) (ih _ ?_) (by simp)))))
      simp [domainOf, DBlock.preds, DBlock.funs, DBlock.tasks, DBlock.methods, DBlock.actions, DBlock.typeSyms,
        DBlock.constSyms, DBlock.reqs]
    | @types l1 l2 l3 ss items hp =>
      refine Acc.tok (Acc.at (Acc.tok (Acc.at (Acc.bindA (parseArgs_complete l3 hp) (ih _ ?_) (by simp)))))
      simp [domainOf, DBlock.preds, DBlock.funs, DBlock.tasks, DBlock.methods, DBlock.actions, DBlock.typeSyms,
        DBlock.constSyms, DBlock.reqs, addSymbols_nonEmpty]
    | @constants l1 l2 l3 ss items hp =>
      refine Acc.tok (Acc.at (Acc.tok (Acc.at (Acc.bindA (parseArgs_complete l3 hp) (ih _ ?_) (by simp)))))
      simp [domainOf, DBlock.preds, DBlock.funs, DBlock.tasks, DBlock.methods, DBlock.actions, DBlock.typeSyms,
        DBlock.constSyms, DBlock.reqs, addSymbols_nonEmpty]

theorem lift_complete {x : α} : Acc Any (fun _ => P.lift (.ok x)) [] x := ⟨0, fun _ _ s _ h _ => ⟨s, rfl, h⟩⟩

theorem parseProblem_complete {q bs ts} (h : Body q (PBlockText q) (closeProblem q) bs ts) : ∀ bs0,
    Acc Any (fun n => parseProblem n (problemOf bs0)) ts (problemOf (bs0 ++ bs)) := by
  induction h with
  | done h =>
    intro bs0
    apply Acc.succ
    simp only [parseProblem]
    rcases h with ⟨l, rfl⟩ | ⟨_, l, rfl⟩
    · exact Acc.tok (Acc.ret.val (by simp)).at
    · exact Acc.tok (Acc.ret.val (by simp)).at
  | @block b bs ts ts' e hb hj _ ih =>
    intro bs0
    apply Acc.succ
    simp only [parseProblem]
    have ih : ∀ d, d = problemOf (bs0 ++ [b]) →
        Acc Any (fun n => parseProblem n d) ts' (problemOf (bs0 ++ b :: bs)) := by
      rintro d rfl
      refine Acc.val (ih (bs0 ++ [b])) ?_
      simp
    cases hb with
    | @requirements l1 l2 l3 rs =>
      refine Acc.tok (Acc.at (Acc.tok (Acc.at (Acc.bindA (parseRequirements_complete (lr := l3) rs []) (ih _ ?_) (by simp)))))
      simp [problemOf, PBlock.reqs, PBlock.objs, PBlock.htn?, PBlock.goal?, PBlock.init?]
    | @objects l1 l2 l3 ss items hp =>
      refine Acc.tok (Acc.at (Acc.tok (Acc.at (Acc.bindA (parseArgs_complete l3 hp) (ts' := ts') ?_ (by simp)))))
      rw [addObjects_ok (by rw [hp.2]; exact symbolsOf_tyPos _)]
      refine Acc.bindA lift_complete (ih _ ?_) rfl
      simp [problemOf, PBlock.reqs, PBlock.objs, PBlock.htn?, PBlock.goal?, PBlock.init?]
    | htn hp =>
      refine Acc.tok (Acc.at (Acc.tok (Acc.at (Acc.bind (parseInitialTn_complete hp) (ih _ ?_) (by simp)
        fun _ _ => after_of_joint hj))))
      simp [problemOf, PBlock.reqs, PBlock.objs, PBlock.htn?, PBlock.goal?, PBlock.init?]
    | goal hp =>
      refine Acc.tok (Acc.at (Acc.tok (Acc.at (Acc.bindA (parseFormula_complete hp) (ih _ ?_) (by simp)))))
      simp [problemOf, PBlock.reqs, PBlock.objs, PBlock.htn?, PBlock.goal?, PBlock.init?]
    | @init l1 l2 l3 ps a hp =>
      refine Acc.tok (Acc.at (Acc.tok (Acc.at (Acc.bindA (parsePredicates_complete (lr := l3) hp []) (ih _ ?_) (by simp)))))
      simp [problemOf, PBlock.reqs, PBlock.objs, PBlock.htn?, PBlock.goal?, PBlock.init?]

theorem parseFile_complete {q a ts} (h : FileText q a ts) : Acc Any parseFile ts a := by
  show Acc _ (fun n => parseFile n) _ _
  simp only [parseFile]
  cases h with
  | @domain name bs ts l1 l2 l3 l4 l5 l6 hb =>
    refine Acc.exact (Acc.at ?_)
    refine Acc.bindA (a := .domain name) (ts := [(.kw .define, l2), (lpar, l3), (.kw .domain, l4), (.ident name, l5), (rpar, l6)]) ?_
      (ts' := ts) ?_ rfl
    · simp only [parseDocumentType]
      exact Acc.exact (Acc.at (Acc.exact (Acc.at (Acc.tok (Acc.at (by
        simp only [parseDomainHeader]
        exact Acc.ident (Acc.at (Acc.exact Acc.ret.at))))))))
    · exact Acc.bindA (parseDomain_complete hb []) Acc.ret (List.append_nil _).symm
  | @problem name dname bs ts l1 l2 l3 l4 l5 l6 l7 l8 l9 l10 hb =>
    refine Acc.exact (Acc.at ?_)
    refine Acc.bindA (a := .problem name dname) (ts := [(.kw .define, l2), (lpar, l3), (.kw .problem, l4),
      (.ident name, l5), (rpar, l6), (lpar, l7), (.kw .domain, l8), (.ident dname, l9), (rpar, l10)]) ?_
      (ts' := ts) ?_ rfl
    · simp only [parseDocumentType]
      exact Acc.exact (Acc.at (Acc.exact (Acc.at (Acc.tok (Acc.at (by
        simp only [parseProblemHeader]
        exact Acc.ident (Acc.at (Acc.exact (Acc.at (Acc.exact (Acc.at (Acc.exact (Acc.at (Acc.ident (Acc.at
          (Acc.exact Acc.ret.at))))))))))))))))
    · exact Acc.bindA (parseProblem_complete hb []) Acc.ret (List.append_nil _).symm

/-- Every file whose tokens start with a text in the (lenient) grammar is accepted with the tree it denotes. -/
theorem parse_complete {q a ts} (h : FileText q a ts) :
    ∃ N, ∀ n, N ≤ n → ∀ file, Feeds (LexState.init file) ts → parse n file = .ok a := by
  obtain ⟨N, hN⟩ := parseFile_complete h
  refine ⟨N, fun n hn file hf => ?_⟩
  obtain ⟨s1, h1, _⟩ := hN n hn (LexState.init file) [] (by simpa using hf) trivial
  unfold parse
  rw [h1]

end Verif
