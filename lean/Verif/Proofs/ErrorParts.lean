import Verif.Proofs.ErrorAt

/-! Where the parts of the parser stop. -/

namespace Verif

open Spec

variable [Env] {α β ι κ : Type} {V : List Tk → Prop} {s : LexState}

/-- All tokens. -/
macro "tok_cases" t:ident : tactic => `(tactic|
  (cases $t:ident <;> (try cases ‹Kw›) <;> (try cases ‹Op›) <;> (try cases ‹Punct›) <;> try dsimp only))

/-- The text of requirements, with the closing parenthesis. -/
def LReqs (ts : List Tk) : Prop := ∃ rs lr, ts = reqToks rs ++ [(rpar, lr)]

theorem parseRequirements_bad : ∀ n acc V s, (∀ c, Ext LReqs c → V c) →
    Bad V (parseRequirements n acc) (fun acc n => parseRequirements n acc) s := by
  intro n
  induction n with
  | zero => intro acc V s _; exact .timeout
  | succ n ih =>
    intro acc V s hV
    apply Bad.succ
    simp only [parseRequirements]
    have h0 : V [] := hV _ ⟨[(rpar, 0)], by simp [Simple], [], 0, rfl⟩
    have hh : Hinted V [.s "either a requirement or a ')'"] [] := by
      refine ⟨_, .requirement, ?_⟩
      rintro u (rfl | ⟨r, rfl⟩) l
      · exact hV _ ⟨[], by simp, [], l, rfl⟩
      · exact hV _ ⟨[(rpar, 0)], by simp [Simple], [(r, l)], 0, rfl⟩
    refine Bad.get h0 fun t s1 ht => ?_
    tok_cases t
    case req r =>
      refine .go ((ih (acc ++ [r]) _ s1 fun c hc => ?_).reindex (fun acc => acc ++ [r]) fun _ _ => rfl)
      obtain ⟨Q, h2, rs, lr, h3⟩ := hc
      exact hV _ ⟨Q, h2, (r, s1.line) :: rs, lr, by simp [reqToks, h3]⟩
    case punct.rparen => exact .go .ret
    all_goals exact .stop h0 hh rfl fun _ _ _ => rfl

/-- A list of names with types, with the closing parenthesis. -/
def LArgs (ts : List Tk) : Prop := ∃ items lr, Items items ∧ ts = items ++ [(rpar, lr)]

theorem argsLoop_next : ∀ n objs res tok V s, (∀ c, Ext LArgs c → V c) →
    Next V (fun c => V ((tok, s.line) :: c)) tok (argsLoop n objs res tok)
      (fun (j : List (Name × Nat) × List Symbol) n => argsLoop n j.1 j.2 tok) s := by
  intro n
  induction n with
  | zero => intro objs res tok V s _; exact .go .timeout
  | succ n ih =>
    intro objs res tok V s hV
    have h0 : V [] := hV _ ⟨[(rpar, 0)], by simp [Simple], [], 0, .nil, rfl⟩
    have hstop : argsLoop (n + 1) objs res tok = synErr [.s "an identifier"] tok →
        (∀ objs res n, argsLoop (n + 1) objs res tok = synErr [.s "an identifier"] tok) →
        Next V (fun c => V ((tok, s.line) :: c)) tok (argsLoop (n + 1) objs res tok)
          (fun (j : List (Name × Nat) × List Symbol) n => argsLoop n j.1 j.2 tok) s := by
      intro h1 h2
      refine .stop h0 (.name (.name (by decide)) fun x l => ?_) h1 fun i m hm => ?_
      · exact hV _ ⟨[(rpar, 0)], by simp [Simple], [(.ident x, l)], 0, .name .nil, rfl⟩
      obtain ⟨k, rfl⟩ : ∃ k, m = k + 1 := ⟨m - 1, by omega⟩
      exact h2 _ _ _
    tok_cases tok
    case ident x =>
      refine .go (Bad.succ ?_)
      simp only [argsLoop]
      refine Bad.pos fun l => Bad.get ?_ fun t s1 ht => ?_
      · exact hV _ ⟨[(rpar, 0)], by simp [Simple], [(.ident x, s.line)], 0, .name .nil, rfl⟩
      · refine (ih (objs ++ [(x, l)]) res t (fun c => V ((.ident x, s.line) :: c)) s1 fun c hc => ?_).reindex
          (fun j => (j.1.1 ++ [(x, j.2)], j.1.2)) fun _ _ => rfl
        obtain ⟨Q, h2, items, lr, h3, h4⟩ := hc
        exact hV _ ⟨Q, h2, _, lr, .name (x := x) (l := s.line) h3, by simp [h4]⟩
    case punct.dash =>
      refine .go (Bad.succ ?_)
      simp only [argsLoop]
      have h1 : V [(.punct .dash, s.line)] := hV _ ⟨[(.ident anyName, 0), (rpar, 0)], by simp [Simple],
        [(.punct .dash, s.line), (.ident anyName, 0)], 0, .type .nil, rfl⟩
      have hh : Hinted (fun c => V ((.punct .dash, s.line) :: c)) [.s "The type of objects"] [] :=
        .name (.name (by decide)) fun x l => hV _ ⟨[(rpar, 0)], by simp [Simple],
          [(.punct .dash, s.line), (.ident x, l)], 0, .type .nil, rfl⟩
      refine Bad.get h1 fun ty s1 hty => ?_
      tok_cases ty
      case ident y =>
        refine .go (Bad.pos fun l => Bad.get ?_ fun t s2 ht => ?_)
        · exact hV _ ⟨[(rpar, 0)], by simp [Simple],
            [(.punct .dash, s.line), (.ident y, s1.line)], 0, .type .nil, rfl⟩
        · refine (ih [] (res ++ objs.map fun o => ⟨o.1, o.2, some y, some l⟩) t
            (fun c => V ((.punct .dash, s.line) :: (.ident y, s1.line) :: c)) s2 fun c hc => ?_).reindex
            (fun (j : (List (Name × Nat) × List Symbol) × Nat) => ([], j.1.2 ++ j.1.1.map fun o => ⟨o.1, o.2, some y, some j.2⟩)) fun _ _ => rfl
          obtain ⟨Q, h2, items, lr, h3, h4⟩ := hc
          exact hV _ ⟨Q, h2, _, lr, .type (t := y) (l := s.line) (l' := s1.line) h3, by simp [h4]⟩
      all_goals exact .stop h1 hh rfl fun _ _ _ => rfl
    case punct.rparen =>
      refine .go ?_
      simp only [argsLoop]
      exact .ret
    all_goals exact hstop rfl fun _ _ _ => rfl

theorem parseArgs_bad {n V s} (hV : ∀ c, Ext LArgs c → V c) :
    Bad V (parseArgs n) (fun (_ : ι) n => parseArgs n) s := by
  simp only [parseArgs]
  have h0 : V [] := hV _ ⟨[(rpar, 0)], by simp [Simple], [], 0, .nil, rfl⟩
  exact Bad.get h0 fun t s1 _ => (argsLoop_next n [] [] t V s1 hV).reindex (fun _ => ([], [])) fun _ _ => rfl

/-- A list of names, and then something else. -/
theorem parseArgs_then {n} {f : List Symbol → P β} {f' : ι → Nat → List Symbol → P β} (hV : ∀ c, Ext LArgs c → V c)
    (h : ∀ ss items lr s1, TypedList ss items → Bad (fun c => V (items ++ (rpar, lr) :: c)) (f ss)
      (fun (j : ι × List Symbol) n => f' j.1 n j.2) s1) :
    Bad V (parseArgs n >>= f) (fun i n => parseArgs n >>= f' i n) s := by
  refine Bad.bind (fun _ => parseArgs_mono) (parseArgs_bad hV) fun ss s1 h1 => ?_
  obtain ⟨items, lr, h2, h3⟩ := parseArgs_sound h1
  refine ⟨_, h3, fun i c' hr => ?_, (h ss items lr s1 h2).weaken fun c hc => by simpa using hc⟩
  obtain ⟨a, b, rfl, hr1, hr2⟩ := hr.unappend
  obtain ⟨l, us, rfl, hr3⟩ := hr2.uncons
  cases hr3.unnil
  obtain ⟨ss', h4, _⟩ := typedList_rn h2 hr1
  exact ⟨ss', parseArgs_complete l h4⟩

theorem parseRequirements_then {n} {f : List Req → P β} {f' : ι → Nat → List Req → P β} (hV : ∀ c, Ext LReqs c → V c)
    (h : ∀ rs lr s1, Bad (fun c => V (reqToks rs ++ (rpar, lr) :: c)) (f (rs.map Prod.fst))
      (fun (j : ι × List Req) n => f' j.1 n j.2) s1) :
    Bad V (parseRequirements n [] >>= f) (fun i n => parseRequirements n [] >>= f' i n) s := by
  refine Bad.bind (fun _ n => parseRequirements_mono n [])
    ((parseRequirements_bad n [] V s hV).reindex (fun _ => []) fun _ _ => rfl) fun rs s1 h1 => ?_
  obtain ⟨rs, lr, rfl, h3⟩ := parseRequirements_sound n [] s _ s1 h1
  refine ⟨_, h3, fun i c' hr => ?_, (h rs lr s1).weaken fun c hc => by simpa using hc⟩
  obtain ⟨a, b, rfl, hr1, hr2⟩ := hr.unappend
  obtain ⟨l, us, rfl, hr3⟩ := hr2.uncons
  cases hr3.unnil
  obtain ⟨rs', rfl, _⟩ := reqToks_rn hr1
  exact ⟨_, parseRequirements_complete rs' []⟩

omit [Env] in
theorem P.bind_assoc {γ : Type} (x : P α) (f : α → P β) (g : β → P γ) :
    (x >>= f) >>= g = x >>= fun a => f a >>= g := by
  funext s
  show P.bind' (P.bind' x f) g s = P.bind' x (fun a => P.bind' (f a) g) s
  unfold P.bind'
  cases x s <;> rfl

omit [Env] in
theorem P.pure_bind (a : α) (f : α → P β) : (pure a : P α) >>= f = f a := rfl

/-- A sequence of predicates, with the closing parenthesis. -/
def LPreds (ts : List Tk) : Prop := ∃ ps a lr, Predicates ps a ∧ ts = a ++ [(rpar, lr)]

theorem parsePredicates_bad : ∀ n acc V s, (∀ c, Ext LPreds c → V c) →
    Bad V (parsePredicates n acc) (fun acc n => parsePredicates n acc) s := by
  intro n
  induction n with
  | zero => intro acc V s _; exact .timeout
  | succ n ih =>
    intro acc V s hV
    apply Bad.succ
    simp only [parsePredicates]
    have h0 : V [] := hV _ ⟨[(rpar, 0)], by simp [Simple], [], [], 0, .nil, rfl⟩
    have hh : ∀ l, V [(lpar, l)] := fun l => hV _ ⟨[(.ident anyName, 0), (rpar, 0), (rpar, 0)], by simp [Simple], _, _, 0,
      .cons (name := anyName) (l1 := l) (l2 := 0) (l3 := 0) ⟨.nil, rfl⟩ .nil, rfl⟩
    refine Bad.get h0 fun t s1 ht => ?_
    tok_cases t
    case punct.lparen =>
      simp only [parsePredicateDef, P.bind_assoc, P.pure_bind]
      refine .go (Bad.ident ?_ (.name (.name (by decide)) ?_) (fun _ => rfl) fun x s2 h2 =>
        Bad.pos fun l => parseArgs_then ?_ ?_)
      · exact hV _ ⟨[(.ident anyName, 0), (rpar, 0), (rpar, 0)], by simp [Simple], _, _, 0,
          .cons (name := anyName) (l1 := s1.line) (l2 := 0) (l3 := 0) ⟨.nil, rfl⟩ .nil, rfl⟩
      · exact fun x l => hV _ ⟨[(rpar, 0), (rpar, 0)], by simp [Simple], _, _, 0,
          .cons (name := x) (l1 := s1.line) (l2 := l) (l3 := 0) ⟨.nil, rfl⟩ .nil, rfl⟩
      · rintro c ⟨Q, h2, items, lr, h3, h4⟩
        exact hV _ ⟨Q ++ [(rpar, 0)], by simp [h2, Simple], _, _, 0,
          .cons (name := x) (l1 := s1.line) (l2 := s2.line) (l3 := lr) ⟨h3, rfl⟩ .nil, by
            have := congrArg (· ++ [(rpar, 0)]) h4; simpa using this⟩
      · intro ss items lr s3 ht
        refine (ih _ _ s3 fun c hc => ?_).reindex
          (fun (j : (List Predicate × Nat) × List Symbol) => j.1.1 ++ [⟨x, j.1.2, j.2⟩]) fun _ _ => rfl
        obtain ⟨Q, h2, ps, a, lr', h3, h4⟩ := hc
        exact hV _ ⟨Q, h2, _, _, lr', .cons (name := x) (l1 := s1.line) (l2 := s2.line) (l3 := lr) ht h3, by
          simp [h4]⟩
    case punct.rparen => exact .go .ret
    all_goals exact .stop h0 (.tok (.open_ (by decide)) hh) rfl fun _ _ _ => rfl

theorem parseFunctions_bad : ∀ n acc V s, (∀ c, Ext LPreds c → V c) →
    Bad V (parseFunctions n acc) (fun acc n => parseFunctions n acc) s := by
  intro n
  induction n with
  | zero => intro acc V s _; exact .timeout
  | succ n ih =>
    intro acc V s hV
    apply Bad.succ
    simp only [parseFunctions]
    have h0 : V [] := hV _ ⟨[(rpar, 0)], by simp [Simple], [], [], 0, .nil, rfl⟩
    have hh : ∀ l, V [(lpar, l)] := fun l => hV _ ⟨[(.ident anyName, 0), (rpar, 0), (rpar, 0)], by simp [Simple], _, _, 0,
      .cons (name := anyName) (l1 := l) (l2 := 0) (l3 := 0) ⟨.nil, rfl⟩ .nil, rfl⟩
    refine Bad.get h0 fun t s1 ht => ?_
    tok_cases t
    case punct.lparen =>
      simp only [parseFunctionDef, P.bind_assoc, P.pure_bind]
      refine .go (Bad.ident ?_ (.name (.name (by decide)) ?_) (fun _ => rfl) fun x s2 h2 =>
        Bad.pos fun l => parseArgs_then ?_ ?_)
      · exact hV _ ⟨[(.ident anyName, 0), (rpar, 0), (rpar, 0)], by simp [Simple], _, _, 0,
          .cons (name := anyName) (l1 := s1.line) (l2 := 0) (l3 := 0) ⟨.nil, rfl⟩ .nil, rfl⟩
      · exact fun x l => hV _ ⟨[(rpar, 0), (rpar, 0)], by simp [Simple], _, _, 0,
          .cons (name := x) (l1 := s1.line) (l2 := l) (l3 := 0) ⟨.nil, rfl⟩ .nil, rfl⟩
      · rintro c ⟨Q, h2, items, lr, h3, h4⟩
        exact hV _ ⟨Q ++ [(rpar, 0)], by simp [h2, Simple], _, _, 0,
          .cons (name := x) (l1 := s1.line) (l2 := s2.line) (l3 := lr) ⟨h3, rfl⟩ .nil, by
            have := congrArg (· ++ [(rpar, 0)]) h4; simpa using this⟩
      · intro ss items lr s3 ht
        refine (ih _ _ s3 fun c hc => ?_).reindex
          (fun (j : (List Predicate × Nat) × List Symbol) => j.1.1 ++ [⟨x, j.1.2, j.2⟩]) fun _ _ => rfl
        obtain ⟨Q, h2, ps, a, lr', h3, h4⟩ := hc
        exact hV _ ⟨Q, h2, _, _, lr', .cons (name := x) (l1 := s1.line) (l2 := s2.line) (l3 := lr) ht h3, by
          simp [h4]⟩
    case punct.rparen => exact .go .ret
    all_goals exact .stop h0 (.tok (.open_ (by decide)) hh) rfl fun _ _ _ => rfl

theorem parsePredicates_then {n} {f : List Predicate → P β} {f' : ι → Nat → List Predicate → P β}
    (hV : ∀ c, Ext LPreds c → V c)
    (h : ∀ ps a lr s1, Predicates ps a → Bad (fun c => V (a ++ (rpar, lr) :: c)) (f ps)
      (fun (j : ι × List Predicate) n => f' j.1 n j.2) s1) :
    Bad V (parsePredicates n [] >>= f) (fun i n => parsePredicates n [] >>= f' i n) s := by
  refine Bad.bind (fun _ n => parsePredicates_mono n [])
    ((parsePredicates_bad n [] V s hV).reindex (fun _ => []) fun _ _ => rfl) fun ps s1 h1 => ?_
  obtain ⟨ps, a, lr, rfl, h2, h3⟩ := parsePredicates_sound n [] s _ s1 h1
  refine ⟨_, h3, fun i c' hr => ?_, (h ps a lr s1 h2).weaken fun c hc => by simpa using hc⟩
  obtain ⟨a, b, rfl, hr1, hr2⟩ := hr.unappend
  obtain ⟨l, us, rfl, hr3⟩ := hr2.uncons
  cases hr3.unnil
  obtain ⟨ps', h4, _⟩ := predicates_rn h2 hr1
  exact ⟨_, parsePredicates_complete h4 []⟩

theorem parseFunctions_then {n} {f : List Predicate → P β} {f' : ι → Nat → List Predicate → P β}
    (hV : ∀ c, Ext LPreds c → V c)
    (h : ∀ ps a lr s1, Predicates ps a → Bad (fun c => V (a ++ (rpar, lr) :: c)) (f ps)
      (fun (j : ι × List Predicate) n => f' j.1 n j.2) s1) :
    Bad V (parseFunctions n [] >>= f) (fun i n => parseFunctions n [] >>= f' i n) s := by
  refine Bad.bind (fun _ n => parseFunctions_mono n [])
    ((parseFunctions_bad n [] V s hV).reindex (fun _ => []) fun _ _ => rfl) fun ps s1 h1 => ?_
  obtain ⟨ps, a, lr, rfl, h2, h3⟩ := parseFunctions_eq n [] s _ s1 h1
  refine ⟨_, h3, fun i c' hr => ?_, (h ps a lr s1 h2).weaken fun c hc => by simpa using hc⟩
  obtain ⟨a, b, rfl, hr1, hr2⟩ := hr.unappend
  obtain ⟨l, us, rfl, hr3⟩ := hr2.uncons
  cases hr3.unnil
  obtain ⟨ps', h4, _⟩ := predicates_rn h2 hr1
  exact ⟨_, parseFunctions_complete h4 []⟩

/-! ### Formulas -/

def LForm (ts : List Tk) : Prop := ∃ f, FormulaText true f ts
def LForms (ts : List Tk) : Prop := ∃ fs, FormulasText true fs ts
def LBranches (ts : List Tk) : Prop := ∃ fs, BranchesText true fs ts

omit [Env] in
theorem isEmpty_rn {f f' : Formula} (h : rnFormula id f' = rnFormula id f) : f'.isEmpty = f.isEmpty := by
  by_cases hf : f = .empty
  · subst hf
    rw [show rnFormula id .empty = .empty from by simp [rnFormula], rnFormula_empty] at h
    rw [h]
  · rw [isEmpty_eq_false hf, isEmpty_eq_false (ne_empty_rn h hf)]

/-- A formula, and then something else. -/
theorem formula_then {n} {f : Formula → P β} {f' : ι → Nat → Formula → P β}
    (hb : Bad V (parseFormula n) (fun (_ : Unit) n => parseFormula n) s)
    (h : ∀ φ ts s1, FormulaText true φ ts → Steps s ts s1 → Bad (fun c => V (ts ++ c)) (f φ)
      (fun (j : ι × {φ' : Formula // φ'.isEmpty = φ.isEmpty}) n => f' j.1 n j.2.1) s1) :
    Bad V (parseFormula n >>= f) (fun i n => parseFormula n >>= f' i n) s := by
  refine Bad.bindR (fun φ φ' => φ'.isEmpty = φ.isEmpty) (fun _ => parseFormula_mono)
    (hb.reindex (fun _ => ()) fun _ _ => rfl) fun φ s1 h1 => ?_
  obtain ⟨ts, h2, h3⟩ := parseFormula_sound h1
  refine ⟨ts, h3, fun i c' hr => ?_, h φ ts s1 h2 h3⟩
  obtain ⟨φ', h4, h5⟩ := formula_rn h2 hr
  exact ⟨φ', isEmpty_rn h5, parseFormula_complete h4⟩

theorem formulas_then {n} {f : List Formula → P β} {f' : ι → Nat → List Formula → P β}
    (hb : Bad V (parseFormulas n []) (fun acc n => parseFormulas n acc) s)
    (h : ∀ fs ts s1, FormulasText true fs ts → Bad (fun c => V (ts ++ c)) (f fs)
      (fun (j : ι × List Formula) n => f' j.1 n j.2) s1) :
    Bad V (parseFormulas n [] >>= f) (fun i n => parseFormulas n [] >>= f' i n) s := by
  refine Bad.bind (fun _ n => parseFormulas_mono n []) (hb.reindex (fun _ => []) fun _ _ => rfl) fun fs s1 h1 => ?_
  obtain ⟨fs, ts, rfl, h2, h3⟩ := (formula_sound n).2.1 [] s _ s1 h1
  refine ⟨ts, h3, fun i c' hr => ?_, h fs ts s1 h2⟩
  obtain ⟨fs', h4, h5⟩ := formulas_rn h2 hr
  exact ⟨_, parseFormulas_complete h4 []⟩

theorem branches_then {n} {f : List Formula → P β} {f' : ι → Nat → List Formula → P β}
    (hb : Bad V (parseBranches n []) (fun acc n => parseBranches n acc) s)
    (h : ∀ fs ts s1, BranchesText true fs ts → Bad (fun c => V (ts ++ c)) (f fs)
      (fun (j : ι × List Formula) n => f' j.1 n j.2) s1) :
    Bad V (parseBranches n [] >>= f) (fun i n => parseBranches n [] >>= f' i n) s := by
  refine Bad.bind (fun _ n => parseBranches_mono n []) (hb.reindex (fun _ => []) fun _ _ => rfl) fun fs s1 h1 => ?_
  obtain ⟨fs, ts, rfl, h2, h3⟩ := (formula_sound n).2.2 [] s _ s1 h1
  refine ⟨ts, h3, fun i c' hr => ?_, h fs ts s1 h2⟩
  obtain ⟨fs', h4, h5⟩ := branches_rn h2 hr
  exact ⟨_, parseBranches_complete h4 []⟩

/-- After a probability, the empty formula is rejected at its closing parenthesis. -/
theorem branch_bad {n} {m : Text} {f : Formula → P β} {f' : ι → Nat → Formula → P β}
    (hb : Bad V (parseFormula n) (fun (_ : Unit) n => parseFormula n) s) (h0 : V []) (h1 : ∀ l, V [(lpar, l)])
    (hh : Hinted V m []) (hh' : ∀ l, Hinted V m [(lpar, l)])
    (h : ∀ φ ts s1, FormulaText true φ ts → φ ≠ .empty → Bad (fun c => V (ts ++ c)) (f φ)
      (fun (j : ι × Formula) n => f' j.1 n j.2) s1) :
    Bad V (parseFormula n >>= fun φ => if φ.isEmpty then synErr m RP else f φ)
      (fun i n => parseFormula n >>= fun φ => if φ.isEmpty then synErr m RP else f' i n φ) s := by
  by_cases ha : ∃ s1, getToken s = .tok rpar s1
  · -- `)`
    obtain ⟨s1, ha⟩ := ha
    cases n with
    | zero =>
      have : (parseFormula 0 >>= fun φ => if φ.isEmpty then synErr m RP else f φ) s = .timeout := by
        simp only [parseFormula]; rfl
      exact ⟨fun e he => (by rw [this] at he; cases he), fun e he => (by rw [this] at he; cases he),
        fun e he => (by rw [this] at he; cases he)⟩
    | succ n =>
      have run : ∀ {γ : Type} (k : Formula → P γ) (s s1 : LexState) (n : Nat), getToken s = .tok rpar s1 →
          (parseFormula (n + 1) >>= k) s = k .empty s1 := by
        intro γ k s s1 n hg
        simp only [parseFormula, P.bind_assoc]
        rw [P.bind_run (getTok_ok.2 hg)]
        rfl
      constructor
      · intro e he
        rw [run _ _ _ _ ha] at he
        cases he
        refine ⟨[], rpar, ⟨s1, ha, rfl, trivial⟩, .inl rfl, ⟨h0, hh⟩, fun i c' l' s' hr hf => ⟨1, fun k hk => ?_⟩⟩
        cases hr.unnil
        obtain ⟨s2, h3, h4, _⟩ := hf
        obtain ⟨k, rfl⟩ : ∃ k', k = k' + 1 := ⟨k - 1, by omega⟩
        rw [run _ _ _ _ h3]
        simp [Formula.isEmpty, synErr, h4]
      · intro e he
        rw [run _ _ _ _ ha] at he
        cases he
      · intro e he
        rw [run _ _ _ _ ha] at he
        cases he
  by_cases hc : ∃ s1 s2, getToken s = .tok lpar s1 ∧ getToken s1 = .tok rpar s2
  · -- `( )`
    obtain ⟨s1, s2, hc, hd⟩ := hc
    cases n with
    | zero =>
      have : (parseFormula 0 >>= fun φ => if φ.isEmpty then synErr m RP else f φ) s = .timeout := by
        simp only [parseFormula]; rfl
      exact ⟨fun e he => (by rw [this] at he; cases he), fun e he => (by rw [this] at he; cases he),
        fun e he => (by rw [this] at he; cases he)⟩
    | succ n =>
      have run : ∀ {γ : Type} (k : Formula → P γ) (s s1 s2 : LexState) (n : Nat), getToken s = .tok lpar s1 →
          getToken s1 = .tok rpar s2 → (parseFormula (n + 1) >>= k) s = k .empty s2 := by
        intro γ k s s1 s2 n hg hg'
        have : parseFormula (n + 1) s = .ok (.empty, s2) := by
          simp only [parseFormula]
          rw [P.bind_run (getTok_ok.2 hg)]
          show (getTok >>= _) s1 = _
          rw [P.bind_run (getTok_ok.2 hg')]
          rfl
        rw [P.bind_run this]
      constructor
      · intro e he
        rw [run _ _ _ _ _ hc hd] at he
        cases he
        refine ⟨[(lpar, s1.line)], rpar, ⟨s1, hc, rfl, s2, hd, rfl, trivial⟩, .inl rfl, ⟨h1 _, hh' _⟩,
          fun i c' l' s' hr hf => ⟨1, fun k hk => ?_⟩⟩
        obtain ⟨l2, us, rfl, hr'⟩ := hr.uncons
        cases hr'.unnil
        obtain ⟨s3, h3, _, s4, h5, h6, _⟩ := hf
        obtain ⟨k, rfl⟩ : ∃ k', k = k' + 1 := ⟨k - 1, by omega⟩
        rw [run _ _ _ _ _ h3 h5]
        simp [Formula.isEmpty, synErr, h6]
      · intro e he
        rw [run _ _ _ _ _ hc hd] at he
        cases he
      · intro e he
        rw [run _ _ _ _ _ hc hd] at he
        cases he
  · refine formula_then hb fun φ ts s1 h2 h3 => ?_
    have hne : φ ≠ .empty := by
      intro he
      rcases formulaText_empty h2 he with ⟨l1, l2, rfl⟩ | ⟨_, l, rfl⟩
      · obtain ⟨s2, h4, _, s3, h5, _⟩ := h3.feeds'
        exact hc ⟨_, _, h4, h5⟩
      · obtain ⟨s2, h4, _⟩ := h3.feeds'
        exact ha ⟨_, h4⟩
    simp only [isEmpty_eq_false hne]
    exact (h φ ts s1 h2 hne).reindex (fun j => (j.1, j.2.1)) fun j n =>
      if_neg (by rw [j.2.2, isEmpty_eq_false hne]; simp)

/-- The texts of the empty formula. -/
def NoFormula (c : List Tk) : Prop := (∃ l, c = [(rpar, l)]) ∨ ∃ l l', c = [(lpar, l), (rpar, l')]

omit [Env] in
/-- What starts a formula can be completed to one. -/
theorem formulaStart_ext {u : Token} (hu : FormulaStart u) (l l' : Nat) :
    ∃ Q f, Simples Q ∧ f ≠ .empty ∧ FormulaText true f ((lpar, l) :: (u, l') :: Q) := by
  simp only [FormulaStart, List.mem_cons, List.not_mem_nil, or_false] at hu
  rcases hu with ⟨x, rfl⟩ | rfl | rfl | rfl | rfl | rfl | rfl | rfl | rfl
  · exact ⟨[(rpar, 0)], _, by simp [Simple], by simp, .atom (items := []) ⟨.nil, rfl⟩⟩
  · exact ⟨[(rpar, 0), (rpar, 0)], .not .empty, by simp [Simple], by simp, .not (ts := [(rpar, 0)]) (.missing rfl)⟩
  · exact ⟨[(rpar, 0)], _, by simp [Simple], by simp, .and .nil⟩
  · exact ⟨[(rpar, 0)], _, by simp [Simple], by simp, .or .nil⟩
  · exact ⟨[(rpar, 0)], _, by simp [Simple], by simp, .xor .nil⟩
  · exact ⟨[(.ident anyName, 0), (.ident anyName, 0), (rpar, 0)], _, by simp [Simple], by simp, .equals⟩
  · exact ⟨[(lpar, 0), (rpar, 0), (rpar, 0), (rpar, 0)], _, by simp [Simple], by simp,
      .forall_ (items := []) ⟨.nil, rfl⟩ (.missing rfl)⟩
  · exact ⟨[(lpar, 0), (rpar, 0), (rpar, 0), (rpar, 0)], _, by simp [Simple], by simp,
      .exists_ (items := []) ⟨.nil, rfl⟩ (.missing rfl)⟩
  · exact ⟨[(rpar, 0)], _, by simp [Simple], by simp, .probabilistic .nil⟩

theorem formula_bad_all : ∀ n,
    (∀ V s, (∀ c, Ext LForm c → ¬ NoFormula c → V c) → Bad V (parseFormula n) (fun (_ : Unit) n => parseFormula n) s) ∧
    (∀ acc V s, (∀ c, Ext LForms c → V c) → Bad V (parseFormulas n acc) (fun acc n => parseFormulas n acc) s) ∧
    (∀ acc V s, (∀ c, Ext LBranches c → V c) → Bad V (parseBranches n acc) (fun acc n => parseBranches n acc) s) := by
  intro n
  induction n with
  | zero =>
    refine ⟨fun V s _ => ?_, fun acc V s _ => ?_, fun acc V s _ => ?_⟩
    · simp only [parseFormula]; exact .timeout
    · rw [parseFormulas]; exact .timeout
    · rw [parseBranches]; exact .timeout
  | succ n ih =>
    obtain ⟨ih1, ih2, ih3⟩ := ih
    refine ⟨fun V s hV => ?_, fun acc V s hV => ?_, fun acc V s hV => ?_⟩
    · have hV : ∀ c, Ext LForm c → (hn : ¬ NoFormula c := by simp [NoFormula]) → V c := hV
      apply Bad.succ
      simp only [parseFormula]
      have h0 : V [] := hV _ ⟨[(rpar, 0)], by simp [Simple], _, .missing rfl⟩
      have hh : Hinted V [.s "a (potentially empty) boolean formula definition"] [] :=
        .tok (.open_ (by decide)) fun l => hV _ ⟨[(rpar, 0)], by simp [Simple], _, .empty⟩
      refine Bad.get h0 fun t s1 ht => ?_
      tok_cases t
      case punct.rparen => exact .go .ret
      case punct.lparen =>
        have h1 : V [(lpar, s1.line)] := hV _ ⟨[(rpar, 0)], by simp [Simple], _, .empty⟩
        have hh : Hinted (fun c => V ((lpar, s1.line) :: c)) [.s "a boolean formula"] [] := by
          refine ⟨_, .formula (by decide), fun u hu l => ?_⟩
          obtain ⟨Q, f, h2, _, h4⟩ := formulaStart_ext hu s1.line l
          refine hV _ ⟨Q, h2, f, h4⟩ ?_
          rintro (⟨_, h⟩ | ⟨_, _, h⟩)
          · cases h
          · cases h
            simp [FormulaStart] at hu
        refine .go (Bad.get h1 fun t s2 ht => ?_)
        have hforms : ∀ o, o ≠ rpar → (∀ fs ts, FormulasText true fs ts →
            ∃ f, FormulaText true f ((lpar, s1.line) :: (o, s2.line) :: ts)) → ∀ c, Ext LForms c →
            V ((lpar, s1.line) :: (o, s2.line) :: c) := by
          rintro o hr ho c ⟨Q, h3, fs, h4⟩
          obtain ⟨f, hf⟩ := ho _ _ h4
          exact hV _ ⟨Q, h3, f, by simpa using hf⟩ (by simp [NoFormula, hr])
        tok_cases t
        case punct.rparen => exact .go .ret
        case ident x =>
          refine .go (Bad.pos fun l => parseArgs_then ?_ fun _ _ _ _ _ => .ret)
          rintro c ⟨Q, h3, items, lr, h4, h5⟩
          exact hV _ ⟨Q, h3, _, by
            have : FormulaText true _ _ := .atom (name := x) (l1 := s1.line) (l2 := s2.line) (l3 := lr) ⟨h4, rfl⟩
            simpa [h5] using this⟩
        case op.not =>
          refine .go (formula_then (ih1 _ _ ?_) ?_)
          · rintro c ⟨Q, h3, f, h4⟩ _
            exact hV _ ⟨Q ++ [(rpar, 0)], by simp [h3, Simple], _, by
              have : FormulaText true _ _ := .not (l1 := s1.line) (l2 := s2.line) (l3 := 0) h4
              simpa using this⟩
          · intro f ts s3 hf _
            refine Bad.exact ?_ (.tok (.close (by decide)) fun l => ?_) (fun _ => rfl) fun _ _ => .ret
            · exact hV _ ⟨[(rpar, 0)], by simp [Simple], _, by
                have : FormulaText true _ _ := .not (l1 := s1.line) (l2 := s2.line) (l3 := 0) hf
                simpa using this⟩
            · exact hV _ ⟨[], by simp, _, by
                have : FormulaText true _ _ := .not (l1 := s1.line) (l2 := s2.line) (l3 := l) hf
                simpa using this⟩
        case op.and =>
          exact .go (formulas_then (ih2 [] _ _ (hforms _ (by simp) fun fs ts h => ⟨_, .and h⟩)) fun _ _ _ _ => .ret)
        case op.or =>
          exact .go (formulas_then (ih2 [] _ _ (hforms _ (by simp) fun fs ts h => ⟨_, .or h⟩)) fun _ _ _ _ => .ret)
        case op.xor =>
          exact .go (formulas_then (ih2 [] _ _ (hforms _ (by simp) fun fs ts h => ⟨_, .xor h⟩)) fun _ _ _ _ => .ret)
        case op.probabilistic =>
          refine .go (branches_then (ih3 [] _ _ ?_) fun _ _ _ _ => .ret)
          rintro c ⟨Q, h3, fs, h4⟩
          exact hV _ ⟨Q, h3, _, by
            have : FormulaText true _ _ := .probabilistic (l1 := s1.line) (l2 := s2.line) h4
            simpa using this⟩
        case op.equal =>
          refine .go (Bad.ident ?_ (.name (.name (by decide)) fun x l => ?_) (fun _ => rfl) fun x s3 _ =>
            Bad.ident ?_ (.name (.name (by decide)) fun y l => ?_) (fun _ => rfl) fun y s4 _ =>
            Bad.exact ?_ (.tok (.close (by decide)) fun l => ?_) (fun _ => rfl) fun _ _ => .ret)
          · exact hV _ ⟨[(.ident anyName, 0), (.ident anyName, 0), (rpar, 0)], by simp [Simple], _, .equals⟩
          · exact hV _ ⟨[(.ident anyName, 0), (rpar, 0)], by simp [Simple], _, .equals⟩
          · exact hV _ ⟨[(.ident anyName, 0), (rpar, 0)], by simp [Simple], _, .equals⟩
          · exact hV _ ⟨[(rpar, 0)], by simp [Simple], _, .equals⟩
          · exact hV _ ⟨[(rpar, 0)], by simp [Simple], _, .equals⟩
          · exact hV _ ⟨[], by simp, _, .equals⟩
        case op.forall_ =>
          refine .go (Bad.exact ?_ (.tok (.open_ (by decide)) fun l => ?_) (fun _ => rfl) fun s3 _ =>
            parseArgs_then ?_ fun vars items lr s4 hi => formula_then (ih1 _ _ ?_) fun f ts s5 hf _ =>
            Bad.exact ?_ (.tok (.close (by decide)) fun l => ?_) (fun _ => rfl) fun _ _ => .ret)
          · exact hV _ ⟨[(lpar, 0), (rpar, 0), (rpar, 0), (rpar, 0)], by simp [Simple], _,
              .forall_ (items := []) ⟨.nil, rfl⟩ (.missing rfl)⟩
          · exact hV _ ⟨[(rpar, 0), (rpar, 0), (rpar, 0)], by simp [Simple], _,
              .forall_ (items := []) ⟨.nil, rfl⟩ (.missing rfl)⟩
          · rintro c ⟨Q, h3, items, lr, h4, h5⟩
            exact hV _ ⟨Q ++ [(rpar, 0), (rpar, 0)], by simp [h3, Simple], _, by
              have : FormulaText true _ _ := .forall_ (l1 := s1.line) (l2 := s2.line) (l3 := s3.line) (l4 := lr) (l5 := 0)
                ⟨h4, rfl⟩ (.missing (l := 0) rfl)
              have he := congrArg (· ++ [(rpar, 0), (rpar, 0)]) h5
              simp only [List.append_assoc, List.cons_append, List.nil_append] at he this ⊢
              rw [he]; exact this⟩
          · rintro c ⟨Q, h3, f, h4⟩ _
            exact hV _ ⟨Q ++ [(rpar, 0)], by simp [h3, Simple], _, by
              have : FormulaText true _ _ := .forall_ (l1 := s1.line) (l2 := s2.line) (l3 := s3.line) (l4 := lr) (l5 := 0)
                hi h4
              simpa using this⟩
          · exact hV _ ⟨[(rpar, 0)], by simp [Simple], _, by
              have : FormulaText true _ _ := .forall_ (l1 := s1.line) (l2 := s2.line) (l3 := s3.line) (l4 := lr) (l5 := 0)
                hi hf
              simpa using this⟩
          · exact hV _ ⟨[], by simp, _, by
              have : FormulaText true _ _ := .forall_ (l1 := s1.line) (l2 := s2.line) (l3 := s3.line) (l4 := lr) (l5 := l)
                hi hf
              simpa using this⟩
        case op.exists_ =>
          refine .go (Bad.exact ?_ (.tok (.open_ (by decide)) fun l => ?_) (fun _ => rfl) fun s3 _ =>
            parseArgs_then ?_ fun vars items lr s4 hi => formula_then (ih1 _ _ ?_) fun f ts s5 hf _ =>
            Bad.exact ?_ (.tok (.close (by decide)) fun l => ?_) (fun _ => rfl) fun _ _ => .ret)
          · exact hV _ ⟨[(lpar, 0), (rpar, 0), (rpar, 0), (rpar, 0)], by simp [Simple], _,
              .exists_ (items := []) ⟨.nil, rfl⟩ (.missing rfl)⟩
          · exact hV _ ⟨[(rpar, 0), (rpar, 0), (rpar, 0)], by simp [Simple], _,
              .exists_ (items := []) ⟨.nil, rfl⟩ (.missing rfl)⟩
          · rintro c ⟨Q, h3, items, lr, h4, h5⟩
            exact hV _ ⟨Q ++ [(rpar, 0), (rpar, 0)], by simp [h3, Simple], _, by
              have : FormulaText true _ _ := .exists_ (l1 := s1.line) (l2 := s2.line) (l3 := s3.line) (l4 := lr) (l5 := 0)
                ⟨h4, rfl⟩ (.missing (l := 0) rfl)
              have he := congrArg (· ++ [(rpar, 0), (rpar, 0)]) h5
              simp only [List.append_assoc, List.cons_append, List.nil_append] at he this ⊢
              rw [he]; exact this⟩
          · rintro c ⟨Q, h3, f, h4⟩ _
            exact hV _ ⟨Q ++ [(rpar, 0)], by simp [h3, Simple], _, by
              have : FormulaText true _ _ := .exists_ (l1 := s1.line) (l2 := s2.line) (l3 := s3.line) (l4 := lr) (l5 := 0)
                hi h4
              simpa using this⟩
          · exact hV _ ⟨[(rpar, 0)], by simp [Simple], _, by
              have : FormulaText true _ _ := .exists_ (l1 := s1.line) (l2 := s2.line) (l3 := s3.line) (l4 := lr) (l5 := 0)
                hi hf
              simpa using this⟩
          · exact hV _ ⟨[], by simp, _, by
              have : FormulaText true _ _ := .exists_ (l1 := s1.line) (l2 := s2.line) (l3 := s3.line) (l4 := lr) (l5 := l)
                hi hf
              simpa using this⟩
        all_goals exact .stop h1 hh rfl fun _ _ _ => rfl
      all_goals exact .stop h0 hh rfl fun _ _ _ => rfl
    · apply Bad.succ
      simp only [parseFormulas]
      refine formula_then (ih1 _ _ ?_) ?_
      · rintro c ⟨Q, h3, f, h4⟩ _
        by_cases hf : f = .empty
        · rcases formulaText_empty h4 hf with ⟨l1, l2, he⟩ | ⟨_, l, he⟩
          · exact hV _ ⟨Q, h3, _, by rw [he]; exact .unclosed rfl⟩
          · exact hV _ ⟨Q, h3, _, by rw [he]; exact .nil⟩
        · exact hV _ ⟨Q ++ [(rpar, 0)], by simp [h3, Simple], _, by
            have : FormulasText true _ _ := .cons h4 hf (.nil (l := 0))
            simpa using this⟩
      · intro f ts s1 hf _
        by_cases he : f.isEmpty = true
        · simp only [he, if_true]; exact .ret
        · have he' : f.isEmpty = false := by simpa using he
          simp only [he', Bool.false_eq_true, if_false]
          refine (ih2 (acc ++ [f]) _ s1 fun c hc => ?_).reindex
            (fun j => j.1 ++ [j.2.1]) fun j n => if_neg (by rw [j.2.2]; exact he)
          obtain ⟨Q, h3, fs, h4⟩ := hc
          exact hV _ ⟨Q, h3, _, by
            have : FormulasText true _ _ := .cons hf (isEmpty_false he) h4
            simpa using this⟩
    · apply Bad.succ
      simp only [parseBranches]
      have h0 : V [] := hV _ ⟨[(rpar, 0)], by simp [Simple], _, .nil⟩
      have hh : Hinted V [.s "a probability or ')' to close the probabilistic block"] [] := by
        refine ⟨_, .probability, ?_⟩
        rintro u (rfl | ⟨w, rfl⟩) l
        · exact hV _ ⟨[], by simp, _, .nil⟩
        · obtain ⟨Q, f, h1, h2, h3⟩ := formulaStart_ext (u := .ident anyName) (.inl ⟨_, rfl⟩) 0 0
          exact hV _ ⟨(lpar, 0) :: (.ident anyName, 0) :: (Q ++ [(rpar, 0)]), by simp [h1, Simple], _, by
            have : BranchesText true _ _ := .cons (w := w) (l := l) h3 h2 (.nil (l := 0))
            simpa using this⟩
      refine Bad.get h0 fun t s1 ht => ?_
      tok_cases t
      case punct.rparen => exact .go .ret
      case num w =>
        have ex : ∀ l c Q, FormulaText true (.atom ⟨anyName, l, []⟩) (c ++ Q) → Simples Q →
            V ((.num w, s1.line) :: c) := fun l c Q h hq =>
          hV _ ⟨Q ++ [(rpar, 0)], by simp [hq, Simple], _, by
            have : BranchesText true _ _ := .cons (w := w) (l := s1.line) h (by simp) (.nil (l := 0))
            simpa using this⟩
        have at_ : ∀ l, FormulaText true (.atom ⟨anyName, 0, []⟩) [(lpar, l), (.ident anyName, 0), (rpar, 0)] :=
          fun l => .atom (items := []) ⟨.nil, rfl⟩
        have h1 : V [(.num w, s1.line)] :=
          ex 0 [] [(lpar, 0), (.ident anyName, 0), (rpar, 0)] (at_ 0) (by simp [Simple])
        have h2 : ∀ l, V [(.num w, s1.line), (lpar, l)] := fun l =>
          ex 0 [(lpar, l)] [(.ident anyName, 0), (rpar, 0)] (at_ l) (by simp [Simple])
        refine .go (branch_bad (ih1 _ _ ?_) h1 h2 (.tok (.open_ (by decide)) h2) (fun l => ?_) ?_)
        · rintro c ⟨Q, h4, f, h5⟩ hne
          by_cases hf : f = .empty
          · rcases formulaText_empty h5 hf with ⟨l1, l2, he⟩ | ⟨_, l, he⟩
            · match c, he with
              | [], _ => exact h1
              | [x], he =>
                simp only [List.cons_append, List.nil_append, List.cons.injEq] at he
                rw [he.1]
                exact h2 _
              | x :: y :: c, he =>
                simp only [List.cons_append, List.cons.injEq, List.append_eq_nil_iff] at he
                obtain ⟨rfl, rfl, rfl, _⟩ := he
                exact absurd (.inr ⟨_, _, rfl⟩) hne
            · match c, he with
              | [], _ => exact h1
              | x :: c, he =>
                simp only [List.cons_append, List.cons.injEq, List.append_eq_nil_iff] at he
                obtain ⟨rfl, rfl, _⟩ := he
                exact absurd (.inl ⟨_, rfl⟩) hne
          · exact hV _ ⟨Q ++ [(rpar, 0)], by simp [h4, Simple], _, by
              have : BranchesText true _ _ := .cons (w := w) (l := s1.line) h5 hf (.nil (l := 0))
              simpa using this⟩
        · refine ⟨_, .formula (by decide), fun u hu l' => ?_⟩
          obtain ⟨Q, f, h3, h4, h5⟩ := formulaStart_ext hu l l'
          exact hV _ ⟨Q ++ [(rpar, 0)], by simp [h3, Simple], _, by
            have : BranchesText true _ _ := .cons (w := w) (l := s1.line) h5 h4 (.nil (l := 0))
            simpa using this⟩
        · intro f ts s2 hf hne
          refine (ih3 (acc ++ [.weighted w f]) _ s2 fun c hc => ?_).reindex
            (fun (j : List Formula × Formula) => j.1 ++ [.weighted w j.2]) fun j n => rfl
          obtain ⟨Q, h4, fs, h5⟩ := hc
          exact hV _ ⟨Q, h4, _, by
            have : BranchesText true _ _ := .cons (w := w) (l := s1.line) hf hne h5
            simpa using this⟩
      all_goals exact .stop h0 hh rfl fun _ _ _ => rfl

theorem parseFormula_then {n} {f : Formula → P β} {f' : ι → Nat → Formula → P β} (hV : ∀ c, Ext LForm c → V c)
    (h : ∀ φ ts s1, FormulaText true φ ts → Bad (fun c => V (ts ++ c)) (f φ)
      (fun (j : ι × Formula) n => f' j.1 n j.2) s1) :
    Bad V (parseFormula n >>= f) (fun i n => parseFormula n >>= f' i n) s :=
  formula_then ((formula_bad_all n).1 V s fun c h _ => hV c h) fun φ ts s1 h1 _ =>
    (h φ ts s1 h1).reindex (fun j => (j.1, j.2.1)) fun _ _ => rfl

end Verif
