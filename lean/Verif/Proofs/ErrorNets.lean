import Verif.Proofs.ErrorParts

/-! Where the parser stops in task networks. -/

namespace Verif

open Spec

variable [Env] {α β ι κ : Type} {V : List Tk → Prop} {s : LexState}

omit [Env] in
theorem shown_eq {t u : Token} (h : u = shown t) (h1 : u ≠ .op .lt) (h2 : u ≠ .op .gt) : t = u := by
  subst h
  unfold shown at *
  split at * <;> simp_all

/-- Names, with the closing parenthesis. -/
def LNames (ts : List Tk) : Prop := ∃ xs lr, ts = nameToks xs ++ [(rpar, lr)]

omit [Env] in
theorem lNames_nil (l : Nat) : LNames [(rpar, l)] := ⟨[], l, rfl⟩

omit [Env] in
theorem lNames_cons {ts} (x : Name) (l : Nat) (h : LNames ts) : LNames ((.ident x, l) :: ts) := by
  obtain ⟨xs, lr, rfl⟩ := h
  exact ⟨(x, l) :: xs, lr, rfl⟩

/-- The message asks for a name, or `)`. -/
def AsksTerm (m : Text) : Prop := ∃ K, Says m K ∧ ∀ u, K u → u = rpar ∨ ∃ x, u = .ident x

omit [Env] in
theorem AsksTerm.hinted {m : Text} (hm : AsksTerm m) (hV : ∀ c, Ext LNames c → V c) : Hinted V m [] := by
  obtain ⟨K, h1, h2⟩ := hm
  refine ⟨K, h1, fun u hu l => ?_⟩
  rcases h2 u hu with rfl | ⟨x, rfl⟩
  · exact hV _ ⟨[], by simp, lNames_nil l⟩
  · exact hV _ ⟨[(rpar, 0)], by simp [Simple], lNames_cons x l (lNames_nil 0)⟩

theorem termsLoop_bad {m} (hm : AsksTerm m) : ∀ n acc V s, (∀ c, Ext LNames c → V c) →
    Bad V (termsLoop m n acc) (fun acc n => termsLoop m n acc) s := by
  intro n
  induction n with
  | zero => intro acc V s _; exact .timeout
  | succ n ih =>
    intro acc V s hV
    apply Bad.succ
    simp only [termsLoop]
    have h0 : V [] := hV _ ⟨[(rpar, 0)], by simp [Simple], lNames_nil 0⟩
    refine Bad.get h0 fun t s1 ht => ?_
    tok_cases t
    case ident x =>
      refine .go (Bad.pos fun l => (ih _ _ s1 fun c hc => ?_).reindex
        (fun (j : List Symbol × Nat) => j.1 ++ [⟨x, j.2, none, none⟩]) fun _ _ => rfl)
      obtain ⟨Q, h2, h3⟩ := hc
      exact hV _ ⟨Q, h2, lNames_cons _ _ h3⟩
    case punct.rparen => exact .go .ret
    all_goals exact .stop h0 (hm.hinted hV) rfl fun _ _ _ => rfl

theorem termsLoop_then {n m acc} {acc' : ι → List Symbol} {f : List Symbol → P β} {f' : ι → Nat → List Symbol → P β}
    (hm : AsksTerm m) (hV : ∀ c, Ext LNames c → V c)
    (h : ∀ xs lr s1, Bad (fun c => V (nameToks xs ++ (rpar, lr) :: c)) (f (acc ++ nameSyms xs))
      (fun (j : ι × List Symbol) n => f' j.1 n j.2) s1) :
    Bad V (termsLoop m n acc >>= f) (fun i n => termsLoop m n (acc' i) >>= f' i n) s := by
  refine Bad.bind (fun i n => termsLoop_mono m n _)
    ((termsLoop_bad hm n acc V s hV).reindex acc' fun _ _ => rfl) fun r s1 h1 => ?_
  obtain ⟨xs, lr, rfl, h3⟩ := termsLoop_sound n acc s _ s1 h1
  refine ⟨_, h3, fun i c' hr => ?_, (h xs lr s1).weaken fun c hc => by simpa using hc⟩
  obtain ⟨a, b, rfl, hr1, hr2⟩ := hr.unappend
  obtain ⟨l, us, rfl, hr3⟩ := hr2.uncons
  cases hr3.unnil
  obtain ⟨xs', rfl, _⟩ := nameToks_rn hr1
  exact ⟨_, termsLoop_complete xs' _⟩

/-- A subtask after its opening parenthesis. -/
def LSubtask (ts : List Tk) : Prop := ∃ x, SubtaskText x ts

omit [Env] in
theorem lSubtask_plain {ts} (x : Name) (l : Nat) (h : LNames ts) : LSubtask ((.ident x, l) :: ts) := by
  obtain ⟨xs, lr, rfl⟩ := h
  exact ⟨_, .plain⟩

omit [Env] in
theorem lSubtask_labelled {ts} (x : Name) (l l1 : Nat) (y : Name) (l2 l3 : Nat) (h : LNames ts) :
    LSubtask ((.ident x, l) :: (lpar, l1) :: (.ident y, l2) :: (ts ++ [(rpar, l3)])) := by
  obtain ⟨xs, lr, rfl⟩ := h
  have : LSubtask ((.ident x, l) :: (lpar, l1) :: (.ident y, l2) :: (nameToks xs ++ [(rpar, lr), (rpar, l3)])) :=
    ⟨_, .labelled⟩
  simpa using this

theorem parseSubtask_bad {n} (hV : ∀ c, Ext LSubtask c → V c) :
    Bad V (parseSubtask n) (fun (_ : ι) n => parseSubtask n) s := by
  simp only [parseSubtask]
  refine Bad.ident ?_ (.name (.name (by decide)) fun x l => ?_) (fun _ => rfl) fun x s1 _ => ?_
  · exact hV _ ⟨[(.ident anyName, 0), (rpar, 0)], by simp [Simple], lSubtask_plain _ _ (lNames_nil 0)⟩
  · exact hV _ ⟨[(rpar, 0)], by simp [Simple], lSubtask_plain _ _ (lNames_nil 0)⟩
  have hh : Hinted (fun c => V ((.ident x, s1.line) :: c)) [.s "subtask definition"] [] :=
    .tok (.open_ (by decide)) fun l => hV _ ⟨[(.ident anyName, 0), (rpar, 0), (rpar, 0)], by simp [Simple],
      lSubtask_labelled _ _ _ _ _ _ (lNames_nil 0)⟩
  have h0 : V [(.ident x, s1.line)] :=
    hV _ ⟨[(rpar, 0)], by simp [Simple], lSubtask_plain _ _ (lNames_nil 0)⟩
  refine Bad.pos fun l => Bad.get h0 fun t s2 ht => ?_
  tok_cases t
  case punct.lparen =>
    refine .go (Bad.ident ?_ (.name .nameSubtask fun y l => ?_) (fun _ => rfl) fun y s3 _ => Bad.pos fun l =>
      termsLoop_then ⟨_, .terms, fun _ h => h⟩ ?_ fun xs lr s4 =>
      Bad.exact ?_ (.tok .closeSubtask fun l => ?_) (fun _ => rfl) fun _ _ => .ret)
    · exact hV _ ⟨[(.ident anyName, 0), (rpar, 0), (rpar, 0)], by simp [Simple],
        lSubtask_labelled _ _ _ _ _ _ (lNames_nil 0)⟩
    · exact hV _ ⟨[(rpar, 0), (rpar, 0)], by simp [Simple], lSubtask_labelled _ _ _ _ _ _ (lNames_nil 0)⟩
    · rintro c ⟨Q, h2, h3⟩
      exact hV _ ⟨Q ++ [(rpar, 0)], by simp [h2, Simple], by
        simpa using lSubtask_labelled x s1.line s2.line y s3.line 0 h3⟩
    · exact hV _ ⟨[(rpar, 0)], by simp [Simple], by
        simpa using lSubtask_labelled x s1.line s2.line y s3.line 0 ⟨xs, lr, rfl⟩⟩
    · exact hV _ ⟨[], by simp, by
        simpa using lSubtask_labelled x s1.line s2.line y s3.line l ⟨xs, lr, rfl⟩⟩
  case ident y =>
    refine .go (Bad.pos fun l => termsLoop_then (acc' := fun (j : (ι × Nat) × Nat) => [⟨y, j.2, none, none⟩])
      ⟨_, .termsOf, fun _ h => h⟩ ?_ fun xs lr s4 => .ret)
    rintro c ⟨Q, h2, h3⟩
    exact hV _ ⟨Q, h2, lSubtask_plain _ _ (lNames_cons _ _ h3)⟩
  case punct.rparen => exact .go .ret
  all_goals exact .stop h0 hh rfl fun _ _ _ => rfl

theorem parseSubtask_then {n} {f : Subtask → P β} {f' : ι → Nat → Subtask → P β} (hV : ∀ c, Ext LSubtask c → V c)
    (h : ∀ x ts s1, SubtaskText x ts → Bad (fun c => V (ts ++ c)) (f x) (fun (j : ι × Subtask) n => f' j.1 n j.2) s1) :
    Bad V (parseSubtask n >>= f) (fun i n => parseSubtask n >>= f' i n) s := by
  refine Bad.bind (fun _ => parseSubtask_mono) (parseSubtask_bad hV) fun x s1 h1 => ?_
  obtain ⟨ts, h2, h3⟩ := parseSubtask_sound h1
  refine ⟨ts, h3, fun i c' hr => ?_, h x ts s1 h2⟩
  obtain ⟨x', h4, _⟩ := subtask_rn h2 hr
  exact ⟨x', parseSubtask_complete h4⟩

/-- Subtasks, with the closing parenthesis. -/
def LSubtaskList (ts : List Tk) : Prop := ∃ xs a lr, SubtaskList xs a ∧ ts = a ++ [(rpar, lr)]

theorem subtasksLoop_bad : ∀ n acc V s, (∀ c, Ext LSubtaskList c → V c) →
    Bad V (subtasksLoop n acc) (fun acc n => subtasksLoop n acc) s := by
  intro n
  induction n with
  | zero => intro acc V s _; exact .timeout
  | succ n ih =>
    intro acc V s hV
    apply Bad.succ
    simp only [subtasksLoop]
    have h0 : V [] := hV _ ⟨[(rpar, 0)], by simp [Simple], [], [], 0, .nil, rfl⟩
    have hh : Hinted V [.s "subtask declarations"] [] := .tok (.open_ (by decide)) fun l =>
      hV _ ⟨[(.ident anyName, 0), (rpar, 0), (rpar, 0)], by simp [Simple], _, _, 0,
        .cons (l := l) (.plain (xs := []) (l1 := 0) (l2 := 0) (task := anyName)) .nil, rfl⟩
    refine Bad.get h0 fun t s1 ht => ?_
    tok_cases t
    case punct.lparen =>
      refine .go (parseSubtask_then ?_ fun x ts s2 hx => (ih _ _ s2 fun c hc => ?_).reindex
        (fun (j : List Subtask × Subtask) => j.1 ++ [j.2]) fun _ _ => rfl)
      · rintro c ⟨Q, h2, x, h3⟩
        exact hV _ ⟨Q ++ [(rpar, 0)], by simp [h2, Simple], _, _, 0, .cons (l := s1.line) h3 .nil, by simp⟩
      · obtain ⟨Q, h2, xs, a, lr, h3, h4⟩ := hc
        exact hV _ ⟨Q, h2, _, _, lr, .cons (l := s1.line) hx h3, by simp [h4]⟩
    case punct.rparen => exact .go .ret
    all_goals exact .stop h0 hh rfl fun _ _ _ => rfl

def LSubtasks (ts : List Tk) : Prop := ∃ xs, SubtasksText xs ts

theorem parseSubtasks_bad {n} (hV : ∀ c, Ext LSubtasks c → V c) :
    Bad V (parseSubtasks n) (fun (_ : ι) n => parseSubtasks n) s := by
  simp only [parseSubtasks]
  have h0 : V [] := hV _ ⟨[(lpar, 0), (rpar, 0)], by simp [Simple], _, .none⟩
  have hh : ∀ l, V [(lpar, l)] := fun l => hV _ ⟨[(rpar, 0)], by simp [Simple], _, .none⟩
  refine Bad.exact h0 (.tok (.open_ (by decide)) hh) (fun _ => rfl) fun s1 _ => ?_
  have h1 : V [(lpar, s1.line)] := hV _ ⟨[(rpar, 0)], by simp [Simple], _, .none⟩
  have h2 : Hinted (fun c => V ((lpar, s1.line) :: c)) [.s "subtask declarations"] [] := by
    refine ⟨_, .subtasks, ?_⟩
    rintro u (rfl | ⟨x, rfl⟩) l
    · exact hV _ ⟨[(rpar, 0)], by simp [Simple], _, .many (a := []) .nil⟩
    · obtain ⟨y, hy⟩ := lSubtask_plain x l (lNames_nil 0)
      exact hV _ ⟨[(rpar, 0)], by simp [Simple], _, .one hy⟩
  refine Bad.peek h1 fun u s2 t s3 ht hu => ?_
  tok_cases u
  case op.and =>
    cases shown_eq hu (by simp) (by simp)
    refine .go (Bad.getKnown ht ((subtasksLoop_bad n [] _ s3 ?_).reindex (fun _ => []) fun _ _ => rfl))
    rintro c ⟨Q, h3, xs, a, lr, h4, h5⟩
    exact hV _ ⟨Q, h3, _, by
      have : SubtasksText _ _ := .many (l1 := s1.line) (l2 := s3.line) (l3 := lr) h4
      simpa [h5] using this⟩
  case ident x =>
    refine .go (parseSubtask_then ?_ fun _ _ _ _ => .ret)
    rintro c ⟨Q, h3, x, h4⟩
    exact hV _ ⟨Q, h3, _, by simpa using SubtasksText.one (l := s1.line) h4⟩
  case punct.rparen =>
    cases shown_eq hu (by simp) (by simp)
    exact .go (Bad.getKnown ht .ret)
  all_goals exact .stop h1 h2 rfl fun _ _ _ => rfl

theorem parseSubtasks_then {n} {f : List Subtask → P β} {f' : ι → Nat → List Subtask → P β}
    (hV : ∀ c, Ext LSubtasks c → V c)
    (h : ∀ xs ts s1, SubtasksText xs ts → Bad (fun c => V (ts ++ c)) (f xs)
      (fun (j : ι × List Subtask) n => f' j.1 n j.2) s1) :
    Bad V (parseSubtasks n >>= f) (fun i n => parseSubtasks n >>= f' i n) s := by
  refine Bad.bind (fun _ => parseSubtasks_mono) (parseSubtasks_bad hV) fun x s1 h1 => ?_
  obtain ⟨ts, h2, h3⟩ := parseSubtasks_sound h1
  refine ⟨ts, h3, fun i c' hr => ?_, h x ts s1 h2⟩
  obtain ⟨x', h4, _⟩ := subtasks_rn h2 hr
  exact ⟨x', parseSubtasks_complete h4⟩

/-! ### Orderings -/

theorem afterLoop_bad {t1 m} (hm : AsksTerm m) : ∀ n acc V s, (∀ c, Ext LNames c → V c) →
    Bad V (afterLoop t1 m n acc) (fun acc n => afterLoop t1 m n acc) s := by
  intro n
  induction n with
  | zero => intro acc V s _; exact .timeout
  | succ n ih =>
    intro acc V s hV
    apply Bad.succ
    simp only [afterLoop]
    have h0 : V [] := hV _ ⟨[(rpar, 0)], by simp [Simple], lNames_nil 0⟩
    refine Bad.get h0 fun t s1 ht => ?_
    tok_cases t
    case ident x =>
      refine .go ((ih _ _ s1 fun c hc => ?_).reindex
        (fun (j : List (Name × Name)) => j ++ [(t1, x)]) fun _ _ => rfl)
      obtain ⟨Q, h2, h3⟩ := hc
      exact hV _ ⟨Q, h2, lNames_cons _ _ h3⟩
    case punct.rparen => exact .go .ret
    all_goals exact .stop h0 (hm.hinted hV) rfl fun _ _ _ => rfl

def LOrder (ts : List Tk) : Prop := ∃ o, OrderText o ts

omit [Env] in
theorem lOrder {ts} (l : Nat) (x : Name) (l1 : Nat) (h : LNames ts) :
    LOrder ((.op .lt, l) :: (.ident x, l1) :: ts) := by
  obtain ⟨xs, lr, rfl⟩ := h
  exact ⟨_, .mk⟩

theorem parseOrdering_bad {n} (hV : ∀ c, Ext LOrder c → V c) :
    Bad V (parseOrdering n) (fun (_ : ι) n => parseOrdering n) s := by
  simp only [parseOrdering]
  refine Bad.exact ?_ (.tok .less fun l => ?_) (fun _ => rfl) fun s1 _ =>
    Bad.ident ?_ (.name (.name (by decide)) fun x l => ?_) (fun _ => rfl) fun x s2 _ =>
    (afterLoop_bad ⟨_, .nameAfter, fun _ h => .inr h⟩ n [] _ s2 ?_).reindex (fun _ => []) fun _ _ => rfl
  · exact hV _ ⟨[(.op .lt, 0), (.ident anyName, 0), (rpar, 0)], by simp [Simple], lOrder _ _ _ (lNames_nil 0)⟩
  · exact hV _ ⟨[(.ident anyName, 0), (rpar, 0)], by simp [Simple], lOrder _ _ _ (lNames_nil 0)⟩
  · exact hV _ ⟨[(.ident anyName, 0), (rpar, 0)], by simp [Simple], lOrder _ _ _ (lNames_nil 0)⟩
  · exact hV _ ⟨[(rpar, 0)], by simp [Simple], lOrder _ _ _ (lNames_nil 0)⟩
  · rintro c ⟨Q, h2, h3⟩
    exact hV _ ⟨Q, h2, lOrder _ _ _ h3⟩

theorem parseOrdering_then {n} {f : List (Name × Name) → P β} {f' : ι → Nat → List (Name × Name) → P β}
    (hV : ∀ c, Ext LOrder c → V c)
    (h : ∀ x ts s1, OrderText x ts → Bad (fun c => V (ts ++ c)) (f x)
      (fun (j : ι × List (Name × Name)) n => f' j.1 n j.2) s1) :
    Bad V (parseOrdering n >>= f) (fun i n => parseOrdering n >>= f' i n) s := by
  refine Bad.bind (fun _ => parseOrdering_mono) (parseOrdering_bad hV) fun x s1 h1 => ?_
  obtain ⟨ts, h2, h3⟩ := parseOrdering_sound h1
  exact ⟨ts, h3, fun i c' hr => ⟨_, parseOrdering_complete (order_rn h2 hr)⟩, h x ts s1 h2⟩

def LOrderList (ts : List Tk) : Prop := ∃ os a lr, OrderList os a ∧ ts = a ++ [(rpar, lr)]

theorem orderingsLoop_bad : ∀ n acc V s, (∀ c, Ext LOrderList c → V c) →
    Bad V (orderingsLoop n acc) (fun acc n => orderingsLoop n acc) s := by
  intro n
  induction n with
  | zero => intro acc V s _; exact .timeout
  | succ n ih =>
    intro acc V s hV
    apply Bad.succ
    simp only [orderingsLoop]
    have h0 : V [] := hV _ ⟨[(rpar, 0)], by simp [Simple], [], [], 0, .nil, rfl⟩
    have hh : Hinted V [.s "'('"] [] := .tok (.open_ (by decide)) fun l =>
      hV _ ⟨[(.op .lt, 0), (.ident anyName, 0), (rpar, 0), (rpar, 0)], by simp [Simple], _, _, 0,
        .cons (l := l) (.mk (bs := []) (l1 := 0) (l2 := 0) (l3 := 0) (a := anyName)) .nil, rfl⟩
    refine Bad.get h0 fun t s1 ht => ?_
    tok_cases t
    case punct.lparen =>
      refine .go (parseOrdering_then ?_ fun x ts s2 hx => (ih _ _ s2 fun c hc => ?_).reindex
        (fun (j : List (Name × Name) × List (Name × Name)) => j.1 ++ j.2) fun _ _ => rfl)
      · rintro c ⟨Q, h2, x, h3⟩
        exact hV _ ⟨Q ++ [(rpar, 0)], by simp [h2, Simple], _, _, 0, .cons (l := s1.line) h3 .nil, by simp⟩
      · obtain ⟨Q, h2, xs, a, lr, h3, h4⟩ := hc
        exact hV _ ⟨Q, h2, _, _, lr, .cons (l := s1.line) hx h3, by simp [h4]⟩
    case punct.rparen => exact .go .ret
    all_goals exact .stop h0 hh rfl fun _ _ _ => rfl

def LOrders (ts : List Tk) : Prop := ∃ os, OrdersText os ts

theorem parseOrderingBlock_bad {n acc} (hV : ∀ c, Ext LOrders c → V c) :
    Bad V (parseOrderingBlock n acc) (fun acc n => parseOrderingBlock n acc) s := by
  simp only [parseOrderingBlock]
  have h0 : V [] := hV _ ⟨[(lpar, 0), (rpar, 0)], by simp [Simple], _, .none⟩
  have hh : ∀ l, V [(lpar, l)] := fun l => hV _ ⟨[(rpar, 0)], by simp [Simple], _, .none⟩
  refine Bad.exact h0 (.tok (.open_ (by decide)) hh) (fun _ => rfl) fun s1 _ => ?_
  have h1 : V [(lpar, s1.line)] := hV _ ⟨[(rpar, 0)], by simp [Simple], _, .none⟩
  have h2 : Hinted (fun c => V ((lpar, s1.line) :: c)) [.s "ordering constraints"] [] := by
    refine ⟨_, .orderings, ?_⟩
    rintro u (rfl | rfl) l
    · exact hV _ ⟨[(rpar, 0)], by simp [Simple], _, .many (a := []) .nil⟩
    · exact hV _ ⟨[(.ident anyName, 0), (rpar, 0)], by simp [Simple], _, .one (.mk (bs := []))⟩
  refine Bad.get h1 fun t s2 ht => ?_
  tok_cases t
  case op.and =>
    refine .go ((orderingsLoop_bad n acc _ s2 ?_).reindex (fun acc => acc) fun _ _ => rfl)
    rintro c ⟨Q, h3, xs, a, lr, h4, h5⟩
    exact hV _ ⟨Q, h3, _, by
      have : OrdersText _ _ := .many (l1 := s1.line) (l2 := s2.line) (l3 := lr) h4
      simpa [h5] using this⟩
  case op.lt =>
    refine .go (Bad.ident ?_ (.name (.name (by decide)) fun x l => ?_) (fun _ => rfl) fun x s3 _ =>
      (afterLoop_bad ⟨_, .nameAnother, fun _ h => .inr h⟩ n acc _ s3 ?_).reindex (fun acc => acc) fun _ _ => rfl)
    · exact hV _ ⟨[(.ident anyName, 0), (rpar, 0)], by simp [Simple], _,
        .one (.mk (bs := []))⟩
    · exact hV _ ⟨[(rpar, 0)], by simp [Simple], _, .one (.mk (bs := []))⟩
    · rintro c ⟨Q, h3, h4⟩
      obtain ⟨o, h5⟩ := lOrder s2.line x s3.line h4
      exact hV _ ⟨Q, h3, _, .one h5⟩
  case punct.rparen => exact .go .ret
  all_goals exact .stop h1 h2 rfl fun _ _ _ => rfl

theorem parseOrderingBlock_then {n acc} {acc' : ι → List (Name × Name)} {f : List (Name × Name) → P β}
    {f' : ι → Nat → List (Name × Name) → P β} (hV : ∀ c, Ext LOrders c → V c)
    (h : ∀ os ts s1, OrdersText os ts → Bad (fun c => V (ts ++ c)) (f (acc ++ os))
      (fun (j : ι × List (Name × Name)) n => f' j.1 n j.2) s1) :
    Bad V (parseOrderingBlock n acc >>= f) (fun i n => parseOrderingBlock n (acc' i) >>= f' i n) s := by
  refine Bad.bind (fun i n => parseOrderingBlock_mono n _)
    ((parseOrderingBlock_bad hV).reindex acc' fun _ _ => rfl) fun x s1 h1 => ?_
  obtain ⟨os, ts, rfl, h2, h3⟩ := parseOrderingBlock_sound h1
  exact ⟨ts, h3, fun i c' hr => ⟨_, parseOrderingBlock_complete (orders_rn h2 hr) _⟩, h os ts s1 h2⟩

/-! ### Constraints -/

def LConstraint (ts : List Tk) : Prop := ∃ c, ConstraintText c ts

theorem parseConstraint_bad (hV : ∀ c, Ext LConstraint c → V c) :
    Bad V parseConstraint (fun (_ : ι) _ => parseConstraint) s := by
  simp only [parseConstraint]
  have h0 : V [] := hV _ ⟨[(.op .equal, 0), (.ident anyName, 0), (.ident anyName, 0), (rpar, 0)], by simp [Simple], _, .equal⟩
  have hh : Hinted V [.s "either an equalilty or non-equality constraint"] [] := by
    refine ⟨_, .constraint, ?_⟩
    rintro u (rfl | rfl) l
    · exact hV _ ⟨[(lpar, 0), (.op .equal, 0), (.ident anyName, 0), (.ident anyName, 0), (rpar, 0), (rpar, 0)],
        by simp [Simple], _, .notEqual⟩
    · exact hV _ ⟨[(.ident anyName, 0), (.ident anyName, 0), (rpar, 0)], by simp [Simple], _, .equal⟩
  refine Bad.get h0 fun t s1 ht => ?_
  tok_cases t
  case op.equal =>
    refine .go (Bad.ident ?_ (.name (.name (by decide)) fun x l => ?_) (fun _ => rfl) fun x s2 _ =>
      Bad.ident ?_ (.name .nameEqual fun y l => ?_) (fun _ => rfl) fun y s3 _ =>
      Bad.exact ?_ (.tok (.close (by decide)) fun l => ?_) (fun _ => rfl) fun _ _ => .ret)
    · exact hV _ ⟨[(.ident anyName, 0), (.ident anyName, 0), (rpar, 0)], by simp [Simple], _, .equal⟩
    · exact hV _ ⟨[(.ident anyName, 0), (rpar, 0)], by simp [Simple], _, .equal⟩
    · exact hV _ ⟨[(.ident anyName, 0), (rpar, 0)], by simp [Simple], _, .equal⟩
    · exact hV _ ⟨[(rpar, 0)], by simp [Simple], _, .equal⟩
    · exact hV _ ⟨[(rpar, 0)], by simp [Simple], _, .equal⟩
    · exact hV _ ⟨[], by simp, _, .equal⟩
  case op.not =>
    refine .go (Bad.exact ?_ (.tok (.open_ (by decide)) fun l => ?_) (fun _ => rfl) fun s2 _ =>
      Bad.exact ?_ (.tok .equality fun l => ?_) (fun _ => rfl) fun s3 _ =>
      Bad.ident ?_ (.name (.name (by decide)) fun x l => ?_) (fun _ => rfl) fun x s4 _ =>
      Bad.ident ?_ (.name .nameNotEqual fun y l => ?_) (fun _ => rfl) fun y s5 _ =>
      Bad.exact ?_ (.tok (.close (by decide)) fun l => ?_) (fun _ => rfl) fun s6 _ =>
      Bad.exact ?_ (.tok (.close (by decide)) fun l => ?_) (fun _ => rfl) fun _ _ => .ret)
    · exact hV _ ⟨[(lpar, 0), (.op .equal, 0), (.ident anyName, 0), (.ident anyName, 0), (rpar, 0), (rpar, 0)],
        by simp [Simple], _, .notEqual⟩
    · exact hV _ ⟨[(.op .equal, 0), (.ident anyName, 0), (.ident anyName, 0), (rpar, 0), (rpar, 0)],
        by simp [Simple], _, .notEqual⟩
    · exact hV _ ⟨[(.op .equal, 0), (.ident anyName, 0), (.ident anyName, 0), (rpar, 0), (rpar, 0)],
        by simp [Simple], _, .notEqual⟩
    · exact hV _ ⟨[(.ident anyName, 0), (.ident anyName, 0), (rpar, 0), (rpar, 0)],
        by simp [Simple], _, .notEqual⟩
    · exact hV _ ⟨[(.ident anyName, 0), (.ident anyName, 0), (rpar, 0), (rpar, 0)],
        by simp [Simple], _, .notEqual⟩
    · exact hV _ ⟨[(.ident anyName, 0), (rpar, 0), (rpar, 0)], by simp [Simple], _, .notEqual⟩
    · exact hV _ ⟨[(.ident anyName, 0), (rpar, 0), (rpar, 0)], by simp [Simple], _, .notEqual⟩
    · exact hV _ ⟨[(rpar, 0), (rpar, 0)], by simp [Simple], _, .notEqual⟩
    · exact hV _ ⟨[(rpar, 0), (rpar, 0)], by simp [Simple], _, .notEqual⟩
    · exact hV _ ⟨[(rpar, 0)], by simp [Simple], _, .notEqual⟩
    · exact hV _ ⟨[(rpar, 0)], by simp [Simple], _, .notEqual⟩
    · exact hV _ ⟨[], by simp, _, .notEqual⟩
  all_goals exact .stop h0 hh rfl fun _ _ _ => rfl

theorem parseConstraint_then {f : Constraint → P β} {f' : ι → Nat → Constraint → P β}
    (hV : ∀ c, Ext LConstraint c → V c)
    (h : ∀ x ts s1, ConstraintText x ts → Bad (fun c => V (ts ++ c)) (f x)
      (fun (j : ι × Constraint) n => f' j.1 n j.2) s1) :
    Bad V (parseConstraint >>= f) (fun i n => parseConstraint >>= f' i n) s := by
  refine Bad.bind (x' := fun _ _ => parseConstraint) (fun _ _ => .refl _) (parseConstraint_bad hV) fun x s1 h1 => ?_
  obtain ⟨ts, h2, h3⟩ := parseConstraint_sound h1
  exact ⟨ts, h3, fun i c' hr => ⟨_, parseConstraint_complete (constraint_rn h2 hr)⟩, h x ts s1 h2⟩

def LConstraintList (ts : List Tk) : Prop := ∃ cs a lr, ConstraintList cs a ∧ ts = a ++ [(rpar, lr)]

theorem constraintsLoop_bad : ∀ n acc V s, (∀ c, Ext LConstraintList c → V c) →
    Bad V (constraintsLoop n acc) (fun acc n => constraintsLoop n acc) s := by
  intro n
  induction n with
  | zero => intro acc V s _; exact .timeout
  | succ n ih =>
    intro acc V s hV
    apply Bad.succ
    simp only [constraintsLoop]
    have h0 : V [] := hV _ ⟨[(rpar, 0)], by simp [Simple], [], [], 0, .nil, rfl⟩
    have hh : Hinted V [.s "a constraint definition"] [] := .tok (.open_ (by decide)) fun l =>
      hV _ ⟨[(.op .equal, 0), (.ident anyName, 0), (.ident anyName, 0), (rpar, 0), (rpar, 0)], by simp [Simple], _, _, 0,
        .cons (l := l) (.equal (l1 := 0) (l2 := 0) (l3 := 0) (l4 := 0) (a := anyName) (b := anyName)) .nil, rfl⟩
    refine Bad.get h0 fun t s1 ht => ?_
    tok_cases t
    case punct.lparen =>
      refine .go (parseConstraint_then ?_ fun x ts s2 hx => (ih _ _ s2 fun c hc => ?_).reindex
        (fun (j : List Constraint × Constraint) => j.1 ++ [j.2]) fun _ _ => rfl)
      · rintro c ⟨Q, h2, x, h3⟩
        exact hV _ ⟨Q ++ [(rpar, 0)], by simp [h2, Simple], _, _, 0, .cons (l := s1.line) h3 .nil, by simp⟩
      · obtain ⟨Q, h2, xs, a, lr, h3, h4⟩ := hc
        exact hV _ ⟨Q, h2, _, _, lr, .cons (l := s1.line) hx h3, by simp [h4]⟩
    case punct.rparen => exact .go .ret
    all_goals exact .stop h0 hh rfl fun _ _ _ => rfl

def LConstraints (ts : List Tk) : Prop := ∃ cs, ConstraintsText cs ts

theorem parseConstraints_bad {n} (hV : ∀ c, Ext LConstraints c → V c) :
    Bad V (parseConstraints n) (fun (_ : ι) n => parseConstraints n) s := by
  simp only [parseConstraints]
  have h0 : V [] := hV _ ⟨[(lpar, 0), (rpar, 0)], by simp [Simple], _, .none⟩
  have hh : ∀ l, V [(lpar, l)] := fun l => hV _ ⟨[(rpar, 0)], by simp [Simple], _, .none⟩
  refine Bad.exact h0 (.tok (.open_ (by decide)) hh) (fun _ => rfl) fun s1 _ => ?_
  have h1 : V [(lpar, s1.line)] := hV _ ⟨[(rpar, 0)], by simp [Simple], _, .none⟩
  have hone : ∀ c, Ext LConstraint c → V ((lpar, s1.line) :: c) := by
    rintro c ⟨Q, h3, x, h4⟩
    exact hV _ ⟨Q, h3, _, by simpa using ConstraintsText.one (l := s1.line) h4⟩
  have h2 : Hinted (fun c => V ((lpar, s1.line) :: c)) [.s "constraint declerations"] [] := by
    refine ⟨_, .constraints, ?_⟩
    rintro u (rfl | rfl | rfl) l
    · exact hV _ ⟨[(rpar, 0)], by simp [Simple], _, .many (a := []) .nil⟩
    · exact hone _ ⟨[(lpar, 0), (.op .equal, 0), (.ident anyName, 0), (.ident anyName, 0), (rpar, 0), (rpar, 0)],
        by simp [Simple], _, .notEqual⟩
    · exact hone _ ⟨[(.ident anyName, 0), (.ident anyName, 0), (rpar, 0)], by simp [Simple], _, .equal⟩
  refine Bad.peek h1 fun u s2 t s3 ht hu => ?_
  tok_cases u
  case op.and =>
    cases shown_eq hu (by simp) (by simp)
    refine .go (Bad.skip ht ((constraintsLoop_bad n [] _ s3 ?_).reindex (fun _ => []) fun _ _ => rfl))
    rintro c ⟨Q, h3, xs, a, lr, h4, h5⟩
    exact hV _ ⟨Q, h3, _, by
      have : ConstraintsText _ _ := .many (l1 := s1.line) (l2 := s3.line) (l3 := lr) h4
      simpa [h5] using this⟩
  case op.not => exact .go (parseConstraint_then hone fun _ _ _ _ => .ret)
  case op.equal => exact .go (parseConstraint_then hone fun _ _ _ _ => .ret)
  case punct.rparen =>
    cases shown_eq hu (by simp) (by simp)
    exact .go (Bad.skip ht .ret)
  all_goals exact .stop h1 h2 rfl fun _ _ _ => rfl

theorem parseConstraints_then {n} {f : List Constraint → P β} {f' : ι → Nat → List Constraint → P β}
    (hV : ∀ c, Ext LConstraints c → V c)
    (h : ∀ xs ts s1, ConstraintsText xs ts → Bad (fun c => V (ts ++ c)) (f xs)
      (fun (j : ι × List Constraint) n => f' j.1 n j.2) s1) :
    Bad V (parseConstraints n >>= f) (fun i n => parseConstraints n >>= f' i n) s := by
  refine Bad.bind (fun _ => parseConstraints_mono) (parseConstraints_bad hV) fun x s1 h1 => ?_
  obtain ⟨ts, h2, h3⟩ := parseConstraints_sound h1
  exact ⟨ts, h3, fun i c' hr => ⟨_, parseConstraints_complete (constraints_rn h2 hr)⟩, h x ts s1 h2⟩

/-! ### Networks -/

def LItems (ts : List Tk) : Prop := ∃ is a lr, TnItems is a ∧ ts = a ++ [(rpar, lr)]

theorem htnLoop_bad : ∀ n sts opos os cs V s, (∀ c, Ext LItems c → V c) →
    Bad V (htnLoop sts n opos os cs)
      (fun (j : List Subtask × Option Nat × List (Name × Name) × Option (List Constraint)) n =>
        htnLoop j.1 n j.2.1 j.2.2.1 j.2.2.2) s := by
  intro n
  induction n with
  | zero => intro sts opos os cs V s _; exact .timeout
  | succ n ih =>
    intro sts opos os cs V s hV
    apply Bad.succ
    simp only [htnLoop]
    have h0 : V [] := hV _ ⟨[(rpar, 0)], by simp [Simple], [], [], 0, .nil, rfl⟩
    have hh : Hinted V [.s "the (potentially empty) ordering constraints of the task network"] [] :=
      .tok .network fun l => hV _ ⟨[(lpar, 0), (rpar, 0), (rpar, 0)], by simp [Simple], _, _, 0,
        .ordering (l := l) (.none (l1 := 0) (l2 := 0)) .nil, rfl⟩
    refine Bad.get h0 fun t s1 ht => ?_
    tok_cases t
    case kw.ordering =>
      refine .go (Bad.pos fun l => parseOrderingBlock_then (acc' := fun (j : (List Subtask × Option Nat × List (Name × Name) × Option (List Constraint)) × Nat) => j.1.2.2.1) ?_ fun os' ts s2 ho =>
        (ih sts (some l) (os ++ os') cs _ s2 fun c hc => ?_).reindex
          (fun (j : ((List Subtask × Option Nat × List (Name × Name) × Option (List Constraint)) × Nat) × List (Name × Name)) => (j.1.1.1, some j.1.2, j.2, j.1.1.2.2.2)) fun _ _ => rfl)
      · rintro c ⟨Q, h2, x, h3⟩
        exact hV _ ⟨Q ++ [(rpar, 0)], by simp [h2, Simple], _, _, 0, .ordering (l := s1.line) h3 .nil, by simp⟩
      · obtain ⟨Q, h2, xs, a, lr, h3, h4⟩ := hc
        exact hV _ ⟨Q, h2, _, _, lr, .ordering (l := s1.line) ho h3, by simp [h4]⟩
    case kw.constraints =>
      refine .go (parseConstraints_then ?_ fun cs' ts s2 ho =>
        (ih sts opos os (some cs') _ s2 fun c hc => ?_).reindex
          (fun (j : (List Subtask × Option Nat × List (Name × Name) × Option (List Constraint)) × List Constraint) => (j.1.1, j.1.2.1, j.1.2.2.1, some j.2)) fun _ _ => rfl)
      · rintro c ⟨Q, h2, x, h3⟩
        exact hV _ ⟨Q ++ [(rpar, 0)], by simp [h2, Simple], _, _, 0, .constraints (l := s1.line) h3 .nil, by simp⟩
      · obtain ⟨Q, h2, xs, a, lr, h3, h4⟩ := hc
        exact hV _ ⟨Q, h2, _, _, lr, .constraints (l := s1.line) ho h3, by simp [h4]⟩
    case punct.rparen => exact .go .ret
    all_goals exact .stop h0 hh rfl fun _ _ _ => rfl

/-- A network that is not empty. -/
def LHtn (ts : List Tk) : Prop := ∃ tn e, HtnText tn ts e ∧ ts ≠ []

theorem parseHtn_bad {n} (hV : ∀ c, Ext LHtn c → V c) :
    Bad V (parseHtn n) (fun (_ : ι) n => parseHtn n) s := by
  simp only [parseHtn]
  have h0 : V [] := hV _ ⟨[(.kw .subtasks, 0), (lpar, 0), (rpar, 0), (rpar, 0)], by simp [Simple], _, _,
    .partial_ (.none (l1 := 0) (l2 := 0)) .nil, by simp⟩
  have hh : Hinted V [.s ":subtasks or :ordered-subtasks keyword"] [] := by
    refine ⟨_, .htn, ?_⟩
    rintro u (rfl | rfl) l
    · exact hV _ ⟨[(lpar, 0), (rpar, 0), (rpar, 0)], by simp [Simple], _, _,
        .partial_ (.none (l1 := 0) (l2 := 0)) .nil, by simp⟩
    · exact hV _ ⟨[(lpar, 0), (rpar, 0), (rpar, 0)], by simp [Simple], _, _, .total (.none (l1 := 0) (l2 := 0)), by simp⟩
  have body : ∀ s, Bad V
      (do
        match ← getTok with
        | .kw .subtasks => do
          let ts ← parseSubtasks n
          htnLoop ts n none [] none
        | .kw .orderedSubtasks => do
          let ts ← parseSubtasks n
          match ← getTok with
          | .kw .constraints => do
            let cs ← parseConstraints n
            pure ⟨ts, none, .total, some cs⟩
          | .punct .rparen => pure ⟨ts, none, .total, none⟩
          | tok => synErr [.s "closing ')' after task network definition"] tok
        | tok => synErr [.s ":subtasks or :ordered-subtasks keyword"] tok)
      (fun (_ : ι) n => (do
        match ← getTok with
        | .kw .subtasks => do
          let ts ← parseSubtasks n
          htnLoop ts n none [] none
        | .kw .orderedSubtasks => do
          let ts ← parseSubtasks n
          match ← getTok with
          | .kw .constraints => do
            let cs ← parseConstraints n
            pure ⟨ts, none, .total, some cs⟩
          | .punct .rparen => pure ⟨ts, none, .total, none⟩
          | tok => synErr [.s "closing ')' after task network definition"] tok
        | tok => synErr [.s ":subtasks or :ordered-subtasks keyword"] tok)) s := by
    intro s
    refine Bad.get h0 fun t s1 ht => ?_
    tok_cases t
    case kw.subtasks =>
      refine .go (parseSubtasks_then ?_ fun xs ts s2 hx => (htnLoop_bad n xs none [] none _ s2 fun c hc => ?_).reindex
        (fun (j : ι × List Subtask) => (j.2, none, [], none)) fun _ _ => rfl)
      · rintro c ⟨Q, h2, x, h3⟩
        exact hV _ ⟨Q ++ [(rpar, 0)], by simp [h2, Simple], _, _, by
          have := HtnText.partial_ (l1 := s1.line) (l2 := 0) h3 .nil
          simpa using this, by simp⟩
      · obtain ⟨Q, h2, is, a, lr, h3, h4⟩ := hc
        exact hV _ ⟨Q, h2, _, _, by
          have := HtnText.partial_ (l1 := s1.line) (l2 := lr) hx h3
          simpa [h4] using this, by simp⟩
    case kw.orderedSubtasks =>
      refine .go (parseSubtasks_then ?_ fun xs ts s2 hx => ?_)
      · rintro c ⟨Q, h2, x, h3⟩
        exact hV _ ⟨Q ++ [(rpar, 0)], by simp [h2, Simple], _, _, by
          have := HtnText.total (l1 := s1.line) (l2 := 0) h3
          simpa using this, by simp⟩
      · have h1 : V ((.kw .orderedSubtasks, s1.line) :: (ts ++ [])) :=
          hV _ ⟨[(rpar, 0)], by simp [Simple], _, _, by
            have := HtnText.total (l1 := s1.line) (l2 := 0) hx
            simpa using this, by simp⟩
        have h2 : Hinted (fun c => V ((.kw .orderedSubtasks, s1.line) :: (ts ++ c)))
            [.s "closing ')' after task network definition"] [] :=
          .tok (.close (by decide)) fun l => hV _ ⟨[], by simp, _, _, by
            have := HtnText.total (l1 := s1.line) (l2 := l) hx
            simpa using this, by simp⟩
        refine Bad.get h1 fun t s3 ht => ?_
        tok_cases t
        case kw.constraints =>
          refine .go (parseConstraints_then ?_ fun _ _ _ _ => .ret)
          rintro c ⟨Q, h3, x, h4⟩
          exact hV _ ⟨Q, h3, _, _, by
            have := HtnText.constrained (l1 := s1.line) (l2 := s3.line) hx h4
            simpa using this, by simp⟩
        case punct.rparen => exact .go .ret
        all_goals exact .stop h1 h2 rfl fun _ _ _ => rfl
    all_goals exact .stop h0 hh rfl fun _ _ _ => rfl
  refine Bad.peek h0 fun u s2 t s3 ht hu => ?_
  tok_cases u
  case punct.rparen => exact .go .ret
  all_goals exact .go (body s2)

end Verif
