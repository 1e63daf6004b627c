import Verif.Proofs.ErrorNets

/-! Where the parser stops in blocks and files. -/

namespace Verif

open Spec

variable [Env] {α β ι κ : Type} {V : List Tk → Prop} {s : LexState}

/-- A continuation that cannot fail. -/
theorem Bad.map {x : P α} {x' : ι → Nat → P α} {g : α → β} {f' : ι → Nat → α → P β} (h : Bad V x x' s) :
    Bad V (x >>= fun a => pure (g a)) (fun i n => x' i n >>= f' i n) s where
  syn e he := by
    rcases P.bind_err he with h1 | ⟨a, s1, h1, h2⟩
    · obtain ⟨c, t', h3, h4, h5, h6⟩ := h.syn e h1
      refine ⟨c, t', h3, h4, h5, fun i c' l' s' hr hf => ?_⟩
      obtain ⟨N, hN⟩ := h6 i c' l' s' hr hf
      exact ⟨N, fun m hm => P.bind_of_err (hN m hm)⟩
    · cases h2
  lex e he := by
    rcases P.bind_err he with h1 | ⟨a, s1, h1, h2⟩
    · exact h.lex e h1
    · cases h2
  pan e he := by
    rcases P.bind_panic he with h1 | ⟨a, s1, h1, h2⟩
    · rcases h.pan e h1 with h3 | ⟨c, t', l, h3, h4, h5, h5', h6⟩
      · exact .inl h3
      · refine .inr ⟨c, t', l, h3, h4, h5, h5', fun i c' l' s' hr hf => ?_⟩
        obtain ⟨N, hN⟩ := h6 i c' l' s' hr hf
        exact ⟨N, fun m hm => P.bind_of_panic (hN m hm)⟩
    · cases h2

omit [Env] in
theorem lHtn_least (l : Nat) : LHtn [(.kw .subtasks, l), (lpar, 0), (rpar, 0), (rpar, 0)] :=
  ⟨_, _, .partial_ (.none (l1 := 0) (l2 := 0)) .nil, by simp⟩

omit [Env] in
theorem lHtn_total (l : Nat) : LHtn [(.kw .orderedSubtasks, l), (lpar, 0), (rpar, 0), (rpar, 0)] :=
  ⟨_, _, .total (.none (l1 := 0) (l2 := 0)), by simp⟩

omit [Env] in
theorem typedList_nil : TypedList [] [] := ⟨.nil, rfl⟩

/-! ### The initial task network -/

def LInitTn (ts : List Tk) : Prop := ∃ tn e, InitTnText tn ts e

theorem parseInitialTn_bad {n} (hV : ∀ c, Ext LInitTn c → V c) :
    Bad V (parseInitialTn n) (fun (_ : ι) n => parseInitialTn n) s := by
  simp only [parseInitialTn]
  have hp : ∀ c, Ext LHtn c → V c := by
    rintro c ⟨Q, h2, tn, e, h3, _⟩
    exact hV _ ⟨Q, h2, _, _, .plain h3⟩
  have h0 : V [] := hp _ ⟨_, by simp [Simple], lHtn_least 0⟩
  have hh : Hinted V [.s "expected the definition of the initial task network"] [] := by
    refine ⟨_, .initial, ?_⟩
    rintro u (rfl | rfl | rfl) l
    · exact hV _ ⟨[(lpar, 0), (rpar, 0)], by simp [Simple], _, _, .params (items := []) typedList_nil .empty⟩
    · exact hp _ ⟨[(lpar, 0), (rpar, 0), (rpar, 0)], by simp [Simple], lHtn_least l⟩
    · exact hp _ ⟨[(lpar, 0), (rpar, 0), (rpar, 0)], by simp [Simple], lHtn_total l⟩
  refine Bad.peek h0 fun u s1 t s2 ht hu => ?_
  tok_cases u
  case kw.parameters =>
    cases shown_eq hu (by simp) (by simp)
    refine .go (Bad.getKnown ht (Bad.exact ?_ (.tok (.open_ (by decide)) fun l => ?_) (fun _ => rfl) fun s3 _ => parseArgs_then ?_ fun ss items lr s4 hi =>
      Bad.map (parseHtn_bad ?_)))
    · exact hV _ ⟨[(lpar, 0), (rpar, 0)], by simp [Simple], _, _,
        .params (items := []) typedList_nil .empty⟩
    · exact hV _ ⟨[(rpar, 0)], by simp [Simple], _, _, .params (items := []) typedList_nil .empty⟩
    · rintro c ⟨Q, h2, items, lr, h3, h4⟩
      exact hV _ ⟨Q, h2, _, _, by
        have : InitTnText _ _ _ := .params (l1 := s2.line) (l2 := s3.line) (l3 := lr) ⟨h3, rfl⟩ .empty
        simpa [h4] using this⟩
    · rintro c ⟨Q, h2, tn, e, h3, _⟩
      exact hV _ ⟨Q, h2, _, _, by
        have : InitTnText _ _ _ := .params (l1 := s2.line) (l2 := s3.line) (l3 := lr) hi h3
        simpa using this⟩
  case kw.subtasks => exact .go (Bad.map (parseHtn_bad hp))
  case kw.orderedSubtasks => exact .go (Bad.map (parseHtn_bad hp))
  case punct.rparen => exact .go .ret
  all_goals exact .stop h0 hh rfl fun _ _ _ => rfl

/-! ### Tasks, actions and methods -/

def LTask (ts : List Tk) : Prop := ∃ t, TaskText t ts

omit [Env] in
theorem lTask {ts} (x : Name) (l1 l2 l3 : Nat) (h : LArgs ts) :
    LTask ((.ident x, l1) :: (.kw .parameters, l2) :: (lpar, l3) :: ts) := by
  obtain ⟨items, lr, h1, rfl⟩ := h
  exact ⟨_, .mk ⟨h1, rfl⟩⟩

omit [Env] in
theorem lArgs_nil (l : Nat) : LArgs [(rpar, l)] := ⟨[], l, .nil, rfl⟩

theorem parseTask_bad {n} (hV : ∀ c, Ext LTask c → V c) :
    Bad V (parseTask n) (fun (_ : ι) n => parseTask n) s := by
  simp only [parseTask]
  refine Bad.ident ?_ (.name (.name (by decide)) fun x l => ?_) (fun _ => rfl) fun x s1 _ => Bad.pos fun l =>
    Bad.exact ?_ (.tok .parameters fun l => ?_) (fun _ => rfl) fun s2 _ =>
    Bad.exact ?_ (.tok (.open_ (by decide)) fun l => ?_) (fun _ => rfl) fun s3 _ => parseArgs_then ?_ fun _ _ _ _ _ => .ret
  · exact hV _ ⟨[(.ident anyName, 0), (.kw .parameters, 0), (lpar, 0), (rpar, 0)], by simp [Simple],
      lTask _ _ _ _ (lArgs_nil 0)⟩
  · exact hV _ ⟨[(.kw .parameters, 0), (lpar, 0), (rpar, 0)], by simp [Simple], lTask _ _ _ _ (lArgs_nil 0)⟩
  · exact hV _ ⟨[(.kw .parameters, 0), (lpar, 0), (rpar, 0)], by simp [Simple], lTask _ _ _ _ (lArgs_nil 0)⟩
  · exact hV _ ⟨[(lpar, 0), (rpar, 0)], by simp [Simple], lTask _ _ _ _ (lArgs_nil 0)⟩
  · exact hV _ ⟨[(lpar, 0), (rpar, 0)], by simp [Simple], lTask _ _ _ _ (lArgs_nil 0)⟩
  · exact hV _ ⟨[(rpar, 0)], by simp [Simple], lTask _ _ _ _ (lArgs_nil 0)⟩
  · rintro c ⟨Q, h2, h3⟩
    exact hV _ ⟨Q, h2, lTask _ _ _ _ h3⟩

theorem parseTask_then {n} {f : Task → P β} {f' : ι → Nat → Task → P β} (hV : ∀ c, Ext LTask c → V c)
    (h : ∀ x ts s1, TaskText x ts → Bad (fun c => V (ts ++ c)) (f x)
      (fun (j : ι × {t : Task // t.name = x.name}) n => f' j.1 n j.2.1) s1) :
    Bad V (parseTask n >>= f) (fun i n => parseTask n >>= f' i n) s := by
  refine Bad.bindR (fun x x' => x'.name = x.name) (fun _ => parseTask_mono) (parseTask_bad hV) fun x s1 h1 => ?_
  obtain ⟨ts, h2, h3⟩ := parseTask_sound h1
  refine ⟨ts, h3, fun i c' hr => ?_, h x ts s1 h2⟩
  obtain ⟨x', h4, h5⟩ := task_rn h2 hr
  exact ⟨x', by simpa [rnTask] using congrArg Task.name h5, parseTask_complete h4⟩

/-- The end of an action, from its effects. -/
def LEffect (ts : List Tk) : Prop := ∃ eff b l, OptFormula true .effect eff b ∧ ts = b ++ [(rpar, l)]

theorem effect_bad {n : Nat} {m1 m2 : Text} {g : Option Formula → β} {g' : ι → Option Formula → β}
    (hV : ∀ c, Ext LEffect c → V c) (hm1 : Says m1 (· = .kw .effect)) (hm2 : Says m2 (· = rpar)) :
    Bad V (peekTok >>= fun t => (match t with
        | .kw .effect => skipTok >>= fun _ => parseFormula n >>= fun f => pure (some f)
        | .punct .rparen => pure none
        | tok => synErr m1 tok : P (Option Formula)) >>= fun eff => expectTok RP m2 >>= fun _ => pure (g eff))
      (fun i n => peekTok >>= fun t => (match t with
        | .kw .effect => skipTok >>= fun _ => parseFormula n >>= fun f => pure (some f)
        | .punct .rparen => pure none
        | tok => synErr m1 tok : P (Option Formula)) >>= fun eff => expectTok RP m2 >>= fun _ => pure (g' i eff)) s := by
  have h0 : V [] := hV _ ⟨[(rpar, 0)], by simp [Simple], _, _, 0, .none, rfl⟩
  have hh : Hinted V m1 [] := .tok hm1 fun l =>
    hV _ ⟨[(rpar, 0), (rpar, 0)], by simp [Simple], _, _, 0, .some (l := l) (.missing (l := 0) rfl), rfl⟩
  have hc : Hinted V m2 [] := .tok hm2 fun l => hV _ ⟨[], by simp, _, _, l, .none, rfl⟩
  refine Bad.peek h0 fun u s1 t s2 ht hu => ?_
  tok_cases u
  case kw.effect =>
    cases shown_eq hu (by simp) (by simp)
    simp only [P.bind_assoc, P.pure_bind]
    refine .go (Bad.skip ht (parseFormula_then ?_ fun φ ts s3 hf => Bad.exact ?_ (.tok hm2 fun l => ?_) (fun _ => rfl)
      fun _ _ => .ret))
    · rintro c ⟨Q, h2, φ, h3⟩
      exact hV _ ⟨Q ++ [(rpar, 0)], by simp [h2, Simple], _, _, 0, .some (l := s2.line) h3, by simp⟩
    · exact hV _ ⟨[(rpar, 0)], by simp [Simple], _, _, 0, .some (l := s2.line) hf, by simp⟩
    · exact hV _ ⟨[], by simp, _, _, l, .some (l := s2.line) hf, by simp⟩
  case punct.rparen =>
    simp only [P.pure_bind]
    exact .go (Bad.exact h0 hc (fun _ => rfl) fun _ _ => .ret)
  all_goals exact .stop h0 hh rfl fun _ _ _ => rfl

def LAction (ts : List Tk) : Prop := ∃ x, ActionText true x ts

theorem parseAction_bad {n} (hV : ∀ c, Ext LAction c → V c) :
    Bad V (parseAction n) (fun (_ : ι) n => parseAction n) s := by
  simp only [parseAction, P.bind_assoc]
  refine parseTask_then ?_ fun x ts s1 hx => ?_
  · rintro c ⟨Q, h2, ⟨name, pos, ps⟩, h3⟩
    exact hV _ ⟨Q ++ [(rpar, 0)], by simp [h2, Simple], _, by
      have : ActionText true _ _ := .mk (l := 0) h3 .none .none
      simpa using this⟩
  obtain ⟨name, pos, ps⟩ := x
  have hn : ∀ j : ι × {t : Task // t.name = name}, j.2.1.name = name := fun j => j.2.2
  simp only [hn]
  have h0 : V (ts ++ []) := hV _ ⟨[(rpar, 0)], by simp [Simple], _, by
    have : ActionText true _ _ := .mk (l := 0) hx .none .none
    simpa using this⟩
  have hE : ∀ c, Ext LEffect c → V (ts ++ c) := by
    rintro c ⟨Q, h2, eff, b, l, h3, h4⟩
    exact hV _ ⟨Q, h2, _, by
      have : ActionText true _ _ := .mk (l := l) hx .none h3
      simpa [h4] using this⟩
  have hh : Hinted (fun c => V (ts ++ c)) [.s "(potentially empty) preconditions of ", .n name] [] :=
    .tok .preconditions fun l => hV _ ⟨[(rpar, 0), (rpar, 0)], by simp [Simple], _, by
      have : ActionText true _ _ := .mk (l := 0) hx (.some (l := l) (.missing (l := 0) rfl)) .none
      simpa using this⟩
  refine Bad.peek h0 fun u s1 t s2 ht hu => ?_
  tok_cases u
  case kw.precondition =>
    cases shown_eq hu (by simp) (by simp)
    simp only [P.bind_assoc, P.pure_bind]
    refine .go (Bad.skip ht (parseFormula_then ?_ fun φ us s3 hf => effect_bad ?_ .effects .closeAction))
    · rintro c ⟨Q, h2, φ, h3⟩
      exact hV _ ⟨Q ++ [(rpar, 0)], by simp [h2, Simple], _, by
        have : ActionText true _ _ := .mk (l := 0) hx (.some (l := s2.line) h3) .none
        simpa using this⟩
    · rintro c ⟨Q, h2, eff, b, l, h3, h4⟩
      exact hV _ ⟨Q, h2, _, by
        have : ActionText true _ _ := .mk (l := l) hx (.some (l := s2.line) hf) h3
        simpa [h4] using this⟩
  case kw.effect =>
    simp only [P.pure_bind]
    exact .go (effect_bad hE .effects .closeAction)
  case punct.rparen =>
    simp only [P.pure_bind]
    exact .go (effect_bad hE .effects .closeAction)
  all_goals exact .stop h0 hh rfl fun _ _ _ => rfl

def LMethod (ts : List Tk) : Prop := ∃ x e, MethodText true x ts e

/-- The end of a method, from its precondition. -/
def LMethodTail (ts : List Tk) : Prop :=
  ∃ pre tn b c e, OptFormula true .precondition pre b ∧ HtnText tn c e ∧ (pre = none → c ≠ []) ∧ ts = b ++ c

omit [Env] in
theorem lMethod {ts us vs} (x : Name) (l1 l2 l3 l4 l5 : Nat) (y : Name) (l6 : Nat) (h1 : LArgs ts) (h2 : LArgs us)
    (h3 : LMethodTail vs) :
    LMethod ((.ident x, l1) :: (.kw .parameters, l2) :: (lpar, l3) :: (ts ++ (.kw .task, l4) :: (lpar, l5) ::
      (.ident y, l6) :: (us ++ vs))) := by
  obtain ⟨is, l7, h1, rfl⟩ := h1
  obtain ⟨js, l8, h2, rfl⟩ := h2
  obtain ⟨pre, tn, b, c, e, h3, h4, h5, rfl⟩ := h3
  have : MethodText true _ _ e := .mk (name := x) (n1 := l1) (l1 := l2) (l2 := l3) (l3 := l7) (l4 := l4) (l5 := l5)
    (task := y) (n2 := l6) (l6 := l8) ⟨h1, rfl⟩ ⟨h2, rfl⟩ h3 h4 h5
  exact ⟨_, e, by simpa using this⟩

omit [Env] in
theorem lTail_least (l : Nat) : LMethodTail [(.kw .subtasks, l), (lpar, 0), (rpar, 0), (rpar, 0)] := by
  obtain ⟨tn, e, h1, h2⟩ := lHtn_least l
  exact ⟨_, _, _, _, _, .none, h1, fun _ => h2, rfl⟩

omit [Env] in
theorem lTail_total (l : Nat) : LMethodTail [(.kw .orderedSubtasks, l), (lpar, 0), (rpar, 0), (rpar, 0)] := by
  obtain ⟨tn, e, h1, h2⟩ := lHtn_total l
  exact ⟨_, _, _, _, _, .none, h1, fun _ => h2, rfl⟩

theorem parseMethod_bad {n} (hV : ∀ c, Ext LMethod c → V c) :
    Bad V (parseMethod n) (fun (_ : ι) n => parseMethod n) s := by
  simp only [parseMethod]
  have tail := lTail_least 0
  have nil := lArgs_nil 0
  refine Bad.ident ?_ (.name (.name (by decide)) fun x l => ?_) (fun _ => rfl) fun x s1 _ => Bad.pos fun l =>
    Bad.exact ?_ (.tok .parametersOf fun l => ?_) (fun _ => rfl) fun s2 _ =>
    Bad.exact ?_ (.tok (.open_ (by decide)) fun l => ?_) (fun _ => rfl) fun s3 _ => parseArgs_then ?_ fun ss items lr s4 hi => ?_
  · exact hV _ ⟨_, by simp [Simple], lMethod anyName 0 0 0 0 0 anyName 0 nil nil tail⟩
  · exact hV _ ⟨(.kw .parameters, 0) :: _, by simp [Simple], lMethod _ _ 0 0 0 0 anyName 0 nil nil tail⟩
  · exact hV _ ⟨(.kw .parameters, 0) :: _, by simp [Simple], lMethod _ _ 0 0 0 0 anyName 0 nil nil tail⟩
  · exact hV _ ⟨(lpar, 0) :: _, by simp [Simple], lMethod _ _ _ 0 0 0 anyName 0 nil nil tail⟩
  · exact hV _ ⟨(lpar, 0) :: _, by simp [Simple], lMethod _ _ _ 0 0 0 anyName 0 nil nil tail⟩
  · exact hV _ ⟨(rpar, 0) :: _, by simp [Simple], lMethod _ _ _ _ 0 0 anyName 0 nil nil tail⟩
  · rintro c ⟨Q, h2, h3⟩
    exact hV _ ⟨Q ++ ((.kw .task, 0) :: (lpar, 0) :: (.ident anyName, 0) :: (rpar, 0) :: [(.kw .subtasks, 0), (lpar, 0), (rpar, 0), (rpar, 0)]), by simp [h2, Simple], by
      simpa using lMethod x s1.line s2.line s3.line 0 0 anyName 0 h3 nil tail⟩
  have hP : LArgs (items ++ [(rpar, lr)]) := ⟨items, lr, hi.1, rfl⟩
  refine Bad.exact ?_ (.tok .task fun l => ?_) (fun _ => rfl) fun s5 _ =>
    Bad.exact ?_ (.tok (.open_ (by decide)) fun l => ?_) (fun _ => rfl) fun s6 _ =>
    Bad.ident ?_ (.name .nameDecomposed fun y l => ?_) (fun _ => rfl) fun y s7 _ => Bad.pos fun l => parseArgs_then ?_ fun ss' items' lr' s8 hi' => ?_
  · exact hV _ ⟨(.kw .task, 0) :: (lpar, 0) :: (.ident anyName, 0) :: (rpar, 0) :: [(.kw .subtasks, 0), (lpar, 0), (rpar, 0), (rpar, 0)], by simp [Simple], by
      simpa using lMethod x s1.line s2.line s3.line 0 0 anyName 0 hP nil tail⟩
  · exact hV _ ⟨(lpar, 0) :: (.ident anyName, 0) :: (rpar, 0) :: [(.kw .subtasks, 0), (lpar, 0), (rpar, 0), (rpar, 0)], by simp [Simple], by
      simpa using lMethod x s1.line s2.line s3.line l 0 anyName 0 hP nil tail⟩
  · exact hV _ ⟨(lpar, 0) :: (.ident anyName, 0) :: (rpar, 0) :: [(.kw .subtasks, 0), (lpar, 0), (rpar, 0), (rpar, 0)], by simp [Simple], by
      simpa using lMethod x s1.line s2.line s3.line s5.line 0 anyName 0 hP nil tail⟩
  · exact hV _ ⟨(.ident anyName, 0) :: (rpar, 0) :: [(.kw .subtasks, 0), (lpar, 0), (rpar, 0), (rpar, 0)], by simp [Simple], by
      simpa using lMethod x s1.line s2.line s3.line s5.line l anyName 0 hP nil tail⟩
  · exact hV _ ⟨(.ident anyName, 0) :: (rpar, 0) :: [(.kw .subtasks, 0), (lpar, 0), (rpar, 0), (rpar, 0)], by simp [Simple], by
      simpa using lMethod x s1.line s2.line s3.line s5.line s6.line anyName 0 hP nil tail⟩
  · exact hV _ ⟨(rpar, 0) :: [(.kw .subtasks, 0), (lpar, 0), (rpar, 0), (rpar, 0)], by simp [Simple], by
      simpa using lMethod x s1.line s2.line s3.line s5.line s6.line y l hP nil tail⟩
  · rintro c ⟨Q, h2, h3⟩
    exact hV _ ⟨Q ++ [(.kw .subtasks, 0), (lpar, 0), (rpar, 0), (rpar, 0)], by simp [h2, Simple], by
      simpa using lMethod x s1.line s2.line s3.line s5.line s6.line y s7.line hP h3 tail⟩
  have hP' : LArgs (items' ++ [(rpar, lr')]) := ⟨items', lr', hi'.1, rfl⟩
  generalize hW : (fun c => V _) = W
  have hW' : ∀ c, Ext LMethodTail c → W c := by
    subst hW
    rintro c ⟨Q, h2, h3⟩
    exact hV _ ⟨Q, h2, by
      simpa using lMethod x s1.line s2.line s3.line s5.line s6.line y s7.line hP hP' h3⟩
  have h0 : W [] := hW' _ ⟨_, by simp [Simple], tail⟩
  have hH : ∀ c, Ext LHtn c → W c := by
    rintro c ⟨Q, h2, tn, e, h3, h4⟩
    exact hW' _ ⟨Q, h2, _, _, _, _, _, .none, h3, fun _ => h4, rfl⟩
  have hh : Hinted W [.s "Either preconditions for ", .n x, .s " or its decomposition"] [] := by
    refine ⟨_, .decomposition, ?_⟩
    rintro u (rfl | rfl | rfl) l
    · exact hW' _ ⟨[(rpar, 0)], by simp [Simple], _, _, _, _, _, .some (l := l) (.missing (l := 0) rfl), .empty, by simp, rfl⟩
    · exact hW' _ ⟨[(lpar, 0), (rpar, 0), (rpar, 0)], by simp [Simple], lTail_least l⟩
    · exact hW' _ ⟨[(lpar, 0), (rpar, 0), (rpar, 0)], by simp [Simple], lTail_total l⟩
  refine Bad.peek h0 fun u s9 t s10 ht hu => ?_
  tok_cases u
  case kw.precondition =>
    cases shown_eq hu (by simp) (by simp)
    refine .go (Bad.skip ht (parseFormula_then ?_ fun φ us s11 hf => Bad.map (parseHtn_bad ?_)))
    · rintro c ⟨Q, h2, φ, h3⟩
      exact hW' _ ⟨Q, h2, _, _, _, _, _, .some (l := s10.line) h3, .empty, by simp, by simp⟩
    · rintro c ⟨Q, h2, tn, e, h3, _⟩
      exact hW' _ ⟨Q, h2, _, _, _, _, _, .some (l := s10.line) hf, h3, by simp, by simp⟩
  case kw.subtasks => exact .go (Bad.map (parseHtn_bad hH))
  case kw.orderedSubtasks => exact .go (Bad.map (parseHtn_bad hH))
  all_goals exact .stop h0 hh rfl fun _ _ _ => rfl

/-! ### Domains -/

/-- What follows a block that stopped before a closing parenthesis starts with it, also elsewhere. -/
theorem after_copy {e : Ending} {s1 : LexState} (hn : e = .atParen → NextParen s1) (c2 : List Tk) (t : Token) (l : Nat)
    (h : Feeds s1 (c2 ++ [(t, l)])) (c2' : List Tk) (l' : Nat) (hr : Renamed id c2 c2') : After e (c2' ++ [(t, l')]) := by
  cases e with
  | closed => trivial
  | open_ => trivial
  | atParen =>
    obtain ⟨s2, h2⟩ := hn rfl
    cases c2 with
    | nil =>
      cases hr.unnil
      obtain ⟨s3, h3, _⟩ := feeds_cons h
      rw [h2] at h3
      cases h3
      exact ⟨l', [], rfl⟩
    | cons x c2 =>
      obtain ⟨t1, l1⟩ := x
      obtain ⟨m, us, rfl, _⟩ := hr.uncons
      obtain ⟨s3, h3, _⟩ := feeds_cons h
      rw [h2] at h3
      cases h3
      exact ⟨m, us ++ [(t, l')], by simp⟩

def LDBlock (ts : List Tk) : Prop := ∃ b e, DBlockText true b ts e
def LDBody (ts : List Tk) : Prop := ∃ bs, Body true (DBlockText true) closeParen bs ts

omit [Env] in
theorem joint_close (e : Ending) (l : Nat) : Joint true e [(rpar, l)] := by
  cases e
  · trivial
  · exact .inl rfl
  · exact ⟨l, [], rfl⟩

omit [Env] in
theorem joint_any {e : Ending} (h : e ≠ .atParen) (ts : List Tk) : Joint true e ts := by
  cases e
  · trivial
  · exact .inl rfl
  · exact absurd rfl h

omit [Env] in
/-- Every keyword of a domain starts a block. -/
theorem lDBlock_least {u : Token} (hu : u ∈ ([.kw .predicates, .kw .functions, .kw .task, .kw .method, .kw .action,
    .kw .requirements, .kw .types, .kw .constants] : List Token)) (l l' : Nat) :
    ∃ Q, Simples Q ∧ LDBlock ((lpar, l) :: (u, l') :: Q) := by
  simp only [List.mem_cons, List.not_mem_nil, or_false] at hu
  rcases hu with rfl | rfl | rfl | rfl | rfl | rfl | rfl | rfl
  · exact ⟨[(rpar, 0)], by simp [Simple], _, _, .predicates .nil⟩
  · exact ⟨[(rpar, 0)], by simp [Simple], _, _, .functions .nil⟩
  · obtain ⟨t, h⟩ := lTask anyName 0 0 0 (lArgs_nil 0)
    exact ⟨[(.ident anyName, 0), (.kw .parameters, 0), (lpar, 0), (rpar, 0), (rpar, 0)], by simp [Simple], _, _, .task h⟩
  · obtain ⟨m, e, h⟩ := lMethod anyName 0 0 0 0 0 anyName 0 (lArgs_nil 0) (lArgs_nil 0) (lTail_least 0)
    exact ⟨_, by simp [Simple], _, _, .method h⟩
  · obtain ⟨⟨name, pos, ps⟩, h⟩ := lTask anyName 0 0 0 (lArgs_nil 0)
    exact ⟨[(.ident anyName, 0), (.kw .parameters, 0), (lpar, 0), (rpar, 0), (rpar, 0)], by simp [Simple], _, _,
      .action (.mk (l := 0) h .none .none)⟩
  · exact ⟨[(rpar, 0)], by simp [Simple], _, _, .requirements (rs := [])⟩
  · exact ⟨[(rpar, 0)], by simp [Simple], _, _, .types (items := []) typedList_nil⟩
  · exact ⟨[(rpar, 0)], by simp [Simple], _, _, .constants (items := []) typedList_nil⟩

theorem parseDomain_bad {name} : ∀ n d V s, (∀ c, Ext LDBody c → V c) →
    Bad V (parseDomain name n d) (fun d n => parseDomain name n d) s := by
  intro n
  induction n with
  | zero => intro d V s _; exact .timeout
  | succ n ih =>
    intro d V s hV
    apply Bad.succ
    simp only [parseDomain]
    have h0 : V [] := hV _ ⟨[(rpar, 0)], by simp [Simple], [], .done ⟨0, rfl⟩⟩
    refine Bad.get h0 fun t s1 ht => ?_
    have hB : ∀ c, Ext LDBlock c → V c := by
      rintro c ⟨Q, h2, b, e, h3⟩
      exact hV _ ⟨Q ++ [(rpar, 0)], by simp [h2, Simple], [b], by
        have := Body.block h3 (joint_close e 0) (.done (stop := closeParen) ⟨0, rfl⟩)
        simpa using this⟩
    have hN : ∀ {b ts e}, DBlockText true b ts e → e ≠ .atParen → ∀ c, Ext LDBody c → V (ts ++ c) := by
      rintro b ts e hb he c ⟨Q, h2, bs, h3⟩
      exact hV _ ⟨Q, h2, _, by simpa using Body.block hb (joint_any he _) h3⟩
    have hh : Hinted V [.s "either ')' to close the definition of ", .n name,
        .s ", or '(' to start defining new components"] [] := by
      refine ⟨_, .components, ?_⟩
      rintro u (rfl | rfl) l
      · exact hV _ ⟨[], by simp, [], .done ⟨l, rfl⟩⟩
      · exact hB _ ⟨[(.kw .types, 0), (rpar, 0)], by simp [Simple], _, _, .types (items := []) typedList_nil⟩
    tok_cases t
    case punct.lparen =>
      have h1 : V [(lpar, s1.line)] := hB _ ⟨[(.kw .types, 0), (rpar, 0)], by simp [Simple], _, _,
        .types (items := []) typedList_nil⟩
      have hk : Hinted (fun c => V ((lpar, s1.line) :: c)) [.s "a keyword"] [] := by
        refine ⟨_, .block, fun u hu l => ?_⟩
        obtain ⟨Q, h2, h3⟩ := lDBlock_least hu s1.line l
        exact hB _ ⟨Q, h2, h3⟩
      refine .go (Bad.get h1 fun t s2 ht2 => ?_)
      tok_cases t
      case kw.predicates =>
        refine .go (parsePredicates_then ?_ fun ps a lr s3 hp => (ih _ _ s3 ?_).reindex
          (fun (j : DomainAST × List Predicate) => { j.1 with predicates := j.1.predicates ++ j.2 }) fun _ _ => rfl)
        · rintro c ⟨Q, h2, ps, a, lr, h3, h4⟩
          exact hB _ ⟨Q, h2, _, _, by
            have : DBlockText true _ _ _ := .predicates (l1 := s1.line) (l2 := s2.line) (l3 := lr) h3
            simpa [h4] using this⟩
        · intro c hc
          simpa using hN (.predicates (l1 := s1.line) (l2 := s2.line) (l3 := lr) hp) (by simp) c hc
      case kw.functions =>
        refine .go (parseFunctions_then ?_ fun ps a lr s3 hp => (ih _ _ s3 ?_).reindex
          (fun (j : DomainAST × List Predicate) => { j.1 with functions := j.1.functions ++ j.2 }) fun _ _ => rfl)
        · rintro c ⟨Q, h2, ps, a, lr, h3, h4⟩
          exact hB _ ⟨Q, h2, _, _, by
            have : DBlockText true _ _ _ := .functions (l1 := s1.line) (l2 := s2.line) (l3 := lr) h3
            simpa [h4] using this⟩
        · intro c hc
          simpa using hN (.functions (l1 := s1.line) (l2 := s2.line) (l3 := lr) hp) (by simp) c hc
      case kw.task =>
        refine .go (parseTask_then ?_ fun x ts s3 hx => Bad.exact ?_ (.tok .closeTask fun l => ?_) (fun j => by rw [j.2.2])
          fun s4 _ => (ih _ _ s4 ?_).reindex
          (fun (j : DomainAST × {t : Task // t.name = x.name}) => { j.1 with tasks := j.1.tasks ++ [j.2.1] }) fun _ _ => rfl)
        · rintro c ⟨Q, h2, x, h3⟩
          exact hB _ ⟨Q ++ [(rpar, 0)], by simp [h2, Simple], _, _, by
            have : DBlockText true _ _ _ := .task (l1 := s1.line) (l2 := s2.line) (l3 := 0) h3
            simpa using this⟩
        · exact hB _ ⟨[(rpar, 0)], by simp [Simple], _, _, by
            have : DBlockText true _ _ _ := .task (l1 := s1.line) (l2 := s2.line) (l3 := 0) hx
            simpa using this⟩
        · exact hB _ ⟨[], by simp, _, _, by
            have : DBlockText true _ _ _ := .task (l1 := s1.line) (l2 := s2.line) (l3 := l) hx
            simpa using this⟩
        · intro c hc
          simpa using hN (.task (l1 := s1.line) (l2 := s2.line) (l3 := s4.line) hx) (by simp) c hc
      case kw.method =>
        refine .go (Bad.bindQ (fun _ _ => True) (fun _ => parseMethod_mono) (parseMethod_bad ?_) fun m s3 h3 => ?_)
        · rintro c ⟨Q, h2, x, e, h3⟩
          exact hB _ ⟨Q, h2, _, _, .method (l1 := s1.line) (l2 := s2.line) h3⟩
        · obtain ⟨ts, e, h4, h5, h6⟩ := parseMethod_sound h3
          refine ⟨ts, After e, h5, after_copy h6, fun i c' hr => ?_, ?_⟩
          · obtain ⟨m', h7, _⟩ := method_rn h4 hr
            exact ⟨m', trivial, parseMethod_complete h7⟩
          · by_cases he : e = .atParen
            · obtain ⟨s4, h7⟩ := h6 he
              cases n with
              | zero => exact .timeout
              | succ n => exact .ok (by simp only [parseDomain]; rw [P.bind_run (getTok_ok.2 h7)]; rfl)
            · refine (ih _ _ s3 fun c hc => ?_).reindex
                (fun (j : DomainAST × {_m : Method // True}) => { j.1 with methods := j.1.methods ++ [j.2.1] })
                fun _ _ => rfl
              simpa using hN (.method (l1 := s1.line) (l2 := s2.line) h4) he c hc
      case kw.action =>
        refine .go (Bad.bind (fun _ => parseAction_mono) (parseAction_bad ?_) fun x s3 h3 => ?_)
        · rintro c ⟨Q, h2, x, h3⟩
          exact hB _ ⟨Q, h2, _, _, .action (l1 := s1.line) (l2 := s2.line) h3⟩
        · obtain ⟨ts, h4, h5⟩ := parseAction_sound h3
          refine ⟨ts, h5, fun i c' hr => ?_, (ih _ _ s3 fun c hc => ?_).reindex
            (fun (j : DomainAST × Action) => { j.1 with actions := j.1.actions ++ [j.2] }) fun _ _ => rfl⟩
          · obtain ⟨x', h7, _⟩ := action_rn h4 hr
            exact ⟨x', parseAction_complete h7⟩
          · simpa using hN (.action (l1 := s1.line) (l2 := s2.line) h4) (by simp) c hc
      case kw.requirements =>
        refine .go (parseRequirements_then ?_ fun rs lr s3 => (ih _ _ s3 ?_).reindex
          (fun (j : DomainAST × List Req) => { j.1 with requirements := j.1.requirements ++ j.2 }) fun _ _ => rfl)
        · rintro c ⟨Q, h2, rs, lr, h4⟩
          exact hB _ ⟨Q, h2, _, _, by
            have : DBlockText true _ _ _ := .requirements (l1 := s1.line) (l2 := s2.line) (l3 := lr) (rs := rs)
            simpa [h4] using this⟩
        · intro c hc
          simpa using hN (.requirements (l1 := s1.line) (l2 := s2.line) (l3 := lr) (rs := rs)) (by simp) c hc
      case kw.types =>
        refine .go (parseArgs_then ?_ fun ss items lr s3 hp => (ih _ _ s3 ?_).reindex
          (fun (j : DomainAST × List Symbol) => { j.1 with types := addSymbols j.1.types j.2 }) fun _ _ => rfl)
        · rintro c ⟨Q, h2, items, lr, h3, h4⟩
          exact hB _ ⟨Q, h2, _, _, by
            have : DBlockText true _ _ _ := .types (l1 := s1.line) (l2 := s2.line) (l3 := lr) ⟨h3, rfl⟩
            simpa [h4] using this⟩
        · intro c hc
          simpa using hN (.types (l1 := s1.line) (l2 := s2.line) (l3 := lr) hp) (by simp) c hc
      case kw.constants =>
        refine .go (parseArgs_then ?_ fun ss items lr s3 hp => (ih _ _ s3 ?_).reindex
          (fun (j : DomainAST × List Symbol) => { j.1 with constants := addSymbols j.1.constants j.2 }) fun _ _ => rfl)
        · rintro c ⟨Q, h2, items, lr, h3, h4⟩
          exact hB _ ⟨Q, h2, _, _, by
            have : DBlockText true _ _ _ := .constants (l1 := s1.line) (l2 := s2.line) (l3 := lr) ⟨h3, rfl⟩
            simpa [h4] using this⟩
        · intro c hc
          simpa using hN (.constants (l1 := s1.line) (l2 := s2.line) (l3 := lr) hp) (by simp) c hc
      all_goals exact .stop h1 hk rfl fun _ _ _ => rfl
    case punct.rparen => exact .go .ret
    all_goals exact .stop h0 hh rfl fun _ _ _ => rfl

/-! ### Problems -/

def LPBlock (ts : List Tk) : Prop := ∃ b e, PBlockText true b ts e
def LPBody (ts : List Tk) : Prop := ∃ bs, Body true (PBlockText true) (closeProblem true) bs ts

/-- Objects as they come out of a typed list are added without complaint. -/
def Typable (ss : List Symbol) : Prop := ∀ x ∈ ss, (x.ty = none ↔ x.tyPos = none)

omit [Env] in
theorem typable_of {ss items} (h : TypedList ss items) : Typable ss := by
  obtain ⟨_, rfl⟩ := h
  exact symbolsOf_tyPos _

omit [Env] in
theorem lift_add {old new : List Symbol} (h : Typable new) :
    P.lift (addObjects old new) = pure (old ++ new) := by
  rw [addObjects_ok h]
  rfl

theorem parseArgs_typable {n} {f : List Symbol → P β} {f' : ι → Nat → List Symbol → P β} (hV : ∀ c, Ext LArgs c → V c)
    (h : ∀ ss items lr s1, TypedList ss items → Bad (fun c => V (items ++ (rpar, lr) :: c)) (f ss)
      (fun (j : ι × {ss : List Symbol // Typable ss}) n => f' j.1 n j.2.1) s1) :
    Bad V (parseArgs n >>= f) (fun i n => parseArgs n >>= f' i n) s := by
  refine Bad.bindR (fun _ ss' => Typable ss') (fun _ => parseArgs_mono) (parseArgs_bad hV) fun ss s1 h1 => ?_
  obtain ⟨items, lr, h2, h3⟩ := parseArgs_sound h1
  refine ⟨_, h3, fun i c' hr => ?_, (h ss items lr s1 h2).weaken fun c hc => by simpa using hc⟩
  obtain ⟨a, b, rfl, hr1, hr2⟩ := hr.unappend
  obtain ⟨l, us, rfl, hr3⟩ := hr2.uncons
  cases hr3.unnil
  obtain ⟨ss', h4, _⟩ := typedList_rn h2 hr1
  exact ⟨ss', typable_of h4, parseArgs_complete l h4⟩

omit [Env] in
/-- Every keyword of a problem starts a block. -/
theorem lPBlock_least {u : Token} (hu : u ∈ ([.kw .requirements, .kw .objects, .kw .htn, .kw .goal, .kw .init] :
    List Token)) (l l' : Nat) : ∃ Q, Simples Q ∧ LPBlock ((lpar, l) :: (u, l') :: Q) := by
  simp only [List.mem_cons, List.not_mem_nil, or_false] at hu
  rcases hu with rfl | rfl | rfl | rfl | rfl
  · exact ⟨[(rpar, 0)], by simp [Simple], _, _, .requirements (rs := [])⟩
  · exact ⟨[(rpar, 0)], by simp [Simple], _, _, .objects (items := []) typedList_nil⟩
  · exact ⟨[], by simp, _, _, .htn (.plain .empty)⟩
  · exact ⟨[(rpar, 0)], by simp [Simple], _, _, .goal (.missing rfl)⟩
  · exact ⟨[(rpar, 0)], by simp [Simple], _, _, .init .nil⟩

theorem parseProblem_bad : ∀ n p V s, (∀ c, Ext LPBody c → V c) →
    (∀ c l, LPBody (c ++ [(.eof, l)]) → V (c ++ [(.eof, l)])) →
    Bad V (parseProblem n p) (fun p n => parseProblem n p) s := by
  intro n
  induction n with
  | zero => intro d V s _ _; exact .timeout
  | succ n ih =>
    intro p V s hV hE
    apply Bad.succ
    simp only [parseProblem]
    have h0 : V [] := hV _ ⟨[(rpar, 0)], by simp [Simple], [], .done (.inl ⟨0, rfl⟩)⟩
    refine Bad.get h0 fun t s1 ht => ?_
    have hB : ∀ c, Ext LPBlock c → V c := by
      rintro c ⟨Q, h2, b, e, h3⟩
      exact hV _ ⟨Q ++ [(rpar, 0)], by simp [h2, Simple], [b], by
        have := Body.block h3 (joint_close e 0) (.done (stop := closeProblem true) (.inl ⟨0, rfl⟩))
        simpa using this⟩
    have hN : ∀ {b ts e}, PBlockText true b ts e → e ≠ .atParen → ∀ c, Ext LPBody c → V (ts ++ c) := by
      rintro b ts e hb he c ⟨Q, h2, bs, h3⟩
      exact hV _ ⟨Q, h2, _, by simpa using Body.block hb (joint_any he _) h3⟩
    have hM : ∀ {b ts e}, PBlockText true b ts e → e ≠ .atParen → ∀ c l, LPBody (c ++ [(.eof, l)]) →
        V (ts ++ (c ++ [(.eof, l)])) := by
      rintro b ts e hb he c l ⟨bs, h3⟩
      rw [← List.append_assoc]
      refine hE _ _ ⟨b :: bs, ?_⟩
      rw [List.append_assoc]
      exact Body.block hb (joint_any he _) h3
    tok_cases t
    case punct.lparen =>
      have h1 : V [(lpar, s1.line)] := hB _ ⟨[(.kw .objects, 0), (rpar, 0)], by simp [Simple], _, _,
        .objects (items := []) typedList_nil⟩
      have hk : Hinted (fun c => V ((lpar, s1.line) :: c)) [.s "a keyword for block definition"] [] := by
        refine ⟨_, .problemBlock, fun u hu l => ?_⟩
        obtain ⟨Q, h2, h3⟩ := lPBlock_least hu s1.line l
        exact hB _ ⟨Q, h2, h3⟩
      refine .go (Bad.get h1 fun t s2 ht2 => ?_)
      tok_cases t
      case kw.requirements =>
        refine .go (parseRequirements_then ?_ fun rs lr s3 => (ih _ _ s3 ?_ ?_).reindex
          (fun (j : ProblemAST × List Req) => { j.1 with requirements := j.1.requirements ++ j.2 }) fun _ _ => rfl)
        · rintro c ⟨Q, h2, rs, lr, h4⟩
          exact hB _ ⟨Q, h2, _, _, by
            have : PBlockText true _ _ _ := .requirements (l1 := s1.line) (l2 := s2.line) (l3 := lr) (rs := rs)
            simpa [h4] using this⟩
        · intro c hc
          simpa using hN (.requirements (l1 := s1.line) (l2 := s2.line) (l3 := lr) (rs := rs)) (by simp) c hc
        · intro c l hc
          simpa using hM (.requirements (l1 := s1.line) (l2 := s2.line) (l3 := lr) (rs := rs)) (by simp) c l hc
      case kw.objects =>
        refine .go (parseArgs_typable ?_ fun ss items lr s3 hp => ?_)
        · rintro c ⟨Q, h2, items, lr, h3, h4⟩
          exact hB _ ⟨Q, h2, _, _, by
            have : PBlockText true _ _ _ := .objects (l1 := s1.line) (l2 := s2.line) (l3 := lr) ⟨h3, rfl⟩
            simpa [h4] using this⟩
        · have hl : ∀ j : ProblemAST × {ss : List Symbol // Typable ss},
              P.lift (addObjects j.1.objects j.2.1) = pure (j.1.objects ++ j.2.1) := fun j => lift_add j.2.2
          simp only [hl, lift_add (typable_of hp), P.pure_bind]
          refine (ih _ _ s3 ?_ ?_).reindex (fun (j : ProblemAST × {ss : List Symbol // Typable ss}) =>
            { j.1 with objects := j.1.objects ++ j.2.1 }) fun _ _ => rfl
          · intro c hc
            simpa using hN (.objects (l1 := s1.line) (l2 := s2.line) (l3 := lr) hp) (by simp) c hc
          · intro c l hc
            simpa using hM (.objects (l1 := s1.line) (l2 := s2.line) (l3 := lr) hp) (by simp) c l hc
      case kw.htn =>
        refine .go (Bad.bindQ (fun _ _ => True) (fun _ => parseInitialTn_mono) (parseInitialTn_bad ?_) fun m s3 h3 => ?_)
        · rintro c ⟨Q, h2, x, e, h3⟩
          exact hB _ ⟨Q, h2, _, _, .htn (l1 := s1.line) (l2 := s2.line) h3⟩
        · obtain ⟨ts, e, h4, h5, h6⟩ := parseInitialTn_sound h3
          refine ⟨ts, After e, h5, after_copy h6, fun i c' hr => ?_, ?_⟩
          · obtain ⟨m', h7, _⟩ := initTn_rn h4 hr
            exact ⟨m', trivial, parseInitialTn_complete h7⟩
          · by_cases he : e = .atParen
            · obtain ⟨s4, h7⟩ := h6 he
              cases n with
              | zero => exact .timeout
              | succ n => exact .ok (by simp only [parseProblem]; rw [P.bind_run (getTok_ok.2 h7)]; rfl)
            · refine (ih _ _ s3 (fun c hc => ?_) fun c l hc => ?_).reindex
                (fun (j : ProblemAST × {_m : InitTN // True}) => { j.1 with initTn := some j.2.1 }) fun _ _ => rfl
              · simpa using hN (.htn (l1 := s1.line) (l2 := s2.line) h4) he c hc
              · simpa using hM (.htn (l1 := s1.line) (l2 := s2.line) h4) he c l hc
      case kw.goal =>
        refine .go (parseFormula_then ?_ fun φ ts s3 hf => (ih _ _ s3 ?_ ?_).reindex
          (fun (j : ProblemAST × Formula) => { j.1 with goal := some j.2 }) fun _ _ => rfl)
        · rintro c ⟨Q, h2, φ, h3⟩
          exact hB _ ⟨Q, h2, _, _, .goal (l1 := s1.line) (l2 := s2.line) h3⟩
        · intro c hc
          simpa using hN (.goal (l1 := s1.line) (l2 := s2.line) hf) (by simp) c hc
        · intro c l hc
          simpa using hM (.goal (l1 := s1.line) (l2 := s2.line) hf) (by simp) c l hc
      case kw.init =>
        refine .go (parsePredicates_then ?_ fun ps a lr s3 hp => (ih _ _ s3 ?_ ?_).reindex
          (fun (j : ProblemAST × List Predicate) => { j.1 with initState := j.2 }) fun _ _ => rfl)
        · rintro c ⟨Q, h2, ps, a, lr, h3, h4⟩
          exact hB _ ⟨Q, h2, _, _, by
            have : PBlockText true _ _ _ := .init (l1 := s1.line) (l2 := s2.line) (l3 := lr) h3
            simpa [h4] using this⟩
        · intro c hc
          simpa using hN (.init (l1 := s1.line) (l2 := s2.line) (l3 := lr) hp) (by simp) c hc
        · intro c l hc
          simpa using hM (.init (l1 := s1.line) (l2 := s2.line) (l3 := lr) hp) (by simp) c l hc
      all_goals exact .stop h1 hk rfl fun _ _ _ => rfl
    case punct.rparen => exact .go .ret
    case eof => exact .go .ret
    all_goals exact .crash h0 (hE [] _ ⟨[], .done (.inr ⟨rfl, _, rfl⟩)⟩) rfl fun _ _ _ => rfl

/-! ### Files -/

def LFile (ts : List Tk) : Prop := ∃ a, FileText true a ts

/-- `c` can be completed, by at least one token, to a file. -/
def Unfinished (c : List Tk) : Prop := ∃ Q, Q ≠ [] ∧ Simples Q ∧ LFile (c ++ Q)

omit [Env] in
theorem lFile_domain {ts} (l1 l2 l3 l4 : Nat) (name : Name) (l5 l6 : Nat) (h : LDBody ts) :
    LFile ((lpar, l1) :: (.kw .define, l2) :: (lpar, l3) :: (.kw .domain, l4) :: (.ident name, l5) :: (rpar, l6) :: ts) := by
  obtain ⟨bs, h⟩ := h
  exact ⟨_, .domain h⟩

omit [Env] in
theorem lFile_problem {ts} (l1 l2 l3 l4 : Nat) (name : Name) (l5 l6 l7 l8 : Nat) (dname : Name) (l9 l10 : Nat)
    (h : LPBody ts) :
    LFile ((lpar, l1) :: (.kw .define, l2) :: (lpar, l3) :: (.kw .problem, l4) :: (.ident name, l5) :: (rpar, l6) ::
      (lpar, l7) :: (.kw .domain, l8) :: (.ident dname, l9) :: (rpar, l10) :: ts) := by
  obtain ⟨bs, h⟩ := h
  exact ⟨_, .problem h⟩

theorem parseFile_bad {n} (hV : ∀ c, Ext LFile c → V c) (hE : ∀ c l, LFile (c ++ [(.eof, l)]) → V (c ++ [(.eof, l)])) :
    Bad V (parseFile n) (fun (_ : ι) n => parseFile n) s := by
  simp only [parseFile, parseDocumentType, P.bind_assoc]
  have dl : LDBody [(rpar, 0)] := ⟨_, .done ⟨0, rfl⟩⟩
  have pl : LPBody [(rpar, 0)] := ⟨_, .done (.inl ⟨0, rfl⟩)⟩
  refine Bad.exact ?_ (.tok (.open_ (by decide)) fun l => ?_) (fun _ => rfl) fun s1 _ =>
    Bad.exact ?_ (.tok .define fun l => ?_) (fun _ => rfl) fun s2 _ =>
    Bad.exact ?_ (.tok (.open_ (by decide)) fun l => ?_) (fun _ => rfl) fun s3 _ => ?_
  · exact hV _ ⟨_, by simp [Simple], lFile_domain 0 0 0 0 anyName 0 0 dl⟩
  · exact hV _ ⟨(.kw .define, 0) :: _, by simp [Simple], lFile_domain _ 0 0 0 anyName 0 0 dl⟩
  · exact hV _ ⟨(.kw .define, 0) :: _, by simp [Simple], lFile_domain _ 0 0 0 anyName 0 0 dl⟩
  · exact hV _ ⟨(lpar, 0) :: _, by simp [Simple], lFile_domain _ _ 0 0 anyName 0 0 dl⟩
  · exact hV _ ⟨(lpar, 0) :: _, by simp [Simple], lFile_domain _ _ 0 0 anyName 0 0 dl⟩
  · exact hV _ ⟨(.kw .domain, 0) :: _, by simp [Simple], lFile_domain _ _ _ 0 anyName 0 0 dl⟩
  have h0 : V [(lpar, s1.line), (.kw .define, s2.line), (lpar, s3.line)] :=
    hV _ ⟨(.kw .domain, 0) :: _, by simp [Simple], lFile_domain _ _ _ 0 anyName 0 0 dl⟩
  have hh : Hinted (fun c => V ((lpar, s1.line) :: (.kw .define, s2.line) :: (lpar, s3.line) :: c))
      [.s "either keyword 'domain' or 'problem'"] [] := by
    refine ⟨_, .document, ?_⟩
    rintro u (rfl | rfl) l
    · exact hV _ ⟨(.ident anyName, 0) :: _, by simp [Simple], lFile_domain _ _ _ _ anyName 0 0 dl⟩
    · exact hV _ ⟨(.ident anyName, 0) :: _, by simp [Simple], lFile_problem _ _ _ _ anyName 0 0 0 0 anyName 0 0 pl⟩
  refine Bad.get h0 fun t s4 ht => ?_
  tok_cases t
  case kw.domain =>
    simp only [parseDomainHeader, P.bind_assoc, P.pure_bind]
    refine .go (Bad.ident ?_ (.name (.name (by decide)) fun x l => ?_) (fun _ => rfl) fun x s5 _ =>
      Bad.exact ?_ (.tok (.close (by decide)) fun l => ?_) (fun _ => rfl) fun s6 _ => Bad.map ((parseDomain_bad n _ _ s6 ?_).reindex (fun _ => DomainAST.new x) fun _ _ => rfl))
    · exact hV _ ⟨(.ident anyName, 0) :: _, by simp [Simple], lFile_domain _ _ _ _ anyName 0 0 dl⟩
    · exact hV _ ⟨(rpar, 0) :: _, by simp [Simple], lFile_domain _ _ _ _ _ _ 0 dl⟩
    · exact hV _ ⟨(rpar, 0) :: _, by simp [Simple], lFile_domain _ _ _ _ _ _ 0 dl⟩
    · exact hV _ ⟨_, by simp [Simple], lFile_domain _ _ _ _ _ _ _ dl⟩
    · rintro c ⟨Q, h2, h3⟩
      exact hV _ ⟨Q, h2, lFile_domain _ _ _ _ _ _ _ h3⟩
  case kw.problem =>
    simp only [parseProblemHeader, P.bind_assoc, P.pure_bind]
    refine .go (Bad.ident ?_ (.name (.name (by decide)) fun x l => ?_) (fun _ => rfl) fun x s5 _ =>
      Bad.exact ?_ (.tok (.close (by decide)) fun l => ?_) (fun _ => rfl) fun s6 _ =>
      Bad.exact ?_ (.tok (.open_ (by decide)) fun l => ?_) (fun _ => rfl) fun s7 _ =>
      Bad.exact ?_ (.tok .domain fun l => ?_) (fun _ => rfl) fun s8 _ =>
      Bad.ident ?_ (.name (.name (by decide)) fun y l => ?_) (fun _ => rfl) fun y s9 _ =>
      Bad.exact ?_ (.tok .closeProblem fun l => ?_) (fun _ => rfl) fun s10 _ =>
      Bad.map ((parseProblem_bad n _ _ s10 ?_ ?_).reindex (fun _ => ProblemAST.new) fun _ _ => rfl))
    · exact hV _ ⟨(.ident anyName, 0) :: _, by simp [Simple], lFile_problem _ _ _ _ anyName 0 0 0 0 anyName 0 0 pl⟩
    · exact hV _ ⟨(rpar, 0) :: _, by simp [Simple], lFile_problem _ _ _ _ _ _ 0 0 0 anyName 0 0 pl⟩
    · exact hV _ ⟨(rpar, 0) :: _, by simp [Simple], lFile_problem _ _ _ _ _ _ 0 0 0 anyName 0 0 pl⟩
    · exact hV _ ⟨(lpar, 0) :: _, by simp [Simple], lFile_problem _ _ _ _ _ _ _ 0 0 anyName 0 0 pl⟩
    · exact hV _ ⟨(lpar, 0) :: _, by simp [Simple], lFile_problem _ _ _ _ _ _ _ 0 0 anyName 0 0 pl⟩
    · exact hV _ ⟨(.kw .domain, 0) :: _, by simp [Simple], lFile_problem _ _ _ _ _ _ _ _ 0 anyName 0 0 pl⟩
    · exact hV _ ⟨(.kw .domain, 0) :: _, by simp [Simple], lFile_problem _ _ _ _ _ _ _ _ 0 anyName 0 0 pl⟩
    · exact hV _ ⟨(.ident anyName, 0) :: _, by simp [Simple], lFile_problem _ _ _ _ _ _ _ _ _ anyName 0 0 pl⟩
    · exact hV _ ⟨(.ident anyName, 0) :: _, by simp [Simple], lFile_problem _ _ _ _ _ _ _ _ _ anyName 0 0 pl⟩
    · exact hV _ ⟨(rpar, 0) :: _, by simp [Simple], lFile_problem _ _ _ _ _ _ _ _ _ _ _ 0 pl⟩
    · exact hV _ ⟨(rpar, 0) :: _, by simp [Simple], lFile_problem _ _ _ _ _ _ _ _ _ _ _ 0 pl⟩
    · exact hV _ ⟨_, by simp [Simple], lFile_problem _ _ _ _ _ _ _ _ _ _ _ _ pl⟩
    · rintro c ⟨Q, h2, h3⟩
      exact hV _ ⟨Q, h2, lFile_problem _ _ _ _ _ _ _ _ _ _ _ _ h3⟩
    · intro c l hc
      exact hE ((lpar, s1.line) :: (.kw .define, s2.line) :: (lpar, s3.line) :: (.kw .problem, s4.line) ::
        (.ident x, s5.line) :: (rpar, s6.line) :: (lpar, s7.line) :: (.kw .domain, s8.line) :: (.ident y, s9.line) ::
        (rpar, s10.line) :: c) l (lFile_problem _ _ _ _ _ _ _ _ _ _ _ _ hc)
  all_goals exact .stop h0 hh rfl fun _ _ _ => rfl

end Verif
