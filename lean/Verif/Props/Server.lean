import Verif.Props.Output

/-! C41, C42 and C50: the language server. -/

namespace Verif

open Spec

variable [Env] {ord : HashOrd} {U : Type} [DecidableEq U]

/-! ### C41: documents -/

omit [Env] in
theorem Store.get_sync (s : Store U) (u v : U) (t : Bytes) : (s.sync u t).get v = if u = v then some t else s.get v := by
  unfold Store.get Store.sync
  by_cases h : u = v
  · simp [h]
  · simp only [List.find?_cons, h, decide_false, if_false]
    congr 1
    induction s with
    | nil => rfl
    | cons x s ih =>
      by_cases hx : x.1 = u
      · rw [List.filter_cons_of_neg (by simp [hx]), ih, List.find?_cons, hx]
        simp [h]
      · rw [List.filter_cons_of_pos (by simp [hx]), List.find?_cons, List.find?_cons, ih]

/-- The text the server takes from a notification. -/
def taken : LspEvent U → Option (U × Bytes)
  | .didOpen u t => some (u, t)
  | .didSave u t disk => some (u, t.getD disk)
  | .didChange u ts => ts.head?.map fun t => (u, t)

omit [Env] in
theorem Store.get_handle (s : Store U) (e : LspEvent U) (v : U) : (s.handle e).get v =
    match taken e with
    | some (u, t) => if u = v then some t else s.get v
    | none => s.get v := by
  cases e with
  | didOpen u t => exact s.get_sync u v t
  | didSave u t disk => exact s.get_sync u v _
  | didChange u ts =>
    cases ts with
    | nil => rfl
    | cons t ts => exact s.get_sync u v t

/-- `t` is the last text the server took for `u`. -/
def LastTaken (es : List (LspEvent U)) (u : U) (t : Bytes) : Prop :=
  ∃ pre post, es.filterMap taken = pre ++ (u, t) :: post ∧ ∀ x ∈ post, x.1 ≠ u

omit [Env] in
theorem Store.get_run (es : List (LspEvent U)) (s : Store U) (u : U) :
    (∀ t, LastTaken es u t → (s.run es).get u = some t) ∧
    ((∀ x ∈ es.filterMap taken, x.1 ≠ u) → (s.run es).get u = s.get u) := by
  induction es generalizing s with
  | nil =>
    refine ⟨?_, fun _ => rfl⟩
    rintro t ⟨pre, post, h, _⟩
    simp at h
  | cons e es ih =>
    have hrun : s.run (e :: es) = (s.handle e).run es := rfl
    have hget := s.get_handle e u
    rw [hrun]
    constructor
    · rintro t ⟨pre, post, h, hp⟩
      cases ht : taken e with
      | none =>
        rw [List.filterMap_cons_none ht] at h
        exact (ih _).1 t ⟨pre, post, h, hp⟩
      | some x =>
        rw [List.filterMap_cons_some ht] at h
        cases pre with
        | nil =>
          simp only [List.nil_append, List.cons.injEq] at h
          obtain ⟨rfl, h⟩ := h
          rw [(ih _).2 (by rw [h]; exact hp), hget, ht]
          simp
        | cons y pre =>
          simp only [List.cons_append, List.cons.injEq] at h
          exact (ih _).1 t ⟨pre, post, h.2, hp⟩
    · intro h
      cases ht : taken e with
      | none =>
        rw [List.filterMap_cons_none ht] at h
        rw [(ih _).2 h, hget, ht]
      | some x =>
        rw [List.filterMap_cons_some ht] at h
        rw [(ih _).2 fun y hy => h y (List.mem_cons_of_mem _ hy), hget, ht]
        have := h x List.mem_cons_self
        simp [this]

omit [Env] [DecidableEq U] in
theorem taken_received {es : List (LspEvent U)} (h : OneChange es) : es.filterMap taken = es.flatMap received := by
  induction es with
  | nil => rfl
  | cons e es ih =>
    have ih := ih fun u ts hu => h u ts (List.mem_cons_of_mem _ hu)
    have he : (taken e).toList = received e := by
      cases e with
      | didOpen u t => rfl
      | didSave u t disk => cases t <;> rfl
      | didChange u ts =>
        have := h u ts List.mem_cons_self
        match ts, this with
        | [], _ => rfl
        | [t], _ => rfl
    rw [List.flatMap_cons, ← ih, ← he]
    cases ht : taken e with
    | none => rw [List.filterMap_cons_none ht]; rfl
    | some x => rw [List.filterMap_cons_some ht]; rfl

omit [Env] in
theorem latest_get {es : List (LspEvent U)} (hes : OneChange es) {u : U} {t : Bytes} (h : Latest es u t) :
    (Store.run [] es).get u = some t :=
  (Store.get_run es [] u).1 t (by unfold LastTaken; rw [taken_received hes]; exact h)

/-- C41, for changes with one text each: after any history, a request for `u` is answered exactly as by a server that has
just started and received only the last text of `u`.  Missing: changes with several texts, see `C41_refuted`. -/
theorem C41_latest_partial (es : List (LspEvent U)) (hes : OneChange es) (u : U) (t : Bytes) (h : Latest es u t)
    (n : Nat) (folder : List Bytes) :
    diagnostic ord n (Store.run [] es) folder u = diagnostic ord n (Store.run [] [.didOpen u t]) folder u := by
  have h1 := latest_get hes h
  have h2 : (Store.run [] [.didOpen u t]).get u = some t := by simp [Store.run, Store.handle, Store.get_sync]
  simp only [diagnostic, h1, h2]

/-- C41: a request for a document that was never received is answered with an error. -/
theorem C41_never (es : List (LspEvent U)) (u : U) (h : Never es u) (n : Nat) (folder : List Bytes) :
    diagnostic ord n (Store.run [] es) folder u = .ok .notSynced := by
  have h1 : (Store.run [] es).get u = none := by
    rw [(Store.get_run es [] u).2]
    · rfl
    · intro x hx
      obtain ⟨e, he, hx⟩ := List.mem_filterMap.mp hx
      refine h x (List.mem_flatMap.mpr ⟨e, he, ?_⟩)
      cases e with
      | didOpen u t => cases hx; exact List.mem_cons_self
      | didSave u t disk => cases t <;> (cases hx; exact List.mem_cons_self)
      | didChange u ts =>
        cases ts with
        | nil => cases hx
        | cons t ts => cases hx; exact List.mem_cons_self
  simp only [diagnostic, h1]

/-- C41, exactly: after any history, the answer is for the first text of the last notification with a text. -/
theorem C41_first_change (es : List (LspEvent U)) (u : U) (t : Bytes) (h : LastTaken es u t) (n : Nat)
    (folder : List Bytes) :
    diagnostic ord n (Store.run [] es) folder u = diagnostic ord n (Store.run [] [.didOpen u t]) folder u := by
  have h1 : (Store.run [] es).get u = some t := (Store.get_run es [] u).1 t h
  have h2 : (Store.run [] [.didOpen u t]).get u = some t := by simp [Store.run, Store.handle, Store.get_sync]
  simp only [diagnostic, h1, h2]

/-- C41: a request for a document that was received is never answered with this error, whatever the document is. -/
theorem C41_received (es : List (LspEvent U)) (u : U) (t : Bytes) (h : LastTaken es u t) (n : Nat)
    (folder : List Bytes) : diagnostic ord n (Store.run [] es) folder u ≠ .ok .notSynced := by
  have h1 : (Store.run [] es).get u = some t := (Store.get_run es [] u).1 t h
  have h2 {α} (x : R α) (f : α → R LspAnswer) (hf : ∀ a, f a ≠ .ok .notSynced) : x.bind f ≠ .ok .notSynced := by
    cases x <;> simp_all [R.bind]
  simp only [diagnostic, h1]
  refine h2 _ _ fun k => ?_
  cases k with
  | domain => exact h2 _ _ fun _ => by simp
  | problem => exact h2 _ _ fun _ => h2 _ _ fun _ => by simp
  | maybeNotHddl => simp

/-- Instance: the document `1` is opened, saved without its text, and changed; `2` is opened in between. -/
example : Latest [LspEvent.didOpen 1 b!"a", .didSave 1 none b!"b", .didOpen 2 b!"c", .didChange 1 [b!"d"]] 1 b!"d" ∧
    OneChange [LspEvent.didOpen 1 b!"a", .didSave 1 none b!"b", .didOpen 2 b!"c", .didChange 1 [b!"d"]] ∧
    Never [LspEvent.didOpen 1 b!"a"] 2 := by
  refine ⟨⟨[(1, b!"a"), (1, b!"b"), (2, b!"c")], [], rfl, by simp⟩, ?_, by simp [Never, received]⟩
  intro u ts h
  simp at h
  rw [h.2]; rfl

/-! ### C42: domains -/

/-- A request for `u` ends in this way. -/
def Answers (ord : HashOrd) (s : Store U) (folder : List Bytes) (u : U) (r : R LspAnswer) : Prop :=
  ∃ N, ∀ n, N ≤ n → diagnostic ord n s folder u = r

/-- A request for `u` is answered with these diagnostics. -/
abbrev Reports (ord : HashOrd) (s : Store U) (folder : List Bytes) (u : U) (items : List Diag) : Prop :=
  Answers ord s folder u (.ok (.report items))

variable {s : Store U} {folder : List Bytes} {u : U} {doc dom : Bytes}

theorem diagnoseDomain_eq (n : Nat) (h : ∀ p, parse n doc ≠ .ok (.problem p)) :
    diagnoseDomain ord n doc = itemsOf (verify ord n doc none) := by
  unfold diagnoseDomain verify
  cases hp : parse n doc with
  | ok a =>
    cases a with
    | problem p => exact absurd hp (h p)
    | domain d => simp only [R.bind]; cases verifyDomain ord n d <;> rfl
  | _ => rfl

theorem classified {n : Nat} (h : classify doc = .ok .domain) : ∀ p, parse n doc ≠ .ok (.problem p) :=
  fun p hp => (C17_classify doc).2.2.1 h p (.of_ok hp)

theorem domain_answer (n : Nat) (hs : s.get u = some doc) (hc : classify doc = .ok .domain) :
    diagnostic ord n s folder u = (itemsOf (verify ord n doc none)).bind fun items => .ok (.report items) := by
  simp only [diagnostic, hs, hc, R.bind]
  rw [diagnoseDomain_eq n (classified hc)]

theorem Answers.det {r r' : R LspAnswer} (h : Answers ord s folder u r) (h' : Answers ord s folder u r') : r = r' := by
  obtain ⟨N, hN⟩ := h
  obtain ⟨M, hM⟩ := h'
  rw [← hN (max N M) (by omega), ← hM (max N M) (by omega)]

theorem domain_ends {r : R (List Warning)} (hs : s.get u = some doc) (hc : classify doc = .ok .domain)
    (h : Returns ord doc none r) : Answers ord s folder u ((itemsOf r).bind fun items => .ok (.report items)) := by
  obtain ⟨_, N, hN⟩ := h
  exact ⟨N, fun n hn => by rw [domain_answer n hs hc, hN n hn]⟩

theorem Reports.domain {items : List Diag} (hs : s.get u = some doc) (hc : classify doc = .ok .domain)
    (h : Reports ord s folder u items) : ∃ r, Returns ord doc none r ∧ itemsOf r = .ok items := by
  obtain ⟨N, hN⟩ := h
  have h1 := hN N (Nat.le_refl _)
  rw [domain_answer N hs hc] at h1
  obtain ⟨is, h2, h3⟩ := R.bind_ok_iff.mp h1
  cases h3
  refine ⟨_, returns_iff.mpr ⟨?_, N, rfl⟩, h2⟩
  intro h4; rw [h4] at h2; cases h2

/-- C42: for a document that is a domain, no diagnostic is reported exactly if `verify` accepts it. -/
theorem C42_accepted (hs : s.get u = some doc) (hc : classify doc = .ok .domain) :
    Reports ord s folder u [] ↔ ∃ ws, Returns ord doc none (.ok ws) := by
  constructor
  · intro h
    obtain ⟨r, hr, h1⟩ := h.domain hs hc
    cases r with
    | ok ws => exact ⟨ws, hr⟩
    | err e => obtain ⟨d, _, h1⟩ := R.bind_ok_iff.mp (show (toDiag e).bind (fun d => .ok [d]) = _ from h1); cases h1
    | panic x => cases h1
    | timeout => cases h1
  · rintro ⟨ws, h⟩
    exact domain_ends hs hc h

/-- C42: if `verify` returns an error that is not a duplicate, exactly one diagnostic is reported, with the text of the
error, and on its line.  Missing: duplicates, see `C42_refuted`. -/
theorem C42_rejected_partial {e : PErr} (hs : s.get u = some doc) (hc : classify doc = .ok .domain)
    (h : Returns ord doc none (.err e)) (hd : ¬ Duplicate e) :
    ∃ x, Reports ord s folder u [x] ∧ e.show = .ok x.message ∧ ∀ l, lineOf e = some l → x.startLine + 1 = l := by
  rcases C43_converts_partial h with ⟨x, hx, ht⟩ | h1 | ⟨_, _, _, h1, _⟩
  · refine ⟨x, ?_, ht, fun l hl => (C43_line_partial hx hl).1⟩
    have := domain_ends (folder := folder) hs hc h
    simp only [itemsOf, hx, R.bind] at this
    exact this
  · exact absurd h1 hd
  · cases h1

/-- C42: whatever is reported is the one error of `verify`. -/
theorem C42_reported {items : List Diag} (hs : s.get u = some doc) (hc : classify doc = .ok .domain)
    (h : Reports ord s folder u items) (hne : items ≠ []) :
    ∃ x e, items = [x] ∧ Returns ord doc none (.err e) ∧ toDiag e = .ok x ∧ e.show = .ok x.message := by
  obtain ⟨r, hr, h1⟩ := h.domain hs hc
  cases r with
  | ok ws => cases h1; exact absurd rfl hne
  | err e =>
    obtain ⟨x, hx, h1⟩ := R.bind_ok_iff.mp (show (toDiag e).bind (fun d => .ok [d]) = _ from h1)
    cases h1
    refine ⟨x, e, rfl, hr, hx, ?_⟩
    rcases C43_converts_partial hr with ⟨y, hy, ht⟩ | h1 | ⟨_, _, _, h1, _⟩
    · rw [hx] at hy; cases hy; exact ht
    · rw [C43_refuted hr h1] at hx; cases hx
    · cases h1
  | panic x => cases h1
  | timeout => cases h1

/-- C42 does not hold for duplicates: the request panics whenever `verify` reports one. -/
theorem C42_refuted {e : PErr} (hs : s.get u = some doc) (hc : classify doc = .ok .domain)
    (h : Returns ord doc none (.err e)) (hd : Duplicate e) : Answers ord s folder u (.panic .dummyUrl) := by
  have := domain_ends (folder := folder) hs hc h
  simp only [itemsOf, C43_refuted h hd, R.bind] at this
  exact this

/-- C42: a document that is neither a domain nor a problem gets an empty report. -/
theorem C42_neither (hs : s.get u = some doc) (hc : classify doc = .ok .maybeNotHddl) : Reports ord s folder u [] :=
  ⟨0, fun n _ => by simp only [diagnostic, hs, hc, R.bind]⟩

/-- Instance: a text without a definition. -/
example : @classify Env.plain b!"hello" = .ok .maybeNotHddl := by decide +kernel

/-- Instances: a domain that is accepted, one with an undefined predicate, and one with a predicate defined twice. -/
example : @classify Env.plain b!"(define (domain d)\n(:task t :parameters ()))\n" = .ok .domain ∧
    @Returns Env.plain HashOrd.id b!"(define (domain d)\n(:task t :parameters ()))\n" none (.ok [⟨b!"t", 2⟩]) ∧
    @classify Env.plain b!"(define (domain d)\n(:action a :parameters () :effect (p)))\n" = .ok .domain ∧
    @Returns Env.plain HashOrd.id b!"(define (domain d)\n(:action a :parameters () :effect (p)))\n" none
      (.err (.semantic (.undefPredicate ⟨b!"p", 2⟩))) ∧
    @classify Env.plain b!"(define (domain d)\n(:predicates (p)\n (q)\n (p ?x)))\n" = .ok .domain ∧
    @Returns Env.plain HashOrd.id b!"(define (domain d)\n(:predicates (p)\n (q)\n (p ?x)))\n" none
      (.err (.semantic (.dupPredicate ⟨b!"p", 2, 4⟩))) :=
  ⟨by decide +kernel, @returns_run Env.plain _ _ _ 40 _ (by decide +kernel) (by simp),
    by decide +kernel, @returns_run Env.plain _ _ _ 40 _ (by decide +kernel) (by simp),
    by decide +kernel, @returns_run Env.plain _ _ _ 40 _ (by decide +kernel) (by simp)⟩

omit [Env] in
/-- C41 does not hold for changes with several texts: the first text is kept.  Here the last text received is a correct
domain, but the answer is for the text before it. -/
theorem C41_refuted : ∃ (es : List (LspEvent Unit)) (t : Bytes), Latest es () t ∧
    @Reports Env.plain Unit _ HashOrd.id (Store.run [] [.didOpen () t]) [] () [] ∧
    ∃ x, @Reports Env.plain Unit _ HashOrd.id (Store.run [] es) [] () [x] := by
  refine ⟨[.didChange () [b!"(define (domain d)\n(:action a :parameters () :effect (p)))\n",
    b!"(define (domain d)\n(:task t :parameters ()))\n"]], b!"(define (domain d)\n(:task t :parameters ()))\n",
    ⟨[((), b!"(define (domain d)\n(:action a :parameters () :effect (p)))\n")], [], rfl, by simp⟩, ?_, ?_⟩
  · exact (@C42_accepted Env.plain _ _ _ _ _ _ b!"(define (domain d)\n(:task t :parameters ()))\n" rfl (by decide +kernel)).mpr
      ⟨[⟨b!"t", 2⟩], @returns_run Env.plain _ _ _ 40 _ (by decide +kernel) (by simp)⟩
  · obtain ⟨x, hx, _⟩ := @C42_rejected_partial Env.plain HashOrd.id Unit _
      (Store.run [] [.didChange () [b!"(define (domain d)\n(:action a :parameters () :effect (p)))\n",
        b!"(define (domain d)\n(:task t :parameters ()))\n"]]) [] ()
      b!"(define (domain d)\n(:action a :parameters () :effect (p)))\n" (.semantic (.undefPredicate ⟨b!"p", 2⟩)) rfl
      (by decide +kernel) (@returns_run Env.plain _ _ _ 40 _ (by decide +kernel) (by simp)) (fun h => h)
    exact ⟨x, hx⟩

/-! ### C50: problems -/

/-- The answer to a request for a problem, in terms of the parser and of `verify`. -/
def problemItems (v : R (List Warning)) (w : R (List Warning)) (a : R AST) : R (List Diag) :=
  match v with
  | .ok _ => itemsOf w
  | .err e => (toDiag e).bind fun x =>
    match a with
    | .ok _ => .ok [x]
    | .err e' => (toDiag e').bind fun y => .ok [x, y]
    | .panic p => .panic p
    | .timeout => .timeout
  | .panic p => .panic p
  | .timeout => .timeout

theorem diagnoseProblem_eq (n : Nat) (h : ∀ p, parse n dom ≠ .ok (.problem p)) (h' : ∀ d, parse n doc ≠ .ok (.domain d)) :
    diagnoseProblem ord n (some dom) doc =
      problemItems (verify ord n dom none) (verify ord n dom (some doc)) (parse n doc) := by
  cases hp : parse n dom with
  | ok a =>
    cases a with
    | problem p => exact absurd hp (h p)
    | domain d =>
      cases hv : verifyDomain ord n d with
      | ok st =>
        cases hq : parse n doc with
        | ok b =>
          cases b with
          | domain d => exact absurd hq (h' d)
          | problem p =>
            simp only [diagnoseProblem, diagnoseDomainPart, verify, problemItems, R.bind, hp, hv, hq, List.nil_append]
            cases itemsOf (verifyProblem st p) <;> rfl
        | err e =>
          simp only [diagnoseProblem, diagnoseDomainPart, verify, problemItems, R.bind, hp, hv, hq, itemsOf, List.nil_append]
        | _ => simp only [diagnoseProblem, diagnoseDomainPart, verify, problemItems, R.bind, hp, hv, hq, itemsOf]
      | err e =>
        cases hx : toDiag e with
        | ok x =>
          cases hq : parse n doc with
          | ok b =>
            cases b with
            | domain d => exact absurd hq (h' d)
            | problem p => simp only [diagnoseProblem, diagnoseDomainPart, verify, problemItems, R.bind, hp, hv, hq, hx]
          | err e =>
            simp only [diagnoseProblem, diagnoseDomainPart, verify, problemItems, R.bind, hp, hv, hq, hx, List.cons_append,
              List.nil_append]
          | _ => simp only [diagnoseProblem, diagnoseDomainPart, verify, problemItems, R.bind, hp, hv, hq, hx]
        | _ => simp only [diagnoseProblem, diagnoseDomainPart, verify, problemItems, R.bind, hp, hv, hx]
      | _ => simp only [diagnoseProblem, diagnoseDomainPart, verify, problemItems, R.bind, hp, hv]
  | err e =>
    cases hx : toDiag e with
    | ok x =>
      cases hq : parse n doc with
      | ok b =>
        cases b with
        | domain d => exact absurd hq (h' d)
        | problem p => simp only [diagnoseProblem, diagnoseDomainPart, verify, problemItems, R.bind, hp, hq, hx]
      | err e =>
        simp only [diagnoseProblem, diagnoseDomainPart, verify, problemItems, R.bind, hp, hq, hx, List.cons_append,
          List.nil_append]
      | _ => simp only [diagnoseProblem, diagnoseDomainPart, verify, problemItems, R.bind, hp, hq, hx]
    | _ => simp only [diagnoseProblem, diagnoseDomainPart, verify, problemItems, R.bind, hp, hx]
  | _ => simp only [diagnoseProblem, diagnoseDomainPart, verify, problemItems, R.bind, hp]

theorem findDomain_classify {fs : List Bytes} (h : findDomain fs = .ok (some dom)) :
    ∃ pre post, fs = pre ++ dom :: post ∧ classify dom = .ok .domain ∧
      ∀ x ∈ pre, classify x = .ok .problem ∨ classify x = .ok .maybeNotHddl := by
  induction fs with
  | nil => cases h
  | cons f fs ih =>
    unfold findDomain at h
    obtain ⟨v, hv, h⟩ := R.bind_ok_iff.mp h
    have later (hv : classify f = .ok .problem ∨ classify f = .ok .maybeNotHddl) (h : findDomain fs = .ok (some dom)) :
        ∃ pre post, f :: fs = pre ++ dom :: post ∧ classify dom = .ok .domain ∧
          ∀ x ∈ pre, classify x = .ok .problem ∨ classify x = .ok .maybeNotHddl := by
      obtain ⟨pre, post, rfl, h1, h2⟩ := ih h
      exact ⟨f :: pre, post, rfl, h1, List.forall_mem_cons.mpr ⟨hv, h2⟩⟩
    cases v with
    | domain => cases h; exact ⟨[], fs, rfl, hv, by simp⟩
    | problem => exact later (.inl hv) h
    | maybeNotHddl => exact later (.inr hv) h

theorem findDomain_first {pre post : List Bytes} (hd : classify dom = .ok .domain)
    (h : ∀ x ∈ pre, classify x = .ok .problem ∨ classify x = .ok .maybeNotHddl) :
    findDomain (pre ++ dom :: post) = .ok (some dom) := by
  induction pre with
  | nil => simp [findDomain, hd, R.bind]
  | cons f fs ih =>
    obtain ⟨h1, h2⟩ := List.forall_mem_cons.mp h
    rw [List.cons_append, findDomain]
    rcases h1 with h1 | h1 <;> (rw [h1]; exact ih h2)

theorem findDomain_none {fs : List Bytes} (h : ∀ x ∈ fs, classify x = .ok .problem ∨ classify x = .ok .maybeNotHddl) :
    findDomain fs = .ok none := by
  induction fs with
  | nil => rfl
  | cons f fs ih =>
    obtain ⟨h1, h2⟩ := List.forall_mem_cons.mp h
    rw [findDomain]
    rcases h1 with h1 | h1 <;> (rw [h1]; exact ih h2)

/-- The document `u` is the problem `doc`, and `dom` is the first file of its folder that starts like a domain. -/
structure ProblemSetting (s : Store U) (folder : List Bytes) (u : U) (doc dom : Bytes) : Prop where
  get : s.get u = some doc
  problem : classify doc = .ok .problem
  domain : ∃ pre post, folder = pre ++ dom :: post ∧ classify dom = .ok .domain ∧
    ∀ x ∈ pre, classify x = .ok .problem ∨ classify x = .ok .maybeNotHddl

theorem ProblemSetting.answer (h : ProblemSetting s folder u doc dom) (n : Nat) : diagnostic ord n s folder u =
    (problemItems (verify ord n dom none) (verify ord n dom (some doc)) (parse n doc)).bind
      fun items => .ok (.report items) := by
  obtain ⟨pre, post, rfl, h1, h2⟩ := h.domain
  simp only [diagnostic, h.get, h.problem, R.bind, findDomain_first h1 h2]
  rw [diagnoseProblem_eq n (classified h1) fun d hd => (C17_classify doc).2.2.2.1 h.problem d (.of_ok hd)]

theorem verify_none_ok {n : Nat} {ws : List Warning} (h : verify ord n dom (some doc) = .ok ws) :
    ∃ ws', verify ord n dom none = .ok ws' := by
  unfold verify at h ⊢
  obtain ⟨a, ha, h⟩ := R.bind_ok_iff.mp h
  cases a with
  | problem p => cases h
  | domain d =>
    obtain ⟨st, hst, h⟩ := R.bind_ok_iff.mp h
    exact ⟨st.warnings, by simp only [ha, R.bind, hst]⟩

/-- An error of the domain alone is the error of domain and problem. -/
theorem verify_none_err {n : Nat} {e : PErr} (h : verify ord n dom none = .err e) :
    verify ord n dom (some doc) = .err e := by
  unfold verify at h ⊢
  cases ha : parse n dom with
  | ok a =>
    rw [ha] at h
    cases a with
    | problem p => cases h
    | domain d =>
      simp only [R.bind] at h ⊢
      cases hst : verifyDomain ord n d with
      | ok st => rw [hst] at h; cases h
      | err e' => rw [hst] at h; exact h
      | panic x => rw [hst] at h; cases h
      | timeout => rw [hst] at h; cases h
  | err e' => rw [ha] at h; exact h
  | panic x => rw [ha] at h; cases h
  | timeout => rw [ha] at h; cases h

/-- An error of domain and problem is one of the domain, or the domain is accepted. -/
theorem verify_err_none {n : Nat} {e : PErr} (h : verify ord n dom (some doc) = .err e) :
    verify ord n dom none = .err e ∨ ∃ ws, verify ord n dom none = .ok ws := by
  unfold verify at h ⊢
  cases ha : parse n dom with
  | ok a =>
    rw [ha] at h
    cases a with
    | problem p => cases h
    | domain d =>
      simp only [R.bind] at h ⊢
      cases hst : verifyDomain ord n d with
      | ok st => exact .inr ⟨_, rfl⟩
      | err e' => rw [hst] at h; exact .inl h
      | panic x => rw [hst] at h; cases h
      | timeout => rw [hst] at h; cases h
  | err e' => rw [ha] at h; exact .inl h
  | panic x => rw [ha] at h; cases h
  | timeout => rw [ha] at h; cases h

/-- C50: for a problem document, no diagnostic is reported exactly if `verify` accepts it together with the first domain
of the folder. -/
theorem C50_accepted (hp : ProblemSetting s folder u doc dom) :
    Reports ord s folder u [] ↔ ∃ ws, Returns ord dom (some doc) (.ok ws) := by
  constructor
  · rintro ⟨N, hN⟩
    have h1 := hN N (Nat.le_refl _)
    rw [hp.answer] at h1
    obtain ⟨is, h2, h3⟩ := R.bind_ok_iff.mp h1
    cases h3
    unfold problemItems at h2
    split at h2
    · unfold itemsOf at h2
      split at h2
      · rename_i ws hw
        exact ⟨ws, returns_iff.mpr ⟨by simp, N, hw⟩⟩
      · obtain ⟨_, _, h2⟩ := R.bind_ok_iff.mp h2; cases h2
      · cases h2
      · cases h2
    · obtain ⟨_, _, h2⟩ := R.bind_ok_iff.mp h2
      split at h2
      · cases h2
      · obtain ⟨_, _, h2⟩ := R.bind_ok_iff.mp h2; cases h2
      · cases h2
      · cases h2
    · cases h2
    · cases h2
  · rintro ⟨ws, _, N, hN⟩
    refine ⟨N, fun n hn => ?_⟩
    obtain ⟨ws', h1⟩ := verify_none_ok (hN n hn)
    rw [hp.answer, h1, hN n hn]
    rfl

/-- C50: if anything is reported for a problem document, the first diagnostic is the error that `verify` returns for the
first domain of the folder and the document; there is at most one more, which is there only if the error is one of the
domain, and which is the lexical or syntax error of the document. -/
theorem C50_reported {x : Diag} {xs : List Diag} (hp : ProblemSetting s folder u doc dom)
    (h : Reports ord s folder u (x :: xs)) : ∃ e, Returns ord dom (some doc) (.err e) ∧ toDiag e = .ok x ∧
      (xs = [] ∨ Returns ord dom none (.err e) ∧ ∃ y e', xs = [y] ∧ (∃ N, ∀ n, N ≤ n → parse n doc = .err e') ∧
        toDiag e' = .ok y) := by
  obtain ⟨N, hN⟩ := h
  have h1 := hN N (Nat.le_refl _)
  rw [hp.answer] at h1
  obtain ⟨is, h2, h3⟩ := R.bind_ok_iff.mp h1
  cases h3
  unfold problemItems at h2
  split at h2
  · unfold itemsOf at h2
    split at h2
    · cases h2
    · rename_i e hw
      obtain ⟨y, hy, h2⟩ := R.bind_ok_iff.mp h2
      cases h2
      exact ⟨e, returns_iff.mpr ⟨by simp, N, hw⟩, hy, .inl rfl⟩
    · cases h2
    · cases h2
  · rename_i e hv
    obtain ⟨y, hy, h2⟩ := R.bind_ok_iff.mp h2
    have hw : Returns ord dom (some doc) (.err e) := returns_iff.mpr ⟨by simp, N, verify_none_err hv⟩
    split at h2
    · cases h2
      exact ⟨e, hw, hy, .inl rfl⟩
    · rename_i e' hq
      obtain ⟨z, hz, h2⟩ := R.bind_ok_iff.mp h2
      cases h2
      exact ⟨e, hw, hy, .inr ⟨returns_iff.mpr ⟨by simp, N, hv⟩, z, e', rfl,
        ⟨N, fun n hn => by rw [parse_fuel hn (by rw [hq]; simp), hq]⟩, hz⟩⟩
    · cases h2
    · cases h2
  · cases h2
  · cases h2

/-- Syntax errors can always be converted. -/
theorem parserErr_converts {file : Bytes} {e : PErr} (h : ParserErr file e) : ∃ x, toDiag e = .ok x := by
  have key {l : Nat} {t : Text} (h : 1 ≤ l) : ∃ x, diagAt l (.ok t) = .ok x := by
    rw [diagAt, if_neg (by omega)]; exact ⟨_, rfl⟩
  cases e with
  | lexical e =>
    obtain ⟨peek, s, s', hr, hx⟩ := h
    obtain ⟨_, _, _, _, _, _, _, _, h2⟩ := C01_error_line file s s' e peek hr hx
    exact key (by omega)
  | syntactic e =>
    obtain ⟨s, ⟨peek, s0, hr, hx⟩, h2⟩ := h
    obtain ⟨_, _, _, _, _, _, _, _, _, _, h3⟩ := C01_token_line file s0 s _ peek hr hx
    exact key (by omega)
  | semantic e => exact h.elim

/-- C50: if `verify` returns an error, it is reported, unless it is one that cannot be converted (see C43), or parsing the
document does not end or panics (which `verify` does not notice if the domain is wrong).  Missing: these cases. -/
theorem C50_rejected_partial {e : PErr} (hp : ProblemSetting s folder u doc dom)
    (h : Returns ord dom (some doc) (.err e)) (hd : ¬ Duplicate e)
    (ht : ∀ d p, Parses dom (.domain d) → Parses doc (.problem p) → ¬ TypedForUntyped d p)
    (hdoc : ∃ n, (∃ a, parse n doc = .ok a) ∨ ∃ e, parse n doc = .err e) :
    ∃ x xs, Reports ord s folder u (x :: xs) ∧ toDiag e = .ok x ∧ e.show = .ok x.message := by
  rcases C43_converts_partial h with ⟨x, hx, hm⟩ | h1 | ⟨d, g, p, h1, h2, h3, h4⟩
  · obtain ⟨_, N, hN⟩ := h
    have hv := verify_err_none (hN N (Nat.le_refl _))
    have fuel {n : Nat} {r : R (List Warning)} (hr : verify ord N dom none = r) (hr' : r ≠ .timeout) (hn : N ≤ n) :
        verify ord n dom none = r := by
      rw [(verify_le ord hn dom none).eq (by rw [hr]; exact hr'), hr]
    obtain ⟨M, hM⟩ := hdoc
    have hM' : parse M doc ≠ .timeout := by
      rcases hM with ⟨a, h⟩ | ⟨e, h⟩ <;> (rw [h]; simp)
    have hpar {n : Nat} (hn : M ≤ n) : parse n doc = parse M doc := parse_fuel hn hM'
    rcases hv with hv | ⟨ws, hv⟩
    · rcases hM with ⟨a, ha⟩ | ⟨e', he'⟩
      · refine ⟨x, [], ⟨max N M, fun n hn => ?_⟩, hx, hm⟩
        rw [hp.answer, fuel hv (by simp) (by omega), hpar (by omega), ha]
        simp only [problemItems, hx, R.bind]
      · obtain ⟨y, hy⟩ := parserErr_converts (parse_err he')
        refine ⟨x, [y], ⟨max N M, fun n hn => ?_⟩, hx, hm⟩
        rw [hp.answer, fuel hv (by simp) (by omega), hpar (by omega), he']
        simp only [problemItems, hx, hy, R.bind]
    · refine ⟨x, [], ⟨N, fun n hn => ?_⟩, hx, hm⟩
      rw [hp.answer, fuel hv (by simp) hn, hN n hn]
      simp only [problemItems, itemsOf, hx, R.bind]
  · exact absurd h1 hd
  · cases h1; exact absurd h4 (ht d p h2 h3)

/-- C50 does not hold for duplicates, in the domain or in the problem: the request panics. -/
theorem C50_refuted {e : PErr} (hp : ProblemSetting s folder u doc dom) (h : Returns ord dom (some doc) (.err e))
    (hd : Duplicate e) : Answers ord s folder u (.panic .dummyUrl) := by
  have hx := C43_refuted h hd
  obtain ⟨_, N, hN⟩ := h
  refine ⟨N, fun n hn => ?_⟩
  rw [hp.answer, hN n hn]
  rcases verify_err_none (hN n hn) with hv | ⟨ws, hv⟩
  · rw [hv]; simp only [problemItems, hx, R.bind]
  · rw [hv]; simp only [problemItems, itemsOf, hx, R.bind]

omit [Env] in
/-- Instances: a folder with a text that is no HDDL, the problem itself and a domain; the object `o` is used but not
declared. -/
example : @ProblemSetting Env.plain Nat _ (Store.run [] [.didOpen 1 b!"(define (problem q) (domain d)\n (:init (p o)))\n"])
      [b!"x ", b!"(define (problem q) (domain d))\n", b!"(define (domain d) (:predicates (p ?x)))\n"] 1
      b!"(define (problem q) (domain d)\n (:init (p o)))\n" b!"(define (domain d) (:predicates (p ?x)))\n" ∧
    @Returns Env.plain HashOrd.id b!"(define (domain d) (:predicates (p ?x)))\n"
      (some b!"(define (problem q) (domain d)\n (:init (p o)))\n") (.err (.semantic (.undefObject ⟨b!"o", 2⟩))) ∧
    (∀ d p, @Parses Env.plain b!"(define (domain d) (:predicates (p ?x)))\n" (.domain d) →
      @Parses Env.plain b!"(define (problem q) (domain d)\n (:init (p o)))\n" (.problem p) → ¬ TypedForUntyped d p) := by
  refine ⟨@ProblemSetting.mk Env.plain Nat _ _ _ _ _ _ rfl ?_ ⟨[b!"x ", b!"(define (problem q) (domain d))\n"], [], rfl, ?_, ?_⟩,
    @returns_run Env.plain _ _ _ 40 _ (by decide +kernel) (by simp), ?_⟩
  · decide +kernel
  · decide +kernel
  · simp only [List.forall_mem_cons, List.not_mem_nil, false_implies, implies_true, and_true]
    exact ⟨.inr (by decide +kernel), .inl (by decide +kernel)⟩
  · intro d p _ hp
    obtain ⟨a, h1, h2⟩ := @parses_holds b!"(define (problem q) (domain d)\n (:init (p o)))\n" Env.plain 40
      (fun | .problem p => p.objects.isEmpty | _ => false) (by decide +kernel)
    cases @Parses.det Env.plain _ _ _ h1 hp
    rintro ⟨a, q, i, v, w, t, _, _, _, _, _, _, h⟩
    rw [List.isEmpty_iff.mp h2] at h
    generalize some t = ty at h
    cases h with
    | here h => obtain ⟨pre, post, h, _⟩ := h; simp at h
    | outer _ h => cases h

/-- Instances: a problem that is accepted, and one with an object declared twice. -/
example : @Returns Env.plain HashOrd.id b!"(define (domain d) (:predicates (p ?x)))\n"
      (some b!"(define (problem q) (domain d) (:objects o)\n (:init (p o)))\n") (.ok []) ∧
    @Returns Env.plain HashOrd.id b!"(define (domain d) (:predicates (p ?x)))\n"
      (some b!"(define (problem q) (domain d) (:objects o\n o))\n") (.err (.semantic (.dupObject ⟨b!"o", 1, 2⟩))) :=
  ⟨@returns_run Env.plain _ _ _ 40 _ (by decide +kernel) (by simp),
    @returns_run Env.plain _ _ _ 40 _ (by decide +kernel) (by simp)⟩

/-- C50: without a domain in the folder, a problem document that parses is not checked: nothing is reported, whatever it
says. -/
theorem C50_unchecked {p : ProblemAST} (hs : s.get u = some doc) (hp : Parses doc (.problem p))
    (hf : ∀ x ∈ folder, classify x = .ok .problem ∨ classify x = .ok .maybeNotHddl) : Reports ord s folder u [] := by
  have hc := (C17_classify doc).2.1 p hp
  obtain ⟨N, hN⟩ := hp
  refine ⟨N, fun n hn => ?_⟩
  simp only [diagnostic, hs, hc, R.bind, findDomain_none hf, diagnoseProblem, diagnoseDomainPart, hN n hn]

end Verif
