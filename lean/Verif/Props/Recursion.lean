import Verif.Proofs.Kind
import Verif.Proofs.Clash
import Verif.Props.Decomposition

/-! C34 – C38 and C49: the metadata of a domain. -/

namespace Verif

open Spec

variable [Env] {ord ord' : HashOrd} {f : Bytes} {d : DomainAST} {md md' : MetaData}

/-! ### The parts of a run -/

theorem Metadata.graph (h : Metadata ord f md) (hf : Parses f (.domain d)) : ∃ (g : TDG) (ns : List Name) (n : Nat), g.Of d ∧ Verif.Closed d ∧
    NullablesAre ord d ns ∧ (∀ x, x ∈ md.nullables ↔ x ∈ ns) ∧ g.recursionType ord n ns = .ok md.recursion := by
  obtain ⟨ns, rt, h1, rfl, N, hN⟩ := h.parts hf
  obtain ⟨g, hg, h2⟩ := R.bind_ok_iff.mp (hN N (Nat.le_refl _))
  exact ⟨g, ns, N, TDG.new_of hg, TDG.new_ok_iff.mp ⟨g, hg⟩, h1, fun x => mem_arrange, h2⟩

omit [Env] in
theorem resolved_iff : Resolved d ↔ Verif.Closed d := by
  unfold Resolved Verif.Closed TaskName
  simp only [List.forall_mem_cons, List.mem_map]
  refine forall₂_congr fun m _ => and_congr_right fun _ => ⟨fun h s hs => h _ ⟨s, hs, rfl⟩, ?_⟩
  rintro h _ ⟨s, hs, rfl⟩
  exact h s hs

/-! ### C34: cycles -/

/-- C34: the class is "non-recursive" exactly if no task can be decomposed in one or more steps into itself. -/
theorem C34_non_recursive (hf : Parses f (.domain d)) (h : Metadata ord f md) :
    md.recursion = .nonRecursive ↔ ¬ ∃ x, Relation.TransGen (HasSub d) x x := by
  obtain ⟨g, ns, n, hg, hc, _, _, hr⟩ := h.graph hf
  obtain ⟨nulls, _, h1⟩ := TDG.recursionType_kind hg.bounded hr
  have hfound : (∃ x cyc, g.Found x cyc) ↔ ∃ x, Relation.TransGen (HasSub d) x x := by
    rw [TDG.exists_found_iff]
    constructor
    · rintro ⟨i, hi⟩
      obtain ⟨j, hj, _⟩ := Relation.TransGen.head'_iff.mp hi
      obtain ⟨x, y, hx, _, _⟩ := hg.step_names.mp hj
      exact ⟨x, hg.trans_names hx hx hi⟩
    · rintro ⟨x, hx⟩
      obtain ⟨y, hy, _⟩ := Relation.TransGen.head'_iff.mp hx
      obtain ⟨i, hi⟩ := (hasSub_ix hc hy).1
      exact ⟨i, hg.trans_index hc hi hi hx⟩
  rw [← hfound]
  rcases h1 with ⟨h1, h2⟩ | ⟨x, cyc, h2, h3, h4, _⟩
  · exact ⟨fun _ ⟨x, cyc, hh⟩ => h2 x cyc hh, fun _ => h1⟩
  · refine ⟨fun h => ?_, fun h => absurd ⟨x, cyc, h2⟩ h⟩
    rw [h] at h4; cases h4

/-- `t` leads to `u` and back, with a nullable task on both sides. -/
def loopDomain : Bytes := b!"(define (domain d) (:task t :parameters ()) (:task u :parameters ()) (:task e :parameters ())
    (:action a :parameters ())
    (:method m1 :parameters () :task (t) :ordered-subtasks (and (e) (u) (e)))
    (:method m2 :parameters () :task (u) :ordered-subtasks (and (t)))
    (:method m3 :parameters () :task (u) :ordered-subtasks (and (a)))
    (:method m4 :parameters () :task (e) :ordered-subtasks ()))\n"

/-- Two orders of the same domain find different cycles of the same class. -/
example : @Metadata Env.plain HashOrd.id loopDomain
      ⟨.growAndShrink [(b!"u", b!"m2"), (b!"t", b!"m1"), (b!"u", b!"m1")], [b!"e"], [], 1, 3, 4⟩ ∧
    @Metadata Env.plain HashOrd.rev loopDomain
      ⟨.growAndShrink [(b!"t", b!"m1"), (b!"u", b!"m2"), (b!"t", b!"m2")], [b!"e"], [], 1, 3, 4⟩ :=
  ⟨@metadata_run Env.plain _ _ 80 _ (by decide +kernel), @metadata_run Env.plain _ _ 80 _ (by decide +kernel)⟩

/-- A domain without a cycle. -/
example : @Metadata Env.plain HashOrd.id plainDomain ⟨.nonRecursive, [b!"t", b!"w"], [], 1, 4, 3⟩ :=
  @metadata_run Env.plain _ _ 80 _ (by decide +kernel)

/-! ### C37: termination -/

omit [Env] in
theorem unit_nil {g : TDG} (hg : g.Of d) (h : d.tasks = []) : g.unit0 = [] := by
  unfold TDG.unit0
  rw [hg.tasks]
  unfold tdgTasks
  rw [h]
  simp

/-- The conditions under which the metadata is computed, exactly: for every domain file and every order. -/
theorem C37_returns_iff (hf : Parses f (.domain d)) : (∃ md, Metadata ord f md) ↔ Resolved d ∧ d.tasks ≠ [] ∧
    ∀ m ∈ d.methods, ∀ s ∈ m.tn.subtasks, Relation.ReflTransGen (HasSub d) s.task.name m.task.name →
      Tractable m.tn s.task.name := by
  rw [resolved_iff]
  constructor
  · rintro ⟨md, h⟩
    obtain ⟨ns, rt, h1, rfl, N, hN⟩ := h.parts hf
    obtain ⟨g, n, l, hg, hof, hl, rfl⟩ := h1.loop
    have hc := TDG.new_ok_iff.mp ⟨g, hg⟩
    refine ⟨hc, fun hne => ?_, ?_⟩
    · rw [TDG.nullLoop_hangs (unit_nil hof hne) rfl] at hl
      cases hl
    · refine (hof.recursionType_iff (ord := ord) (ns := g.names l) hc fun x hx => ?_).mp ⟨N, rt, fun n hn => ?_⟩
      · obtain ⟨i, _, hi⟩ := TDG.mem_names.mp hx
        unfold TDG.Is at hi
        rw [hof.tasks] at hi
        by_contra hno
        rw [← index_none, taskIndexLast_none] at hno
        obtain ⟨e, he, rfl⟩ := Option.map_eq_some_iff.mp hi
        exact hno e (List.mem_of_getElem? he) rfl
      · have := hN n hn
        rwa [hg, R.bind_ok] at this
  · rintro ⟨hc, hne, ht⟩
    obtain ⟨g, hg⟩ := (TDG.new_ok_iff (ord := ord)).mpr hc
    have hof := TDG.new_of hg
    obtain ⟨l, hl⟩ := hof.nullables_term hne
    obtain ⟨N, rt, hN⟩ := (hof.recursionType_iff (ord := ord) (ns := g.names l) hc fun x hx => by
      obtain ⟨i, _, hi⟩ := TDG.mem_names.mp hx
      unfold TDG.Is at hi
      rw [hof.tasks] at hi
      by_contra hno
      rw [← index_none, taskIndexLast_none] at hno
      obtain ⟨e, he, rfl⟩ := Option.map_eq_some_iff.mp hi
      exact hno e (List.mem_of_getElem? he) rfl).mpr ht
    obtain ⟨M, hM⟩ := hf
    refine ⟨⟨rt, arrange ord [20] (g.names l), [], d.actions.length, d.tasks.length, d.methods.length⟩,
      max g.enough (max N M), fun n hn => ?_⟩
    unfold getMetadata
    rw [hM n (by omega), R.bind_ok]
    simp only [hg, R.bind_ok, TDG.nullables]
    have := hl n (by omega)
    unfold TDG.nullInit at this
    rw [this]
    simp only [R.bind_ok]
    rw [hN n (by omega), R.bind_ok]

/-- C37, the part that holds: `get_metadata` returns for every accepted domain with a compound task whose recursive
methods are sequential.  Missing: domains without compound tasks and recursive methods with partial orders, see
`C37_refuted`; the exact condition is `C37_returns_iff`. -/
theorem C37_returns_partial (hf : Parses f (.domain d)) (ha : ∃ ws, Returns ord f none (.ok ws)) (hne : d.tasks ≠ [])
    (hseq : ∀ m ∈ d.methods, ∀ s ∈ m.tn.subtasks, Relation.ReflTransGen (HasSub d) s.task.name m.task.name →
      Sequential m.tn) : ∃ md, Metadata ord' f md := by
  have hd := (C23_acceptance hf).mp ha
  refine (C37_returns_iff hf).mpr ⟨resolved_iff.mpr (DomainOk.closed hd), hne, fun m hm s hs hr => ?_⟩
  intro os hos
  rcases hseq m hm s hs hr with h | h | ⟨h, ho⟩
  · rw [h] at hs; cases hs
  · rw [h] at hos; cases hos
  · rw [ho] at hos
    cases hos
    have hno : ∀ i j, ¬ Before m.tn i j := fun i j hb => by simp [Before, ho] at hb
    refine ⟨by rw [h]; rfl, fun i j k _ hb => absurd hb (hno i j), fun i j _ ht => ?_⟩
    obtain ⟨k, hk, _⟩ := Relation.TransGen.head'_iff.mp ht
    exact absurd hk (hno i k)

/-- `get_metadata` never returns on any accepted domain without compound tasks, in any order. -/
theorem C37_hangs (hf : Parses f (.domain d)) (ha : ∃ ws, Returns ord f none (.ok ws)) (hne : d.tasks = []) :
    ∃ N, ∀ n, N ≤ n → getMetadata ord' n f = .timeout := by
  have hd := (C23_acceptance hf).mp ha
  obtain ⟨g, hg⟩ := (TDG.new_ok_iff (ord := ord')).mpr (DomainOk.closed hd)
  obtain ⟨M, hM⟩ := hf
  refine ⟨M, fun n hn => ?_⟩
  unfold getMetadata
  rw [hM n hn, R.bind_ok]
  simp only [hg, R.bind_ok, TDG.nullables]
  rw [TDG.nullLoop_hangs (unit_nil (TDG.new_of hg) hne) rfl]
  rfl

omit [Env] in
/-- `t` leads to itself and an action, in any order. -/
def unorderedDomain : Bytes := b!"(define (domain d) (:task t :parameters ()) (:action a :parameters ())
    (:method m1 :parameters () :task (t) :subtasks (and (t) (a))))\n"

omit [Env] in
/-- C37 does not hold in general: both files are accepted; on the first, `get_metadata` runs forever, on the second it
panics, and this is so in every order. -/
theorem C37_refuted :
    (@Returns Env.plain HashOrd.id b!"(define (domain d) (:action a :parameters ()))\n" none (.ok []) ∧
      ∃ N, ∀ n, N ≤ n → @getMetadata Env.plain ord n b!"(define (domain d) (:action a :parameters ()))\n" = .timeout) ∧
    @Returns Env.plain HashOrd.id unorderedDomain none (.ok []) ∧ (¬ ∃ md, @Metadata Env.plain ord unorderedDomain md) ∧
    ∃ N, ∀ n, N ≤ n → @getMetadata Env.plain HashOrd.id n unorderedDomain = .panic .tdgAssert := by
  have hr : @Returns Env.plain HashOrd.id b!"(define (domain d) (:action a :parameters ()))\n" none (.ok []) :=
    @returns_run Env.plain _ _ _ 60 _ (by decide +kernel) (by simp)
  have hp : @getMetadata Env.plain HashOrd.id 60 unorderedDomain = .panic .tdgAssert := by decide +kernel
  have hp' : ∀ n, 60 ≤ n → @getMetadata Env.plain HashOrd.id n unorderedDomain = .panic .tdgAssert := fun n hn => by
    rw [(@getMetadata_le Env.plain _ _ _ hn _).eq (by rw [hp]; simp), hp]
  refine ⟨⟨hr, ?_⟩, @returns_run Env.plain _ _ _ 60 _ (by decide +kernel) (by simp), fun hm => ?_, 60, hp'⟩
  · obtain ⟨a, h1, h2⟩ := @parses_holds b!"(define (domain d) (:action a :parameters ()))\n" Env.plain 60
      (shapeIs [] [b!"a"] []) (by decide +kernel)
    obtain ⟨d, rfl, h3, _⟩ := shape_of h2
    exact @C37_hangs Env.plain HashOrd.id ord _ d h1 ⟨_, hr⟩ (List.map_eq_nil_iff.mp h3)
  · obtain ⟨a, h1, h2⟩ := @parses_holds unorderedDomain Env.plain 60
      (shapeIs [b!"t"] [b!"a"] [(b!"t", [b!"t", b!"a"])]) (by decide +kernel)
    obtain ⟨d, rfl, _⟩ := shape_of h2
    rw [@C37_returns_iff Env.plain ord _ d h1, ← @C37_returns_iff Env.plain HashOrd.id _ d h1] at hm
    obtain ⟨md, N, hN⟩ := hm
    have := hN (max N 60) (by omega)
    rw [hp' _ (by omega)] at this
    cases this

/-! ### C35: search order -/

/-- C35: whatever the order in which cycles are found, the class is the same for the same set of nullable tasks, and
the metadata is computed in one order exactly if it is in the other. -/
theorem C35_search_order (hf : Parses f (.domain d)) :
    ((∃ md, Metadata ord f md) ↔ ∃ md, Metadata ord' f md) ∧
    ∀ md md', Metadata ord f md → Metadata ord' f md' → (∀ x, x ∈ md.nullables ↔ x ∈ md'.nullables) →
      md.recursion.cls = md'.recursion.cls := by
  refine ⟨by rw [C37_returns_iff hf, C37_returns_iff hf], fun md md' h h' hn => ?_⟩
  obtain ⟨g, ns, n, hg, _, _, h1, hr⟩ := h.graph hf
  obtain ⟨g', ns', n', hg', _, _, h1', hr'⟩ := h'.graph hf
  exact hg.cls_same hg' (fun x => by rw [← h1, ← h1', hn]) hr hr'

/-- With exact nullable tasks the class does not depend on the order at all. -/
theorem C35_exact_nullables (hf : Parses f (.domain d)) (ha : ∃ ws, Returns ord f none (.ok ws)) (hc : NoClash d)
    (hx : Unmixed d) (h : Metadata ord f md) (h' : Metadata ord' f md') : md.recursion.cls = md'.recursion.cls := by
  have hd := (C23_acceptance hf).mp ha
  refine (C35_search_order hf).2 md md' h h' fun x => ?_
  rw [(C31_nullables_partial hf ha hc md h).2.2 hx,
    (C31_nullables_partial hf ((C23_acceptance hf).mpr hd) hc md' h').2.2 hx]

/-! ### C36: the reported cycle -/

omit [Env] in
theorem showPairs_snoc (x : Name × Name) : ∀ l : List (Name × Name), showPairs (l ++ [x]) =
    l.flatMap (fun p => [.s "[", .n p.1, .s "]-(", .n p.2, .s ")->"]) ++ [.s "[", .n x.1, .s "]"]
  | [] => rfl
  | p :: l => by
    have ih := showPairs_snoc x l
    cases hl : l ++ [x] with
    | nil => simp at hl
    | cons a r =>
      rw [hl] at ih
      rw [List.cons_append, hl, showPairs, ih, List.flatMap_cons, List.append_assoc]
      simp

omit [Env] in
theorem show_cycle {rt : RecType} {l : List (Name × Name)} (h : rt.cycle = some l) :
    rt.show = [.s rt.cls.heading, .s "\tCycle: "] ++ showPairs l := by
  cases rt <;> cases h <;> rfl

omit [Env] in
theorem stands_names {g : TDG} (hg : g.Of d) {x : Nat} {cyc : List (Nat × Nat)} {ms : List Method} (h : Stands d x cyc ms) :
    showPairs (g.cycleNames cyc) = cycleText ms := by
  obtain ⟨c, t, m, h1, hl, rfl, m0, h2, h3⟩ := h
  have hn : g.cycleNames (c ++ [(x, m)]) = ms.map (fun m => (m.task.name, m.name.name)) ++ [(m0.task.name, (g.method m).1)] := by
    unfold TDG.cycleNames
    rw [List.map_append, List.map_cons, List.map_nil, h3.taskName hg]
    congr 1
    clear h2 hl
    induction h1 with
    | nil => rfl
    | cons hr _ ih => rw [List.map_cons, List.map_cons, ih, hr.2.taskName hg, hr.method hg]
  rw [hn, showPairs_snoc, cycleText, List.flatMap_map, List.take_one, h2]
  simp

/-- C36: if the class is not "non-recursive", the text shows a heading and a cycle of methods of the domain: each method
has the listed task, contains the next listed task, and the last one contains the first task, which is listed again. -/
theorem C36_cycle (hf : Parses f (.domain d)) (h : Metadata ord f md) :
    md.recursion.show = [.s "Non-recursive"] ∨
    ∃ c, Cycle d c ∧ md.recursion.show = [.s md.recursion.cls.heading, .s "\tCycle: "] ++ cycleText c := by
  obtain ⟨g, ns, n, hg, hc, _, _, hr⟩ := h.graph hf
  obtain ⟨nulls, _, h1⟩ := TDG.recursionType_kind hg.bounded hr
  rcases h1 with ⟨h1, _⟩ | ⟨x, cyc, h2, _, h4, _⟩
  · rw [h1]; exact .inl rfl
  · obtain ⟨ms, h5, h6⟩ := found_stands hg h2
    refine .inr ⟨ms, h5, ?_⟩
    rw [show_cycle h4, stands_names hg h6]

/-! ### C38: counts -/

omit [Env] in
theorem count_flatMap {α β : Type} {f : α → List β} {q : α → Bool} (h : ∀ a, (f a).length = if q a then 1 else 0) :
    ∀ l : List α, (l.flatMap f).length = l.countP q
  | [] => rfl
  | a :: l => by
    rw [List.flatMap_cons, List.length_append, count_flatMap h l, h, List.countP_cons, Nat.add_comm]

/-- C38, the part that holds: the counts are the numbers of blocks of a well-formed domain file, provided that no block
but the last is of a form whose closing parenthesis the parser leaves unread.  Missing: `C38_refuted`. -/
theorem C38_counts_partial (name : Name) (bs : List (DBlock × Ending)) (ts more : List Tk)
    (h : DomainFile name bs ts) (hl : LastOnly bs) (hw : Written (ts ++ more) 1 f) (hm : Metadata ord f md) :
    md.nActions = bs.countP (·.1.isAction) ∧ md.nTasks = bs.countP (·.1.isTask) ∧ md.nMethods = bs.countP (·.1.isMethod) := by
  obtain ⟨ns, rt, _, rfl, _⟩ := hm.parts (C13_domain_partial name bs ts more f h hl hw)
  have hc : ∀ (q : DBlock → Bool), (bs.map (·.1)).countP q = bs.countP (fun b => q b.1) := fun q => by
    rw [List.countP_map]; rfl
  refine ⟨?_, ?_, ?_⟩
  · exact (count_flatMap (q := DBlock.isAction) (fun a => by cases a <;> rfl) _).trans (hc _)
  · exact (count_flatMap (q := DBlock.isTask) (fun a => by cases a <;> rfl) _).trans (hc _)
  · exact (count_flatMap (q := DBlock.isMethod) (fun a => by cases a <;> rfl) _).trans (hc _)

/-- For every file that parses, the counts are the numbers of declarations in the syntax tree. -/
theorem C38_counts_tree (hf : Parses f (.domain d)) (hm : Metadata ord f md) :
    md.nActions = d.actions.length ∧ md.nTasks = d.tasks.length ∧ md.nMethods = d.methods.length := by
  obtain ⟨ns, rt, _, rfl, _⟩ := hm.parts hf
  exact ⟨rfl, rfl, rfl⟩

/-- C38 is false for every well-formed domain file in which an action follows a method whose closing parenthesis the
parser leaves unread: the action is not counted. -/
theorem C38_refuted (name : Name) (bs bs' : List (DBlock × Ending)) (m : Method) (e : Ending) (ts more : List Tk)
    (hc : ∀ b ∈ bs, b.2 = .closed) (he : e ≠ .closed) (h : DomainFile name (bs ++ (.method m, e) :: bs') ts)
    (hw : Written (ts ++ more) 1 f) (ha : ∃ b ∈ bs', b.1.isAction) (hm : Metadata ord f md) :
    md.nActions < (bs ++ (.method m, e) :: bs').countP (·.1.isAction) := by
  obtain ⟨ns, rt, _, rfl, _⟩ := hm.parts (C16_refuted name bs bs' m e ts more f hc he h hw)
  have : (domainOf name (bs.map (·.1) ++ [.method m])).actions.length = bs.countP (·.1.isAction) := by
    refine (count_flatMap (q := DBlock.isAction) (fun a => by cases a <;> rfl) _).trans ?_
    rw [List.countP_append, List.countP_map]
    rfl
  show (domainOf name (bs.map (·.1) ++ [.method m])).actions.length < _
  rw [this, List.countP_append, List.countP_cons]
  have := List.countP_pos_iff (l := bs').mpr ha
  omega

/-- Such a file, with one action that is not counted. -/
example : @Metadata Env.plain HashOrd.id b!"(define (domain d) (:task t :parameters ())
    (:method m :parameters () :task (t) :precondition ()) (:action a :parameters ()))\n"
    ⟨.nonRecursive, [b!"t"], [], 0, 1, 1⟩ := @metadata_run Env.plain _ _ 80 _ (by decide +kernel)

/-! ### C49: the class -/

omit [Env] in
theorem unambiguous (hd : DomainOk d) (hc : NoClash d) (x : Name) : ¬ Ambiguous d x := by
  rw [ambiguous_iff]
  rintro ⟨i, j, hij, h1, h2⟩
  exact absurd ((uniqueNames hd hc).inj h1 h2) (by omega)

/-- What is reported for all domains, whether accepted or not, also with partial orders and wrongly reported nullable
tasks: the class is the highest of the classes of its cycles and the text shows a cycle of this class, where the tasks
before and after a step of the cycle are what the analyser takes for these, and nullable are the tasks that it reports to
be. -/
theorem C49_exact (hf : Parses f (.domain d)) (h : Metadata ord f md) :
    ClassBy d (TakenEmptyPrefix d (· ∈ md.nullables)) TakenEmptySuffix (TakenNullSuffix (· ∈ md.nullables)) md.recursion.cls ∧
    (md.recursion.cls ≠ .none → ∃ c, Cycle d c ∧
      ShowsBy (TakenEmptyPrefix d (· ∈ md.nullables)) TakenEmptySuffix (TakenNullSuffix (· ∈ md.nullables)) c md.recursion.cls ∧
      md.recursion.show = [.s md.recursion.cls.heading, .s "\tCycle: "] ++ cycleText c) := by
  obtain ⟨g, ns, n, hg, hcl, _, h1, hr⟩ := h.graph hf
  have hns : (fun x => x ∈ md.nullables) = fun x => x ∈ ns := funext fun x => propext (h1 x)
  rw [hns]
  obtain ⟨h2, h3⟩ := hg.class_by hcl hr
  refine ⟨h2, fun hne => ?_⟩
  obtain ⟨l, hl⟩ : ∃ l, md.recursion.cycle = some l := by
    cases hrt : md.recursion with
    | nonRecursive => rw [hrt] at hne; exact absurd rfl hne
    | _ => exact ⟨_, rfl⟩
  obtain ⟨x, cyc, ms, rfl, h4, h5, h6⟩ := h3 l hl
  exact ⟨ms, h5, h6, by rw [show_cycle hl, stands_names hg h4]⟩

/-- If the class reported for an accepted domain is "non-recursive" or "recursive", then on every cycle something that is
not erasable comes before one of the steps, whatever is wrong about the nullable tasks reported; and this is not nullable
if no compound task has the name of an action. -/
theorem C49_plain (hf : Parses f (.domain d)) (ha : ∃ ws, Returns ord f none (.ok ws)) (h : Metadata ord f md)
    (hk : md.recursion.cls = .none ∨ md.recursion.cls = .plain) (c : List Method) (hcy : Cycle d c) :
    ∃ p ∈ steps c, p.1.tn.orderings = .total ∧ ∃ s ∈ Preceding p.1 p.2, ¬ Erasable d s.task.name ∧
      (NoClash d → ¬ Nullable d s.task.name) := by
  obtain ⟨h1, _⟩ := C49_exact hf h
  have h2 : ¬ TakenEmptyPrefix d (· ∈ md.nullables) c := fun h3 => by
    rcases hk with hk | hk <;> rw [hk] at h1
    · exact h1 ⟨c, hcy⟩
    · exact h1.1 ⟨c, hcy, h3⟩
  unfold TakenEmptyPrefix at h2
  push Not at h2
  obtain ⟨p, hp, _, y, hy, hn⟩ := h2
  unfold TakenBefore at hy
  cases ho : p.1.tn.orderings with
  | partial_ os => rw [ho] at hy; cases hy
  | total =>
    rw [ho] at hy
    obtain ⟨s, hs, rfl⟩ := List.mem_map.mp hy
    have hd := (C23_acceptance hf).mp ha
    obtain ⟨ns, rt, h5, rfl, _⟩ := h.parts hf
    have he : ¬ Erasable d s.task.name := fun he => hn (mem_arrange.mpr (nullables_erasable hd h5 he))
    exact ⟨p, hp, ho, s, hs, he, fun hc hnull => he ((erasable_iff hd hc).mpr hnull)⟩

/-- C49, the part that holds: for an accepted domain with sequential methods in which no compound task has the name of
an action and the nullable tasks are reported correctly, the class is the highest of the classes of its cycles and the
text shows a cycle of this class, where a step counts as having an empty prefix also if its prefix starts with the first
task of the cycle.  If this makes no difference, the class is the true one.  Missing: see `C49_refuted`. -/
theorem C49_class_partial (hf : Parses f (.domain d)) (ha : ∃ ws, Returns ord f none (.ok ws)) (hc : NoClash d)
    (hseq : ∀ m ∈ d.methods, Sequential m.tn) (h : Metadata ord f md) (hx : ∀ x, x ∈ md.nullables ↔ Nullable d x) :
    ClassIs d (LooselyNullBefore d) md.recursion.cls ∧
    (md.recursion.cls ≠ .none → ∃ c, Cycle d c ∧ Shows d (LooselyNullBefore d) c md.recursion.cls ∧
      md.recursion.show = [.s md.recursion.cls.heading, .s "\tCycle: "] ++ cycleText c) ∧
    ((∀ c, Cycle d c → LooselyNullBefore d c → NullBefore d c) → ClassIs d (NullBefore d) md.recursion.cls) := by
  have hd := (C23_acceptance hf).mp ha
  obtain ⟨g, ns, n, hg, hcl, _, h1, hr⟩ := h.graph hf
  obtain ⟨h2, h3⟩ := hg.class_is hcl (unambiguous hd hc) hseq (fun x => by rw [← h1, hx]) hr
  refine ⟨h2, fun hne => ?_, fun hsame => ?_⟩
  · obtain ⟨l, hl⟩ : ∃ l, md.recursion.cycle = some l := by
      cases hrt : md.recursion with
      | nonRecursive => rw [hrt] at hne; exact absurd rfl hne
      | _ => exact ⟨_, rfl⟩
    obtain ⟨x, cyc, ms, rfl, h4, h5, h6⟩ := h3 l hl
    exact ⟨ms, h5, h6, by rw [show_cycle hl, stands_names hg h4]⟩
  · have hiff : ∀ c, Cycle d c → (LooselyNullBefore d c ↔ NullBefore d c) := fun c hcy =>
      ⟨hsame c hcy, fun h p hp => .inr (h p hp)⟩
    exact (classBy_congr hiff (fun _ _ => Iff.rfl) (fun _ _ => Iff.rfl) _).mp h2

/-- All methods have total orders. -/
def allTotal : AST → Bool
  | .domain d => d.methods.all fun m => m.tn.orderings = .total
  | .problem _ => false

omit [Env] in
/-- A domain that meets the conditions, with a cycle with nullable tasks before and after. -/
theorem loop_instance : ∃ d md, @Parses Env.plain loopDomain (.domain d) ∧ NoClash d ∧ (∀ m ∈ d.methods, Sequential m.tn) ∧
    (∃ ws, @Returns Env.plain HashOrd.id loopDomain none (.ok ws)) ∧ @Metadata Env.plain HashOrd.id loopDomain md ∧
    (∀ x, x ∈ md.nullables ↔ Nullable d x) ∧ md.recursion.cls = .growAndShrink := by
  obtain ⟨a, h1, h2⟩ := @parses_holds loopDomain Env.plain 80
    (fun a => shapeIs [b!"t", b!"u", b!"e"] [b!"a"]
      [(b!"t", [b!"e", b!"u", b!"e"]), (b!"u", [b!"t"]), (b!"u", [b!"a"]), (b!"e", [])] a && allTotal a) (by decide +kernel)
  rw [Bool.and_eq_true] at h2
  obtain ⟨d, rfl, h3, h4, h5⟩ := shape_of h2.1
  have he : Nullable d b!"e" := nullable_shape h5 (l := []) (by simp) (by simp)
  refine ⟨d, ⟨.growAndShrink [(b!"u", b!"m2"), (b!"t", b!"m1"), (b!"u", b!"m1")], [b!"e"], [], 1, 3, 4⟩, h1,
    noClash_shape h3 h4 (by decide), fun m hm => .inr (.inl ?_),
    ⟨_, @returns_run Env.plain _ _ _ 80 (.ok []) (by decide +kernel) (by simp)⟩,
    @metadata_run Env.plain _ _ 80 _ (by decide +kernel), fun x => ?_, rfl⟩
  · simpa using List.all_eq_true.mp h2.2 m hm
  · rw [List.mem_singleton]
    refine ⟨fun h => h ▸ he, fun h => ?_⟩
    cases h with
    | @mk m hm hs =>
      have := methods_shape h5 hm
      have hno := not_nullable h5 [b!"t", b!"u", b!"a"] (by decide)
      by_contra hne
      refine hno m.task.name ?_ (.mk hm hs)
      simp only [List.mem_cons, Prod.mk.injEq, List.not_mem_nil, or_false] at this
      rcases this with h | h | h | h <;> rw [h.1] at hne ⊢
      all_goals first | decide | exact absurd rfl hne

omit [Env] in
theorem context_names {m m' : Method} {l : List Name} (h : m.tn.subtasks.map (·.task.name) = l) :
    (Preceding m m').map (·.task.name) = l.takeWhile (· ≠ m'.task.name) ∧
    (Following m m').map (·.task.name) = (l.dropWhile (· ≠ m'.task.name)).tail := by
  subst h
  unfold Preceding Following
  rw [List.takeWhile_map, List.dropWhile_map, List.map_tail]
  exact ⟨rfl, rfl⟩

/-- `t` leads to an action and itself after it, with labels and a constraint. -/
def labelledDomain : Bytes := b!"(define (domain d) (:task t :parameters ()) (:action a :parameters ())
    (:method m1 :parameters () :task (t) :subtasks (and (i (a)) (j (t))) :ordering (< i j)))\n"

/-- The same, with ordered subtasks. -/
def orderedDomain : Bytes := b!"(define (domain d) (:task t :parameters ()) (:action a :parameters ())
    (:method m1 :parameters () :task (t) :ordered-subtasks (and (i (a)) (j (t)))))\n"

omit [Env] in
/-- The class computed in one order is computed in all, if the shape of the domain is simple enough. -/
theorem class_any_order {f : Bytes} {n : Nat} {d : DomainAST} {md : MetaData} (hf : @Parses Env.plain f (.domain d)) (hc : NoClash d)
    (hx : Unmixed d) (ha : @verify Env.plain HashOrd.id n f none = .ok []) (h : @getMetadata Env.plain HashOrd.id n f = .ok md) :
    ∃ md', @Metadata Env.plain ord f md' ∧ md'.recursion.cls = md.recursion.cls := by
  have hm := @metadata_run Env.plain _ _ n _ h
  obtain ⟨md', hm'⟩ := (@C35_search_order Env.plain _ ord _ _ hf).1.mp ⟨md, hm⟩
  exact ⟨md', hm', (@C35_exact_nullables Env.plain _ ord _ _ _ _ hf
    ⟨_, @returns_run Env.plain _ _ _ n _ ha (by simp)⟩ hc hx hm hm').symm⟩

omit [Env] in
/-- The class depends on how the order is written: with a constraint the action in front of the recursive task is not
seen and the domain is reported as "empty recursion", in each order. -/
theorem C49_order_refuted :
    (∃ md, @Metadata Env.plain ord orderedDomain md ∧ md.recursion.cls = .plain) ∧
    ∃ md, @Metadata Env.plain ord labelledDomain md ∧ md.recursion.cls = .empty := by
  have hs : ∀ {d : DomainAST}, d.methods.map (fun m => (m.task.name, m.tn.subtasks.map (·.task.name))) = [(b!"t", [b!"a", b!"t"])] →
      Unmixed d := fun {d} h5 m hm ⟨s, hs, hn⟩ => by
    have hno := not_nullable h5 [b!"t", b!"a"] (by decide)
    have h6 := methods_shape h5 hm
    simp only [List.mem_cons, Prod.mk.injEq, List.not_mem_nil, or_false] at h6
    refine absurd hn (hno _ ?_)
    rw [List.mem_cons, List.mem_singleton]
    have := List.mem_map_of_mem (f := fun s : Subtask => s.task.name) hs
    rw [h6.2] at this
    simpa [or_comm] using this
  constructor
  · obtain ⟨a, h1, h2⟩ := @parses_holds orderedDomain Env.plain 80
      (shapeIs [b!"t"] [b!"a"] [(b!"t", [b!"a", b!"t"])]) (by decide +kernel)
    obtain ⟨d, rfl, h3, h4, h5⟩ := shape_of h2
    exact class_any_order (n := 80) (md := ⟨.recursive [(b!"t", b!"m1"), (b!"t", b!"m1")], [], [], 1, 1, 1⟩) h1
      (noClash_shape h3 h4 (by decide)) (hs h5) (by decide +kernel) (by decide +kernel)
  · obtain ⟨a, h1, h2⟩ := @parses_holds labelledDomain Env.plain 80
      (shapeIs [b!"t"] [b!"a"] [(b!"t", [b!"a", b!"t"])]) (by decide +kernel)
    obtain ⟨d, rfl, h3, h4, h5⟩ := shape_of h2
    exact class_any_order (n := 80) (md := ⟨.empty [(b!"t", b!"m1"), (b!"t", b!"m1")], [], [], 1, 1, 1⟩) h1
      (noClash_shape h3 h4 (by decide)) (hs h5) (by decide +kernel) (by decide +kernel)

omit [Env] in
/-- Both files meet the conditions of `C49_exact`, and the first one those of `C49_plain`. -/
example : (∃ d md, @Parses Env.plain orderedDomain (.domain d) ∧ NoClash d ∧ (∃ ws, @Returns Env.plain HashOrd.id orderedDomain none (.ok ws)) ∧
      @Metadata Env.plain HashOrd.id orderedDomain md ∧ md.recursion.cls = .plain) ∧
    ∃ d md, @Parses Env.plain labelledDomain (.domain d) ∧ NoClash d ∧ (∃ ws, @Returns Env.plain HashOrd.id labelledDomain none (.ok ws)) ∧
      @Metadata Env.plain HashOrd.id labelledDomain md := by
  constructor
  · obtain ⟨a, h1, h2⟩ := @parses_holds orderedDomain Env.plain 80
      (shapeIs [b!"t"] [b!"a"] [(b!"t", [b!"a", b!"t"])]) (by decide +kernel)
    obtain ⟨d, rfl, h3, h4, h5⟩ := shape_of h2
    exact ⟨d, ⟨.recursive [(b!"t", b!"m1"), (b!"t", b!"m1")], [], [], 1, 1, 1⟩, h1, noClash_shape h3 h4 (by decide),
      ⟨_, @returns_run Env.plain _ _ _ 80 (.ok []) (by decide +kernel) (by simp)⟩,
      @metadata_run Env.plain _ _ 80 _ (by decide +kernel), rfl⟩
  · obtain ⟨a, h1, h2⟩ := @parses_holds labelledDomain Env.plain 80
      (shapeIs [b!"t"] [b!"a"] [(b!"t", [b!"a", b!"t"])]) (by decide +kernel)
    obtain ⟨d, rfl, h3, h4, h5⟩ := shape_of h2
    exact ⟨d, ⟨.empty [(b!"t", b!"m1"), (b!"t", b!"m1")], [], [], 1, 1, 1⟩, h1, noClash_shape h3 h4 (by decide),
      ⟨_, @returns_run Env.plain _ _ _ 80 (.ok []) (by decide +kernel) (by simp)⟩,
      @metadata_run Env.plain _ _ 80 _ (by decide +kernel)⟩

/-- `x` leads to itself, an action and `y`; `y` leads to `x`. -/
def prefixDomain : Bytes := b!"(define (domain d) (:task x :parameters ()) (:task y :parameters ()) (:action a :parameters ())
    (:method m1 :parameters () :task (x) :ordered-subtasks (and (x) (a) (y)))
    (:method m2 :parameters () :task (y) :ordered-subtasks (and (x))))\n"

omit [Env] in
/-- C49 does not hold in general: all conditions of `C49_class_partial` are met and the class reported is "empty
recursion", although no cycle has only nullable tasks before and nothing after. -/
theorem C49_refuted : ∃ d md, @Parses Env.plain prefixDomain (.domain d) ∧ NoClash d ∧ (∀ m ∈ d.methods, Sequential m.tn) ∧
    (∃ ws, @Returns Env.plain HashOrd.id prefixDomain none (.ok ws)) ∧ @Metadata Env.plain HashOrd.id prefixDomain md ∧
    (∀ x, x ∈ md.nullables ↔ Nullable d x) ∧ md.recursion.cls = .empty ∧ ¬ ClassIs d (NullBefore d) .empty := by
  obtain ⟨a, h1, h2⟩ := @parses_holds prefixDomain Env.plain 80
    (fun a => shapeIs [b!"x", b!"y"] [b!"a"] [(b!"x", [b!"x", b!"a", b!"y"]), (b!"y", [b!"x"])] a && allTotal a)
    (by decide +kernel)
  rw [Bool.and_eq_true] at h2
  obtain ⟨d, rfl, h3, h4, h5⟩ := shape_of h2.1
  have hno := not_nullable h5 [b!"x", b!"y", b!"a"] (by decide)
  refine ⟨d, ⟨.empty [(b!"x", b!"m1"), (b!"y", b!"m2"), (b!"x", b!"m2")], [], [], 1, 2, 2⟩, h1,
    noClash_shape h3 h4 (by decide), fun m hm => .inr (.inl ?_),
    ⟨_, @returns_run Env.plain _ _ _ 80 (.ok []) (by decide +kernel) (by simp)⟩,
    @metadata_run Env.plain _ _ 80 _ (by decide +kernel), fun x => ?_, rfl, ?_⟩
  · simpa using List.all_eq_true.mp h2.2 m hm
  · refine ⟨(fun h => nomatch h), fun h => ?_⟩
    cases h with
    | @mk m hm hs =>
      have := methods_shape h5 hm
      refine absurd (.mk hm hs) (hno m.task.name ?_)
      simp only [List.mem_cons, Prod.mk.injEq, List.not_mem_nil, or_false] at this
      rcases this with h | h <;> rw [h.1] <;> decide
  · rintro ⟨_, c, hcy, hpre, hpost⟩
    -- no step starts with a method for `x`
    have hstep : ∀ p ∈ steps c, p.1.task.name = b!"y" ∧ p.2.task.name = b!"x" := by
      intro p hp
      obtain ⟨hm, hm', s, hs, hs'⟩ := steps_links hcy p hp
      have h6 := methods_shape h5 hm
      have hs2 : p.2.task.name ∈ p.1.tn.subtasks.map (·.task.name) := hs' ▸ List.mem_map.mpr ⟨s, hs, rfl⟩
      simp only [List.mem_cons, Prod.mk.injEq, List.not_mem_nil, or_false] at h6
      rcases h6 with ⟨_, h6⟩ | ⟨h6, h7⟩
      · exfalso
        obtain ⟨c1, c2⟩ := context_names (m' := p.2) h6
        rw [hpost p hp] at c2
        rw [h6] at hs2
        simp only [List.mem_cons, List.not_mem_nil, or_false] at hs2
        rcases hs2 with h | h | h
        · rw [h] at c2; simp at c2
        · rw [h] at c2; revert c2; decide
        · rw [h] at c1
          have : b!"a" ∈ (Preceding p.1 p.2).map (·.task.name) := by rw [c1]; decide
          obtain ⟨s, hs, hn⟩ := List.mem_map.mp this
          exact hno b!"a" (by decide) (hn ▸ hpre p hp s hs)
      · rw [h7, List.mem_singleton] at hs2
        exact ⟨h6, hs2⟩
    -- but the second method of a step starts a step
    obtain ⟨m, l, rfl⟩ := List.exists_cons_of_ne_nil hcy.ne
    have hall : ∀ m' ∈ m :: l, m'.task.name = b!"y" := by
      intro m' hm'
      obtain ⟨i, hi, rfl⟩ := List.mem_iff_getElem.mp hm'
      have hlen : i < ((m :: l).tail ++ (m :: l).take 1).length := by simpa using hi
      have : ((m :: l)[i], ((m :: l).tail ++ (m :: l).take 1)[i]) ∈ steps (m :: l) := by
        unfold steps
        rw [List.mem_iff_getElem]
        exact ⟨i, by simpa using hi, by simp⟩
      exact (hstep _ this).1
    have hx : ∃ p, p ∈ steps (m :: l) := by
      cases l with
      | nil => exact ⟨(m, m), by simp [steps]⟩
      | cons m2 l => exact ⟨(m, m2), by simp [steps]⟩
    obtain ⟨p, hp⟩ := hx
    have h6 := (hstep p hp).2
    have h7 := hall p.2 (by
      rcases List.mem_append.mp (List.of_mem_zip hp).2 with h | h
      · exact List.mem_of_mem_tail h
      · exact List.mem_of_mem_take h)
    rw [h6] at h7
    revert h7
    decide

end Verif
