import Verif.Props.Meaning
import Verif.Props.Server
import Verif.Proofs.JsonText

/-! C55 and C56: the commands `metadata` and `serialize`. -/

namespace Verif

open Spec

variable [Env] {ord ord' : HashOrd} {f f' : Bytes} {prob prob' : Option Bytes} {d d' : DomainAST} {p p' : Option ProblemAST}

/-! ### Errors of `get_metadata` -/

/-- The result is not an error. -/
def NoErr {α} (r : R α) : Prop := ∀ e, r ≠ .err e

omit [Env] in
theorem NoErr.bind {α β} {r : R α} {g : α → R β} (h : NoErr r) (hg : ∀ a, NoErr (g a)) : NoErr (r.bind g) := by
  intro e he
  cases r with
  | ok a => exact hg a e he
  | err e' => exact h e' rfl
  | panic x => cases he
  | timeout => cases he

omit [Env] in
theorem noErr_ok {α} {a : α} : NoErr (.ok a : R α) := fun _ h => nomatch h
omit [Env] in
theorem noErr_panic {α} {p : Panic} : NoErr (.panic p : R α) := fun _ h => nomatch h
omit [Env] in
theorem noErr_timeout {α} : NoErr (.timeout : R α) := fun _ h => nomatch h

omit [Env] in
theorem noErr_methodTasks (ts : List (Name × Bool)) : ∀ ms, NoErr (methodTasks ts ms)
  | [] => noErr_ok
  | m :: ms => by
    unfold methodTasks
    split
    · exact (noErr_methodTasks ts ms).bind fun _ => noErr_ok
    · exact noErr_panic

omit [Env] in
theorem noErr_subtaskIndices (ts : List (Name × Bool)) : ∀ ss, NoErr (subtaskIndices ts ss)
  | [] => noErr_ok
  | s :: ss => by
    unfold subtaskIndices
    split
    · exact (noErr_subtaskIndices ts ss).bind fun _ => noErr_ok
    · exact noErr_panic

omit [Env] in
theorem noErr_methodSubtasks (ts : List (Name × Bool)) : ∀ ms, NoErr (methodSubtasks ts ms)
  | [] => noErr_ok
  | _ :: ms => (noErr_subtaskIndices ts _).bind fun _ => (noErr_methodSubtasks ts ms).bind fun _ => noErr_ok

omit [Env] in
theorem noErr_new : NoErr (TDG.new ord d) :=
  (noErr_methodTasks _ _).bind fun _ => (noErr_methodSubtasks _ _).bind fun _ => noErr_ok

omit [Env] in
theorem noErr_nullLoop (g : TDG) : ∀ n s, NoErr (g.nullLoop n s)
  | 0, s => by unfold TDG.nullLoop; split; exacts [noErr_timeout, noErr_ok]
  | n + 1, s => by unfold TDG.nullLoop; split; exacts [noErr_nullLoop g n _, noErr_ok]

omit [Env] in
theorem noErr_prefixLoop (os : List (Name × Name)) (occ : List Name) : ∀ n l, NoErr (prefixLoop os occ n l)
  | _, [] => by unfold prefixLoop; exact noErr_ok
  | 0, _ :: _ => noErr_timeout
  | n + 1, t :: l => noErr_prefixLoop os occ n _

omit [Env] in
theorem noErr_suffixLoop (ord : HashOrd) (s : Site) (os : List (Name × Name)) : ∀ n l acc, NoErr (suffixLoop ord s os n l acc)
  | _, [], _ => by unfold suffixLoop; exact noErr_ok
  | 0, _ :: _, _ => noErr_timeout
  | n + 1, t :: l, acc => noErr_suffixLoop ord s os n _ _

omit [Env] in
theorem noErr_subIndices (g : TDG) : ∀ ss, NoErr (subIndices g ss)
  | [] => noErr_ok
  | s :: ss => by
    unfold subIndices
    split
    · exact noErr_panic
    · exact (noErr_subIndices g ss).bind fun _ => noErr_ok

omit [Env] in
theorem noErr_idIndices (g : TDG) (h : HTN) : ∀ ids, NoErr (idIndices g h ids)
  | [] => noErr_ok
  | id :: ids => by
    unfold idIndices
    split
    · exact noErr_panic
    · split
      · exact noErr_panic
      · exact (noErr_idIndices g h ids).bind fun _ => noErr_ok

omit [Env] in
theorem noErr_getPrefix (g : TDG) (n t m : Nat) : NoErr (g.getPrefix ord n t m) := by
  unfold TDG.getPrefix
  simp only
  split
  · split
    · exact noErr_subIndices g _
    · exact noErr_panic
  · split
    · exact noErr_panic
    · exact (noErr_prefixLoop _ _ _ _).bind fun _ => noErr_ok

omit [Env] in
theorem noErr_getSuffix (g : TDG) (n t m : Nat) : NoErr (g.getSuffix ord n t m) := by
  unfold TDG.getSuffix
  simp only
  split
  · split
    · exact noErr_subIndices g _
    · exact noErr_panic
  · split
    · exact noErr_panic
    · exact (noErr_suffixLoop _ _ _ _ _ _).bind fun _ => noErr_idIndices g _ _

omit [Env] in
theorem noErr_cycleInfo (g : TDG) (n : Nat) (nulls : List Nat) (x : Nat) : ∀ c, NoErr (g.cycleInfo ord n nulls x c)
  | [] => by unfold TDG.cycleInfo; exact noErr_ok
  | [_] => by unfold TDG.cycleInfo; exact noErr_ok
  | (_, m) :: (t, m') :: rest => by
    unfold TDG.cycleInfo
    exact (noErr_getPrefix g n t m).bind fun _ => (noErr_getSuffix g n t m).bind fun _ =>
      (noErr_cycleInfo g n nulls x ((t, m') :: rest)).bind fun _ => noErr_ok

omit [Env] in
theorem noErr_expand (g : TDG) (n : Nat) (nulls : List Nat) (path : List (Nat × Nat)) (m : Nat) :
    ∀ xs stack rt, NoErr (g.expand ord n nulls path m xs stack rt)
  | [], _, _ => by unfold TDG.expand; exact noErr_ok
  | x :: xs, stack, rt => by
    unfold TDG.expand
    split
    · exact (noErr_cycleInfo g n nulls x _).bind fun _ => noErr_expand g n nulls path m xs _ _
    · exact noErr_expand g n nulls path m xs _ _

omit [Env] in
theorem noErr_recLoop (g : TDG) (k : Nat) (nulls : List Nat) : ∀ n stack rt, NoErr (g.recLoop ord k nulls n stack rt)
  | _, [], _ => by unfold TDG.recLoop; exact noErr_ok
  | 0, _ :: _, _ => noErr_timeout
  | n + 1, path :: stack, rt => by
    unfold TDG.recLoop
    split
    · exact noErr_recLoop g k nulls n _ _
    · exact (noErr_expand g k nulls _ _ _ _ _).bind fun _ => noErr_recLoop g k nulls n _ _

omit [Env] in
theorem noErr_nullIndices (g : TDG) : ∀ l, NoErr (nullIndices g l)
  | [] => noErr_ok
  | x :: xs => by
    unfold nullIndices
    split
    · exact noErr_panic
    · exact (noErr_nullIndices g xs).bind fun _ => noErr_ok

omit [Env] in
theorem noErr_graph (n : Nat) (d : DomainAST) : NoErr ((TDG.new ord d).bind fun tdg => (tdg.nullables n).bind fun nulls =>
    (tdg.recursionType ord n nulls).bind fun rt =>
      .ok (⟨rt, arrange ord [20] nulls, [], d.actions.length, d.tasks.length, d.methods.length⟩ : MetaData)) :=
  noErr_new.bind fun g => ((noErr_nullLoop g _ _).bind fun _ => noErr_ok).bind fun _ =>
    ((noErr_nullIndices g _).bind fun _ => noErr_recLoop g _ _ _ _ _).bind fun _ => noErr_ok

/-- Errors of `get_metadata` are errors of the parser. -/
theorem getMetadata_err {n : Nat} {e : PErr} (h : getMetadata ord n f = .err e) : parse n f = .err e := by
  unfold getMetadata at h
  cases hp : parse n f with
  | err e' => rw [hp] at h; cases h; rfl
  | panic x => rw [hp] at h; cases h
  | timeout => rw [hp] at h; cases h
  | ok a =>
    rw [hp, R.bind_ok] at h
    cases a with
    | problem _ => cases h
    | domain d => exact absurd h (noErr_graph n d e)

/-- Errors of the parser have a text. -/
theorem parserErr_shows {e : PErr} (h : ParserErr f e) : ∃ t, e.show = .ok t := by
  cases e with
  | lexical e => exact ⟨_, rfl⟩
  | syntactic e => exact ⟨_, rfl⟩
  | semantic e => exact h.elim

/-! ### C55: the command `metadata` -/

/-- The `metadata` command, given a readable file, ends in this way. -/
def Prints (ord : HashOrd) (f : Bytes) (r : R (List OutLine)) : Prop := ∃ N, ∀ n, N ≤ n → cliMetadata ord n (.ok f) = r

omit [Env] in
/-- The text printed by `metadata`: the kind of recursion, the nullable tasks, one on a line, and three counts. -/
def metadataText (cls : Text) (nulls : List Name) (actions tasks methods : Nat) : Text :=
  [.s "Description\n", .s "\tHierarchy type: "] ++ cls ++ [.s "\n"] ++
  (match nulls with
    | [] => [.s "\tNullable Tasks: None\n"]
    | _ => .s "\tNullable Tasks:\n" :: (nulls.map fun x => [.s "\t\t", .n x, .s "\n"]).flatten) ++
  [.s "\tNumber of actions: ", .i actions, .s "\n", .s "\tNumber of abstract tasks: ", .i tasks, .s "\n",
    .s "\tNumber of methods: ", .i methods, .s "\n"]

omit [Env] in
theorem metadata_show (md : MetaData) :
    md.show = metadataText md.recursion.show md.nullables md.nActions md.nTasks md.nMethods := by
  unfold MetaData.show metadataText
  cases md.nullables with
  | nil => rfl
  | cons x l => simp [List.flatMap_def]

/-- C55: for a domain file, the output of `metadata` is one text on standard output.  It has the kind of recursion, which
is "Non-recursive" exactly if no task leads to itself, and otherwise a cycle of methods; the tasks reported as nullable,
each on one line; and the numbers of actions, compound tasks and methods of the file. -/
theorem C55_printed {out : List OutLine} (hf : Parses f (.domain d)) (h : Prints ord f (.ok out)) :
    ∃ md cls, Metadata ord f md ∧ md.nullables.Nodup ∧
      out = [.stdout (metadataText cls md.nullables d.actions.length d.tasks.length d.methods.length)] ∧
      (cls = [.s "Non-recursive"] ∧ (¬ ∃ x, Relation.TransGen (HasSub d) x x) ∨
        (∃ x, Relation.TransGen (HasSub d) x x) ∧
        ∃ c, Cycle d c ∧ cls = [.s md.recursion.cls.heading, .s "\tCycle: "] ++ cycleText c) := by
  obtain ⟨N, hN⟩ := h
  have h1 := hN N (Nat.le_refl _)
  unfold cliMetadata at h1
  simp only at h1
  cases hm : getMetadata ord N f with
  | err e =>
    obtain ⟨M, hM⟩ := hf
    have h2 := parse_fuel (Nat.le_max_left N M) (file := f) (by rw [getMetadata_err hm]; simp)
    rw [hM _ (Nat.le_max_right N M), getMetadata_err hm] at h2
    cases h2
  | panic x => rw [hm] at h1; cases h1
  | timeout => rw [hm] at h1; cases h1
  | ok md =>
    rw [hm] at h1
    cases h1
    have hmd := metadata_run hm
    obtain ⟨c1, c2, c3⟩ := C38_counts_tree hf hmd
    refine ⟨md, md.recursion.show, hmd, ?_, by rw [metadata_show, c1, c2, c3], ?_⟩
    · obtain ⟨ns, rt, h1, rfl, _⟩ := hmd.parts hf
      obtain ⟨g, n, l, _, _, _, rfl⟩ := h1.loop
      exact (arrange_perm ord [20] (g.names l)).nodup_iff.mpr (List.nodup_dedup _)
    · rcases C36_cycle hf hmd with h2 | ⟨c, hc, h2⟩
      · refine .inl ⟨h2, (C34_non_recursive hf hmd).mp ?_⟩
        cases hr : md.recursion with
        | nonRecursive => rfl
        | _ => rw [hr] at h2; simp [RecType.show] at h2
      · refine .inr ⟨?_, c, hc, h2⟩
        by_contra hno
        have := (C34_non_recursive hf hmd).mpr hno
        rw [this] at h2
        simp [RecType.show] at h2

/-- C55: every run that ends normally has this output or one line on standard error, with the text of an error of the
parser. -/
theorem C55_outputs {out : List OutLine} (h : Prints ord f (.ok out)) :
    (∃ d md, Parses f (.domain d) ∧ Metadata ord f md ∧
      out = [.stdout (metadataText md.recursion.show md.nullables d.actions.length d.tasks.length d.methods.length)]) ∨
    ∃ e t, ParserErr f e ∧ e.show = .ok t ∧ out = [.stderr (.s "\x1b[31m[Error]\x1b[0m " :: t)] := by
  obtain ⟨N, hN⟩ := h
  have h1 := hN N (Nat.le_refl _)
  unfold cliMetadata at h1
  simp only at h1
  cases hm : getMetadata ord N f with
  | err e =>
    rw [hm] at h1
    obtain ⟨t, ht, h1⟩ := R.bind_ok_iff.mp (show e.show.bind (fun t => .ok [errorLine t]) = _ from h1)
    cases h1
    exact .inr ⟨e, t, parse_err (getMetadata_err hm), ht, rfl⟩
  | panic x => rw [hm] at h1; cases h1
  | timeout => rw [hm] at h1; cases h1
  | ok md =>
    rw [hm] at h1
    cases h1
    left
    have hp : ∃ d, parse N f = .ok (.domain d) := by
      unfold getMetadata at hm
      obtain ⟨a, ha, hm⟩ := R.bind_ok_iff.mp hm
      cases a with
      | problem _ => cases hm
      | domain d => exact ⟨d, ha⟩
    obtain ⟨d, hd⟩ := hp
    have hmd := metadata_run hm
    obtain ⟨c1, c2, c3⟩ := C38_counts_tree (.of_ok hd) hmd
    exact ⟨d, md, .of_ok hd, hmd, by rw [metadata_show, c1, c2, c3]⟩

/-- C55: if the metadata is computed, it is printed; a file with an error of the parser gives its text. -/
theorem C55_total : ((∃ md, Metadata ord f md) → ∃ out, Prints ord f (.ok out)) ∧
    ∀ e n, parse n f = .err e → ∃ out, Prints ord f (.ok out) := by
  constructor
  · rintro ⟨md, N, hN⟩
    exact ⟨[.stdout md.show], N, fun n hn => by simp only [cliMetadata, hN n hn]⟩
  · intro e n hn
    obtain ⟨t, ht⟩ := parserErr_shows (parse_err hn)
    refine ⟨[errorLine t], n, fun m hm => ?_⟩
    have : getMetadata ord m f = .err e := by
      unfold getMetadata
      rw [parse_fuel hm (by rw [hn]; simp), hn]
      rfl
    simp only [cliMetadata, this, ht, R.bind_ok]

/-- Instance: a recursive domain with a nullable task. -/
example : @Prints Env.plain HashOrd.id loopDomain (.ok [.stdout [.s "Description\n", .s "\tHierarchy type: ",
    .s "Grow and shrink recursion\n", .s "\tCycle: ", .s "[", .n b!"u", .s "]-(", .n b!"m2", .s ")->", .s "[", .n b!"t",
    .s "]-(", .n b!"m1", .s ")->", .s "[", .n b!"u", .s "]", .s "\n", .s "\tNullable Tasks:\n", .s "\t\t", .n b!"e", .s "\n",
    .s "\tNumber of actions: ", .i 1, .s "\n", .s "\tNumber of abstract tasks: ", .i 3, .s "\n",
    .s "\tNumber of methods: ", .i 4, .s "\n"]]) := by
  have h : @Metadata Env.plain HashOrd.id loopDomain
      ⟨.growAndShrink [(b!"u", b!"m2"), (b!"t", b!"m1"), (b!"u", b!"m1")], [b!"e"], [], 1, 3, 4⟩ :=
    @metadata_run Env.plain _ _ 80 _ (by decide +kernel)
  obtain ⟨N, hN⟩ := h
  exact ⟨N, fun n hn => by simp only [cliMetadata, hN n hn]; rfl⟩

/-! ### C56: the command `serialize` -/

open Spec.JSON

/-- The `serialize` command, given readable files, ends in this way; `o` is the file to write, if any. -/
def Serializes (real : List UInt8 → Option Bytes) (ord : HashOrd) (f : Bytes) (prob : Option Bytes) (o : Option OutFile)
    (r : R (List OutLine × Option Bytes)) : Prop :=
  ∃ N, ∀ n, N ≤ n → cliSerialize real ord n (.ok f) (prob.map .ok) o = r

/-- `t` is the JSON text that `serialize` prints after the line `[Ok]`. -/
def Emits (real : List UInt8 → Option Bytes) (ord : HashOrd) (f : Bytes) (prob : Option Bytes) (t : Bytes) : Prop :=
  Serializes real ord f prob none (.ok ([.stdout okText, .stdout [.n t]], none))

/-- What is known of the text of real numbers: it is that of a JSON number with a fraction or an exponent. -/
def RealTexts (real : List UInt8 → Option Bytes) : Prop := ∀ l t, real l = some t → RealText t

variable {real : List UInt8 → Option Bytes}

theorem cliSerialize_ok (n : Nat) (o : Option OutFile) : ∃ done, cliSerialize real ord n (.ok f) (prob.map .ok) o =
    serializeOutput real done o (toJson ord n f prob) ∧
    done = match prob with
      | none => fun o => .s "Result successfully written to " :: o.name
      | some _ => fun o => o.path := by
  cases prob <;> exact ⟨_, rfl, rfl⟩

theorem toJson_ok_iff : (∃ n j, toJson ord n f prob = .ok j) ↔ ∃ j, Exports ord f prob j := by
  constructor
  · rintro ⟨n, j, h⟩
    obtain ⟨d, p, h1, h2⟩ := exports_shows h
    exact C39_total h1
  · rintro ⟨j, N, hN⟩
    exact ⟨N, j, hN N (Nat.le_refl _)⟩

/-- The text emitted is that of the exported value. -/
theorem emits_iff (t : Bytes) : Emits real ord f prob t ↔ ∃ j, Exports ord f prob j ∧ t = j.text real 0 := by
  constructor
  · rintro ⟨N, hN⟩
    have h1 := hN N (Nat.le_refl _)
    obtain ⟨done, h2, _⟩ := cliSerialize_ok (real := real) (ord := ord) (f := f) (prob := prob) N none
    rw [h2] at h1
    cases hj : toJson ord N f prob with
    | ok j =>
      obtain ⟨j', M, hM⟩ := toJson_ok_iff.mp ⟨N, j, hj⟩
      refine ⟨j', ⟨M, hM⟩, ?_⟩
      obtain ⟨done, h3, _⟩ := cliSerialize_ok (real := real) (ord := ord) (f := f) (prob := prob) (max N M) none
      have := hN (max N M) (Nat.le_max_left N M)
      rw [h3, hM _ (Nat.le_max_right N M)] at this
      simp only [serializeOutput, R.ok.injEq, Prod.mk.injEq, List.cons.injEq, OutLine.stdout.injEq, Piece.n.injEq, and_true] at this
      exact this.2.symm
    | err e =>
      rw [hj] at h1
      obtain ⟨t, _, h1⟩ := R.bind_ok_iff.mp (show e.show.bind (fun t => .ok ([errorLine t], none)) = _ from h1)
      simp [errorLine] at h1
    | panic x => rw [hj] at h1; cases h1
    | timeout => rw [hj] at h1; cases h1
  · rintro ⟨j, ⟨N, hN⟩, rfl⟩
    refine ⟨N, fun n hn => ?_⟩
    obtain ⟨done, h2, _⟩ := cliSerialize_ok (real := real) (ord := ord) (f := f) (prob := prob) n none
    rw [h2, hN n hn]
    rfl

/-- C56: `[Ok]` and a JSON text are printed exactly if the files parse as domain and problem. -/
theorem C56_ok_partial : (∃ t, Emits real ord f prob t) ↔ ∃ d p, TreesOf f prob d p := by
  constructor
  · rintro ⟨t, h⟩
    obtain ⟨j, ⟨N, hN⟩, _⟩ := (emits_iff t).mp h
    obtain ⟨d, p, h1, _⟩ := exports_shows (hN N (Nat.le_refl _))
    exact ⟨d, p, h1⟩
  · rintro ⟨d, p, h⟩
    obtain ⟨j, hj⟩ := C39_total (ord := ord) h
    exact ⟨_, (emits_iff _).mpr ⟨j, hj, rfl⟩⟩

/-- C56: the text is a JSON text (in the sense of the grammar) of the exported value. -/
theorem C56_json_partial (hr : RealTexts real) {t : Bytes} (h : Emits real ord f prob t) :
    ∃ j, Exports ord f prob j ∧ JsonText (printed real j) t := by
  obtain ⟨j, hj, rfl⟩ := (emits_iff t).mp h
  exact ⟨j, hj, [], _, [], blank_nil, text_spells hr 0 j, blank_nil, by simp⟩

omit [Env] in
theorem TreesOf.inj [Env] (h : TreesOf f prob d p) (h' : TreesOf f prob d' p') : d = d' ∧ p = p' := by
  cases h.1.det h'.1
  refine ⟨rfl, ?_⟩
  cases prob <;> cases p <;> cases p' <;> first
    | rfl
    | exact h.2.elim
    | exact h'.2.elim
    | (cases Parses.det h.2 h'.2; rfl)

omit [Env] in
theorem printed_shows {j : Json} (h : Shows d p j) :
    Shows (respellDomain (realText real) d) (p.map (respellProblem (realText real))) (unprint (printed real j)) := by
  obtain ⟨l, rfl, hl⟩ := h
  have key : ∀ l : List (String × Json), (∀ e ∈ l, e.1 ≠ "Real") → unprintFields (printedFields real l) =
      l.map fun e => (e.1, unprint (printed real e.2)) := by
    intro l
    induction l with
    | nil => intro _; rfl
    | cons e l ih =>
      intro h
      obtain ⟨k, j⟩ := e
      rw [unprint_field (h _ List.mem_cons_self), ih fun e he => h e (List.mem_cons_of_mem _ he)]
      rfl
  refine ⟨l.map fun e => (e.1, unprint (printed real e.2)), ?_, ?_⟩
  · rw [unprint_obj, key]
    intro e he
    have := hl.subset he
    cases p with
    | none => simp only [Option.map_none, Option.toList_none, List.mem_singleton] at this; subst this; simp
    | some p =>
      simp only [Option.map_some, Option.toList_some, List.mem_cons, List.not_mem_nil, or_false] at this
      rcases this with rfl | rfl <;> simp
  · refine (hl.map _).trans ?_
    rw [List.map_cons, unprint_domain]
    cases p with
    | none => exact .refl _
    | some p => simp [unprint_problem]

/-- C56: the JSON text determines the syntax trees, up to the spelling of real numbers with the same text: there is a
function that recovers them from every text that `serialize` prints, whatever the files and the order of hash maps. -/
theorem C56_recovered_partial (hr : RealTexts real) : ∃ read : Bytes → Option (DomainAST × Option ProblemAST),
    ∀ ord f prob t d p, Emits real ord f prob t → TreesOf f prob d p →
      read t = some (respellDomain (realText real) d, p.map (respellProblem (realText real))) := by
  classical
  refine ⟨fun t => if h : ∃ x : DomainAST × Option ProblemAST, ∃ j, JsonText j t ∧ Shows x.1 x.2 (unprint j)
    then some h.choose else none, ?_⟩
  intro ord f prob t d p ht htr
  obtain ⟨j, hj, hjt⟩ := C56_json_partial hr ht
  have hs : Shows d p j := by
    obtain ⟨N, hN⟩ := hj
    obtain ⟨d', p', h1, h2⟩ := exports_shows (hN N (Nat.le_refl _))
    obtain ⟨rfl, rfl⟩ := htr.inj h1
    exact h2
  have hx : ∃ x : DomainAST × Option ProblemAST, ∃ j, JsonText j t ∧ Shows x.1 x.2 (unprint j) :=
    ⟨(_, _), _, hjt, printed_shows hs⟩
  simp only [hx, dite_true, Option.some.injEq]
  obtain ⟨j', h1, h2⟩ := hx.choose_spec
  cases h1.det hjt
  obtain ⟨h3, h4⟩ := h2.inj (printed_shows hs)
  exact Prod.ext h3 h4

/-- C56: two runs that print the same text were given the same syntax trees, if these have no real numbers. -/
theorem C56_distinct_partial (hr : RealTexts real) {t : Bytes} (h : Emits real ord f prob t)
    (h' : Emits real ord' f' prob' t) (ht : TreesOf f prob d p) (ht' : TreesOf f' prob' d' p')
    (hd : ∀ g, respellDomain g d = d ∧ respellDomain g d' = d')
    (hp : ∀ g, p.map (respellProblem g) = p ∧ p'.map (respellProblem g) = p') : d = d' ∧ p = p' := by
  obtain ⟨read, hread⟩ := C56_recovered_partial hr
  have h1 := hread _ _ _ _ _ _ h ht
  rw [hread _ _ _ _ _ _ h' ht'] at h1
  rw [(hd _).1, (hd _).2, (hp _).1, (hp _).2] at h1
  cases h1
  exact ⟨rfl, rfl⟩

/-- C56: with an output file that can be written, the file has the same text, and one line is printed. -/
theorem C56_file_partial {t : Bytes} {o : OutFile} (ho : o.written = .ok ()) : Emits real ord f prob t ↔
    Serializes real ord f prob (some o) (.ok ([.stdout (match prob with
      | none => .s "Result successfully written to " :: o.name
      | some _ => o.path)], some t)) := by
  rw [emits_iff]
  constructor
  · rintro ⟨j, ⟨N, hN⟩, rfl⟩
    refine ⟨N, fun n hn => ?_⟩
    obtain ⟨done, h2, rfl⟩ := cliSerialize_ok (real := real) (ord := ord) (f := f) (prob := prob) n (some o)
    rw [h2, hN n hn]
    simp only [serializeOutput, ho]
    cases prob <;> rfl
  · rintro ⟨N, hN⟩
    have h1 := hN N (Nat.le_refl _)
    obtain ⟨done, h2, _⟩ := cliSerialize_ok (real := real) (ord := ord) (f := f) (prob := prob) N (some o)
    rw [h2] at h1
    cases hj : toJson ord N f prob with
    | ok j =>
      obtain ⟨j', M, hM⟩ := toJson_ok_iff.mp ⟨N, j, hj⟩
      refine ⟨j', ⟨M, hM⟩, ?_⟩
      obtain ⟨done, h3, _⟩ := cliSerialize_ok (real := real) (ord := ord) (f := f) (prob := prob) (max N M) (some o)
      have := hN (max N M) (Nat.le_max_left N M)
      rw [h3, hM _ (Nat.le_max_right N M)] at this
      simp only [serializeOutput, ho, R.ok.injEq, Prod.mk.injEq, Option.some.injEq] at this
      exact this.2.symm
    | err e =>
      rw [hj] at h1
      obtain ⟨t, _, h1⟩ := R.bind_ok_iff.mp (show e.show.bind (fun t => .ok ([errorLine t], none)) = _ from h1)
      simp [errorLine] at h1
    | panic x => rw [hj] at h1; cases h1
    | timeout => rw [hj] at h1; cases h1

/-- C56: a file with an error of the parser gives one line on standard error, and no file is written. -/
theorem C56_error_partial {e : PErr} {n : Nat} (h : toJson ord n f prob = .err e) (o : Option OutFile) :
    ∃ t, e.show = .ok t ∧ Serializes real ord f prob o (.ok ([.stderr (.s "\x1b[31m[Error]\x1b[0m " :: t)], none)) := by
  have hp : (∀ m, n ≤ m → toJson ord m f prob = .err e) ∧ ∃ g, ParserErr g e := by
    unfold toJson at h
    cases hf : parse n f with
    | err e' =>
      rw [hf] at h
      cases h
      refine ⟨fun m hm => ?_, f, parse_err hf⟩
      unfold toJson
      rw [parse_fuel hm (by rw [hf]; simp), hf]
      rfl
    | panic x => rw [hf] at h; cases h
    | timeout => rw [hf] at h; cases h
    | ok a =>
      rw [hf, R.bind_ok] at h
      cases a with
      | problem _ => cases h
      | domain d =>
        cases prob with
        | none => cases h
        | some g =>
          simp only at h
          cases hg : parse n g with
          | err e' =>
            rw [hg] at h
            cases h
            refine ⟨fun m hm => ?_, g, parse_err hg⟩
            unfold toJson
            rw [parse_fuel hm (by rw [hf]; simp), hf, R.bind_ok]
            simp only
            rw [parse_fuel hm (by rw [hg]; simp), hg]
            rfl
          | panic x => rw [hg] at h; cases h
          | timeout => rw [hg] at h; cases h
          | ok b =>
            rw [hg, R.bind_ok] at h
            cases b <;> cases h
  obtain ⟨h1, g, hg⟩ := hp
  obtain ⟨t, ht⟩ := parserErr_shows hg
  refine ⟨t, ht, n, fun m hm => ?_⟩
  obtain ⟨done, h2, _⟩ := cliSerialize_ok (real := real) (ord := ord) (f := f) (prob := prob) m o
  rw [h2, h1 m hm]
  simp only [serializeOutput, ht, R.bind_ok]
  rfl

omit [Env] in
/-- C56 does not hold for standard output as a whole: with the line `[Ok]` before it, it is never a JSON text. -/
theorem C56_stdout_refuted (t : Bytes) : ¬ ∃ j, JsonText j (b!"\x1b[32m[Ok]\x1b[0m\n" ++ t ++ b!"\n") := by
  rintro ⟨j, w, s, w', hw, hs, _, e⟩
  obtain ⟨c, s, rfl, hc⟩ := spells_head hs
  cases w with
  | nil =>
    simp only [List.nil_append, List.cons_append, List.cons.injEq] at e
    rw [← e.1] at hc
    revert hc
    unfold Heads
    split <;> first | (unfold JSON.Digit; decide) | decide
  | cons a w =>
    simp only [List.cons_append, List.cons.injEq] at e
    have := hw a List.mem_cons_self
    rw [← e.1] at this
    revert this
    decide

omit [Env] in
/-- Instance: `serialize` prints `[Ok]` and a text for this domain, although `verify` rejects it. -/
example : RealTexts (fun _ => some b!"0.5") ∧
    (∃ t, @Emits Env.plain (fun _ => some b!"0.5") HashOrd.id
      b!"(define (domain d)\n(:action a :parameters () :effect (p)))\n" none t) ∧
    @Returns Env.plain HashOrd.id b!"(define (domain d)\n(:action a :parameters () :effect (p)))\n" none
      (.err (.semantic (.undefPredicate ⟨b!"p", 2⟩))) := by
  refine ⟨?_, ?_, @returns_run Env.plain _ _ _ 40 _ (by decide +kernel) (by simp)⟩
  · intro l t h
    cases h
    refine ⟨b!"0", b!".5", [], rfl, ⟨by simp, by unfold JSON.Digit; decide, fun _ => rfl⟩, .inr ⟨b!"5", rfl, by simp,
      by unfold JSON.Digit; decide⟩, .inl rfl, .inl (by simp)⟩
  · refine (@C56_ok_partial Env.plain _ _ _ _).mpr ?_
    obtain ⟨a, ha, h⟩ := @parses_holds _ Env.plain 60 (fun | .domain _ => true | _ => false) (by decide +kernel :
      (@parse Env.plain 60 b!"(define (domain d)\n(:action a :parameters () :effect (p)))\n").holds _ = true)
    cases a with
    | problem _ => cases h
    | domain d => exact ⟨d, none, ha, trivial⟩

omit [Env] in
/-- Instance: the text of a small value. -/
example : Json.text (fun _ => some b!"0.5") 0 (.obj [("a", .arr [.num 10, .real b!"0.50"]), ("b", .str b!"x\"")]) =
    b!"{\n  \"a\": [\n    10,\n    0.5\n  ],\n  \"b\": \"x\\\"\"\n}" := by decide +kernel

end Verif
