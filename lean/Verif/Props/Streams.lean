import Verif.Proofs.Streams
import Verif.Props.Commands
import Verif.Props.Messages

/-! C104: what can be learnt from the output of a command. -/

namespace Verif

open Spec

variable [Env] {ord ord' : HashOrd} {f f' : Bytes} {prob prob' : Option Bytes} {d : DomainAST} {md : MetaData}

/-- Names have no line ends and no parentheses. -/
theorem names_plain {a : AST} (h : Parses f a) {x : Name} {l : Nat} (hx : (x, l) ∈ astNames a) : 10 ∉ x ∧ 40 ∉ x ∧ 41 ∉ x := by
  obtain ⟨_, _, _, _, _, _, h1, _⟩ := written h hx
  exact ⟨fun h2 => h1 _ h2 (by decide), fun h2 => h1 _ h2 (by decide), fun h2 => h1 _ h2 (by decide)⟩

theorem warning_line {ws : List Warning} (h : Returns ord f prob (.ok ws)) {w : Warning} (hw : w ∈ ws) :
    10 ∉ b!"\x1b[33m[Warning]\x1b[0m " ++ Text.bytes w.show := by
  obtain ⟨d, hd, _⟩ := returns_ok_parses h
  obtain ⟨t, ht, rfl, _⟩ := ((C29_exact hd ws h).2.2 w).1 hw
  have h1 := (names_plain hd (x := t.name) (l := t.pos) (taskNames_mem ht _ (by simp [taskNames]))).1
  have h2 := decimal_line t.pos
  simp only [Warning.show, bytes_s, bytes_n, bytes_i, bytes_nil, keyLit]
  simp [h1, h2]

omit [Env] in
theorem mapM_some {α β : Type} {g : α → Option β} {h : α → β} : ∀ {l : List α}, (∀ x ∈ l, g x = some (h x)) →
    l.mapM g = some (l.map h)
  | [], _ => rfl
  | x :: l, hl => by
    rw [List.mapM_cons, hl x List.mem_cons_self, mapM_some fun y hy => hl y (List.mem_cons_of_mem _ hy)]
    rfl

omit [Env] in
theorem stream_error (t : Text) : streamOf true [errorLine t] = [] ∧
    streamOf false [errorLine t] = b!"\x1b[31m[Error]\x1b[0m " ++ Text.bytes t ++ [10] := by
  constructor
  · rfl
  · simp [streamOf, errorLine, OutLine.bytes, bytes_s, keyLit]

omit [Env] in
theorem read_error {t : Text} {r : Report} (h : readReport (Text.bytes t) = some r) :
    readVerdict (streamOf true [errorLine t]) (streamOf false [errorLine t]) = some (.rejected r) := by
  obtain ⟨h1, h2⟩ := stream_error t
  rw [h1, h2, readVerdict, if_neg (by simp), if_pos rfl, before_snoc]
  simp only [Option.bind_eq_bind, Option.bind_some, stripped_append, h, Option.map_some]

/-- C104: from the bytes on the two streams of the command `verify` one can read the result of `verify`. -/
theorem C104_verify (hq : ∀ l, 39 ∉ keyBytes (Env.showReal l)) {out : List OutLine} (h : Ends ord f prob (.ok out)) :
    (∃ ws, Returns ord f prob (.ok ws) ∧ readVerdict (streamOf true out) (streamOf false out) =
      some (.accepted (ws.map fun w => (w.symbol, w.pos)))) ∨
    ∃ e, Returns ord f prob (.err e) ∧ readVerdict (streamOf true out) (streamOf false out) = some (.rejected (reportOf e)) := by
  obtain ⟨r, hr, h1⟩ := h.returns
  cases r with
  | ok ws =>
    cases h1
    refine .inl ⟨ws, hr, ?_⟩
    have h2 : streamOf false (ws.map warnLine ++ [okLine]) = [] := by
      simp [streamOf, warnLine, okLine, OutLine.bytes]
    have h3 : streamOf true (ws.map warnLine ++ [okLine]) =
        (ws.map (fun w => b!"\x1b[33m[Warning]\x1b[0m " ++ Text.bytes w.show) ++ [b!"\x1b[32m[Ok]\x1b[0m"]).flatMap (· ++ [10]) := by
      simp [streamOf, warnLine, okLine, OutLine.bytes, bytes_s, bytes_nil, keyLit, List.flatMap_map]
    rw [h2, h3, readVerdict, if_pos rfl, linesIn_lines]
    · simp only [Option.bind_eq_bind, Option.bind_some, List.getLast?_append, List.getLast?_singleton, Option.some_or, if_true,
        List.dropLast_concat]
      rw [List.mapM_map, mapM_some (h := fun w => (w.symbol, w.pos))]
      · rfl
      · intro w hw
        simp only [Function.comp, readWarning, stripped_append, Option.bind_some, C88_warning hr hw]
    · intro x hx
      simp only [List.mem_append, List.mem_map, List.mem_singleton] at hx
      rcases hx with ⟨w, hw, rfl⟩ | rfl
      · exact warning_line hr hw
      · decide
  | err e =>
    obtain ⟨t, ht, h2⟩ := R.bind_ok_iff.mp (show e.show.bind (fun t => .ok [errorLine t]) = _ from h1)
    cases h2
    exact .inr ⟨e, hr, read_error (C88_error hq hr ht)⟩
  | panic | timeout => cases h1

/-- C104: two runs of `verify` with the same output, stream by stream, have the same warnings or errors that are alike. -/
theorem C104_alike (hq : ∀ l, 39 ∉ keyBytes (Env.showReal l)) {out out' : List OutLine} (h : Ends ord f prob (.ok out))
    (h' : Ends ord' f' prob' (.ok out')) (h1 : streamOf true out = streamOf true out')
    (h2 : streamOf false out = streamOf false out') :
    (∃ ws, Returns ord f prob (.ok ws) ∧ Returns ord' f' prob' (.ok ws)) ∨
      ∃ e e', Returns ord f prob (.err e) ∧ Returns ord' f' prob' (.err e') ∧ SameMessage e e' := by
  have a := C104_verify hq h
  have a' := C104_verify hq h'
  rw [h1, h2] at a
  rcases a with ⟨ws, hr, a⟩ | ⟨e, hr, a⟩ <;> rcases a' with ⟨ws', hr', a'⟩ | ⟨e', hr', a'⟩ <;> rw [a] at a'
  · simp only [Option.some.injEq, Verdict.accepted.injEq] at a'
    refine .inl ⟨ws, hr, ?_⟩
    suffices ws = ws' by rw [this]; exact hr'
    refine List.map_injective_iff.mpr ?_ a'
    rintro ⟨x, l⟩ ⟨x', l'⟩ h
    cases h
    rfl
  · cases a'
  · cases a'
  · simp only [Option.some.injEq, Verdict.rejected.injEq] at a'
    exact .inr ⟨e, e', hr, hr', same_of_report a'⟩

/-! ### The command `metadata` -/

/-- Nullable tasks are names of the domain. -/
theorem nullables_plain (hf : Parses f (.domain d)) (h : Metadata ord f md) : ∀ x ∈ md.nullables, 10 ∉ x := by
  intro x hx
  obtain ⟨ns, rt, h1, rfl, _⟩ := h.parts hf
  obtain ⟨g, n, l, _, hg, _, rfl⟩ := h1.loop
  have hx : x ∈ g.names l := mem_arrange.mp hx
  rw [TDG.names, List.mem_dedup, List.mem_filterMap] at hx
  obtain ⟨i, _, hx⟩ := hx
  obtain ⟨p, hp, rfl⟩ := Option.map_eq_some_iff.mp hx
  have hm := List.mem_of_getElem? hp
  rw [hg.tasks] at hm
  simp only [tdgTasks, List.mem_append, List.mem_map] at hm
  rcases hm with ⟨t, ht, rfl⟩ | ⟨a, ha, rfl⟩
  · exact (names_plain hf (l := t.pos) (taskNames_mem ht _ (by simp [taskNames]))).1
  · exact (names_plain hf (l := a.pos) (actionNames_mem ha _ (by simp [actionNames]))).1

theorem method_plain (hf : Parses f (.domain d)) {m : Method} (hm : m ∈ d.methods) :
    (10 ∉ m.task.name ∧ 40 ∉ m.task.name ∧ 41 ∉ m.task.name) ∧ 10 ∉ m.name.name ∧ 40 ∉ m.name.name ∧ 41 ∉ m.name.name := by
  refine ⟨names_plain hf (l := m.task.pos) (methodNames_mem hm _ ?_), names_plain hf (l := m.name.pos) (methodNames_mem hm _ ?_)⟩
  · simp only [methodNames, List.mem_append]
    exact .inl (.inl (.inl (.inl (.inr (by simp [symbolNames])))))
  · simp only [methodNames, List.mem_append]
    exact .inl (.inl (.inl (.inl (.inl (by simp [symbolNames])))))

/-- The tasks and methods of a cycle. -/
def cycleOf (c : List Method) : List (Bytes × Bytes) := c.map fun m => (m.task.name, m.name.name)

omit [Env] in
theorem cycle_bytes (m : Method) (c : List Method) :
    Text.bytes (cycleText (m :: c)) = stepsText (cycleOf (m :: c)) m.task.name := by
  have h1 : ∀ c : List Method, Text.bytes (c.flatMap fun m => [.s "[", .n m.task.name, .s "]-(", .n m.name.name, .s ")->"]) =
      (cycleOf c).flatMap (fun p => b!"[" ++ p.1 ++ b!"]-(" ++ p.2 ++ b!")->") := by
    intro c
    induction c with
    | nil => rfl
    | cons m c ih =>
      rw [List.flatMap_cons, bytes_append, ih]
      simp [bytes_s, bytes_n, bytes_nil, keyLit, cycleOf]
  rw [cycleText, bytes_append, h1, stepsText]
  simp [bytes_s, bytes_n, bytes_nil, keyLit]

omit [Env] in
theorem metadata_bytes (cls : Text) (nulls : List Name) (a t m : Nat) :
    Text.bytes (metadataText cls nulls a t m) ++ [10] =
      Text.bytes ([.s "Description\n", .s "\tHierarchy type: "] ++ cls ++ [.s "\n"]) ++ (tailLines nulls a t m).flatMap (· ++ [10]) := by
  rw [← tail_bytes, ← List.append_assoc, ← bytes_append]
  cases nulls <;> simp [metadataText, nullText]

omit [Env] in
/-- The text for a domain without cycles. -/
theorem read_plain {nulls : List Name} (hn : ∀ x ∈ nulls, 10 ∉ x) (a t m : Nat) :
    readSummary (Text.bytes (metadataText [.s "Non-recursive"] nulls a t m) ++ [10]) = some ⟨.none, [], nulls, a, t, m⟩ := by
  have h1 : Text.bytes (metadataText [.s "Non-recursive"] nulls a t m) ++ [10] =
      (b!"Description" :: (b!"\tHierarchy type: " ++ b!"Non-recursive") :: tailLines nulls a t m).flatMap (· ++ [10]) := by
    rw [metadata_bytes]
    simp [bytes_s, bytes_nil, keyLit]
  rw [h1, readSummary, linesIn_lines]
  · simp only [Option.bind_eq_bind, Option.bind_some, if_true, stripped_append, read_tail]
  · intro x hx
    rw [List.mem_cons, List.mem_cons] at hx
    rcases hx with rfl | rfl | hx
    · decide
    · decide
    · exact tail_lines hn a t m x hx

/-- The class without the line end that follows it. -/
def classWord : Class → Bytes
  | .none => b!"Non-recursive"
  | .plain => b!"Recursive"
  | .growingEmptyPrefix => b!"Growing empty prefix recursion"
  | .empty => b!"Empty recursion"
  | .growAndShrink => b!"Grow and shrink recursion"

theorem read_recursive (hf : Parses f (.domain d)) {k : Class} (hk : k ≠ .none) {c : List Method} (hc : Cycle d c)
    {nulls : List Name} (hn : ∀ x ∈ nulls, 10 ∉ x) (a t m : Nat) :
    readSummary (Text.bytes (metadataText ([.s k.heading, .s "\tCycle: "] ++ cycleText c) nulls a t m) ++ [10]) =
      some ⟨k, cycleOf c, nulls, a, t, m⟩ := by
  obtain ⟨m0, c, rfl⟩ : ∃ m0 c', c = m0 :: c' := by
    cases c with
    | nil => exact absurd rfl hc.ne
    | cons m0 c => exact ⟨m0, c, rfl⟩
  have hp : ∀ p ∈ cycleOf (m0 :: c), (10 ∉ p.1 ∧ 40 ∉ p.1 ∧ 41 ∉ p.1) ∧ 10 ∉ p.2 ∧ 40 ∉ p.2 ∧ 41 ∉ p.2 := by
    intro p hp
    obtain ⟨x, hx, rfl⟩ := List.mem_map.mp hp
    exact method_plain hf (hc.mem x hx)
  have hh : keyBytes k.heading = classWord k ++ [10] := by
    cases k with
    | none => exact absurd rfl hk
    | _ => simp [Class.heading, classWord, keyLit]
  have h1 : Text.bytes (metadataText ([.s k.heading, .s "\tCycle: "] ++ cycleText (m0 :: c)) nulls a t m) ++ [10] =
      (b!"Description" :: (b!"\tHierarchy type: " ++ classWord k) :: (b!"\tCycle: " ++ stepsText (cycleOf (m0 :: c)) m0.task.name) ::
        tailLines nulls a t m).flatMap (· ++ [10]) := by
    rw [metadata_bytes, ← cycle_bytes]
    simp [bytes_s, bytes_nil, bytes_append, keyLit, hh]
  have hw : classWord k ≠ b!"Non-recursive" ∧ readClass (classWord k) = some k ∧ 10 ∉ b!"\tHierarchy type: " ++ classWord k := by
    cases k with
    | none => exact absurd rfl hk
    | _ => decide
  rw [h1, readSummary, linesIn_lines]
  · simp only [Option.bind_eq_bind, Option.bind_some, if_true, stripped_append, if_neg hw.1, hw.2.1]
    have := read_cycle (t := m0.task.name) (m := m0.name.name) (c := cycleOf c) fun p h => ⟨(hp p h).1.2, (hp p h).2.2⟩
    rw [show cycleOf (m0 :: c) = (m0.task.name, m0.name.name) :: cycleOf c from rfl, this]
    exact read_tail ..
  · intro x hx
    rw [List.mem_cons, List.mem_cons, List.mem_cons] at hx
    rcases hx with rfl | rfl | rfl | hx
    · decide
    · exact hw.2.2
    · have h2 : 10 ∉ stepsText (cycleOf (m0 :: c)) m0.task.name := by
        have h3 := (hp (m0.task.name, m0.name.name) (List.mem_cons_self)).1.1
        intro h
        rw [stepsText, List.mem_append, List.mem_flatMap] at h
        rcases h with ⟨p, h, h4⟩ | h
        · simp [(hp p h).1.1, (hp p h).2.1] at h4
        · simp [h3] at h
      simp [h2]
    · exact tail_lines hn a t m x hx

/-- C104: from the bytes on the two streams of the command `metadata` one can read the class of recursion, a cycle of methods
of this domain, the tasks reported as nullable and the numbers of actions, tasks and methods, or the error. -/
theorem C104_metadata (hq : ∀ l, 39 ∉ keyBytes (Env.showReal l)) {out : List OutLine} (h : Prints ord f (.ok out)) :
    (∃ d md c, Parses f (.domain d) ∧ Metadata ord f md ∧ streamOf false out = [] ∧
      (md.recursion.cls = .none ∧ c = [] ∨ md.recursion.cls ≠ .none ∧ Cycle d c) ∧
      readSummary (streamOf true out) = some ⟨md.recursion.cls, c.map fun m => (m.task.name, m.name.name), md.nullables,
        d.actions.length, d.tasks.length, d.methods.length⟩) ∨
    ∃ e, Returns ord f none (.err e) ∧ readVerdict (streamOf true out) (streamOf false out) = some (.rejected (reportOf e)) := by
  obtain ⟨N, hN⟩ := h
  have h1 := hN N (Nat.le_refl _)
  unfold cliMetadata at h1
  simp only at h1
  cases hm : getMetadata ord N f with
  | err e =>
    rw [hm] at h1
    obtain ⟨t, ht, h1⟩ := R.bind_ok_iff.mp (show e.show.bind (fun t => .ok [errorLine t]) = _ from h1)
    cases h1
    have hr : Returns ord f none (.err e) := returns_run (n := N) (by simp [verify, getMetadata_err hm, R.bind]) (by simp)
    exact .inr ⟨e, hr, read_error (C88_error hq hr ht)⟩
  | panic x => rw [hm] at h1; cases h1
  | timeout => rw [hm] at h1; cases h1
  | ok md =>
    rw [hm] at h1
    cases h1
    left
    have hp : ∃ d, parse N f = .ok (.domain d) := by
      unfold getMetadata at hm
      obtain ⟨a, ha, hm⟩ := R.bind_ok_iff.mp hm
      cases a with
      | problem _ => cases hm
      | domain d => exact ⟨d, ha⟩
    obtain ⟨d, hd⟩ := hp
    have hmd := metadata_run hm
    have hf : Parses f (.domain d) := .of_ok hd
    obtain ⟨c1, c2, c3⟩ := C38_counts_tree hf hmd
    have hs : streamOf true [.stdout md.show] = Text.bytes md.show ++ [10] := by simp [streamOf, OutLine.bytes]
    rcases C36_cycle hf hmd with h2 | ⟨c, hc, h2⟩
    · have hr : md.recursion = .nonRecursive := by
        cases hr : md.recursion with
        | nonRecursive => rfl
        | _ => rw [hr] at h2; simp [RecType.show] at h2
      refine ⟨d, md, [], hf, hmd, rfl, .inl ⟨by rw [hr]; rfl, rfl⟩, ?_⟩
      rw [hs, metadata_show, h2, read_plain (nullables_plain hf hmd), hr, c1, c2, c3]
      rfl
    · have hr : md.recursion.cls ≠ .none := by
        intro hr
        cases hr' : md.recursion with
        | nonRecursive => rw [hr'] at h2; simp [RecType.show] at h2
        | _ => rw [hr'] at hr; cases hr
      refine ⟨d, md, c, hf, hmd, rfl, .inr ⟨hr, hc⟩, ?_⟩
      rw [hs, metadata_show, h2, read_recursive hf hr hc (nullables_plain hf hmd), c1, c2, c3]
      rfl

/-- C104: two runs of `metadata` that compute metadata and print the same agree about the domain. -/
theorem C104_metadata_alike (hq : ∀ l, 39 ∉ keyBytes (Env.showReal l)) {out out' : List OutLine} {md' : MetaData} {d' : DomainAST}
    (hf : Parses f (.domain d)) (hm : Metadata ord f md) (hf' : Parses f' (.domain d')) (hm' : Metadata ord' f' md')
    (h : Prints ord f (.ok out)) (h' : Prints ord' f' (.ok out')) (he : streamOf true out = streamOf true out') :
    md.recursion.cls = md'.recursion.cls ∧ md.nullables = md'.nullables ∧ d.actions.length = d'.actions.length ∧
      d.tasks.length = d'.tasks.length ∧ d.methods.length = d'.methods.length := by
  have key {ord : HashOrd} {f : Bytes} {out : List OutLine} {d : DomainAST} {md : MetaData} (hf : Parses f (.domain d))
      (hm : Metadata ord f md) (h : Prints ord f (.ok out)) : ∃ c, readSummary (streamOf true out) =
        some ⟨md.recursion.cls, c, md.nullables, d.actions.length, d.tasks.length, d.methods.length⟩ := by
    rcases C104_metadata hq h with ⟨d1, md1, c, h1, h2, _, _, h3⟩ | ⟨e, h1, h2⟩
    · cases hf.det h1
      obtain rfl : md = md1 := by
        obtain ⟨N, hN⟩ := hm
        obtain ⟨M, hM⟩ := h2
        have := hN (max N M) (Nat.le_max_left ..)
        rw [hM _ (Nat.le_max_right N M)] at this
        exact (R.ok.inj this).symm
      exact ⟨_, h3⟩
    · obtain ⟨M, hM⟩ := hm
      obtain ⟨N, hN⟩ := h
      have h3 := hN (max M N) (Nat.le_max_right ..)
      simp only [cliMetadata, hM _ (Nat.le_max_left M N)] at h3
      cases h3
      have : streamOf true [.stdout md.show] = Text.bytes md.show ++ [10] := by simp [streamOf, OutLine.bytes]
      rw [this, show streamOf false [OutLine.stdout md.show] = [] from rfl, readVerdict, if_pos rfl] at h2
      cases hl : linesIn (Text.bytes md.show ++ [10]) with
      | none => simp [hl] at h2
      | some ls =>
        simp only [hl, Option.bind_eq_bind, Option.bind_some] at h2
        split at h2
        · cases hw : ls.dropLast.mapM readWarning <;> rw [hw] at h2 <;> cases h2
        · cases h2
  obtain ⟨c, h1⟩ := key hf hm h
  obtain ⟨c', h2⟩ := key hf' hm' h'
  rw [he, h2] at h1
  simp only [Option.some.injEq, Summary.mk.injEq] at h1
  obtain ⟨h1, _, h2, h3, h4, h5⟩ := h1
  exact ⟨h1.symm, h2.symm, h3.symm, h4.symm, h5.symm⟩

/-! ### Instances -/

omit [Env] in
/-- A run with a warning, a run with an error, and what is read from their bytes. -/
example : ∃ out out', @Ends Env.plain HashOrd.id b!"(define (domain d)\n(:task t :parameters ()))\n" none (.ok out) ∧
    streamOf true out = b!"\x1b[33m[Warning]\x1b[0m line 2: compound task t does not have a primitive refinement\n\x1b[32m[Ok]\x1b[0m\n" ∧
    streamOf false out = [] ∧ readVerdict (streamOf true out) (streamOf false out) = some (.accepted [(b!"t", 2)]) ∧
    @Ends Env.plain HashOrd.id b!"(define (domain d)\n(:action a :parameters () :effect (p)))\n" none (.ok out') ∧
    streamOf true out' = [] ∧ streamOf false out' = b!"\x1b[31m[Error]\x1b[0m line 2: predicate p is not defined.\n" ∧
    readVerdict (streamOf true out') (streamOf false out') = some (.rejected (.undefined .predicate b!"p" 2)) :=
  ⟨_, _, @ends_of_returns Env.plain _ _ _ _ (@returns_run Env.plain _ _ _ 40 (.ok [⟨b!"t", 2⟩]) (by decide +kernel) (by simp)),
    by decide +kernel, by decide +kernel, by decide +kernel,
    @ends_of_returns Env.plain _ _ _ _ (@returns_run Env.plain _ _ _ 40 (.err (.semantic (.undefPredicate ⟨b!"p", 2⟩)))
      (by decide +kernel) (by simp)), by decide +kernel, by decide +kernel, by decide +kernel⟩

omit [Env] in
/-- A recursive domain with a nullable task. -/
example : ∃ out md, @Prints Env.plain HashOrd.id loopDomain (.ok out) ∧ @Metadata Env.plain HashOrd.id loopDomain md ∧
    readSummary (streamOf true out) = some ⟨.growAndShrink, [(b!"u", b!"m2"), (b!"t", b!"m1")], [b!"e"], 1, 3, 4⟩ := by
  have h : @Metadata Env.plain HashOrd.id loopDomain
      ⟨.growAndShrink [(b!"u", b!"m2"), (b!"t", b!"m1"), (b!"u", b!"m1")], [b!"e"], [], 1, 3, 4⟩ :=
    @metadata_run Env.plain _ _ 80 _ (by decide +kernel)
  refine ⟨[.stdout (MetaData.show
    ⟨.growAndShrink [(b!"u", b!"m2"), (b!"t", b!"m1"), (b!"u", b!"m1")], [b!"e"], [], 1, 3, 4⟩)], _, ?_, h, ?_⟩
  · obtain ⟨N, hN⟩ := h
    exact ⟨N, fun n hn => by simp only [cliMetadata, hN n hn]⟩
  · decide +kernel

end Verif
