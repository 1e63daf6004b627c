import Verif.Proofs.Sequence
import Verif.Props.Clash
import Verif.Props.Recursion
import Verif.Props.Skeleton
import Verif.Props.Types

/-! C84: what the order of subtasks influences. -/

namespace Verif

open Spec

variable [Env] {ord ord' : HashOrd} {f f' g g' : Bytes} {d d' : DomainAST} {p p' : ProblemAST} {md md' : MetaData}

omit [Env] in
theorem before_lines {h : HTN} : Before (rnHtn id h) = Before h := by
  funext a b
  simp only [Before, rnHtn]
  cases h.orderings with
  | total => simp [rnOrdering]
  | partial_ os => simp [rnOrdering]

/-- C84: if labels, orderings and constraints of the methods of an accepted domain are changed and subtasks are listed in another order,
the new domain is accepted iff its orderings have no cycles. -/
theorem C84_domain (hf : Parses f (.domain d)) (hf' : Parses f' (.domain d')) (h : Resequenced List.Perm (rnDomain id d) (rnDomain id d'))
    (ha : ∃ ws, Returns ord f none (.ok ws)) :
    (∃ ws, Returns ord' f' none (.ok ws)) ↔ ∀ m ∈ d'.methods, Acyclic (Before m.tn) := by
  rw [returns_domain_iff hf'] at *
  rw [returns_domain_iff hf, ← domainOk_lines] at ha
  rw [← domainOk_lines, domainOk_resequenced h ha]
  simp [rnDomain, rnMethod, before_lines]

/-- C84: likewise for a problem and its initial task network. -/
theorem C84_problem (hf : Parses f (.domain d)) (hf' : Parses f' (.domain d')) (hg : Parses g (.problem p)) (hg' : Parses g' (.problem p'))
    (h : Resequenced List.Perm (rnDomain id d) (rnDomain id d')) (hp : ResequencedProblem List.Perm (rnProblem id p) (rnProblem id p'))
    (ha : ∃ ws, Returns ord f (some g) (.ok ws)) :
    (∃ ws, Returns ord' f' (some g') (.ok ws)) ↔
      (∀ m ∈ d'.methods, Acyclic (Before m.tn)) ∧ ∀ k, p'.initTn = some k → Acyclic (Before k.tn) := by
  rw [returns_problem_iff hf hg, ← domainOk_lines, ← problemOk_lines] at ha
  rw [returns_problem_iff hf' hg', ← domainOk_lines (d := d'), ← problemOk_lines, domainOk_resequenced h ha.1]
  have h1 : ProblemOk (rnDomain id d') (rnProblem id p) := problemOk_domain h ha.2
  rw [problemOk_resequenced hp h1]
  have h2 : (∀ m ∈ (rnDomain id d').methods, Acyclic (Before m.tn)) ↔ ∀ m ∈ d'.methods, Acyclic (Before m.tn) := by
    simp [rnDomain, rnMethod, before_lines]
  have h3 : (∀ k, (rnProblem id p').initTn = some k → Acyclic (Before k.tn)) ↔ ∀ k, p'.initTn = some k → Acyclic (Before k.tn) := by
    simp [rnProblem, rnInitTn, before_lines]
  rw [h2, h3]

/-- C84: if the subtasks are listed in the same order, the nullable tasks are the same, and so are the counts; labels, orderings and
constraints do not matter. -/
theorem C84_nullables (hf : Parses f (.domain d)) (hf' : Parses f' (.domain d')) (h : Resequenced Eq (rnDomain id d) (rnDomain id d'))
    (hm : Metadata ord f md) (hm' : Metadata ord f' md') : md' = { md with recursion := md'.recursion } := by
  obtain ⟨ns, rt, h1, rfl, _⟩ := hm.parts hf
  obtain ⟨ns', rt', h2, rfl, _⟩ := hm'.parts hf'
  obtain rfl := ((nullablesAre_resequenced h).mp h2).det h1
  have e : ∀ {α : Type} (k : DomainAST → α), k (rnDomain id d') = k { rnDomain id d with methods := (rnDomain id d').methods } :=
    fun k => congrArg k h.same
  have h3 := congrArg List.length (e DomainAST.actions)
  have h4 := congrArg List.length (e DomainAST.tasks)
  have h5 := h.methods.length_eq
  simp only [rnDomain, List.length_map] at h3 h4 h5
  simp only [h3, h4, h5]

/-- C84: if the subtasks are listed in the same order and both files are accepted, the same tasks are warned about, in the same order. -/
theorem C84_warnings (hf : Parses f (.domain d)) (hf' : Parses f' (.domain d')) (h : Resequenced Eq (rnDomain id d) (rnDomain id d'))
    {ws ws' : List Warning} (hr : Returns ord f none (.ok ws)) (hr' : Returns ord f' none (.ok ws')) :
    ws'.map (·.symbol) = ws.map (·.symbol) := by
  obtain ⟨N, hN⟩ := accepts_warningsOf ((returns_ok_none hf).mp hr)
  obtain ⟨M, hM⟩ := accepts_warningsOf ((returns_ok_none hf').mp hr')
  have h1 := warningsOf_resequenced (ord := ord) h (max N M)
  rw [hN _ (by omega), hM _ (by omega)] at h1
  have h2 := congrArg (List.map Warning.symbol) (R.ok.inj h1)
  simpa [List.map_map, Function.comp_def] using h2

/-- C84: whatever the order of the subtasks, both domains are recursive or none is. -/
theorem C84_recursive (hf : Parses f (.domain d)) (hf' : Parses f' (.domain d'))
    (h : Resequenced List.Perm (rnDomain id d) (rnDomain id d')) (hm : Metadata ord f md) (hm' : Metadata ord' f' md') :
    md'.recursion = .nonRecursive ↔ md.recursion = .nonRecursive := by
  rw [C34_non_recursive hf hm, C34_non_recursive hf' hm']
  obtain ⟨h1, h2⟩ := sameSubs_resequenced h
  have : HasSub d' = HasSub d := by
    funext x y
    exact propext ⟨h2.hasSub, h1.hasSub⟩
  rw [this]

/-- C84: in uniform domains, where tasks with an erasable subtask are erasable, the order in which subtasks are listed does not matter
for the nullable tasks. -/
theorem C84_nullables_uniform (hf : Parses f (.domain d)) (hf' : Parses f' (.domain d'))
    (h : Resequenced List.Perm (rnDomain id d) (rnDomain id d')) (hu : Uniform d) (ha : ∃ ws, Returns ord f none (.ok ws))
    (ha' : ∃ ws, Returns ord' f' none (.ok ws)) (hm : Metadata ord f md) (hm' : Metadata ord' f' md') (x : Name) :
    x ∈ md'.nullables ↔ x ∈ md.nullables := by
  obtain ⟨h1, h2⟩ := sameSubs_resequenced h
  rw [(C31_bounds_partial hf ha md hm).2.2 hu, (C31_bounds_partial hf' ha' md' hm').2.2 (h1.uniform h2 hu)]
  exact ⟨h2.erasable h1, h1.erasable h2⟩

/-- C84: and neither for the warnings. -/
theorem C84_warnings_uniform (hf : Parses f (.domain d)) (hf' : Parses f' (.domain d'))
    (h : Resequenced List.Perm (rnDomain id d) (rnDomain id d')) (hu : Uniform d) {ws ws' : List Warning}
    (hr : Returns ord f none (.ok ws)) (hr' : Returns ord' f' none (.ok ws')) :
    (ws'.map (·.symbol)).Perm (ws.map (·.symbol)) := by
  obtain ⟨h1, h2⟩ := sameSubs_resequenced h
  have hu' := h1.uniform h2 hu
  have key : ∀ {ord f d} {ws : List Warning}, Parses f (.domain d) → Uniform d → Returns ord f none (.ok ws) → ∀ x,
      x ∈ ws.map (·.symbol) ↔ x ∈ d.tasks.map (·.name) ∧ (ActionName d x ∨ ¬ ReachesAction d x) ∧ ¬ Erasable d x := by
    intro ord f d ws hf hu hr x
    have h3 := (C30_clash_partial hf ws hr).2.2 hu
    have h4 := (C29_exact hf ws hr).2.2
    constructor
    · intro hx
      obtain ⟨w, hw, rfl⟩ := List.mem_map.mp hx
      obtain ⟨t, ht, rfl, _⟩ := (h4 w).mp hw
      exact ⟨List.mem_map_of_mem (f := Task.name) ht, (h3 t ht).mp hw⟩
    · rintro ⟨hx, h5⟩
      obtain ⟨t, ht, rfl⟩ := List.mem_map.mp hx
      exact List.mem_map_of_mem (f := Warning.symbol) ((h3 t ht).mpr h5)
  refine (List.perm_ext_iff_of_nodup (C29_exact hf' ws' hr').1 (C29_exact hf ws hr).1).mpr fun x => ?_
  have ht : d'.tasks.map (·.name) = d.tasks.map (·.name) := by
    have := congrArg (fun e : DomainAST => e.tasks.map (·.name)) h.same
    simpa [rnDomain, rnTask, Function.comp_def] using this
  have i1 : ActionName d' x ↔ ActionName d x := ⟨h2.actionName, h1.actionName⟩
  have i2 : ReachesAction d' x ↔ ReachesAction d x := ⟨h2.reaches, h1.reaches⟩
  have i3 : Erasable d' x ↔ Erasable d x := ⟨h2.erasable h1, h1.erasable h2⟩
  rw [key hf' hu' hr', key hf hu hr, ht, i1, i2, i3]

/-- C84 for all accepted domains: what is reported on one of the files can be reported on the other one, that is, for every hash iteration
order there is one for the other file with which the nullable tasks, the counts and the tasks warned about are the same. -/
theorem C84_possible (hf : Parses f (.domain d)) (hf' : Parses f' (.domain d'))
    (h : Resequenced List.Perm (rnDomain id d) (rnDomain id d')) {o o' : HashOrd} (ha : ∃ ws, Returns o f none (.ok ws))
    (ha' : ∃ ws, Returns o' f' none (.ok ws)) (ord : HashOrd) : ∃ ord',
    (∀ md md', Metadata ord f md → Metadata ord' f' md' → md' = { md with recursion := md'.recursion }) ∧
    ∀ ws, Returns ord f none (.ok ws) → ∃ ws', Returns ord' f' none (.ok ws') ∧ ws'.map (·.symbol) = ws.map (·.symbol) := by
  have hd := (C23_acceptance hf).mp ha
  have hd' := (C23_acceptance hf').mp ha'
  obtain ⟨g, hg⟩ := TDG.new_ok_iff (ord := ord) |>.mpr (Verif.DomainOk.closed hd)
  have hs := sameNames_resequenced h
  obtain ⟨ord', h1, h2, h3⟩ := hs.possible hg
  refine ⟨ord', fun md md' hm hm' => ?_, fun ws hr => ?_⟩
  · obtain ⟨ns, rt, h4, rfl, _⟩ := hm.parts hf
    obtain ⟨ns', rt', h5, rfl, _⟩ := hm'.parts hf'
    have h5 : NullablesAre ord d ns' := by simpa only [NullablesAre, h1] using h5
    obtain rfl := h5.det h4
    have h6 := congrArg List.length hs.tasks
    have h7 := congrArg List.length hs.actions
    have h8 := hs.methods.length_eq
    simp only [List.length_map] at h6 h7
    simp only [h3, h6, h7, h8]
  · obtain ⟨ws', hr'⟩ := (C23_acceptance (ord := ord') hf').mpr hd'
    refine ⟨ws', hr', ?_⟩
    obtain ⟨N, hN⟩ := accepts_warningsOf ((returns_ok_none hf).mp hr)
    obtain ⟨M, hM⟩ := accepts_warningsOf ((returns_ok_none hf').mp hr')
    have h4 := h2 (max N M)
    rw [hN _ (by omega), hM _ (by omega)] at h4
    exact R.ok.inj h4

/-! ### Instances -/

/-- A domain without parameters, written in one line. -/
def seqTree (ts : List Name) (ms : List (Name × Name × HTN)) (as : List Name) : DomainAST where
  name := b!"d"
  types := none
  constants := none
  requirements := []
  predicates := []
  tasks := ts.map fun t => ⟨t, 1, []⟩
  methods := ms.map fun m => ⟨⟨m.1, 1, none, none⟩, ⟨m.2.1, 1, none, none⟩, [], [], none, m.2.2⟩
  actions := as.map fun a => ⟨a, 1, [], none, none⟩
  functions := []

/-- A call, perhaps with a label. -/
def seqCall (l : Option Name) (t : Name) : Subtask := ⟨l.map fun l => ⟨l, 1, none, none⟩, ⟨t, 1, none, none⟩, []⟩

def seqTotal (l : List Name) : HTN := ⟨l.map (seqCall none), none, .total, none⟩

def seqOrdered : Bytes := b!"(define (domain d) (:task t :parameters ()) (:task u :parameters ()) (:task dead :parameters ()) (:method m0 :parameters () :task (t) :ordered-subtasks (and (go) (t) (u))) (:method m1 :parameters () :task (t) :ordered-subtasks (go)) (:method m2 :parameters () :task (u) :ordered-subtasks ()) (:action go :parameters ()))\n"

/-- The same total order of subtasks, by constraints. -/
def seqChain : Bytes := b!"(define (domain d) (:task t :parameters ()) (:task u :parameters ()) (:task dead :parameters ()) (:method m0 :parameters () :task (t) :subtasks (and (i (go)) (j (t)) (k (u))) :ordering (and (< i j) (< j k))) (:method m1 :parameters () :task (t) :ordered-subtasks (go)) (:method m2 :parameters () :task (u) :ordered-subtasks ()) (:action go :parameters ()))\n"

/-- The subtasks of `m0` are listed in another order. -/
def seqSwapped : Bytes := b!"(define (domain d) (:task t :parameters ()) (:task u :parameters ()) (:task dead :parameters ()) (:method m0 :parameters () :task (t) :ordered-subtasks (and (u) (t) (go))) (:method m1 :parameters () :task (t) :ordered-subtasks (go)) (:method m2 :parameters () :task (u) :ordered-subtasks ()) (:action go :parameters ()))\n"

/-- A cyclic ordering. -/
def seqCyclic : Bytes := b!"(define (domain d) (:task t :parameters ()) (:task u :parameters ()) (:task dead :parameters ()) (:method m0 :parameters () :task (t) :subtasks (and (i (go)) (j (t)) (k (u))) :ordering (and (< i j) (< j i))) (:method m1 :parameters () :task (t) :ordered-subtasks (go)) (:method m2 :parameters () :task (u) :ordered-subtasks ()) (:action go :parameters ()))\n"

def seqDomain (h : HTN) : DomainAST :=
  seqTree [b!"t", b!"u", b!"dead"] [(b!"m0", b!"t", h), (b!"m1", b!"t", seqTotal [b!"go"]), (b!"m2", b!"u", seqTotal [])] [b!"go"]

def seqPartial (os : List (Name × Name)) : HTN :=
  ⟨[seqCall (some b!"i") b!"go", seqCall (some b!"j") b!"t", seqCall (some b!"k") b!"u"], some 1, .partial_ os, none⟩

/-- A problem that starts with `t` and `go`. -/
def seqStart : Bytes := b!"(define (problem x) (:domain d) (:objects ) (:htn :ordered-subtasks (and (t) (go))) (:init ))\n"

def seqStartFree : Bytes := b!"(define (problem x) (:domain d) (:objects ) (:htn :subtasks (and (i (go)) (j (t))) :ordering (< i j)) (:init ))\n"

def listedFirst : Bytes := b!"(define (domain d) (:task s :parameters ()) (:task t :parameters ()) (:task a :parameters ()) (:task b :parameters ()) (:task c :parameters ()) (:method m0 :parameters () :task (s) :ordered-subtasks (t)) (:method m1 :parameters () :task (t) :ordered-subtasks (and (a) (b))) (:method m2 :parameters () :task (b) :ordered-subtasks (c)) (:method m3 :parameters () :task (c) :ordered-subtasks ()))\n"

def listedLast : Bytes := b!"(define (domain d) (:task s :parameters ()) (:task t :parameters ()) (:task a :parameters ()) (:task b :parameters ()) (:task c :parameters ()) (:method m0 :parameters () :task (s) :ordered-subtasks (t)) (:method m1 :parameters () :task (t) :ordered-subtasks (and (b) (a))) (:method m2 :parameters () :task (b) :ordered-subtasks (c)) (:method m3 :parameters () :task (c) :ordered-subtasks ()))\n"

def listedTree (l : List Name) : DomainAST :=
  seqTree [b!"s", b!"t", b!"a", b!"b", b!"c"] [(b!"m0", b!"s", seqTotal [b!"t"]), (b!"m1", b!"t", seqTotal l),
    (b!"m2", b!"b", seqTotal [b!"c"]), (b!"m3", b!"c", seqTotal [])] []

/-- A uniform domain. -/
def uniformFirst : Bytes := b!"(define (domain d) (:task t :parameters ()) (:task dead :parameters ()) (:method m0 :parameters () :task (t) :ordered-subtasks (and (t) (go))) (:method m1 :parameters () :task (t) :ordered-subtasks ()) (:action go :parameters ()))\n"

def uniformLast : Bytes := b!"(define (domain d) (:task t :parameters ()) (:task dead :parameters ()) (:method m0 :parameters () :task (t) :ordered-subtasks (and (go) (t))) (:method m1 :parameters () :task (t) :ordered-subtasks ()) (:action go :parameters ()))\n"

def uniformTree (l : List Name) : DomainAST :=
  seqTree [b!"t", b!"dead"] [(b!"m0", b!"t", seqTotal l), (b!"m1", b!"t", seqTotal [])] [b!"go"]

def seqProblem (h : HTN) : ProblemAST where
  requirements := []
  initTn := some ⟨none, h⟩
  initState := []
  goal := none
  objects := []

omit [Env] in
/-- Two such domains whose methods have the same names and tasks and whose calls are related. -/
theorem seqTree_resequenced {r : List (Name × List Name) → List (Name × List Name) → Prop} {ts as : List Name}
    {ms ks : List (Name × Name × HTN)}
    (h : List.Forall₂ (fun m k : Name × Name × HTN => m.1 = k.1 ∧ m.2.1 = k.2.1 ∧ r (calls (rnHtn id m.2.2)) (calls (rnHtn id k.2.2))) ms ks) :
    Resequenced r (rnDomain id (seqTree ts ms as)) (rnDomain id (seqTree ts ks as)) := by
  refine ⟨rfl, ?_⟩
  simp only [rnDomain, seqTree]
  induction h with
  | nil => exact .nil
  | @cons m k _ _ h _ ih =>
    refine .cons ⟨?_, h.2.2⟩ ih
    simp only [rnMethod, h.1, h.2.1]

omit [Env] in
theorem seqDomain_resequenced {r : List (Name × List Name) → List (Name × List Name) → Prop} (hr : ∀ l, r l l) {h k : HTN}
    (hc : r (calls (rnHtn id h)) (calls (rnHtn id k))) : Resequenced r (rnDomain id (seqDomain h)) (rnDomain id (seqDomain k)) :=
  seqTree_resequenced (.cons ⟨rfl, rfl, hc⟩ (.cons ⟨rfl, rfl, hr _⟩ (.cons ⟨rfl, rfl, hr _⟩ .nil)))

omit [Env] in
/-- Instance: `seqOrdered` and `seqChain` meet the hypotheses of `C84_domain`, `C84_nullables`, `C84_warnings` and `C84_recursive`;
`seqCyclic` only has the same calls and is rejected. -/
theorem seqDomain_spec : ∃ d d' d'', @Parses Env.plain seqOrdered (.domain d) ∧ @Parses Env.plain seqChain (.domain d') ∧
    @Parses Env.plain seqCyclic (.domain d'') ∧ Resequenced Eq (rnDomain id d) (rnDomain id d') ∧
    Resequenced Eq (rnDomain id d) (rnDomain id d'') ∧
    @Returns Env.plain HashOrd.id seqOrdered none (.ok [⟨b!"dead", 1⟩]) ∧ @Returns Env.plain HashOrd.id seqChain none (.ok [⟨b!"dead", 1⟩]) ∧
    @Returns Env.plain HashOrd.id seqCyclic none (.err (.semantic (.cyclicOrdering 1))) ∧
    (∃ md, @Metadata Env.plain HashOrd.id seqOrdered md ∧ md.nullables = [b!"u"]) ∧
    ∃ md, @Metadata Env.plain HashOrd.id seqChain md ∧ md.nullables = [b!"u"] :=
  ⟨seqDomain (seqTotal [b!"go", b!"t", b!"u"]), seqDomain (seqPartial [(b!"i", b!"j"), (b!"j", b!"k")]),
    seqDomain (seqPartial [(b!"i", b!"j"), (b!"j", b!"i")]),
    @parses_tree Env.plain _ 400 _ (by decide +kernel), @parses_tree Env.plain _ 400 _ (by decide +kernel),
    @parses_tree Env.plain _ 400 _ (by decide +kernel), seqDomain_resequenced (fun _ => rfl) rfl, seqDomain_resequenced (fun _ => rfl) rfl,
    @returns_run Env.plain _ _ _ 400 _ (by decide +kernel) (by simp), @returns_run Env.plain _ _ _ 400 _ (by decide +kernel) (by simp),
    @returns_run Env.plain _ _ _ 400 _ (by decide +kernel) (by simp),
    ⟨⟨.recursive [(b!"t", b!"m0"), (b!"t", b!"m0")], [b!"u"], [], 1, 3, 3⟩, @metadata_run Env.plain _ _ 400 _ (by decide +kernel), rfl⟩,
    ⟨⟨.growAndShrink [(b!"t", b!"m0"), (b!"t", b!"m0")], [b!"u"], [], 1, 3, 3⟩, @metadata_run Env.plain _ _ 400 _ (by decide +kernel), rfl⟩⟩

omit [Env] in
/-- Instance: two problems that meet the hypotheses of `C84_problem` with `seqOrdered` and `seqSwapped`. -/
theorem seqProblem_spec : ∃ d d' p p', @Parses Env.plain seqOrdered (.domain d) ∧ @Parses Env.plain seqSwapped (.domain d') ∧
    @Parses Env.plain seqStart (.problem p) ∧ @Parses Env.plain seqStartFree (.problem p') ∧
    Resequenced List.Perm (rnDomain id d) (rnDomain id d') ∧ ResequencedProblem List.Perm (rnProblem id p) (rnProblem id p') ∧
    ∃ ws, @Returns Env.plain HashOrd.id seqOrdered (some seqStart) (.ok ws) := by
  refine ⟨seqDomain (seqTotal [b!"go", b!"t", b!"u"]), seqDomain (seqTotal [b!"u", b!"t", b!"go"]), seqProblem (seqTotal [b!"t", b!"go"]),
    seqProblem ⟨[seqCall (some b!"i") b!"go", seqCall (some b!"j") b!"t"], some 1, .partial_ [(b!"i", b!"j")], none⟩,
    @parses_tree Env.plain _ 400 _ (by decide +kernel), @parses_tree Env.plain _ 400 _ (by decide +kernel),
    @parses_treeP Env.plain _ 400 _ (by decide +kernel), @parses_treeP Env.plain _ 400 _ (by decide +kernel),
    seqDomain_resequenced .refl (by decide +kernel), ⟨rfl, rfl, ?_⟩,
    [⟨b!"dead", 1⟩], @returns_run Env.plain _ _ _ 400 _ (by decide +kernel) (by simp)⟩
  intro h k hh hk
  obtain rfl := Option.some.inj hh
  obtain rfl := Option.some.inj hk
  decide +kernel

omit [Env] in
/-- Instance: a uniform domain and one with the subtasks listed in another order. -/
theorem uniformTree_spec : ∃ d d', @Parses Env.plain uniformFirst (.domain d) ∧ @Parses Env.plain uniformLast (.domain d') ∧
    Resequenced List.Perm (rnDomain id d) (rnDomain id d') ∧ Uniform d ∧
    @Returns Env.plain HashOrd.id uniformFirst none (.ok [⟨b!"dead", 1⟩]) ∧ @Returns Env.plain HashOrd.id uniformLast none (.ok [⟨b!"dead", 1⟩]) ∧
    (∃ md, @Metadata Env.plain HashOrd.id uniformFirst md ∧ md.nullables = [b!"t"]) ∧
    ∃ md, @Metadata Env.plain HashOrd.id uniformLast md ∧ md.nullables = [b!"t"] := by
  refine ⟨uniformTree [b!"t", b!"go"], uniformTree [b!"go", b!"t"],
    @parses_tree Env.plain _ 400 _ (by decide +kernel), @parses_tree Env.plain _ 400 _ (by decide +kernel),
    seqTree_resequenced (.cons ⟨rfl, rfl, by decide +kernel⟩ (.cons ⟨rfl, rfl, .refl _⟩ .nil)), ?_,
    @returns_run Env.plain _ _ _ 400 _ (by decide +kernel) (by simp), @returns_run Env.plain _ _ _ 400 _ (by decide +kernel) (by simp),
    ⟨⟨.growingEmptyPrefix [(b!"t", b!"m0"), (b!"t", b!"m0")], [b!"t"], [], 1, 2, 2⟩, @metadata_run Env.plain _ _ 400 _ (by decide +kernel), rfl⟩,
    ⟨⟨.recursive [(b!"t", b!"m0"), (b!"t", b!"m0")], [b!"t"], [], 1, 2, 2⟩, @metadata_run Env.plain _ _ 400 _ (by decide +kernel), rfl⟩⟩
  have he : Erasable (uniformTree [b!"t", b!"go"]) b!"t" :=
    Erasable.mk (d := uniformTree [b!"t", b!"go"]) (m := ⟨⟨b!"m1", 1, none, none⟩, ⟨b!"t", 1, none, none⟩, [], [], none, seqTotal []⟩)
      (by simp [uniformTree, seqTree]) (by simp [seqTotal]) (by simp [seqTotal])
  intro m hm _
  simp only [uniformTree, seqTree, List.map_cons, List.map_nil, List.mem_cons, List.not_mem_nil, or_false] at hm
  rcases hm with rfl | rfl <;> exact he

/-! ### What does not hold -/

omit [Env] in
/-- The class of recursion is not the same if `:ordered-subtasks` is replaced by `:subtasks` in the same order with an `:ordering` that
puts each before the next, i.e. the same total order. -/
theorem C84_class_refuted : ∃ d d', @Parses Env.plain seqOrdered (.domain d) ∧ @Parses Env.plain seqChain (.domain d') ∧
    Resequenced Eq (rnDomain id d) (rnDomain id d') ∧
    (∀ m ∈ d.methods, m.tn.orderings = .total) ∧
    (∀ m ∈ d'.methods, m.tn.orderings = .total ∨ (m.tn.subtasks.map fun s => s.id.map (·.name)) = [some b!"i", some b!"j", some b!"k"] ∧
      m.tn.orderings = .partial_ [(b!"i", b!"j"), (b!"j", b!"k")]) ∧
    @Metadata Env.plain HashOrd.id seqOrdered ⟨.recursive [(b!"t", b!"m0"), (b!"t", b!"m0")], [b!"u"], [], 1, 3, 3⟩ ∧
    @Metadata Env.plain HashOrd.id seqChain ⟨.growAndShrink [(b!"t", b!"m0"), (b!"t", b!"m0")], [b!"u"], [], 1, 3, 3⟩ :=
  ⟨seqDomain (seqTotal [b!"go", b!"t", b!"u"]), seqDomain (seqPartial [(b!"i", b!"j"), (b!"j", b!"k")]),
    @parses_tree Env.plain _ 400 _ (by decide +kernel), @parses_tree Env.plain _ 400 _ (by decide +kernel),
    seqDomain_resequenced (fun _ => rfl) rfl, by simp [seqDomain, seqTree, seqTotal], by simp [seqDomain, seqTree, seqTotal, seqPartial, seqCall],
    @metadata_run Env.plain _ _ 400 _ (by decide +kernel), @metadata_run Env.plain _ _ 400 _ (by decide +kernel)⟩

omit [Env] in
/-- In domains that are not uniform, nullable tasks and warnings need not be the same for both orders of listing: whether `s` is warned about
depends on which of `a` and `b` is met first.  (By `C84_possible`, both results are possible for both files.) -/
theorem C84_listing_refuted : ∃ d d', @Parses Env.plain listedFirst (.domain d) ∧ @Parses Env.plain listedLast (.domain d') ∧
    Resequenced List.Perm (rnDomain id d) (rnDomain id d') ∧
    @Returns Env.plain HashOrd.id listedFirst none (.ok [⟨b!"s", 1⟩, ⟨b!"t", 1⟩, ⟨b!"a", 1⟩]) ∧
    @Returns Env.plain HashOrd.id listedLast none (.ok [⟨b!"t", 1⟩, ⟨b!"a", 1⟩]) ∧
    @Metadata Env.plain HashOrd.id listedFirst ⟨.nonRecursive, [b!"b", b!"c"], [], 0, 5, 4⟩ ∧
    @Metadata Env.plain HashOrd.id listedLast ⟨.nonRecursive, [b!"s", b!"b", b!"c"], [], 0, 5, 4⟩ :=
  ⟨listedTree [b!"a", b!"b"], listedTree [b!"b", b!"a"],
    @parses_tree Env.plain _ 400 _ (by decide +kernel), @parses_tree Env.plain _ 400 _ (by decide +kernel),
    seqTree_resequenced (.cons ⟨rfl, rfl, .refl _⟩ (.cons ⟨rfl, rfl, by decide +kernel⟩ (.cons ⟨rfl, rfl, .refl _⟩ (.cons ⟨rfl, rfl, .refl _⟩ .nil)))),
    @returns_run Env.plain _ _ _ 400 _ (by decide +kernel) (by simp), @returns_run Env.plain _ _ _ 400 _ (by decide +kernel) (by simp),
    @metadata_run Env.plain _ _ 400 _ (by decide +kernel), @metadata_run Env.plain _ _ 400 _ (by decide +kernel)⟩

end Verif
