import Verif.Proofs.Reorder
import Verif.Props.Declarations

/-! C76 for all accepted domains: the same results are possible. -/

namespace Verif

open Spec

variable [Env] {ord ord' : HashOrd} {f f' : Bytes} {d d' : DomainAST} {md md' : MetaData}

omit [Env] in
theorem Spec.Rearranged.tdgTasks (h : Rearranged (rnDomain id d) (rnDomain id d')) : (tdgTasks d).Perm (tdgTasks d') := by
  have h1 : ∀ d : DomainAST, Verif.tdgTasks d = (d.tasks.map (·.name)).map (fun x => (x, true)) ++
      (d.actions.map (·.name)).map (fun x => (x, false)) := fun d => by simp [Verif.tdgTasks, Function.comp_def]
  rw [h1, h1]
  exact (h.taskNames.map _).append (h.actionNames.map _)

omit [Env] in
theorem Spec.Rearranged.outlines (h : Rearranged (rnDomain id d) (rnDomain id d')) :
    (d.methods.map outline).Perm (d'.methods.map outline) := by
  have h1 : ∀ d : DomainAST, d.methods.map outline = (rnDomain id d).methods.map outline := fun d => by
    simp [rnDomain, outline_rn]
  rw [h1 d, h1 d']
  exact h.methods.map _

theorem mem_nullables (hf : Parses f (.domain d)) (h : Metadata ord f md) :
    ∃ ns, NullablesAre ord d ns ∧ ∀ x, x ∈ md.nullables ↔ x ∈ ns := by
  obtain ⟨ns, rt, h1, rfl, _⟩ := h.parts hf
  exact ⟨ns, h1, fun x => (arrange_perm ord [20] ns).mem_iff⟩

theorem warnings_sub (hf : Parses f (.domain d)) (hf' : Parses f' (.domain d'))
    (h : Rearranged (rnDomain id d) (rnDomain id d')) {ws ws' : List Warning} (hr : Returns ord f none (.ok ws))
    (hr' : Returns ord' f' none (.ok ws'))
    (hn : ∀ ns ns', NullablesAre ord d ns → NullablesAre ord' d' ns' → ∀ x, x ∈ ns' → x ∈ ns) {x : Name}
    (hx : x ∈ ws.map (·.symbol)) : x ∈ ws'.map (·.symbol) := by
  obtain ⟨w, hw, rfl⟩ := List.mem_map.mp hx
  obtain ⟨_, hex, h1⟩ := C29_exact hf ws hr
  obtain ⟨t, ht, rfl, h2, h3⟩ := (h1 w).mp hw
  obtain ⟨ns, hns⟩ := hex (List.ne_nil_of_mem ht)
  obtain ⟨t', ht', h4⟩ := List.mem_map.mp (h.taskNames.mem_iff.mp (List.mem_map_of_mem ht))
  refine List.mem_map.mpr ⟨⟨t'.name, t'.pos⟩, ((C29_exact hf' ws' hr').2.2 _).mpr ⟨t', ht', rfl, ?_, fun ns' hns' hm => ?_⟩, h4⟩
  · rw [h4, ← h.actionName]
    exact h2.imp_right fun h5 h6 => h5 (reachesAction_covered h.symm.covered (fun x => (h.actionName x).mpr) h6)
  · rw [h4] at hm
    exact h3 ns hns (hn ns ns' hns hns' _ hm)

/-- C76 for all accepted domains with the same declarations: what one run reports on one of the files can be reported on the
other one, that is, for every hash iteration order there is one for the other file with which the nullable tasks, the
class, the counts and the tasks warned about are the same. -/
theorem C76_possible (hf : Parses f (.domain d)) (hf' : Parses f' (.domain d'))
    (h : Rearranged (rnDomain id d) (rnDomain id d')) {o o' : HashOrd} (ha : ∃ ws, Returns o f none (.ok ws))
    (ha' : ∃ ws, Returns o' f' none (.ok ws)) (ord : HashOrd) : ∃ ord',
    (∀ md, Metadata ord f md → ∃ md', Metadata ord' f' md' ∧ (∀ x, x ∈ md'.nullables ↔ x ∈ md.nullables) ∧
      md'.recursion.cls = md.recursion.cls ∧ md'.nActions = md.nActions ∧ md'.nTasks = md.nTasks ∧ md'.nMethods = md.nMethods) ∧
    ∀ ws, Returns ord f none (.ok ws) → ∃ ws', Returns ord' f' none (.ok ws') ∧ (ws'.map (·.symbol)).Perm (ws.map (·.symbol)) := by
  have hd := (C23_acceptance hf).mp ha
  have hd' := (C23_acceptance hf').mp ha'
  obtain ⟨ord', hn⟩ := nullables_reordered h.tdgTasks h.outlines hd hd' ord
  refine ⟨ord', fun md hm => ?_, fun ws hr => ?_⟩
  · obtain ⟨md', hm'⟩ := (C76_computed (ord' := ord') hf hf' h).mp ⟨md, hm⟩
    obtain ⟨ns, h1, h2⟩ := mem_nullables hf hm
    obtain ⟨ns', h1', h2'⟩ := mem_nullables hf' hm'
    have h3 : ∀ x, x ∈ md'.nullables ↔ x ∈ md.nullables := fun x => by rw [h2, h2', hn ns ns' h1 h1']
    obtain ⟨⟨h4, h5, h6⟩, _, h7⟩ := C76_metadata hf hf' h hm hm'
    exact ⟨md', hm', h3, (h7 fun x => (h3 x).symm).symm, h4.symm, h5.symm, h6.symm⟩
  · obtain ⟨ws', hr'⟩ := (C23_acceptance (ord := ord') hf').mpr hd'
    exact ⟨ws', hr', (List.perm_ext_iff_of_nodup (C29_exact hf' ws' hr').1 (C29_exact hf ws hr).1).mpr fun x =>
      ⟨warnings_sub hf' hf h.symm hr' hr fun ns ns' h1 h2 x hx => (hn ns' ns h2 h1 x).mpr hx,
        warnings_sub hf hf' h hr hr' fun ns ns' h1 h2 x hx => (hn ns ns' h1 h2 x).mp hx⟩⟩

/-! ### Instance -/

/-- The declarations of `mixedDomain` in another order. -/
def mixedTurned : Bytes := b!"(define (domain d) (:task t :parameters ()) (:task x :parameters ())
    (:method m4 :parameters () :task (t) :ordered-subtasks (and (x)))
    (:method m3 :parameters () :task (x) :ordered-subtasks (and (y) (q)))
    (:task q :parameters ()) (:task y :parameters ())
    (:method m2 :parameters () :task (y) :ordered-subtasks (and (w)))
    (:method m1 :parameters () :task (w) :ordered-subtasks ())
    (:task w :parameters ()))\n"

def mixedTurnedTree : DomainAST := bareDomain [(b!"t", 1), (b!"x", 1), (b!"q", 4), (b!"y", 4), (b!"w", 7)] []
  [bareMethod 2 b!"m4" b!"t" [b!"x"], bareMethod 3 b!"m3" b!"x" [b!"y", b!"q"], bareMethod 5 b!"m2" b!"y" [b!"w"],
    bareMethod 6 b!"m1" b!"w" []]

omit [Env] in
/-- Instance of `C76_possible`; `mixedDomain` is the domain of `C32_refuted`, for which the warnings depend on the iteration
order. -/
example : @Parses Env.plain mixedDomain (.domain (mixedTree [])) ∧ @Parses Env.plain mixedTurned (.domain mixedTurnedTree) ∧
    Rearranged (rnDomain id (mixedTree [])) (rnDomain id mixedTurnedTree) ∧
    @Returns Env.plain HashOrd.id mixedDomain none (.ok [⟨b!"x", 2⟩, ⟨b!"q", 2⟩]) ∧
    @Returns Env.plain HashOrd.rev mixedTurned none (.ok [⟨b!"q", 4⟩, ⟨b!"x", 1⟩, ⟨b!"t", 1⟩]) :=
  ⟨@parses_tree Env.plain _ 80 _ (by decide +kernel), @parses_tree Env.plain _ 80 _ (by decide +kernel), by decide +kernel,
    @returns_run Env.plain _ _ _ 80 _ (by decide +kernel) (by simp), @returns_run Env.plain _ _ _ 80 _ (by decide +kernel) (by simp)⟩

end Verif
