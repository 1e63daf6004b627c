import Verif.Proofs.Weeding
import Verif.Props.Changes
import Verif.Props.Clash
import Verif.Props.Sequence

/-! C106: tasks that are warned about can be removed. -/

namespace Verif

open Spec

variable [Env] {ord ord' : HashOrd} {f f' g : Bytes} {d d' : DomainAST} {p : ProblemAST} {W : List Name} {prob : Option Bytes}

omit [Env] in
/-- A task that is warned about has no refinement, unless it has the name of an action. -/
theorem warned_unrefinable (hd : DomainOk d) {ws : List Warning} (h : Accepts ord d ws) {w : Warning} (hw : w ∈ ws)
    (hna : ¬ ActionName d w.symbol) : ¬ Refinable d w.symbol := by
  intro hr
  obtain ⟨t, ht, rfl, h3, h4⟩ := ((warnings_clash hd h).2 w).mp hw
  have h3 := h3.resolve_left hna
  rcases hr.cases' with h5 | h5
  · exact h3 h5
  · obtain ⟨ns, hns⟩ := nullables_exist (ord := ord) hd (List.ne_nil_of_mem ht)
    refine h4 ns hns (nullables_erasable hd hns (h5.erasable fun y hy => ?_))
    rintro ⟨a, ha, rfl⟩
    exact h3 ⟨a, ha, hy.to_reflTransGen⟩

/-- C106: an accepted domain is still accepted when compound tasks, whichever, and the methods that mention them are removed. -/
theorem C106_accepted (hf : Parses f (.domain d)) (hf' : Parses f' (.domain d')) (h : rnDomain id d' = rnDomain id (weeded W d))
    (ha : ∃ ws, Returns ord f none (.ok ws)) : ∃ ws, Returns ord' f' none (.ok ws) := by
  rw [returns_domain_iff hf] at ha
  rw [returns_domain_iff hf', ← domainOk_lines, h, domainOk_lines]
  exact domainOk_weeded ha

/-- C106: problems that do not ask for the removed tasks stay accepted or not accepted; problems that do are not accepted any more. -/
theorem C106_problem (hf : Parses f (.domain d)) (hf' : Parses f' (.domain d')) (hg : Parses g (.problem p))
    (h : rnDomain id d' = rnDomain id (weeded W d)) (ha : ∃ ws, Returns ord f none (.ok ws)) :
    ((∀ s, SubtaskP p s → s.task.name ∉ W) →
      ((∃ ws, Returns ord' f' (some g) (.ok ws)) ↔ ∃ ws, Returns ord f (some g) (.ok ws))) ∧
    ∀ s, SubtaskP p s → s.task.name ∈ W → ¬ ActionName d s.task.name → ¬ ∃ ws, Returns ord' f' (some g) (.ok ws) := by
  rw [returns_domain_iff hf] at ha
  have e : DomainOk d' ∧ ProblemOk d' p ↔ ProblemOk (weeded W d) p := by
    rw [← domainOk_lines, h, domainOk_lines, ← problemOk_lines, h, problemOk_lines]
    exact and_iff_right (domainOk_weeded ha)
  rw [returns_problem_iff hf' hg, returns_problem_iff hf hg, e, and_iff_right ha]
  exact ⟨fun hs => problemOk_weeded hs, fun s h1 h2 h3 => problemOk_gone h1 h2 h3⟩

/-- C106: if only tasks that verify warns about are removed (and no action has their name), then no plan is lost: in every problem the
same sequences of actions can be obtained by decomposing the initial network, and any other network. -/
theorem C106_plans (hf : Parses f (.domain d)) (h : rnDomain id d' = rnDomain id (weeded W d)) (ws : List Warning)
    (hr : Returns ord f prob (.ok ws)) (hW : ∀ x ∈ W, (∃ w ∈ ws, w.symbol = x) ∧ ¬ ActionName d x) :
    (∀ p acts, Yields d' p acts ↔ Yields d p acts) ∧
    (∀ p n acts, DecomposedInto d' p n acts ↔ DecomposedInto d p n acts) ∧
    (∀ x, Refinable d' x ↔ Refinable d x) ∧ ∀ p n acts, DecomposedInto d p n acts → ∀ x ∈ n, x.1 ∉ W := by
  have hac := returns_accepts hf hr
  have hd := accepts_iff.mp ⟨_, hac⟩
  have hW' : ∀ x ∈ W, ¬ Refinable d x := by
    intro x hx
    obtain ⟨⟨w, h1, rfl⟩, h2⟩ := hW x hx
    exact warned_unrefinable hd hac h1 h2
  refine ⟨fun p acts => ?_, fun p n acts => ?_, fun x => ?_, fun p n acts ⟨h1, h2⟩ x hx hm => ?_⟩
  · rw [yields_same h, yields_weeded hW']
  · rw [decomposedInto_same h, decomposedInto_weeded hW']
  · rw [← refinable_rn, h, refinable_rn, refinable_weeded hW']
  · exact hW' _ hm (decomposed_refinable h1 h2 x hx)

omit [Env] in
theorem weeding_ends (ord : HashOrd) : ∀ (n : Nat) (d : DomainAST), d.tasks.length ≤ n → DomainOk d →
    ∃ W : List Name, (∀ x ∈ W, x ∈ d.tasks.map (·.name) ∧ ¬ Refinable d x) ∧
      ∃ ws, Accepts ord (weeded W d) ws ∧ ∀ w ∈ ws, ActionName d w.symbol := by
  intro n
  induction n with
  | zero =>
    intro d hn hd
    obtain ⟨ws, h⟩ := (accepts_iff (ord := ord)).mpr hd
    refine ⟨[], by simp, ws, by rwa [weeded_nil], fun w hw => ?_⟩
    obtain ⟨t, ht, _⟩ := ((warnings_clash hd h).2 w).mp hw
    rw [List.length_eq_zero_iff.mp (Nat.le_zero.mp hn)] at ht
    cases ht
  | succ n ih =>
    intro d hn hd
    obtain ⟨ws, h⟩ := (accepts_iff (ord := ord)).mpr hd
    by_cases hws : ∀ w ∈ ws, ActionName d w.symbol
    · exact ⟨[], by simp, ws, by rwa [weeded_nil], hws⟩
    · push Not at hws
      obtain ⟨w, hw, hna⟩ := hws
      obtain ⟨t, ht, hwt, _⟩ := ((warnings_clash hd h).2 w).mp hw
      have hu := warned_unrefinable hd h hw hna
      have hu1 : ∀ x ∈ [w.symbol], ¬ Refinable d x := by simpa using hu
      have hlt : (weeded [w.symbol] d).tasks.length < d.tasks.length := by
        refine List.length_filter_lt_length_iff_exists.mpr ⟨t, ht, ?_⟩
        simp [hwt]
      obtain ⟨W, h1, ws', h2, h3⟩ := ih (weeded [w.symbol] d) (by omega) (domainOk_weeded hd)
      rw [weeded_append] at h2
      refine ⟨[w.symbol] ++ W, fun x hx => ?_, ws', h2, h3⟩
      rcases List.mem_append.mp hx with hx | hx
      · rw [List.mem_singleton] at hx
        subst hx
        exact ⟨List.mem_map.mpr ⟨t, ht, by rw [hwt]⟩, hu⟩
      · obtain ⟨h4, h5⟩ := h1 x hx
        obtain ⟨t', h6, h7⟩ := List.mem_map.mp h4
        exact ⟨List.mem_map.mpr ⟨t', (mem_weeded_tasks.mp h6).1, h7⟩, fun h8 => h5 ((refinable_weeded hu1).mpr h8)⟩

/-- C106: removing what is warned about, again and again, comes to an end without any loss: from every accepted domain some compound
tasks without refinement can be removed so that verify warns about nothing any more, except tasks with the name of an action, and every
problem has the same plans. -/
theorem C106_ends (hf : Parses f (.domain d)) (ha : ∃ ws, Returns ord' f none (.ok ws)) (ord : HashOrd) :
    ∃ W : List Name, (∀ x ∈ W, x ∈ d.tasks.map (·.name) ∧ ¬ Refinable d x) ∧
      ∀ f' d', Parses f' (.domain d') → rnDomain id d' = rnDomain id (weeded W d) →
        (∃ ws, Returns ord f' none (.ok ws) ∧ (∀ w ∈ ws, ActionName d w.symbol) ∧ (NoClash d → ws = [])) ∧
        ∀ p acts, Yields d' p acts ↔ Yields d p acts := by
  rw [returns_domain_iff hf] at ha
  obtain ⟨W, h1, ws, h2, h3⟩ := weeding_ends ord _ d le_rfl ha
  refine ⟨W, h1, fun f' d' hf' h => ⟨?_, fun p acts => ?_⟩⟩
  · obtain ⟨e, l, l', he, he', _⟩ := corresponds_iff.mpr h
    have he1 : Accepts ord (mvDomain id l' e) ws := he' ▸ h2
    have hok : DomainOk e := by
      rw [← domainOk_lines, ← rnDomain_mv (ρ := id) (φ := l'), ← he', domainOk_lines]
      exact domainOk_weeded ha
    obtain ⟨we, hwe⟩ := (accepts_iff (ord := ord)).mpr hok
    have hw := (accepts_mv (ρ := id) (φ := l') Function.injective_id hwe).1.det he1
    have hw' : Accepts ord d' (we.map (mvWarning id l)) := by
      rw [he]
      exact (accepts_mv (ρ := id) Function.injective_id hwe).1
    have key : ∀ w ∈ we.map (mvWarning id l), ActionName d w.symbol := by
      intro w hw1
      obtain ⟨v, hv, rfl⟩ := List.mem_map.mp hw1
      exact h3 (mvWarning id l' v) (hw ▸ List.mem_map_of_mem hv)
    refine ⟨_, (returns_ok_none hf').mpr hw', key, fun hc => ?_⟩
    refine List.eq_nil_iff_forall_not_mem.mpr fun w hw1 => ?_
    obtain ⟨a, ha1, ha2⟩ := key w hw1
    have hd' : DomainOk d' := accepts_iff.mp ⟨_, hw'⟩
    obtain ⟨t, ht, hwt, _⟩ := ((warnings_clash hd' hw').2 w).mp hw1
    have ht' : rnTask id t ∈ (rnDomain id (weeded W d)).tasks := h ▸ List.mem_map_of_mem (f := rnTask id) ht
    obtain ⟨t', h4, h5⟩ := List.mem_map.mp ht'
    refine hc t' (mem_weeded_tasks.mp h4).1 a ha1 ?_
    have h6 : t'.name = t.name := congrArg Task.name (a₁ := rnTask id t') (a₂ := rnTask id t) h5
    rw [h6, ha2, hwt]
  · rw [yields_same h, yields_weeded fun x hx => (h1 x hx).2]

/-! ### Instance -/

/-- `w` has no method, so that `y` and the method `k` of `t` lead to nothing. -/
def weedDomain : Bytes := b!"(define (domain d) (:task t :parameters ()) (:task y :parameters ()) (:task w :parameters ())
  (:method n :parameters () :task (t) :ordered-subtasks (and (a)))
  (:method k :parameters () :task (t) :ordered-subtasks (and (a) (y)))
  (:method m :parameters () :task (y) :ordered-subtasks (and (a) (w)))
  (:action a :parameters ()))\n"

/-- `weedDomain` without `w`. -/
def weedOnce : Bytes := b!"(define (domain d) (:task t :parameters ()) (:task y :parameters ())
  (:method n :parameters () :task (t) :ordered-subtasks (and (a)))
  (:method k :parameters () :task (t) :ordered-subtasks (and (a) (y)))
  (:action a :parameters ()))\n"

/-- `weedDomain` without `w` and `y`. -/
def weedTwice : Bytes := b!"(define (domain d) (:task t :parameters ())
  (:method n :parameters () :task (t) :ordered-subtasks (and (a)))
  (:action a :parameters ()))\n"

def weedMethod (l : Nat) (m t : Name) (subs : List Name) : Method :=
  ⟨⟨m, l, none, none⟩, ⟨t, l, none, none⟩, [], [], none, ⟨subs.map fun s => ⟨none, ⟨s, l, none, none⟩, []⟩, none, .total, none⟩⟩

def weedTree (l : Nat) : DomainAST where
  name := b!"d"
  types := none
  constants := none
  requirements := []
  predicates := []
  tasks := [⟨b!"t", 1, []⟩, ⟨b!"y", 1, []⟩, ⟨b!"w", 1, []⟩]
  methods := [weedMethod 2 b!"n" b!"t" [b!"a"], weedMethod 3 b!"k" b!"t" [b!"a", b!"y"], weedMethod 4 b!"m" b!"y" [b!"a", b!"w"]]
  actions := [⟨b!"a", l, [], none, none⟩]
  functions := []

def weedStart (t : Name) : Bytes := b!"(define (problem x) (:domain d) (:objects ) (:htn :ordered-subtasks (and (" ++ t ++ b!"))) (:init ))\n"

def weedProblem (t : Name) : ProblemAST := seqProblem ⟨[⟨none, ⟨t, 1, none, none⟩, []⟩], none, .total, none⟩

omit [Env] in
/-- Instance: `weedDomain` and `weedOnce`, and then `weedTwice`, meet the requirements of the theorems on C106; the action `a` alone is a
plan of the problem to do `t`, and the problem to do `w` is rejected after the removal. -/
theorem weed_spec : @Parses Env.plain weedDomain (.domain (weedTree 5)) ∧
    @Parses Env.plain weedTwice (.domain (weeded [b!"w", b!"y"] (weedTree 3))) ∧
    rnDomain id (weeded [b!"w", b!"y"] (weedTree 3)) = rnDomain id (weeded [b!"w", b!"y"] (weedTree 5)) ∧
    @Returns Env.plain HashOrd.id weedTwice none (.ok []) ∧ NoClash (weedTree 5) ∧
    @Parses Env.plain (weedStart b!"t") (.problem (weedProblem b!"t")) ∧ @Parses Env.plain (weedStart b!"w") (.problem (weedProblem b!"w")) ∧
    (∃ ws, @Returns Env.plain HashOrd.id weedTwice (some (weedStart b!"t")) (.ok ws)) ∧
    (∃ ws, @Returns Env.plain HashOrd.id weedDomain (some (weedStart b!"w")) (.ok ws)) ∧
    ¬ (∃ ws, @Returns Env.plain HashOrd.id weedTwice (some (weedStart b!"w")) (.ok ws)) ∧
    Yields (weedTree 5) (weedProblem b!"t") [(b!"a", [])] := by
  have hd := @parses_tree Env.plain weedDomain 400 (weedTree 5) (by decide +kernel)
  have hd' := @parses_tree Env.plain weedTwice 400 (weeded [b!"w", b!"y"] (weedTree 3)) (by decide +kernel)
  have he : rnDomain id (weeded [b!"w", b!"y"] (weedTree 3)) = rnDomain id (weeded [b!"w", b!"y"] (weedTree 5)) := by decide +kernel
  have hw := @parses_treeP Env.plain (weedStart b!"w") 400 (weedProblem b!"w") (by decide +kernel)
  have ha := @returns_run Env.plain HashOrd.id weedDomain none 400 _ (by decide +kernel : _ = .ok [⟨b!"w", 1⟩]) (by simp)
  refine ⟨hd, hd', he, @returns_run Env.plain _ _ _ 400 _ (by decide +kernel) (by simp), ?_,
    @parses_treeP Env.plain _ 400 _ (by decide +kernel), hw, ⟨[], @returns_run Env.plain _ _ _ 400 _ (by decide +kernel) (by simp)⟩,
    ⟨[⟨b!"w", 1⟩], @returns_run Env.plain _ _ _ 400 _ (by decide +kernel) (by simp)⟩, ?_, ?_⟩
  · intro t ht a ha
    revert a
    revert t
    decide +kernel
  · refine (@C106_problem Env.plain _ HashOrd.id _ _ _ _ _ _ _ hd hd' hw he ⟨_, ha⟩).2 _ ⟨_, rfl, List.mem_singleton_self _⟩
      (by decide +kernel) ?_
    rintro ⟨a, h1, h2⟩
    rw [List.mem_singleton.mp (show a ∈ [_] from h1)] at h2
    revert h2
    decide +kernel
  · refine ⟨[(b!"t", [])], Initial.mk (p := weedProblem b!"t")
      (h := ⟨none, ⟨[⟨none, ⟨b!"t", 1, none, none⟩, []⟩], none, .total, none⟩⟩) (σ := id) rfl (by intro s hs; cases hs), .single ?_, ?_⟩
    · exact Decomposes.mk (d := weedTree 5) (before := []) (after := []) (m := weedMethod 2 b!"n" b!"t" [b!"a"]) (σ := id)
        (List.mem_cons_self ..) (by intro s hs; cases hs)
    · intro x hx
      rw [List.mem_singleton] at hx
      exact ⟨_, List.mem_singleton_self _, by rw [hx]⟩

omit [Env] in
/-- C106: one removal need not be enough.  If `w`, the only task that is warned about, is removed from `weedDomain`, then `y` is warned
about, which was not before. -/
theorem C106_again : ∃ d d' W, @Parses Env.plain weedDomain (.domain d) ∧ @Parses Env.plain weedOnce (.domain d') ∧
    rnDomain id d' = rnDomain id (weeded W d) ∧ (∀ x ∈ W, x = b!"w") ∧
    @Returns Env.plain HashOrd.id weedDomain none (.ok [⟨b!"w", 1⟩]) ∧ @Returns Env.plain HashOrd.id weedOnce none (.ok [⟨b!"y", 1⟩]) :=
  ⟨weedTree 5, weeded [b!"w"] (weedTree 4), [b!"w"], @parses_tree Env.plain _ 400 _ (by decide +kernel),
    @parses_tree Env.plain _ 400 _ (by decide +kernel), by decide +kernel, by simp,
    @returns_run Env.plain _ _ _ 400 _ (by decide +kernel) (by simp), @returns_run Env.plain _ _ _ 400 _ (by decide +kernel) (by simp)⟩

end Verif
