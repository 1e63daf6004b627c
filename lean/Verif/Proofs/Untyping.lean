import Mathlib.Data.List.Forall2
import Mathlib.Data.List.Nodup
import Verif.Spec.Untyping
import Verif.Proofs.Faults

/-! Removing types keeps domains and problems well-formed, and only type errors disappear. -/

namespace Verif

open Spec

/-! ### Formulas -/

theorem utFormulas_eq (fs : List Formula) : utFormulas fs = fs.map (utFormula) := by
  induction fs with
  | nil => simp [utFormulas]
  | cons f fs ih => simp [utFormulas, ih]

theorem Spec.Occurs.ut {p : Predicate} {f : Formula} (h : Occurs p f) : Occurs (utPredicate p) (utFormula f) := by
  induction h with
  | atom => rw [utFormula]; exact .atom
  | not _ ih => rw [utFormula]; exact .not ih
  | and h _ ih => rw [utFormula, utFormulas_eq]; exact .and (List.mem_map.mpr ⟨_, h, rfl⟩) ih
  | or h _ ih => rw [utFormula, utFormulas_eq]; exact .or (List.mem_map.mpr ⟨_, h, rfl⟩) ih
  | xor h _ ih => rw [utFormula, utFormulas_eq]; exact .xor (List.mem_map.mpr ⟨_, h, rfl⟩) ih
  | left h _ ih => rw [utFormula, utFormulas_eq]; exact .left (List.mem_map.mpr ⟨_, h, rfl⟩) ih
  | right h _ ih => rw [utFormula, utFormulas_eq, utFormulas_eq]; exact .right (List.mem_map.mpr ⟨_, h, rfl⟩) ih
  | weighted _ ih => rw [utFormula]; exact .weighted ih
  | forall_ _ ih => rw [utFormula]; exact .forall_ ih
  | exists_ _ ih => rw [utFormula]; exact .exists_ ih

theorem Spec.OccursFree.ut {p : Predicate} {f : Formula} (h : OccursFree p f) :
    OccursFree (utPredicate p) (utFormula f) := by
  induction h with
  | atom => rw [utFormula]; exact .atom
  | not _ ih => rw [utFormula]; exact .not ih
  | and h _ ih => rw [utFormula, utFormulas_eq]; exact .and (List.mem_map.mpr ⟨_, h, rfl⟩) ih
  | or h _ ih => rw [utFormula, utFormulas_eq]; exact .or (List.mem_map.mpr ⟨_, h, rfl⟩) ih
  | xor h _ ih => rw [utFormula, utFormulas_eq]; exact .xor (List.mem_map.mpr ⟨_, h, rfl⟩) ih
  | left h _ ih => rw [utFormula, utFormulas_eq]; exact .left (List.mem_map.mpr ⟨_, h, rfl⟩) ih
  | right h _ ih => rw [utFormula, utFormulas_eq, utFormulas_eq]; exact .right (List.mem_map.mpr ⟨_, h, rfl⟩) ih
  | weighted _ ih => rw [utFormula]; exact .weighted ih

theorem Spec.HasExists.ut {f : Formula} (h : HasExists f) : HasExists (utFormula f) := by
  induction h with
  | exists_ => rw [utFormula]; exact .exists_
  | imply => rw [utFormula]; exact .imply
  | not _ ih => rw [utFormula]; exact .not ih
  | and h _ ih => rw [utFormula, utFormulas_eq]; exact .and (List.mem_map.mpr ⟨_, h, rfl⟩) ih
  | or h _ ih => rw [utFormula, utFormulas_eq]; exact .or (List.mem_map.mpr ⟨_, h, rfl⟩) ih
  | xor h _ ih => rw [utFormula, utFormulas_eq]; exact .xor (List.mem_map.mpr ⟨_, h, rfl⟩) ih
  | weighted _ ih => rw [utFormula]; exact .weighted ih
  | forall_ _ ih => rw [utFormula]; exact .forall_ ih

mutual

theorem occurs_of_ut : ∀ (f : Formula) {p' : Predicate}, Occurs p' (utFormula f) →
    ∃ p, p' = utPredicate p ∧ Occurs p f
  | .empty, _, h => by rw [utFormula] at h; cases h
  | .atom p, _, h => by rw [utFormula] at h; cases h; exact ⟨p, rfl, .atom⟩
  | .not f, _, h => by
    rw [utFormula] at h; cases h with
    | not h => obtain ⟨p, rfl, h2⟩ := occurs_of_ut f h; exact ⟨p, rfl, .not h2⟩
  | .and fs, _, h => by
    rw [utFormula] at h; cases h with
    | and hm h => obtain ⟨p, rfl, f, hf, h2⟩ := occurs_of_uts fs ⟨_, hm, h⟩; exact ⟨p, rfl, .and hf h2⟩
  | .or fs, _, h => by
    rw [utFormula] at h; cases h with
    | or hm h => obtain ⟨p, rfl, f, hf, h2⟩ := occurs_of_uts fs ⟨_, hm, h⟩; exact ⟨p, rfl, .or hf h2⟩
  | .xor fs, _, h => by
    rw [utFormula] at h; cases h with
    | xor hm h => obtain ⟨p, rfl, f, hf, h2⟩ := occurs_of_uts fs ⟨_, hm, h⟩; exact ⟨p, rfl, .xor hf h2⟩
  | .imply ps qs, _, h => by
    rw [utFormula] at h; cases h with
    | left hm h => obtain ⟨p, rfl, f, hf, h2⟩ := occurs_of_uts ps ⟨_, hm, h⟩; exact ⟨p, rfl, .left hf h2⟩
    | right hm h => obtain ⟨p, rfl, f, hf, h2⟩ := occurs_of_uts qs ⟨_, hm, h⟩; exact ⟨p, rfl, .right hf h2⟩
  | .exists_ vs f, _, h => by
    rw [utFormula] at h; cases h with
    | exists_ h => obtain ⟨p, rfl, h2⟩ := occurs_of_ut f h; exact ⟨p, rfl, .exists_ h2⟩
  | .forall_ vs f, _, h => by
    rw [utFormula] at h; cases h with
    | forall_ h => obtain ⟨p, rfl, h2⟩ := occurs_of_ut f h; exact ⟨p, rfl, .forall_ h2⟩
  | .weighted w f, _, h => by
    rw [utFormula] at h; cases h with
    | weighted h => obtain ⟨p, rfl, h2⟩ := occurs_of_ut f h; exact ⟨p, rfl, .weighted h2⟩
  | .equals a b, _, h => by rw [utFormula] at h; cases h

theorem occurs_of_uts : ∀ (fs : List Formula) {p' : Predicate}, (∃ f' ∈ utFormulas fs, Occurs p' f') →
    ∃ p, p' = utPredicate p ∧ ∃ f ∈ fs, Occurs p f
  | [], _, h => by simp [utFormulas] at h
  | f :: fs, _, h => by
    obtain ⟨f', hm, h⟩ := h
    rw [utFormulas] at hm
    rcases List.mem_cons.mp hm with rfl | hm
    · obtain ⟨p, rfl, h2⟩ := occurs_of_ut f h
      exact ⟨p, rfl, f, .head _, h2⟩
    · obtain ⟨p, rfl, g, hg, h2⟩ := occurs_of_uts fs ⟨f', hm, h⟩
      exact ⟨p, rfl, g, .tail _ hg, h2⟩

end

mutual

theorem occursFree_of_ut : ∀ (f : Formula) {p' : Predicate}, OccursFree p' (utFormula f) →
    ∃ p, p' = utPredicate p ∧ OccursFree p f
  | .empty, _, h => by rw [utFormula] at h; cases h
  | .atom p, _, h => by rw [utFormula] at h; cases h; exact ⟨p, rfl, .atom⟩
  | .not f, _, h => by
    rw [utFormula] at h; cases h with
    | not h => obtain ⟨p, rfl, h2⟩ := occursFree_of_ut f h; exact ⟨p, rfl, .not h2⟩
  | .and fs, _, h => by
    rw [utFormula] at h; cases h with
    | and hm h => obtain ⟨p, rfl, f, hf, h2⟩ := occursFree_of_uts fs ⟨_, hm, h⟩; exact ⟨p, rfl, .and hf h2⟩
  | .or fs, _, h => by
    rw [utFormula] at h; cases h with
    | or hm h => obtain ⟨p, rfl, f, hf, h2⟩ := occursFree_of_uts fs ⟨_, hm, h⟩; exact ⟨p, rfl, .or hf h2⟩
  | .xor fs, _, h => by
    rw [utFormula] at h; cases h with
    | xor hm h => obtain ⟨p, rfl, f, hf, h2⟩ := occursFree_of_uts fs ⟨_, hm, h⟩; exact ⟨p, rfl, .xor hf h2⟩
  | .imply ps qs, _, h => by
    rw [utFormula] at h; cases h with
    | left hm h => obtain ⟨p, rfl, f, hf, h2⟩ := occursFree_of_uts ps ⟨_, hm, h⟩; exact ⟨p, rfl, .left hf h2⟩
    | right hm h => obtain ⟨p, rfl, f, hf, h2⟩ := occursFree_of_uts qs ⟨_, hm, h⟩; exact ⟨p, rfl, .right hf h2⟩
  | .exists_ vs f, _, h => by rw [utFormula] at h; cases h
  | .forall_ vs f, _, h => by rw [utFormula] at h; cases h
  | .weighted w f, _, h => by
    rw [utFormula] at h; cases h with
    | weighted h => obtain ⟨p, rfl, h2⟩ := occursFree_of_ut f h; exact ⟨p, rfl, .weighted h2⟩
  | .equals a b, _, h => by rw [utFormula] at h; cases h

theorem occursFree_of_uts : ∀ (fs : List Formula) {p' : Predicate}, (∃ f' ∈ utFormulas fs, OccursFree p' f') →
    ∃ p, p' = utPredicate p ∧ ∃ f ∈ fs, OccursFree p f
  | [], _, h => by simp [utFormulas] at h
  | f :: fs, _, h => by
    obtain ⟨f', hm, h⟩ := h
    rw [utFormulas] at hm
    rcases List.mem_cons.mp hm with rfl | hm
    · obtain ⟨p, rfl, h2⟩ := occursFree_of_ut f h
      exact ⟨p, rfl, f, .head _, h2⟩
    · obtain ⟨p, rfl, g, hg, h2⟩ := occursFree_of_uts fs ⟨f', hm, h⟩
      exact ⟨p, rfl, g, .tail _ hg, h2⟩

end

mutual

theorem hasExists_of_ut : ∀ (f : Formula), HasExists (utFormula f) → HasExists f
  | .empty, h => by rw [utFormula] at h; cases h
  | .atom p, h => by rw [utFormula] at h; cases h
  | .not f, h => by
    rw [utFormula] at h; cases h with
    | not h => exact .not (hasExists_of_ut f h)
  | .and fs, h => by
    rw [utFormula] at h; cases h with
    | and hm h => obtain ⟨f, hf, h2⟩ := hasExists_of_uts fs ⟨_, hm, h⟩; exact .and hf h2
  | .or fs, h => by
    rw [utFormula] at h; cases h with
    | or hm h => obtain ⟨f, hf, h2⟩ := hasExists_of_uts fs ⟨_, hm, h⟩; exact .or hf h2
  | .xor fs, h => by
    rw [utFormula] at h; cases h with
    | xor hm h => obtain ⟨f, hf, h2⟩ := hasExists_of_uts fs ⟨_, hm, h⟩; exact .xor hf h2
  | .imply ps qs, _ => .imply
  | .exists_ vs f, _ => .exists_
  | .forall_ vs f, h => by
    rw [utFormula] at h; cases h with
    | forall_ h => exact .forall_ (hasExists_of_ut f h)
  | .weighted w f, h => by
    rw [utFormula] at h; cases h with
    | weighted h => exact .weighted (hasExists_of_ut f h)
  | .equals a b, h => by rw [utFormula] at h; cases h

theorem hasExists_of_uts : ∀ (fs : List Formula), (∃ f' ∈ utFormulas fs, HasExists f') → ∃ f ∈ fs, HasExists f
  | [], h => by simp [utFormulas] at h
  | f :: fs, h => by
    obtain ⟨f', hm, h⟩ := h
    rw [utFormulas] at hm
    rcases List.mem_cons.mp hm with rfl | hm
    · exact ⟨f, .head _, hasExists_of_ut f h⟩
    · obtain ⟨g, hg, h2⟩ := hasExists_of_uts fs ⟨f', hm, h⟩
      exact ⟨g, .tail _ hg, h2⟩

end

/-! ### Arguments -/

theorem bound_typeIn {scope : List (List Symbol)} {x : Name} {ty : Option Name} (h : TypeIn scope x ty) : ¬ Unbound scope x := by
  intro hu
  induction h with
  | here h =>
    obtain ⟨pre, post, rfl, h1, _⟩ := h
    exact hu _ List.mem_cons_self _ (by simp) h1
  | outer _ _ ih => exact ih fun l hl => hu l (List.mem_cons_of_mem _ hl)

theorem argsFit_supplied {types : List Symbol} {scope : List (List Symbol)} {args formals : List Symbol}
    (h : ArgsFit types scope args formals) : Supplied scope args formals := by
  refine ⟨h.length_eq, fun v hv => ?_⟩
  obtain ⟨i, hi, rfl⟩ := List.getElem_of_mem hv
  obtain ⟨ty, h1, _⟩ := (List.forall₂_iff_get.mp h).2 i hi (h.length_eq ▸ hi)
  exact bound_typeIn h1

theorem firstNamed_of_mem {l : List Symbol} {x : Name} (h : ∃ s ∈ l, s.name = x) : ∃ s, FirstNamed l x s := by
  induction l with
  | nil => obtain ⟨_, h, _⟩ := h; cases h
  | cons a l ih =>
    by_cases ha : a.name = x
    · exact ⟨a, [], l, rfl, ha, fun _ h => nomatch h⟩
    · obtain ⟨s, hs, hx⟩ := h
      rcases List.mem_cons.mp hs with rfl | hs
      · exact absurd hx ha
      · obtain ⟨t, pre, post, rfl, h1, h2⟩ := ih ⟨s, hs, hx⟩
        refine ⟨t, a :: pre, post, rfl, h1, fun y hy => ?_⟩
        rcases List.mem_cons.mp hy with rfl | hy
        · exact ha
        · exact h2 y hy

theorem typeIn_ut {scope : List (List Symbol)} {x : Name} (h : ¬ Unbound scope x) :
    TypeIn (scope.map (List.map utSymbol)) x none := by
  induction scope with
  | nil => exact absurd (fun _ h => nomatch h) h
  | cons l ls ih =>
    by_cases hl : ∃ s ∈ l, s.name = x
    · obtain ⟨s, pre, post, rfl, h1, h2⟩ := firstNamed_of_mem hl
      have : FirstNamed ((pre ++ s :: post).map utSymbol) x (utSymbol s) :=
        ⟨pre.map utSymbol, post.map utSymbol, by simp, h1, by simpa [utSymbol] using h2⟩
      exact .here this
    · refine .outer (by simpa [utSymbol] using hl) (ih fun hu => h fun l' hl' => ?_)
      rcases List.mem_cons.mp hl' with rfl | hl'
      · exact fun s hs hx => hl ⟨s, hs, hx⟩
      · exact hu l' hl'

theorem argsFit_ut {scope : List (List Symbol)} {args formals : List Symbol} :
    ArgsFit [] (scope.map (List.map utSymbol)) (args.map utSymbol) (formals.map utSymbol) ↔ Supplied scope args formals := by
  constructor
  · intro h
    obtain ⟨h1, h2⟩ := argsFit_supplied h
    refine ⟨by simpa using h1, fun v hv hu => h2 _ (List.mem_map.mpr ⟨v, hv, rfl⟩) ?_⟩
    intro l hl s hs
    obtain ⟨l', hl', rfl⟩ := List.mem_map.mp hl
    obtain ⟨s', hs', rfl⟩ := List.mem_map.mp hs
    exact hu l' hl' s' hs'
  · rintro ⟨h1, h2⟩
    refine List.forall₂_iff_get.mpr ⟨by simpa using h1, fun i hi hj => ?_⟩
    have hv : args[i]'(by simpa using hi) ∈ args := List.getElem_mem _
    exact ⟨none, by simpa [utSymbol] using typeIn_ut (h2 _ hv), by simp [utSymbol, Fits.untyped]⟩

/-! ### Domains -/

theorem formulaOk_ut {d : DomainAST} {params : List Symbol} {f : Formula} :
    FormulaOk (utDomain d) (params.map utSymbol) (utFormula f) ↔ FormulaFrame d params f := by
  have hc : [params.map utSymbol, constantsOf (utDomain d)] = [params, constantsOf d].map (List.map utSymbol) := by
    cases h : d.constants <;> simp [constantsOf, utDomain, h]
  constructor
  · intro h
    refine ⟨fun he => h.noExists he.ut, fun p hp => ?_, fun p hp q hq hn => ?_⟩
    · obtain ⟨q', hq', hn, hl⟩ := h.declared _ hp.ut
      obtain ⟨q, hq, rfl⟩ := List.mem_map.mp hq'
      exact ⟨q, hq, hn, by simpa [utPredicate] using hl⟩
    · have := h.typed _ hp.ut (utPredicate q) (List.mem_map.mpr ⟨q, hq, rfl⟩) hn
      rw [hc] at this
      exact argsFit_ut.mp this
  · intro h
    refine ⟨fun he => h.noExists (hasExists_of_ut _ he), ?_, fun p' hp => ?_, fun p' hp q' hq hn => ?_⟩
    · intro s hs t ht
      obtain ⟨s', _, rfl⟩ := List.mem_map.mp hs
      cases ht
    · replace hp := occurs_of_ut _ hp
      obtain ⟨p, rfl, hp⟩ := hp
      obtain ⟨q, hq, hn, hl⟩ := h.declared p hp
      exact ⟨_, List.mem_map.mpr ⟨q, hq, rfl⟩, hn, by simpa [utPredicate] using hl⟩
    · replace hp := occursFree_of_ut _ hp
      obtain ⟨p, rfl, hp⟩ := hp
      replace hq := List.mem_map.mp hq
      obtain ⟨q, hq, rfl⟩ := hq
      rw [hc]
      exact argsFit_ut.mpr (h.supplied p hp q hq hn)

theorem callee_ut {d : DomainAST} {x : Name} {ps' : List Symbol} :
    Callee (utDomain d) x ps' ↔ ∃ ps, Callee d x ps ∧ ps' = ps.map utSymbol := by
  constructor
  · rintro (⟨ha, hx⟩ | ⟨hn, ht, hx⟩)
    · replace ha := List.mem_map.mp ha
      obtain ⟨a, ha, rfl⟩ := ha
      exact ⟨_, .action ha hx, rfl⟩
    · replace ht := List.mem_map.mp ht
      obtain ⟨t, ht, rfl⟩ := ht
      exact ⟨_, .task (fun a ha => hn (utAction a) (List.mem_map.mpr ⟨a, ha, rfl⟩)) ht hx, rfl⟩
  · rintro ⟨_, ⟨ha, hx⟩ | ⟨hn, ht, hx⟩, rfl⟩
    · exact .action (a := utAction _) (List.mem_map.mpr ⟨_, ha, rfl⟩) hx
    · refine .task (t := utTask _) (fun a ha => ?_) (List.mem_map.mpr ⟨_, ht, rfl⟩) hx
      replace ha := List.mem_map.mp ha
      obtain ⟨a, ha, rfl⟩ := ha
      exact hn a ha

theorem before_ut (h : HTN) : Before (utHtn h) = Before h := rfl

theorem actionOk_ut {d : DomainAST} {a : Action} : ActionOk (utDomain d) (utAction a) ↔ ActionFrame d a := by
  have hp : (utAction a).params.map (·.name) = a.params.map (·.name) := by simp [utAction, utSymbol, Function.comp_def]
  constructor
  · intro h
    exact ⟨hp ▸ h.params, fun f hf => formulaOk_ut.mp (h.pre _ (by simp [utAction, hf])),
      fun f hf => formulaOk_ut.mp (h.eff _ (by simp [utAction, hf]))⟩
  · intro h
    refine ⟨hp ▸ h.params, fun f hf => ?_, fun f hf => ?_⟩
    · obtain ⟨g, hg, rfl⟩ := Option.map_eq_some_iff.mp hf
      exact formulaOk_ut.mpr (h.pre g hg)
    · obtain ⟨g, hg, rfl⟩ := Option.map_eq_some_iff.mp hf
      exact formulaOk_ut.mpr (h.eff g hg)

theorem methodOk_ut {d : DomainAST} {m : Method} : MethodOk (utDomain d) (utMethod m) ↔ MethodFrame d m := by
  have hp : (utMethod m).params.map (·.name) = m.params.map (·.name) := by simp [utMethod, utSymbol, Function.comp_def]
  have hc : [(utMethod m).params, constantsOf (utDomain d)] = [m.params, constantsOf d].map (List.map utSymbol) := by
    cases h : d.constants <;> simp [constantsOf, utDomain, h, utMethod]
  constructor
  · intro h
    refine ⟨hp ▸ h.params, fun f hf => formulaOk_ut.mp (h.pre _ (by simp [utMethod, hf])), ?_, fun s hs => ?_, h.ordering⟩
    · obtain ⟨t, ht, hn, h1⟩ := h.task
      replace ht := List.mem_map.mp ht
      obtain ⟨t, ht, rfl⟩ := ht
      rw [hc] at h1
      exact ⟨t, ht, hn, argsFit_ut.mp h1⟩
    · obtain ⟨ps, h1, h2⟩ := h.subtasks (utSubtask s) (List.mem_map.mpr ⟨s, hs, rfl⟩)
      replace h1 := callee_ut.mp h1
      obtain ⟨ps, h1, rfl⟩ := h1
      rw [hc] at h2
      exact ⟨ps, h1, argsFit_ut.mp h2⟩
  · intro h
    refine ⟨hp ▸ h.params, fun f hf => ?_, ?_, fun s hs => ?_, h.ordering⟩
    · obtain ⟨g, hg, rfl⟩ := Option.map_eq_some_iff.mp hf
      exact formulaOk_ut.mpr (h.pre g hg)
    · obtain ⟨t, ht, hn, h1⟩ := h.task
      refine ⟨utTask t, List.mem_map.mpr ⟨t, ht, rfl⟩, hn, ?_⟩
      rw [hc]
      exact argsFit_ut.mpr h1
    · replace hs := List.mem_map.mp hs
      obtain ⟨s, hs, rfl⟩ := hs
      obtain ⟨ps, h1, h2⟩ := h.subtasks s hs
      refine ⟨_, callee_ut.mpr ⟨ps, h1, rfl⟩, ?_⟩
      rw [hc]
      exact argsFit_ut.mpr h2

theorem untypedKnown {types : List Symbol} (l : List Symbol) : TypesKnown types (l.map utSymbol) := by
  intro s hs t ht
  obtain ⟨s', _, rfl⟩ := List.mem_map.mp hs
  cases ht

theorem domainOk_ut {d : DomainAST} : DomainOk (utDomain d) ↔ DomainFrame d := by
  have e1 : (utDomain d).predicates.map (·.name) = d.predicates.map (·.name) := by
    simp [utDomain, utPredicate, Function.comp_def]
  have e2 : (utDomain d).tasks.map (·.name) = d.tasks.map (·.name) := by simp [utDomain, utTask, Function.comp_def]
  have e3 : (utDomain d).actions.map (·.name) = d.actions.map (·.name) := by simp [utDomain, utAction, Function.comp_def]
  have e4 : (utDomain d).methods.map (·.name.name) = d.methods.map (·.name.name) := by
    simp [utDomain, utMethod, Function.comp_def]
  constructor
  · intro h
    exact ⟨h.requirements, e1 ▸ h.predicates, e2 ▸ h.tasks, e3 ▸ h.actionNames,
      fun a ha => actionOk_ut.mp (h.actions _ (List.mem_map.mpr ⟨a, ha, rfl⟩)), e4 ▸ h.methodNames,
      fun m hm => methodOk_ut.mp (h.methods _ (List.mem_map.mpr ⟨m, hm, rfl⟩))⟩
  · intro h
    refine ⟨h.requirements, fun x hx => ?_, e1 ▸ h.predicates, fun p hp => ?_, e2 ▸ h.tasks, fun t ht => ?_,
      e3 ▸ h.actionNames, fun a ha => ?_, e4 ▸ h.methodNames, fun m hm => ?_⟩
    · obtain ⟨y, ⟨s, hs, _⟩, _⟩ := Relation.TransGen.head'_iff.mp hx
      cases hs
    · obtain ⟨p, _, rfl⟩ := List.mem_map.mp hp
      exact untypedKnown _
    · obtain ⟨t, _, rfl⟩ := List.mem_map.mp ht
      exact untypedKnown _
    · replace ha := List.mem_map.mp ha
      obtain ⟨a, ha, rfl⟩ := ha
      exact actionOk_ut.mpr (h.actions a ha)
    · replace hm := List.mem_map.mp hm
      obtain ⟨m, hm, rfl⟩ := hm
      exact methodOk_ut.mpr (h.methods m hm)

theorem Spec.FormulaOk.frame {d : DomainAST} {l : List Symbol} {f : Formula} (h : FormulaOk d l f) : FormulaFrame d l f :=
  ⟨h.noExists, h.declared, fun p hp q hq hn => argsFit_supplied (h.typed p hp q hq hn)⟩

theorem Spec.DomainOk.frame {d : DomainAST} (h : DomainOk d) : DomainFrame d where
  requirements := h.requirements
  predicates := h.predicates
  tasks := h.tasks
  actionNames := h.actionNames
  actions a ha := ⟨(h.actions a ha).params, fun f hf => ((h.actions a ha).pre f hf).frame,
    fun f hf => ((h.actions a ha).eff f hf).frame⟩
  methodNames := h.methodNames
  methods m hm := by
    have := h.methods m hm
    obtain ⟨t, ht, hn, h1⟩ := this.task
    refine ⟨this.params, fun f hf => (this.pre f hf).frame, ⟨t, ht, hn, argsFit_supplied h1⟩, fun s hs => ?_, this.ordering⟩
    obtain ⟨ps, h2, h3⟩ := this.subtasks s hs
    exact ⟨ps, h2, argsFit_supplied h3⟩

/-! ### Reports -/

theorem Spec.Repeats.twice {l : List (Name × Nat)} {e : DupErr} (h : Repeats l e) : ¬ (l.map (·.1)).Nodup := by
  obtain ⟨a, x, b, y, c, rfl, _, hxy, _⟩ := h
  intro hn
  simp only [List.map_append, List.map_cons, List.append_assoc, List.cons_append] at hn
  have := (List.nodup_append.mp hn).2.1
  rw [List.nodup_cons] at this
  exact this.1 (by simp [hxy])

theorem frame_formula {d : DomainAST} (h : DomainFrame d) {l : List Symbol} {f : Formula} (hf : FormulaOf d l f) :
    FormulaFrame d l f := by
  cases hf with
  | pre ha he => exact (h.actions _ ha).pre _ he
  | eff ha he => exact (h.actions _ ha).eff _ he
  | method hm he => exact (h.methods _ hm).pre _ he

theorem unique_of_nodup {α : Type} {k : α → Name} {l : List α} (h : (l.map k).Nodup) {x y : α} (hx : x ∈ l) (hy : y ∈ l)
    (e : k x = k y) : x = y := List.inj_on_of_nodup_map h hx hy e

/-- If a domain is well-formed except for types, then only type errors are reported truthfully. -/
theorem report_types {d : DomainAST} (h : DomainFrame d) {se : SemErr} (hr : DomainReport d se) : AboutTypes se := by
  cases hr with
  | dupRequirement e _ =>
    have := h.requirements
    rw [e, List.append_assoc] at this
    have := (List.nodup_append.mp this).2.1
    simp at this
  | cyclicType => exact .cyclic
  | dupPredicate hr => exact absurd (by simpa using h.predicates) (by simpa [Function.comp_def] using hr.twice)
  | dupTask hr => exact absurd (by simpa using h.tasks) (by simpa [Function.comp_def] using hr.twice)
  | dupAction hr => exact absurd (by simpa using h.actionNames) (by simpa [Function.comp_def] using hr.twice)
  | dupMethod hr => exact absurd (by simpa using h.methodNames) (by simpa [Function.comp_def] using hr.twice)
  | dupActionParameter ha hr => exact absurd (by simpa using (h.actions _ ha).params) (by simpa [Function.comp_def] using hr.twice)
  | dupMethodParameter ha hr => exact absurd (by simpa using (h.methods _ ha).params) (by simpa [Function.comp_def] using hr.twice)
  | undefType => exact .undef
  | undefPredicate hf hp hn =>
    obtain ⟨q, hq, e, _⟩ := (frame_formula h hf).declared _ hp
    exact absurd e (hn q hq)
  | predArity hf hp hq e hl =>
    obtain ⟨q', hq', e', hl'⟩ := (frame_formula h hf).declared _ hp
    rw [unique_of_nodup h.predicates hq' hq (e'.trans e.symm)] at hl'
    exact absurd hl' hl
  | undefVariable hf hp hv hu =>
    obtain ⟨q, hq, e, _⟩ := (frame_formula h hf).declared _ (hp.occurs)
    exact absurd hu (((frame_formula h hf).supplied _ hp q hq e).2 _ hv)
  | predArgType => exact .predicate
  | undefTask hm hn =>
    obtain ⟨t, ht, e, _⟩ := (h.methods _ hm).task
    exact absurd e (hn t ht)
  | methodArity hm ht e hl =>
    obtain ⟨t', ht', e', hs⟩ := (h.methods _ hm).task
    rw [unique_of_nodup h.tasks ht' ht (e'.trans e.symm)] at hs
    exact absurd hs.1 hl
  | undefTerm hc hv hu =>
    cases hc with
    | task hm =>
      obtain ⟨_, _, _, hs⟩ := (h.methods _ hm).task
      exact absurd hu (hs.2 _ hv)
    | subtask hm hs =>
      obtain ⟨_, _, hs⟩ := (h.methods _ hm).subtasks _ hs
      exact absurd hu (hs.2 _ hv)
  | undefSubtask hm hs hn =>
    obtain ⟨ps, hc, _⟩ := (h.methods _ hm).subtasks _ hs
    exact absurd hc (hn ps)
  | subtaskArity hm hs hc hl =>
    obtain ⟨ps, hc', hs⟩ := (h.methods _ hm).subtasks _ hs
    rw [(callee_unique h.actionNames h.tasks hc _).mp hc'] at hs
    exact absurd hs.1 hl
  | methodTaskType => exact .task
  | subtaskType => exact .task
  | cyclicOrdering hm hx => exact absurd hx ((h.methods _ hm).ordering _)

/-! ### Problems -/

theorem factOk_ut {d : DomainAST} {p : ProblemAST} {a : Predicate} :
    FactOk (utDomain d) (utProblem p) (utPredicate a) ↔ FactFrame d p a := by
  have hc : [(utProblem p).objects, constantsOf (utDomain d)] = [p.objects, constantsOf d].map (List.map utSymbol) := by
    cases h : d.constants <;> simp [constantsOf, utDomain, h, utProblem]
  constructor
  · rintro ⟨q, hq, hn, h⟩
    replace hq := List.mem_map.mp hq
    obtain ⟨q, hq, rfl⟩ := hq
    rw [hc] at h
    exact ⟨q, hq, hn, argsFit_ut.mp h⟩
  · rintro ⟨q, hq, hn, h⟩
    refine ⟨utPredicate q, List.mem_map.mpr ⟨q, hq, rfl⟩, hn, ?_⟩
    rw [hc]
    exact argsFit_ut.mpr h

theorem initTnOk_ut {d : DomainAST} {p : ProblemAST} {i : InitTN} :
    InitTnOk (utDomain d) (utProblem p) (utInitTn i) ↔ InitTnFrame d p i := by
  have hc : [(utProblem p).objects, (utInitTn i).params.getD [], constantsOf (utDomain d)] =
      [p.objects, i.params.getD [], constantsOf d].map (List.map utSymbol) := by
    cases h : d.constants <;> cases h2 : i.params <;> simp [constantsOf, utDomain, h, utProblem, utInitTn, h2]
  constructor
  · intro h
    refine ⟨h.ordering, fun s hs => ?_⟩
    obtain ⟨ps, h1, h2⟩ := h.subtasks (utSubtask s) (List.mem_map.mpr ⟨s, hs, rfl⟩)
    replace h1 := callee_ut.mp h1
    obtain ⟨ps, h1, rfl⟩ := h1
    rw [hc] at h2
    exact ⟨ps, h1, argsFit_ut.mp h2⟩
  · intro h
    refine ⟨h.ordering, fun s hs => ?_⟩
    replace hs := List.mem_map.mp hs
    obtain ⟨s, hs, rfl⟩ := hs
    obtain ⟨ps, h1, h2⟩ := h.subtasks s hs
    refine ⟨_, callee_ut.mpr ⟨ps, h1, rfl⟩, ?_⟩
    rw [hc]
    exact argsFit_ut.mpr h2

theorem problemOk_ut {d : DomainAST} {p : ProblemAST} : ProblemOk (utDomain d) (utProblem p) ↔ ProblemFrame d p := by
  have e1 : (utProblem p).objects.map (·.name) = p.objects.map (·.name) := by
    simp [utProblem, utSymbol, Function.comp_def]
  constructor
  · intro h
    exact ⟨e1 ▸ h.objects, fun a ha => factOk_ut.mp (h.init _ (List.mem_map.mpr ⟨a, ha, rfl⟩)),
      fun i hi => initTnOk_ut.mp (h.htn _ (by simp [utProblem, hi])),
      fun f hf a ha => factOk_ut.mp (h.goal _ (by simp [utProblem, hf]) _ ha.ut)⟩
  · intro h
    refine ⟨untypedKnown _, e1 ▸ h.objects, fun a ha => ?_, fun i hi => ?_, fun f hf a ha => ?_⟩
    · replace ha := List.mem_map.mp ha
      obtain ⟨a, ha, rfl⟩ := ha
      exact factOk_ut.mpr (h.init a ha)
    · replace hi := Option.map_eq_some_iff.mp hi
      obtain ⟨i, hi, rfl⟩ := hi
      exact initTnOk_ut.mpr (h.htn i hi)
    · replace hf := Option.map_eq_some_iff.mp hf
      obtain ⟨f, hf, rfl⟩ := hf
      replace ha := occursFree_of_ut _ ha
      obtain ⟨a, rfl, ha⟩ := ha
      exact factOk_ut.mpr (h.goal f hf a ha)

theorem Spec.ProblemOk.frame {d : DomainAST} {p : ProblemAST} (h : ProblemOk d p) : ProblemFrame d p := by
  have hf {a} : FactOk d p a → FactFrame d p a := fun ⟨q, hq, hn, h⟩ => ⟨q, hq, hn, argsFit_supplied h⟩
  refine ⟨h.objects, fun a ha => hf (h.init a ha), fun i hi => ⟨(h.htn i hi).ordering, fun s hs => ?_⟩,
    fun f hf' a ha => hf (h.goal f hf' a ha)⟩
  obtain ⟨ps, h1, h2⟩ := (h.htn i hi).subtasks s hs
  exact ⟨ps, h1, argsFit_supplied h2⟩

theorem frame_fact {d : DomainAST} {p : ProblemAST} (h : ProblemFrame d p) {a : Predicate} (ha : FactOf p a) : FactFrame d p a := by
  cases ha with
  | init h1 => exact h.init _ h1
  | goal h1 h2 => exact h.goal _ h1 _ h2

theorem report_typesP {d : DomainAST} {p : ProblemAST} (hd : DomainFrame d) (h : ProblemFrame d p) {se : SemErr}
    (hr : ProblemReport d p se) : AboutTypes se := by
  cases hr with
  | undefType => exact .undef
  | dupObject hr => exact absurd (by simpa using h.objects) (by simpa [Function.comp_def] using hr.twice)
  | undefPredicate ha hn =>
    obtain ⟨q, hq, e, _⟩ := frame_fact h ha
    exact absurd e (hn q hq)
  | predArity ha hq e hl =>
    obtain ⟨q', hq', e', hs⟩ := frame_fact h ha
    rw [unique_of_nodup hd.predicates hq' hq (e'.trans e.symm)] at hs
    exact absurd hs.1 hl
  | undefObject ha hv hu =>
    obtain ⟨_, _, _, hs⟩ := frame_fact h ha
    exact absurd hu (hs.2 _ hv)
  | constantType => exact .predicate
  | objectType => exact .predicate
  | undefSubtask hi hs hn =>
    obtain ⟨ps, hc, _⟩ := (h.htn _ hi).subtasks _ hs
    exact absurd hc (hn ps)
  | taskArity hi hs hc hl =>
    obtain ⟨ps, hc', hs⟩ := (h.htn _ hi).subtasks _ hs
    rw [(callee_unique hd.actionNames hd.tasks hc _).mp hc'] at hs
    exact absurd hs.1 hl
  | undefTerm hi hs hv hu =>
    obtain ⟨ps, hc', hs⟩ := (h.htn _ hi).subtasks _ hs
    exact absurd hu (hs.2 _ hv)
  | termType => exact .task
  | termConstantType => exact .predicate
  | cyclicOrdering hi hx => exact absurd hx ((h.htn _ hi).ordering _)

end Verif
