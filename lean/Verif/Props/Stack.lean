import Verif.Proofs.StackFiles
import Verif.Proofs.StackHeight
import Verif.Proofs.StackFuel
import Verif.Props.Effort

/-! C74: how deep the recursion of the parser is. -/

namespace Verif

open Spec

variable [Env] {f : Bytes} {a : AST}

/-- When the file is parsed, `k` calls of `parse_formula` are active at some time, and never more. -/
def DepthIs (f : Bytes) (k : Nat) : Prop := ∃ N, ∀ n, N ≤ n → parseDepth n f = k

/-- The count of active calls is an addition to the model of the parser that does not change its result. -/
theorem parseFileD_result (n : Nat) (s : LexState) : (parseFileD n s).1 = parseFile n s := congrFun (erase_file n) s

theorem DepthIs.of_parse {n : Nat} (h : parse n f ≠ .timeout) : DepthIs f (parseDepth n f) :=
  ⟨n, fun _ hm => parseDepth_fuel hm h⟩

theorem DepthIs.unique {j k : Nat} (h : DepthIs f j) (h' : DepthIs f k) : j = k := by
  obtain ⟨N, h⟩ := h
  obtain ⟨M, h'⟩ := h'
  rw [← h (max N M) (Nat.le_max_left _ _), h' _ (Nat.le_max_right _ _)]

/-- C74, for every file that ends with a delimiter, whether it is accepted or not: the recursion has a depth, which is at
most the number of opening parentheses in the file. -/
theorem C74_parens_partial (he : Ended f) : ∃ k, DepthIs f k ∧ k ≤ f.count 40 :=
  ⟨_, .of_parse (C06_terminates_partial f he).1, parseDepth_opens _ _⟩

/-- For any other file the bound holds for the calls up to any moment. -/
theorem C74_prefix (n : Nat) (f : Bytes) : parseDepth n f ≤ f.count 40 := parseDepth_opens n f

/-- C74 for files that are parsed: the recursion is deeper than every formula of the file is nested, and for domains by at
most two calls. -/
theorem C74_height (h : Parses f a) : ∃ k, DepthIs f k ∧ (∀ x ∈ formulasOf a, height x + 1 ≤ k) ∧
    ∀ d, a = .domain d → k = 0 ∨ ∃ x ∈ formulasOf a, k ≤ height x + 2 := by
  obtain ⟨N, h⟩ := h
  have h := h N (Nat.le_refl _)
  exact ⟨_, .of_parse (by rw [h]; simp), parseDepth_height h⟩

/-- C74: in a file that follows the grammar the recursion is at most one deeper than the parentheses are nested. -/
theorem C74_nesting_partial {ts : List Tk} (h : FileText false a ts) (hf : Feeds (LexState.init f) ts) :
    ∃ k, DepthIs f k ∧ k ≤ nesting 0 ts + 1 := by
  obtain ⟨N, hN⟩ := parse_complete h
  exact ⟨_, .of_parse (n := N) (by rw [hN N (Nat.le_refl _) f hf]; simp), file_depth h hf N⟩

/-- The hypotheses of `C74_nesting_partial` hold for a domain with two negations. -/
example : FileText false (.domain (preDomain (nots 2))) (lineToks (preWords (notsWords 2))) ∧
    @Feeds Env.plain (LexState.init (onLine (preWords (notsWords 2)))) (lineToks (preWords (notsWords 2))) ∧
    nesting 0 (lineToks (preWords (notsWords 2))) = 5 :=
  ⟨pre_text (nots_text false 2), @feeds_onLine Env.plain _ (pre_spells (nots_spells 2)), by decide⟩

theorem pre_accepted (ord : HashOrd) {x : Formula} {ws : List Spelled} (ht : FormulaText true x (lineToks ws))
    (hw : ∀ w ∈ ws, Spells w.1 w.2 ∧ w.1 ≠ .eof) (h1 : ¬ HasExists x) (h2 : ∀ p, ¬ Occurs p x) :
    Parses (onLine (preWords ws)) (.domain (preDomain x)) ∧ ∃ r, Returns ord (onLine (preWords ws)) none (.ok r) := by
  have hp : Parses (onLine (preWords ws)) (.domain (preDomain x)) :=
    (C45_grammar _ _).mpr ⟨_, pre_text ht, feeds_onLine (pre_spells hw)⟩
  exact ⟨hp, (C23_acceptance hp).mpr (pre_ok h1 h2)⟩

/-- C74 is false for the files the parser accepts: there are accepted domains, of a length proportional to `k`, in which
never more than four parentheses are open, and on which the recursion is more than `k` deep. -/
theorem C74_refuted (ord : HashOrd) (k : Nat) : ∃ f d ts, f.length = 18 * k + 76 ∧ Ended f ∧ Parses f (.domain d) ∧
    (∃ ws, Returns ord f none (.ok ws)) ∧ FileText true (.domain d) ts ∧ Feeds (LexState.init f) ts ∧
    nesting 0 ts ≤ 4 ∧ ∃ m, DepthIs f m ∧ k < m := by
  obtain ⟨hp, hr⟩ := pre_accepted ord (flats_text k) (flats_spells k) (flats_exists k) (fun p => flats_occurs p k)
  obtain ⟨m, h1, h2, _⟩ := C74_height hp
  refine ⟨_, _, _, ?_, .inr ⟨32, pre_ended _, by decide⟩, hp, hr, pre_text (flats_text k), feeds_onLine (pre_spells (flats_spells k)),
    flats_file_nesting k, m, h1, ?_⟩
  · rw [pre_length, flats_length]
  · have := h2 _ (pre_height _)
    have := flats_height k
    omega

/-- The recursion is not bounded: for every size of the stack there is an accepted domain that follows the grammar, of a
length proportional to that size, that does not fit. -/
theorem C74_unbounded (ord : HashOrd) (k : Nat) : ∃ f d ts, f.length = 8 * k + 76 ∧ Ended f ∧ Parses f (.domain d) ∧
    (∃ ws, Returns ord f none (.ok ws)) ∧ FileText false (.domain d) ts ∧ Feeds (LexState.init f) ts ∧
    ∃ m, DepthIs f m ∧ k < m := by
  obtain ⟨hp, hr⟩ := pre_accepted ord (nots_text true k) (nots_spells k) (nots_exists k) (fun p => nots_occurs p k)
  obtain ⟨m, h1, h2, _⟩ := C74_height hp
  refine ⟨_, _, _, ?_, .inr ⟨32, pre_ended _, by decide⟩, hp, hr, pre_text (nots_text false k), feeds_onLine (pre_spells (nots_spells k)),
    m, h1, ?_⟩
  · rw [pre_length, nots_length]
    omega
  · have := h2 _ (pre_height _)
    rw [nots_height] at this
    omega

/-- A file whose recursion is known: four calls for `(not (not (and)))`, the innermost for the `)` that ends the `and`. -/
example : @parseDepth Env.plain 100 (onLine (preWords (notsWords 2))) = 4 := by decide +kernel

example : @parseDepth Env.plain 200 (onLine (preWords (flatsWords 3))) = 5 := by decide +kernel

end Verif
