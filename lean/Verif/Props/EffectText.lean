import Verif.Proofs.EffectFiles
import Verif.Props.Declarations
import Verif.Props.Stack

/-! C103: the texts of effects that are built while a domain is parsed. -/

namespace Verif

open Spec

variable [Env] {f : Bytes} {d : DomainAST}

/-- How long the texts are that are built for the effects of a domain. -/
def textLength (d : DomainAST) : Nat := ((effectTexts d).map fun x => x.bytes.length).sum

/-- How many bytes are written to build them. -/
def textWork (d : DomainAST) : Nat := ((effectTexts d).map Fmt.work).sum

/-- C103: together the texts are at most eight times as long as the file. -/
theorem C103_length (hr : ShortReals ‹_›) (h : Parses f (.domain d)) : textLength d ≤ 8 * f.length := by
  obtain ⟨ts, h1, h2⟩ := (C45_grammar _ _).mp h
  exact effects_bytes hr h1 h2

omit [Env] in
theorem sum_le_mul {α : Type} (f g : α → Nat) (k : Nat) : ∀ l : List α, (∀ x ∈ l, f x ≤ k * g x) →
    (l.map f).sum ≤ k * (l.map g).sum
  | [], _ => Nat.zero_le _
  | x :: l, h => by
    have h1 := h x List.mem_cons_self
    have h2 := sum_le_mul f g k l fun y hy => h y (List.mem_cons_of_mem _ hy)
    simp only [List.map_cons, List.sum_cons, Nat.mul_add]
    omega

/-- C103: each level of nesting costs at most sixteen times the length of the file. -/
theorem C103_work (hr : ShortReals ‹_›) (h : Parses f (.domain d)) {k : Nat}
    (hk : ∀ a ∈ d.actions, ∀ e, a.eff = some e → height e ≤ k) : textWork d ≤ 16 * (k + 1) * f.length := by
  have h1 : textWork d ≤ (2 * k + 2) * textLength d := by
    refine sum_le_mul _ _ _ _ fun x hx => ?_
    obtain ⟨a, ha, he⟩ := List.mem_filterMap.mp hx
    obtain ⟨e, he', rfl⟩ := Option.map_eq_some_iff.mp he
    refine (fmt_work e).trans (Nat.mul_le_mul_right _ ?_)
    have := hk a ha e he'
    omega
  refine h1.trans ((Nat.mul_le_mul_left _ (C103_length hr h)).trans (Nat.le_of_eq ?_))
  ring

/-- C103: without a bound on the nesting, at most sixteen times the length of the file for each opening parenthesis. -/
theorem C103_quadratic (hr : ShortReals ‹_›) (h : Parses f (.domain d)) :
    textWork d ≤ 16 * f.count 40 * f.length ∧ textWork d ≤ 16 * f.length ^ 2 := by
  obtain ⟨k, ⟨N, hN⟩, hk, _⟩ := C74_height h
  have hc : k ≤ f.count 40 := by rw [← hN N (Nat.le_refl _)]; exact C74_prefix N f
  have key : textWork d ≤ 16 * f.count 40 * f.length := by
    rcases Nat.eq_zero_or_pos (f.count 40) with h0 | h0
    · have : effectTexts d = [] := by
        refine List.filterMap_eq_nil_iff.mpr fun a ha => ?_
        cases he : a.eff with
        | none => rfl
        | some e =>
          have := hk e (List.mem_append_left _ (List.mem_flatMap.mpr ⟨a, ha, by simp [he]⟩))
          omega
      simp [textWork, this]
    · have := C103_work hr h (k := f.count 40 - 1) fun a ha e he => by
        have := hk e (List.mem_append_left _ (List.mem_flatMap.mpr ⟨a, ha, by simp [he]⟩))
        omega
      rwa [Nat.sub_add_cancel h0] at this
  refine ⟨key, key.trans ?_⟩
  rw [Nat.pow_two, ← Nat.mul_assoc]
  exact Nat.mul_le_mul_right _ (Nat.mul_le_mul_left _ List.count_le_length)

/-- C103: the square is reached up to a factor by accepted domains that follow the grammar, although the texts
themselves are shorter than the files. -/
theorem C103_tight (ord : HashOrd) (k : Nat) : ∃ f d ts, f.length = 8 * k + 70 ∧ Parses f (.domain d) ∧
    (∃ ws, Returns ord f none (.ok ws)) ∧ FileText false (.domain d) ts ∧ Feeds (LexState.init f) ts ∧
    textLength d = 2 * (k + 1) ∧ textWork d = 2 * (k + 1) ^ 2 := by
  have hp : Parses (onLine (effWords (andsWords k))) (.domain (effDomain (ands k))) :=
    (C45_grammar _ _).mpr ⟨_, eff_text (ands_text true k), feeds_onLine (eff_spells (ands_spells k))⟩
  have he : effectTexts (effDomain (ands k)) = [(ands k).fmt] := rfl
  refine ⟨_, _, _, ?_, hp, (C23_acceptance hp).mpr (eff_ok (ands_exists k) fun p => ands_occurs p k), eff_text (ands_text false k),
    feeds_onLine (eff_spells (ands_spells k)), ?_, ?_⟩
  · rw [eff_length, ands_length]
    omega
  · simp [textLength, he, (ands_fmt k).1]
  · simp [textWork, he, (ands_fmt k).2]

/-! ### Instances -/

omit [Env] in
/-- The environment of the examples prints no numbers. -/
theorem shortReals_plain : ShortReals Env.plain := fun _ _ _ _ _ => Nat.zero_le _

/-- A domain with an effect. -/
def effectFile : Bytes := b!"(define (domain d) (:predicates (p ?x) (q)) (:action a :parameters (?x) :effect (and (p ?x) (not (q)))))"

/-- Its syntax tree. -/
def effectTree : DomainAST :=
  domainOf b!"d" [.predicates [⟨b!"p", 1, [⟨b!"x", 1, none, none⟩]⟩, ⟨b!"q", 1, []⟩],
    .action ⟨b!"a", 1, [⟨b!"x", 1, none, none⟩], none,
      some (.and [.atom ⟨b!"p", 1, [⟨b!"x", 1, none, none⟩]⟩, .not (.atom ⟨b!"q", 1, []⟩)])⟩]

omit [Env] in
/-- The hypotheses of `C103_length`, `C103_work` and `C103_quadratic` hold for it.  Its effect is printed as `(p(x,) ∧ ¬(q()))`. -/
example : @Parses Env.plain effectFile (.domain effectTree) ∧
    (∀ a ∈ effectTree.actions, ∀ e, a.eff = some e → height e ≤ 2) ∧ effectFile.length = 104 ∧
    @textLength Env.plain effectTree = 19 ∧ @textWork Env.plain effectTree = 56 := by
  refine ⟨@parses_tree Env.plain _ 100 _ (by decide +kernel), ?_, by decide, by decide +kernel, by decide +kernel⟩
  intro a ha e he
  have : effectTree.actions = [_] := rfl
  rw [this, List.mem_singleton] at ha
  subst ha
  cases he
  decide

end Verif
