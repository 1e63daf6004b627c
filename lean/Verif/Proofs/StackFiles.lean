import Verif.Proofs.StackText
import Verif.Proofs.EffortText

/-! Domains on which the recursion of the parser is deep. -/

namespace Verif

open Spec

/-- A domain with one action, `a`, that has this precondition. -/
def preDomain (f : Formula) : DomainAST := domainOf b!"d" [.action ⟨b!"a", 1, [], some f, none⟩]

def preHead : List Spelled :=
  [sLp, (.kw .define, b!"define"), sLp, (.kw .domain, b!"domain"), sId b!"d", sRp, sLp, (.kw .action, b!":action"),
    sId b!"a", (.kw .parameters, b!":parameters"), sLp, sRp, (.kw .precondition, b!":precondition")]

def preWords (ws : List Spelled) : List Spelled := preHead ++ (ws ++ [sRp, sRp])

theorem lineToks_append (a b : List Spelled) : lineToks (a ++ b) = lineToks a ++ lineToks b := List.map_append

theorem pre_text {q : Bool} {f : Formula} {ws : List Spelled} (h : FormulaText q f (lineToks ws)) :
    FileText q (.domain (preDomain f)) (lineToks (preWords ws)) := by
  have h1 : lineToks (preWords ws) = (lpar, 1) :: (.kw .define, 1) :: (lpar, 1) :: (.kw .domain, 1) :: (.ident b!"d", 1) ::
      (rpar, 1) :: (((lpar, 1) :: (.kw .action, 1) :: ([(.ident b!"a", 1), (.kw .parameters, 1), (lpar, 1), (rpar, 1)] ++
        ((.kw .precondition, 1) :: lineToks ws) ++ [] ++ [(rpar, 1)])) ++ [(rpar, 1)]) := by
    simp [lineToks, preWords, preHead, sLp, sRp, sId]
  rw [h1]
  refine .domain (.block (e := .closed) (.action (.mk (.mk (items := []) ⟨.nil, rfl⟩) (.some h) .none)) trivial (.done ⟨1, rfl⟩))

theorem word_spells {w : Bytes} {t : Token} (h : (w, t) ∈ plainTable) (ht : t ≠ .eof) : Spells t w ∧ t ≠ .eof := ⟨.plain h, ht⟩

theorem pre_spells {ws : List Spelled} (h : ∀ x ∈ ws, Spells x.1 x.2 ∧ x.1 ≠ .eof) :
    ∀ x ∈ preWords ws, Spells x.1 x.2 ∧ x.1 ≠ .eof := by
  have hl : Spells sLp.1 sLp.2 ∧ sLp.1 ≠ .eof := ⟨.lparen, by decide⟩
  have hr : Spells sRp.1 sRp.2 ∧ sRp.1 ≠ .eof := ⟨.rparen, by decide⟩
  have hd : Spells (sId b!"d").1 (sId b!"d").2 ∧ (sId b!"d").1 ≠ .eof := by
    refine ⟨.name ⟨by decide, ⟨_, _, rfl, by decide, by decide⟩, by simp [plainTable]⟩, by simp [sId]⟩
  have ha : Spells (sId b!"a").1 (sId b!"a").2 ∧ (sId b!"a").1 ≠ .eof := by
    refine ⟨.name ⟨by decide, ⟨_, _, rfl, by decide, by decide⟩, by simp [plainTable]⟩, by simp [sId]⟩
  intro x hx
  simp only [preWords, preHead, List.mem_append, List.mem_cons, List.not_mem_nil, or_false] at hx
  rcases hx with (rfl | rfl | rfl | rfl | rfl | rfl | rfl | rfl | rfl | rfl | rfl | rfl | rfl) | hx | rfl | rfl
  · exact hl
  · exact ⟨.plain (by decide), by decide⟩
  · exact hl
  · exact ⟨.plain (by decide), by decide⟩
  · exact hd
  · exact hr
  · exact hl
  · exact ⟨.colon (w := b!"action") (by decide), by decide⟩
  · exact ha
  · exact ⟨.colon (w := b!"parameters") (by decide), by decide⟩
  · exact hl
  · exact hr
  · exact ⟨.colon (w := b!"precondition") (by decide), by decide⟩
  · exact h x hx
  · exact hr
  · exact hr

theorem pre_ended (ws : List Spelled) : (onLine (preWords ws)).getLast? = some 32 := by
  have : onLine (preWords ws) = onLine (preHead ++ (ws ++ [sRp])) ++ [41, 32] := by
    simp [preWords, onLine, sRp]
  rw [this, List.getLast?_append]
  rfl

theorem pre_length (ws : List Spelled) : (onLine (preWords ws)).length = (onLine ws).length + 68 := by
  unfold preWords
  rw [length_onLine_append, length_onLine_append]
  have h1 : (onLine preHead).length = 64 := by decide
  have h2 : (onLine [sRp, sRp]).length = 4 := by decide
  omega

theorem pre_ok {f : Formula} (h1 : ¬ HasExists f) (h2 : ∀ p, ¬ Occurs p f) : DomainOk (preDomain f) := by
  have hfree : ∀ p, ¬ OccursFree p f := fun p h => by
    refine h2 p ?_
    clear h1 h2
    induction h with
    | atom => exact .atom
    | not _ ih => exact .not ih
    | and hm _ ih => exact .and hm ih
    | or hm _ ih => exact .or hm ih
    | xor hm _ ih => exact .xor hm ih
    | left hm _ ih => exact .left hm ih
    | right hm _ ih => exact .right hm ih
    | weighted _ ih => exact .weighted ih
  have ha : (preDomain f).actions = [⟨b!"a", 1, [], some f, none⟩] := rfl
  refine ⟨.nil, ?_, .nil, by simp [preDomain, domainOf, DBlock.preds], .nil, by simp [preDomain, domainOf, DBlock.tasks],
    by rw [ha]; simp, ?_, .nil, by simp [preDomain, domainOf, DBlock.methods]⟩
  · intro x hx
    have : ∀ {a b : Name}, ¬ Relation.TransGen (DirectSub []) a b := fun h => by
      cases h with
      | single h => obtain ⟨_, h, _⟩ := h; cases h
      | tail _ h => obtain ⟨_, h, _⟩ := h; cases h
    exact this hx
  · intro a h
    rw [ha, List.mem_singleton] at h
    subst h
    refine ⟨.nil, fun g hg => ?_, fun g hg => by cases hg⟩
    cases hg
    exact ⟨h1, (by intro s hs; cases hs), fun p hp => absurd hp (h2 p), fun p hp => absurd hp (hfree p)⟩

/-- The height of the precondition bounds the depth from below. -/
theorem pre_height (f : Formula) : f ∈ formulasOf (.domain (preDomain f)) := by
  simp [formulasOf, preDomain, domainOf, DBlock.actions]

/-! ### Negations -/

def nots : Nat → Formula
  | 0 => .and []
  | k + 1 => .not (nots k)

def notsWords : Nat → List Spelled
  | 0 => [sLp, (.op .and, b!"and"), sRp]
  | k + 1 => [sLp, (.op .not, b!"not")] ++ (notsWords k ++ [sRp])

theorem nots_height : ∀ k, height (nots k) = k
  | 0 => rfl
  | k + 1 => by rw [nots, height, nots_height k]

theorem nots_text (q : Bool) : ∀ k, FormulaText q (nots k) (lineToks (notsWords k))
  | 0 => .and .nil
  | k + 1 => by
    rw [notsWords, lineToks_append, lineToks_append]
    exact .not (nots_text q k)

theorem nots_spells : ∀ k, ∀ x ∈ notsWords k, Spells x.1 x.2 ∧ x.1 ≠ .eof
  | 0 => by
    intro x hx
    simp only [notsWords, List.mem_cons, List.not_mem_nil, or_false] at hx
    rcases hx with rfl | rfl | rfl
    · exact ⟨.lparen, by decide⟩
    · exact ⟨.plain (by decide), by decide⟩
    · exact ⟨.rparen, by decide⟩
  | k + 1 => by
    intro x hx
    simp only [notsWords, List.mem_append, List.mem_cons, List.not_mem_nil, or_false] at hx
    rcases hx with (rfl | rfl) | hx | rfl
    · exact ⟨.lparen, by decide⟩
    · exact ⟨.plain (by decide), by decide⟩
    · exact nots_spells k x hx
    · exact ⟨.rparen, by decide⟩

theorem nots_length : ∀ k, (onLine (notsWords k)).length = 8 * (k + 1)
  | 0 => by decide
  | k + 1 => by
    rw [notsWords, length_onLine_append, length_onLine_append, nots_length k]
    have h1 : (onLine [sLp, (.op .not, b!"not")]).length = 6 := by decide
    have h2 : (onLine [sRp]).length = 2 := by decide
    omega

theorem nots_exists : ∀ k, ¬ HasExists (nots k)
  | 0 => fun h => by cases h with | and h => cases h
  | k + 1 => fun h => by cases h with | not h => exact nots_exists k h

theorem nots_occurs (p : Predicate) : ∀ k, ¬ Occurs p (nots k)
  | 0 => fun h => by cases h with | and h => cases h
  | k + 1 => fun h => by cases h with | not h => exact nots_occurs p k h

/-! ### Conjunctions that are closed in the wrong place -/

def flats : Nat → Formula
  | 0 => .and []
  | k + 1 => .and [.not .empty, flats k]

def flatsWords : Nat → List Spelled
  | 0 => [sLp, (.op .and, b!"and"), sRp]
  | k + 1 => [sLp, (.op .and, b!"and"), sLp, (.op .not, b!"not"), sRp, sRp] ++ (flatsWords k ++ [sRp])

theorem flats_ne (k : Nat) : flats k ≠ .empty := by cases k <;> simp [flats]

theorem flats_height : ∀ k, k ≤ height (flats k)
  | 0 => Nat.zero_le _
  | k + 1 => by
    have := flats_height k
    simp only [flats, height, heightOver]
    omega

theorem flats_text : ∀ k, FormulaText true (flats k) (lineToks (flatsWords k))
  | 0 => .and .nil
  | k + 1 => by
    rw [flatsWords, lineToks_append, lineToks_append]
    exact .and (.cons (ts := [_, _, _, _]) (.not (ts := [_]) (.missing rfl)) (by simp) (.cons (flats_text k) (flats_ne k) .nil))

theorem flats_spells : ∀ k, ∀ x ∈ flatsWords k, Spells x.1 x.2 ∧ x.1 ≠ .eof
  | 0 => nots_spells 0
  | k + 1 => by
    intro x hx
    simp only [flatsWords, List.mem_append, List.mem_cons, List.not_mem_nil, or_false] at hx
    rcases hx with (rfl | rfl | rfl | rfl | rfl | rfl) | hx | rfl
    · exact ⟨.lparen, by decide⟩
    · exact ⟨.plain (by decide), by decide⟩
    · exact ⟨.lparen, by decide⟩
    · exact ⟨.plain (by decide), by decide⟩
    · exact ⟨.rparen, by decide⟩
    · exact ⟨.rparen, by decide⟩
    · exact flats_spells k x hx
    · exact ⟨.rparen, by decide⟩

theorem flats_length : ∀ k, (onLine (flatsWords k)).length = 18 * k + 8
  | 0 => by decide
  | k + 1 => by
    rw [flatsWords, length_onLine_append, length_onLine_append, flats_length k]
    have h1 : (onLine [sLp, (.op .and, b!"and"), sLp, (.op .not, b!"not"), sRp, sRp]).length = 16 := by decide
    have h2 : (onLine [sRp]).length = 2 := by decide
    omega

theorem flats_exists : ∀ k, ¬ HasExists (flats k)
  | 0 => nots_exists 0
  | k + 1 => fun h => by
    cases h with
    | and hm h =>
      simp only [List.mem_cons, List.not_mem_nil, or_false] at hm
      rcases hm with rfl | rfl
      · cases h with | not h => cases h
      · exact flats_exists k h

theorem flats_occurs (p : Predicate) : ∀ k, ¬ Occurs p (flats k)
  | 0 => nots_occurs p 0
  | k + 1 => fun h => by
    cases h with
    | and hm h =>
      simp only [List.mem_cons, List.not_mem_nil, or_false] at hm
      rcases hm with rfl | rfl
      · cases h with | not h => cases h
      · exact flats_occurs p k h

theorem flats_nesting : ∀ k c, nesting c (lineToks (flatsWords k)) ≤ c + 2 ∧ level c (lineToks (flatsWords k)) ≤ c
  | 0, c => by simp [flatsWords, lineToks, sLp, sRp, nesting, level]
  | k + 1, c => by
    have h := flats_nesting k c
    rw [flatsWords, lineToks_append, lineToks_append, nesting_append, level_append, level_append, nesting_append]
    have h1 : level c (lineToks [sLp, (.op .and, b!"and"), sLp, (.op .not, b!"not"), sRp, sRp]) = c := by
      simp [lineToks, sLp, sRp, level]
    have h2 : nesting c (lineToks [sLp, (.op .and, b!"and"), sLp, (.op .not, b!"not"), sRp, sRp]) = c + 2 := by
      simp [lineToks, sLp, sRp, nesting]
    have h3 : ∀ x, nesting x (lineToks [sRp]) = x := by
      intro x
      simp [lineToks, sRp, nesting]
    have h4 : ∀ x, level x (lineToks [sRp]) = x - 1 := by
      intro x
      simp [lineToks, sRp, level]
    rw [h1, h2, h3, h4]
    omega

theorem flats_file_nesting (k : Nat) : nesting 0 (lineToks (preWords (flatsWords k))) ≤ 4 := by
  have h := flats_nesting k 2
  rw [preWords, lineToks_append, lineToks_append, nesting_append, nesting_append]
  have h1 : level 0 (lineToks preHead) = 2 := by decide
  have h2 : nesting 0 (lineToks preHead) = 3 := by decide
  have h3 : ∀ x, nesting x (lineToks [sRp, sRp]) = x := by
    intro x
    simp [lineToks, sRp, nesting]
  rw [h1, h2, h3]
  omega

end Verif
