import Mathlib.Tactic.Ring
import Verif.Proofs.FormulaShow

/-! Files with nested conjunctions as effects. -/

namespace Verif

open Spec

/-- A domain with one action with the given effect. -/
def effDomain (f : Formula) : DomainAST := domainOf b!"d" [.action ⟨b!"a", 1, [], none, some f⟩]

def effHead : List Spelled :=
  [sLp, (.kw .define, b!"define"), sLp, (.kw .domain, b!"domain"), sId b!"d", sRp, sLp, (.kw .action, b!":action"),
    sId b!"a", (.kw .parameters, b!":parameters"), sLp, sRp, (.kw .effect, b!":effect")]

def effWords (ws : List Spelled) : List Spelled := effHead ++ (ws ++ [sRp, sRp])

theorem eff_text {q : Bool} {f : Formula} {ws : List Spelled} (h : FormulaText q f (lineToks ws)) :
    FileText q (.domain (effDomain f)) (lineToks (effWords ws)) := by
  have h1 : lineToks (effWords ws) = (lpar, 1) :: (.kw .define, 1) :: (lpar, 1) :: (.kw .domain, 1) :: (.ident b!"d", 1) ::
      (rpar, 1) :: (((lpar, 1) :: (.kw .action, 1) :: ([(.ident b!"a", 1), (.kw .parameters, 1), (lpar, 1), (rpar, 1)] ++
        [] ++ ((.kw .effect, 1) :: lineToks ws) ++ [(rpar, 1)])) ++ [(rpar, 1)]) := by
    simp [lineToks, effWords, effHead, sLp, sRp, sId]
  rw [h1]
  refine .domain (.block (e := .closed) (.action (.mk (.mk (items := []) ⟨.nil, rfl⟩) .none (.some h))) trivial (.done ⟨1, rfl⟩))

theorem eff_spells {ws : List Spelled} (h : ∀ x ∈ ws, Spells x.1 x.2 ∧ x.1 ≠ .eof) :
    ∀ x ∈ effWords ws, Spells x.1 x.2 ∧ x.1 ≠ .eof := by
  intro x hx
  have hp := pre_spells h
  simp only [effWords, effHead, List.mem_append, List.mem_cons, List.not_mem_nil, or_false] at hx
  by_cases he : x = (.kw .effect, b!":effect")
  · rw [he]
    exact ⟨.colon (w := b!"effect") (by decide), by decide⟩
  · refine hp x ?_
    simp only [preWords, preHead, List.mem_append, List.mem_cons, List.not_mem_nil, or_false]
    tauto

theorem eff_length (ws : List Spelled) : (onLine (effWords ws)).length = (onLine ws).length + 62 := by
  unfold effWords
  rw [length_onLine_append, length_onLine_append]
  have h1 : (onLine effHead).length = 58 := by decide
  have h2 : (onLine [sRp, sRp]).length = 4 := by decide
  omega

theorem eff_ok {f : Formula} (h1 : ¬ HasExists f) (h2 : ∀ p, ¬ Occurs p f) : DomainOk (effDomain f) := by
  have h := pre_ok h1 h2
  have ha : (effDomain f).actions = [⟨b!"a", 1, [], none, some f⟩] := rfl
  have hp : (preDomain f).actions = [⟨b!"a", 1, [], some f, none⟩] := rfl
  obtain ⟨g1, g2, g3, g4, g5, g6, g7, g8, g9, g10⟩ := h
  refine ⟨g1, g2, g3, g4, g5, g6, by rw [ha]; simp, ?_, g9, by simp [effDomain, domainOf, DBlock.methods]⟩
  intro a h
  rw [ha, List.mem_singleton] at h
  subst h
  have := (g8 _ (by rw [hp]; exact List.mem_singleton_self _)).pre f rfl
  refine ⟨.nil, (fun g hg => by cases hg), fun g hg => ?_⟩
  cases hg
  exact ⟨this.1, this.2, fun p hp => absurd hp (h2 p), fun p hp => this.4 p hp⟩

/-- Conjunctions of one conjunction each. -/
def ands : Nat → Formula
  | 0 => .and []
  | k + 1 => .and [ands k]

def andsWords : Nat → List Spelled
  | 0 => [sLp, (.op .and, b!"and"), sRp]
  | k + 1 => [sLp, (.op .and, b!"and")] ++ (andsWords k ++ [sRp])

theorem ands_ne (k : Nat) : ands k ≠ .empty := by cases k <;> simp [ands]

theorem ands_text (q : Bool) : ∀ k, FormulaText q (ands k) (lineToks (andsWords k))
  | 0 => .and .nil
  | k + 1 => by
    rw [andsWords, lineToks_append, lineToks_append]
    exact .and (.cons (ts := lineToks (andsWords k)) (ts' := [(rpar, 1)]) (ands_text q k) (ands_ne k) .nil)

theorem ands_spells : ∀ k, ∀ x ∈ andsWords k, Spells x.1 x.2 ∧ x.1 ≠ .eof
  | 0 => nots_spells 0
  | k + 1 => by
    intro x hx
    simp only [andsWords, List.mem_append, List.mem_cons, List.not_mem_nil, or_false] at hx
    rcases hx with (rfl | rfl) | hx | rfl
    · exact ⟨.lparen, by decide⟩
    · exact ⟨.plain (by decide), by decide⟩
    · exact ands_spells k x hx
    · exact ⟨.rparen, by decide⟩

theorem ands_length : ∀ k, (onLine (andsWords k)).length = 8 * (k + 1)
  | 0 => by decide
  | k + 1 => by
    rw [andsWords, length_onLine_append, length_onLine_append, ands_length k]
    have h1 : (onLine [sLp, (.op .and, b!"and")]).length = 6 := by decide
    have h2 : (onLine [sRp]).length = 2 := by decide
    omega

theorem ands_exists : ∀ k, ¬ HasExists (ands k)
  | 0 => fun h => by cases h with | and h => cases h
  | k + 1 => fun h => by
    cases h with
    | and h h' =>
      rw [List.mem_singleton] at h
      subst h
      exact ands_exists k h'

theorem ands_occurs (p : Predicate) : ∀ k, ¬ Occurs p (ands k)
  | 0 => fun h => by cases h with | and h => cases h
  | k + 1 => fun h => by
    cases h with
    | and h h' =>
      rw [List.mem_singleton] at h
      subst h
      exact ands_occurs p k h'

theorem ands_fmt [Env] : ∀ k, (ands k).fmt.bytes.length = 2 * (k + 1) ∧ (ands k).fmt.work = 2 * (k + 1) ^ 2
  | 0 => ⟨rfl, rfl⟩
  | k + 1 => by
    obtain ⟨h1, h2⟩ := ands_fmt k
    rw [ands, Formula.fmt]
    simp only [Formula.fmts, Fmt.bytes_append, Fmt.work_append, Fmt.bytes_lit, Fmt.work_lit, Fmt.bytes_copied, Fmt.work_copied,
      Fmt.join, List.map_cons, List.map_nil, Fmt.glue, List.sum_cons, List.sum_nil, List.length_append, List.length_cons,
      List.length_nil, h1, h2]
    constructor
    · omega
    · ring

end Verif
