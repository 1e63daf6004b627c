import Verif.Props.Output
import Verif.Props.Regrouped

/-! C39: the JSON determines the answers of `verify` and `get_metadata`. -/

namespace Verif

open Spec

variable [Env] {ord ord' ord'' : HashOrd} {f f' : Bytes} {prob prob' : Option Bytes} {d : DomainAST} {p : Option ProblemAST}

/-- Files with the same trees get the same answers. -/
theorem returns_trees (h : TreesOf f prob d p) (h' : TreesOf f' prob' d p) {r : R (List Warning)}
    (hr : Returns ord f prob r) : Returns ord f' prob' r := by
  obtain ⟨h1, h2⟩ := h
  obtain ⟨h1', h2'⟩ := h'
  rw [returns_parsed h1] at hr
  rw [returns_parsed h1']
  obtain ⟨hne, N, hN⟩ := hr
  refine ⟨hne, ?_⟩
  cases p with
  | none =>
    cases prob with
    | some g => exact h2.elim
    | none => cases prob' with
      | some g => exact h2'.elim
      | none => exact ⟨N, hN⟩
  | some q =>
    cases prob with
    | none => exact h2.elim
    | some g => cases prob' with
      | none => exact h2'.elim
      | some g' =>
        obtain ⟨M, hM⟩ := h2
        obtain ⟨M', hM'⟩ := h2'
        refine ⟨max N (max M M'), fun n hn => ?_⟩
        have h3 := hN n (by omega)
        simp only [hM n (by omega)] at h3
        simp only [hM' n (by omega)]
        exact h3

/-- C39: files with the same JSON get the same answers from `verify`, including all lines, and the same metadata. -/
theorem C39_answers {j : Json} (h : Exports ord f prob j) (h' : Exports ord' f' prob' j) :
    (∀ r, Returns ord'' f prob r ↔ Returns ord'' f' prob' r) ∧ ∀ md, Metadata ord'' f md ↔ Metadata ord'' f' md := by
  obtain ⟨read, hread⟩ := C39_recovered
  obtain ⟨d, p, e1, t1⟩ := hread _ _ _ _ h
  obtain ⟨d', p', e2, t2⟩ := hread _ _ _ _ h'
  rw [e1] at e2
  cases e2
  exact ⟨fun r => ⟨returns_trees t1 t2, returns_trees t2 t1⟩, fun md => C92_metadata t1.1 t2.1 rfl⟩

omit [Env] in
/-- Instance: files with other layout inside the lines and the same JSON. -/
example : ∃ j, @Exports Env.plain HashOrd.id b!"(define (domain d) (:predicates (p)))\n" none j ∧
    @Exports Env.plain HashOrd.id b!"( define (domain  d)(:predicates ( p ) ) ) ; done\n" none j := by
  obtain ⟨d, d', h, h', rfl⟩ := @parses_pair Env.plain b!"(define (domain d) (:predicates (p)))\n"
    b!"( define (domain  d)(:predicates ( p ) ) ) ; done\n" 200 (fun d d' => d = d') _ (by decide +kernel)
  obtain ⟨j, hj⟩ := @C39_total Env.plain HashOrd.id _ none d none ⟨h, trivial⟩
  obtain ⟨j', hj'⟩ := @C39_total Env.plain HashOrd.id _ none d none ⟨h', trivial⟩
  refine ⟨j, hj, ?_⟩
  obtain ⟨N, hN⟩ := hj
  obtain ⟨A, hA⟩ := h
  obtain ⟨B, hB⟩ := h'
  refine ⟨max N (max A B), fun n hn => ?_⟩
  rw [← hN n (by omega)]
  unfold toJson
  rw [hA n (by omega), hB n (by omega)]

end Verif
