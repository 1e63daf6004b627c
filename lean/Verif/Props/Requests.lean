import Verif.Props.Commands
import Verif.Spec.Concurrency

/-! Requests of the language server: budgets, errors and termination. -/

namespace Verif

open Spec

variable {U : Type} [DecidableEq U] [Env] {ord : HashOrd}

/-! ### Budgets -/

theorem diagnostic_congr {σ σ' : Store U} {u : U} (h : σ.get u = σ'.get u) (n : Nat) (folder : List Bytes) :
    diagnostic ord n σ folder u = diagnostic ord n σ' folder u := by
  unfold diagnostic; rw [h]

theorem diagnostic_le (ord : HashOrd) {n m : Nat} (h : n ≤ m) (σ : Store U) (folder : List Bytes) (u : U) :
    R.Le (diagnostic ord n σ folder u) (diagnostic ord m σ folder u) := by
  have hi {d} : R.Le (itemsOf (verifyDomain ord n d)) (itemsOf (verifyDomain ord m d)) := by
    rcases verifyDomain_le ord d h with h | h
    · rw [h]; exact .timeout _
    · rw [h]; exact .refl _
  have hd {doc} : R.Le (diagnoseDomain ord n doc) (diagnoseDomain ord m doc) := by
    unfold diagnoseDomain
    rcases parse_le h doc with h1 | h1
    · rw [h1]; exact .timeout _
    · rw [h1]
      split
      · exact hi
      all_goals exact .refl _
  have hp {dom} : R.Le (diagnoseDomainPart ord n dom) (diagnoseDomainPart ord m dom) := by
    cases dom with
    | none => exact .refl _
    | some c =>
      unfold diagnoseDomainPart
      rcases parse_le h c with h1 | h1
      · simp only [h1]; exact .timeout _
      · simp only [h1]
        split
        · rename_i d _
          rcases verifyDomain_le ord d h with h2 | h2
          · rw [h2]; exact .timeout _
          · rw [h2]; exact .refl _
        all_goals exact .refl _
  unfold diagnostic
  split
  · exact .refl _
  · refine .bind (.refl _) fun k => ?_
    cases k with
    | domain => exact .bind hd fun _ => .refl _
    | problem =>
      refine .bind (.refl _) fun dom => .bind ?_ fun _ => .refl _
      unfold diagnoseProblem
      refine .bind hp fun ⟨items, st⟩ => ?_
      rcases parse_le h _ with h1 | h1
      · rw [h1]; exact .timeout _
      · rw [h1]; exact .refl _
    | maybeNotHddl => exact .refl _

theorem answers_of_run {n : Nat} {σ : Store U} {folder : List Bytes} {u : U} {r : R LspAnswer} (hr : r ≠ .timeout)
    (h : diagnostic ord n σ folder u = r) : Answers ord σ folder u r :=
  ⟨n, fun m hm => by rw [(diagnostic_le ord hm σ folder u).eq (by rw [h]; exact hr), h]⟩

/-! ### Errors -/

theorem noErr_toDiag {e : PErr} : NoErr (toDiag e) := by
  have h1 {n : Nat} {m : R Text} (h : NoErr m) : NoErr (diagAt n m) := by
    unfold diagAt; split
    · exact noErr_panic
    · exact h.bind fun _ => noErr_ok
  have h2 {e : DupErr} : NoErr (dupDiag e) := by unfold dupDiag; split <;> exact noErr_panic
  have h3 {e : TypeErr} : NoErr e.show := by
    unfold TypeErr.show
    dsimp only
    split <;> first | exact noErr_ok | exact noErr_panic
  unfold toDiag
  split <;> first
    | exact h2
    | exact h1 noErr_ok
    | exact h1 h3
    | exact NoErr.bind noErr_ok fun _ => noErr_ok

theorem noErr_itemsOf {α} {x : R α} : NoErr (itemsOf x) := by
  cases x with
  | ok a => exact noErr_ok
  | err e => exact noErr_toDiag.bind fun _ => noErr_ok
  | panic p => exact noErr_panic
  | timeout => exact noErr_timeout

theorem noErr_classify {doc : Bytes} : NoErr (classify doc) := by
  unfold classify
  repeat' split
  all_goals first | exact noErr_ok | exact noErr_panic

theorem noErr_diagnostic {n : Nat} {σ : Store U} {folder : List Bytes} {u : U} : NoErr (diagnostic ord n σ folder u) := by
  have h1 {doc} : NoErr (diagnoseDomain ord n doc) := by
    unfold diagnoseDomain
    split
    · exact noErr_itemsOf
    · exact noErr_ok
    · exact noErr_toDiag.bind fun _ => noErr_ok
    · exact noErr_panic
    · exact noErr_timeout
  have h2 {dom} : NoErr (diagnoseDomainPart ord n dom) := by
    unfold diagnoseDomainPart
    repeat' split
    all_goals first
      | exact noErr_ok
      | exact noErr_toDiag.bind fun _ => noErr_ok
      | exact noErr_panic
      | exact noErr_timeout
  have h3 {dom doc} : NoErr (diagnoseProblem ord n dom doc) := by
    unfold diagnoseProblem
    refine h2.bind fun ⟨items, st⟩ => ?_
    dsimp only
    repeat' split
    all_goals first
      | exact noErr_ok
      | exact noErr_itemsOf.bind fun _ => noErr_ok
      | exact noErr_toDiag.bind fun _ => noErr_ok
      | exact noErr_panic
      | exact noErr_timeout
  have h4 : ∀ fs, NoErr (findDomain fs) := by
    intro fs
    induction fs with
    | nil => exact noErr_ok
    | cons f fs ih =>
      refine noErr_classify.bind fun k => ?_
      cases k with
      | domain => exact noErr_ok
      | problem => exact ih
      | maybeNotHddl => exact ih
  unfold diagnostic
  split
  · exact noErr_ok
  · refine noErr_classify.bind fun k => ?_
    cases k with
    | domain => exact h1.bind fun _ => noErr_ok
    | problem => exact (h4 _).bind fun _ => h3.bind fun _ => noErr_ok
    | maybeNotHddl => exact noErr_ok

/-! ### Requests that end -/

omit [Env] in
theorem verifyDomain_ends (ord : HashOrd) (d : DomainAST) : ∃ N, ∀ n, N ≤ n → verifyDomain ord n d ≠ .timeout := by
  rcases verifyDomain_eventually ord d with ⟨ws, _, N, h⟩ | ⟨e, _, h⟩ | ⟨x, _, h⟩
  · exact ⟨N, fun n hn => by rw [h n hn]; simp⟩
  · exact ⟨0, fun n _ => by rw [h n]; simp⟩
  · exact ⟨0, fun n _ => by rw [h n]; simp⟩

/-- The outcome of the parser on a text that ends well, with any large budget. -/
theorem parse_ends {t : Bytes} (h : Ended t) : ∃ r, r ≠ .timeout ∧ ∃ N, ∀ n, N ≤ n → parse n t = r :=
  ⟨_, (C06_terminates_partial t h).1, t.length + 1, fun n hn => (C06_terminates_partial t h).2 n hn⟩

omit [Env] in
theorem bind_ne_timeout {α β} {x : R α} {f : α → R β} (hx : x ≠ .timeout) (hf : ∀ a, f a ≠ .timeout) :
    x.bind f ≠ .timeout := by
  cases x with
  | ok a => exact hf a
  | err e => simp [R.bind]
  | panic p => simp [R.bind]
  | timeout => exact absurd rfl hx

theorem toDiag_ne {e : PErr} : toDiag e ≠ .timeout := by
  have h1 {n : Nat} {m : R Text} (h : m ≠ .timeout) : diagAt n m ≠ .timeout := by
    unfold diagAt; split
    · simp
    · exact bind_ne_timeout h fun _ => by simp
  have h2 {e : DupErr} : dupDiag e ≠ .timeout := by unfold dupDiag; split <;> simp
  have h3 {e : TypeErr} : e.show ≠ .timeout := by
    unfold TypeErr.show
    dsimp only
    split <;> simp
  unfold toDiag
  split <;> first
    | exact h2
    | exact h1 h3
    | exact h1 (by simp [SemErr.show])
    | exact bind_ne_timeout (by simp [SemErr.show]) fun _ => by simp

theorem itemsOf_ne {α} {x : R α} (h : x ≠ .timeout) : itemsOf x ≠ .timeout := by
  cases x with
  | ok a => simp [itemsOf]
  | err e => exact bind_ne_timeout toDiag_ne fun _ => by simp
  | panic p => simp [itemsOf]
  | timeout => exact absurd rfl h

theorem classify_ne {doc : Bytes} : classify doc ≠ .timeout := by
  unfold classify
  repeat' split
  all_goals simp

theorem diagnoseDomain_ends {t : Bytes} (h : Ended t) : ∃ N, ∀ n, N ≤ n → diagnoseDomain ord n t ≠ .timeout := by
  obtain ⟨r, hr, N, hN⟩ := parse_ends h
  match r with
  | .ok (.domain d) =>
    obtain ⟨M, hM⟩ := verifyDomain_ends ord d
    refine ⟨max N M, fun n hn => ?_⟩
    simp only [diagnoseDomain, hN n (by omega)]
    exact itemsOf_ne (hM n (by omega))
  | .ok (.problem p) => exact ⟨N, fun n hn => by simp [diagnoseDomain, hN n hn]⟩
  | .err e =>
    refine ⟨N, fun n hn => ?_⟩
    simp only [diagnoseDomain, hN n hn]
    exact bind_ne_timeout toDiag_ne fun _ => by simp
  | .panic p => exact ⟨N, fun n hn => by simp [diagnoseDomain, hN n hn]⟩
  | .timeout => exact absurd rfl hr

theorem diagnoseDomainPart_ends {dom : Option Bytes} (h : ∀ t, dom = some t → Ended t) :
    ∃ N, ∀ n, N ≤ n → diagnoseDomainPart ord n dom ≠ .timeout := by
  cases dom with
  | none => exact ⟨0, fun n _ => by simp [diagnoseDomainPart]⟩
  | some t =>
    obtain ⟨r, hr, N, hN⟩ := parse_ends (h t rfl)
    match r with
    | .ok (.domain d) =>
      obtain ⟨M, hM⟩ := verifyDomain_ends ord d
      refine ⟨max N M, fun n hn => ?_⟩
      have h1 := hM n (by omega)
      simp only [diagnoseDomainPart, hN n (by omega)]
      split
      · simp
      · exact bind_ne_timeout toDiag_ne fun _ => by simp
      · simp
      · rename_i h2; exact absurd h2 h1
    | .ok (.problem p) => exact ⟨N, fun n hn => by simp [diagnoseDomainPart, hN n hn]⟩
    | .err e =>
      refine ⟨N, fun n hn => ?_⟩
      simp only [diagnoseDomainPart, hN n hn]
      exact bind_ne_timeout toDiag_ne fun _ => by simp
    | .panic p => exact ⟨N, fun n hn => by simp [diagnoseDomainPart, hN n hn]⟩
    | .timeout => exact absurd rfl hr

theorem diagnoseProblem_ends {dom : Option Bytes} {t : Bytes} (hd : ∀ t, dom = some t → Ended t) (h : Ended t) :
    ∃ N, ∀ n, N ≤ n → diagnoseProblem ord n dom t ≠ .timeout := by
  obtain ⟨M, hM⟩ := diagnoseDomainPart_ends (ord := ord) hd
  obtain ⟨r, hr, N, hN⟩ := parse_ends h
  refine ⟨max N M, fun n hn => bind_ne_timeout (hM n (by omega)) fun ⟨items, st⟩ => ?_⟩
  simp only [hN n (by omega)]
  match r with
  | .ok (.problem p) =>
    dsimp only
    split
    · exact bind_ne_timeout (itemsOf_ne (verifyProblem_timeout _)) fun _ => by simp
    · simp
  | .ok (.domain d) => simp
  | .err e => exact bind_ne_timeout toDiag_ne fun _ => by simp
  | .panic p => simp
  | .timeout => exact absurd rfl hr

theorem findDomain_mem {fs : List Bytes} {t : Bytes} (h : findDomain fs = .ok (some t)) : t ∈ fs := by
  induction fs with
  | nil => cases h
  | cons f fs ih =>
    obtain ⟨k, hk, h⟩ := R.bind_ok_iff.mp h
    cases k with
    | domain => cases h; exact List.mem_cons_self
    | problem => exact List.mem_cons_of_mem _ (ih h)
    | maybeNotHddl => exact List.mem_cons_of_mem _ (ih h)

theorem diagnostic_ends {σ : Store U} {folder : List Bytes} {u : U} (h : ∀ t, σ.get u = some t → Ended t)
    (hf : ∀ t ∈ folder, Ended t) : ∃ n, diagnostic ord n σ folder u ≠ .timeout := by
  cases hg : σ.get u with
  | none => exact ⟨0, by simp [diagnostic, hg]⟩
  | some t =>
    have ht := h t hg
    cases hc : classify t with
    | err e => exact ⟨0, by simp [diagnostic, hg, hc, R.bind]⟩
    | panic e => exact ⟨0, by simp [diagnostic, hg, hc, R.bind]⟩
    | timeout => exact absurd hc classify_ne
    | ok k =>
      cases k with
      | maybeNotHddl => exact ⟨0, by simp [diagnostic, hg, hc, R.bind]⟩
      | domain =>
        obtain ⟨N, hN⟩ := diagnoseDomain_ends (ord := ord) ht
        refine ⟨N, ?_⟩
        simp only [diagnostic, hg, hc, R.bind]
        exact bind_ne_timeout (hN N (Nat.le_refl _)) fun _ => by simp
      | problem =>
        cases hd : findDomain folder with
        | err e => exact ⟨0, by simp [diagnostic, hg, hc, hd, R.bind]⟩
        | panic e => exact ⟨0, by simp [diagnostic, hg, hc, hd, R.bind]⟩
        | timeout =>
          exfalso
          have : ∀ fs, findDomain fs ≠ .timeout := by
            intro fs
            induction fs with
            | nil => simp [findDomain]
            | cons f fs ih =>
              refine bind_ne_timeout classify_ne fun k => ?_
              cases k with
              | domain => simp
              | problem => exact ih
              | maybeNotHddl => exact ih
          exact this _ hd
        | ok dom =>
          obtain ⟨N, hN⟩ := diagnoseProblem_ends (ord := ord) (dom := dom)
            (fun t h => hf t (findDomain_mem (by rw [hd, h]))) ht
          refine ⟨N, ?_⟩
          simp only [diagnostic, hg, hc, hd, R.bind]
          exact bind_ne_timeout (hN N (Nat.le_refl _)) fun _ => by simp

end Verif
