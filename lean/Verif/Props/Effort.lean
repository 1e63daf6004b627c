import Verif.Proofs.EffortText
import Verif.Props.Recursion
import Verif.Spec.Concurrency

/-! C73: how long the analyses take.  The budget of the model bounds the number of iterations of every loop. -/

namespace Verif

open Spec

variable [Env] {ord : HashOrd} {f : Bytes} {d : DomainAST} {md : MetaData}

theorem parses_size (hf : Parses f (.domain d)) : hierarchySize d ≤ f.length := by
  obtain ⟨ts, h1, h2⟩ := (C45_grammar f _).mp hf
  exact size_le_length h1 h2

theorem parse_budget (he : Ended f) : ∃ r, r ≠ .timeout ∧ ∀ n, f.length < n → parse n f = r :=
  ⟨_, (C06_terminates_partial f he).1, (C06_terminates_partial f he).2⟩

omit [Env] in
theorem names_tasks {g : TDG} (hg : g.Of d) {l : List Nat} {x : Name} (hx : x ∈ g.names l) : TaskName d x := by
  obtain ⟨i, _, hi⟩ := TDG.mem_names.mp hx
  unfold TDG.Is at hi
  rw [hg.tasks] at hi
  by_contra hno
  rw [← index_none, taskIndexLast_none] at hno
  obtain ⟨e, he, rfl⟩ := Option.map_eq_some_iff.mp hi
  exact hno e (List.mem_of_getElem? he) rfl

omit [Env] in
theorem lt_square (n : Nat) : n < (n + 2) ^ 2 := by
  rw [Nat.pow_two]
  exact Nat.lt_of_lt_of_le (by omega : n < n + 2) (Nat.le_mul_of_pos_right _ (by omega))

omit [Env] in
theorem square_le {a b : Nat} (h : a ≤ b) : (a + 2) ^ 2 ≤ (b + 2) ^ 2 := Nat.pow_le_pow_left (by omega) 2

omit [Env] in
theorem verifyDomain_budget (ord : HashOrd) (d : DomainAST) :
    ∃ r, r ≠ .timeout ∧ ∀ n, (hierarchySize d + 2) ^ 2 ≤ n → verifyDomain ord n d = r := by
  rcases verifyDomain_eventually ord d with ⟨_, hok, _⟩ | ⟨e, _, h⟩ | ⟨x, _, h⟩
  · obtain ⟨g, hg, hof⟩ := DomainOk.graph hok ord
    obtain ⟨l, hl⟩ : ∃ l, d.tasks ≠ [] → ∀ n, g.enough ≤ n → g.nullLoop n g.nullInit = .ok l := by
      by_cases hne : d.tasks = []
      · exact ⟨[], fun h => absurd hne h⟩
      · obtain ⟨l, hl⟩ := hof.nullables_term hne
        exact ⟨l, fun _ => hl⟩
    obtain ⟨ws, hws⟩ := collectWarnings_term (g := g) (N := g.enough) (ts := arrange ord [10] d.tasks) (by
      intro t ht
      obtain ⟨i, r, _, h, _⟩ := hof.reachable (mem_arrange.mp ht) (hl (List.ne_nil_of_mem (mem_arrange.mp ht)))
      exact ⟨r, h⟩)
    refine ⟨.ok (tableOf ws d), by simp, fun n hn => ?_⟩
    unfold verifyDomain
    rw [(checkDomain_ok ord d).mpr hok, R.bind_ok, hg, R.bind_ok, hws n (hof.enough_le.trans hn), R.bind_ok]
    rfl
  · exact ⟨_, by simp, fun n _ => h n⟩
  · exact ⟨_, by simp, fun n _ => h n⟩

/-- C73 for `verify`: on files that end with a delimiter, no loop takes more iterations than quadratic in the length of
the domain file and linear in the length of the problem file. -/
theorem C73_verify_partial (ord : HashOrd) (prob : Option Bytes) (hf : Ended f) (hp : ∀ p, prob = some p → Ended p) :
    ∃ r, r ≠ .timeout ∧ ∀ n, (f.length + 2) ^ 2 + (prob.getD []).length ≤ n → verify ord n f prob = r := by
  obtain ⟨r, hr, hr'⟩ := parse_budget hf
  have hlt := lt_square f.length
  have hrun : ∀ n, (f.length + 2) ^ 2 ≤ n → parse n f = r := fun n hn => hr' n (by omega)
  have hpar : r = parse ((f.length + 2) ^ 2) f := (hrun _ (Nat.le_refl _)).symm
  cases r with
  | timeout => exact absurd rfl hr
  | err e => exact ⟨.err e, by simp, fun n hn => by unfold verify; rw [hrun n (by omega)]; rfl⟩
  | panic x => exact ⟨.panic x, by simp, fun n hn => by unfold verify; rw [hrun n (by omega)]; rfl⟩
  | ok a =>
    cases a with
    | problem p => exact ⟨.panic .expectedDomain, by simp, fun n hn => by unfold verify; rw [hrun n (by omega)]; rfl⟩
    | domain d =>
      have hsize := parses_size (f := f) (d := d) ⟨_, hrun⟩
      obtain ⟨v, hv, hv'⟩ := verifyDomain_budget ord d
      have hv' : ∀ n, (f.length + 2) ^ 2 ≤ n → verifyDomain ord n d = v := fun n hn =>
        hv' n ((square_le hsize).trans hn)
      have hrun' : ∀ n, (f.length + 2) ^ 2 ≤ n → verify ord n f prob = v.bind fun st =>
          match prob with
          | none => .ok st.warnings
          | some p =>
            (parse n p).bind fun
              | .domain _ => .panic .expectedProblem
              | .problem p => verifyProblem st p := fun n hn => by
        unfold verify
        rw [hrun n hn, R.bind_ok]
        simp only [hv' n hn]
        rfl
      cases v with
      | timeout => exact absurd rfl hv
      | err e => exact ⟨.err e, by simp, fun n hn => by rw [hrun' n (by omega)]; rfl⟩
      | panic x => exact ⟨.panic x, by simp, fun n hn => by rw [hrun' n (by omega)]; rfl⟩
      | ok st =>
        cases prob with
        | none => exact ⟨.ok st.warnings, by simp, fun n hn => by rw [hrun' n (by omega)]; rfl⟩
        | some p =>
          obtain ⟨q, hq, hq'⟩ := parse_budget (hp p rfl)
          simp only [Option.getD_some]
          have hrunp : ∀ n, (f.length + 2) ^ 2 + p.length ≤ n → parse n p = q := fun n hn => hq' n (by omega)
          refine ⟨q.bind fun | .domain _ => .panic .expectedProblem | .problem p => verifyProblem st p, ?_, fun n hn => ?_⟩
          · cases q with
            | timeout => exact absurd rfl hq
            | err e => simp [R.bind]
            | panic x => simp [R.bind]
            | ok a =>
              cases a with
              | domain _ => simp [R.bind]
              | problem p => exact verifyProblem_timeout (p := p) st
          · rw [hrun' n (by omega), R.bind_ok]
            simp only [hrunp n hn]

/-- The hypotheses of `C73_verify_partial` hold for the file of the domain with three levels and two methods each. -/
example (ord : HashOrd) : ∃ r, r ≠ .timeout ∧ ∀ n, ((towerFile 3).length + 2) ^ 2 ≤ n →
    @verify Env.plain ord n (towerFile 3) none = r := by
  simpa using @C73_verify_partial Env.plain (towerFile 3) ord none (.inr ⟨32, tower_ended _, by decide⟩)
    (fun p h => nomatch h)

/-- C73 for `get_metadata`, from below: every descent takes an iteration. -/
theorem C73_metadata_least (hf : Parses f (.domain d)) {n : Nat} (h : getMetadata ord n f = .ok md)
    {l : List (List Nat)} (hn : l.Nodup) (hl : ∀ c ∈ l, Descent d c) : l.length ≤ n := by
  unfold getMetadata at h
  obtain ⟨a, h1, h2⟩ := R.bind_ok_iff.mp h
  cases Parses.det ⟨n, fun m hm => by rw [parse_fuel hm (by rw [h1]; simp), h1]⟩ hf
  obtain ⟨g, hg, h3⟩ := R.bind_ok_iff.mp h2
  obtain ⟨ns, _, h4⟩ := R.bind_ok_iff.mp h3
  obtain ⟨rt, h5, _⟩ := R.bind_ok_iff.mp h4
  exact (TDG.new_of hg).recursion_visits (TDG.new_ok_iff.mp ⟨g, hg⟩) h5 hn hl

/-- C73 for `get_metadata`: on accepted domains with a compound task whose recursive methods are sequential, a budget of
at least the square of the length of the file is enough exactly if it is at least the number of descents. -/
theorem C73_metadata_partial (he : Ended f) (hf : Parses f (.domain d)) (ha : ∃ ws, Returns ord f none (.ok ws))
    (hne : d.tasks ≠ []) (hseq : ∀ m ∈ d.methods, ∀ s ∈ m.tn.subtasks,
      Relation.ReflTransGen (HasSub d) s.task.name m.task.name → Sequential m.tn) :
    ∃ l : List (List Nat), l.Nodup ∧ (∀ c, c ∈ l ↔ Descent d c) ∧
      ∀ n, (f.length + 2) ^ 2 ≤ n → ((∃ md, getMetadata ord n f = .ok md) ↔ l.length ≤ n) := by
  obtain ⟨l, h1, h2⟩ := descents_finite d
  refine ⟨l, h1, h2, fun n hn => ⟨fun ⟨md, h⟩ => C73_metadata_least hf h h1 fun c hc => (h2 c).mp hc, fun hln => ?_⟩⟩
  have hd := (C23_acceptance hf).mp ha
  have hc := DomainOk.closed hd
  obtain ⟨g, hg⟩ := (TDG.new_ok_iff (ord := ord)).mpr hc
  have hof := TDG.new_of hg
  obtain ⟨k, hk⟩ := hof.nullables_term hne
  have hlt := lt_square f.length
  have hen : g.enough ≤ n := hof.enough_le.trans ((square_le (parses_size hf)).trans hn)
  obtain ⟨rt, hrt⟩ := hof.recursion_enough (ord := ord) (ns := g.names k) (n := n) hc hseq (fun x hx => names_tasks hof hx)
    (by omega) (fun c hc => (h2 c).mpr hc) hln
  obtain ⟨r, hr, hr'⟩ := parse_budget he
  obtain ⟨N, hN⟩ := hf
  have hp : parse n f = .ok (.domain d) := by
    rw [hr' n (by omega), ← hr' (max N n) (by omega)]
    exact hN _ (by omega)
  unfold getMetadata
  rw [hp, R.bind_ok]
  simp only [hg, R.bind_ok, TDG.nullables]
  have := hk n hen
  unfold TDG.nullInit at this
  rw [this]
  simp only [R.bind_ok]
  rw [hrt, R.bind_ok]
  exact ⟨_, rfl⟩

/-- The hypotheses of `C73_metadata_partial` hold for it too, and eight of its descents start at the top. -/
example : (∀ c ∈ choices 0 3, Descent (towerDomain 3) c) ∧ (choices 0 3).length = 8 ∧ Ended (towerFile 3) ∧
    @Parses Env.plain (towerFile 3) (.domain (towerDomain 3)) ∧
    (∃ ws, @Returns Env.plain HashOrd.id (towerFile 3) none (.ok ws)) ∧ (towerDomain 3).tasks ≠ [] ∧
    ∀ m ∈ (towerDomain 3).methods, Sequential m.tn := by
  have hp : @Parses Env.plain (towerFile 3) (.domain (towerDomain 3)) :=
    (@C45_grammar Env.plain _ _).mpr ⟨_, tower_text _, @feeds_onLine Env.plain _ tower_spells⟩
  refine ⟨fun c hc => choices_descent (by omega) hc, choices_length _ _, .inr ⟨32, tower_ended _, by decide⟩, hp,
    (@C23_acceptance Env.plain _ _ _ hp).mpr (tower_ok _), by rw [tower_tasks]; simp, fun m hm => ?_⟩
  rw [tower_methods] at hm
  obtain ⟨j, _, rfl⟩ := List.mem_map.mp hm
  exact .inr (.inl rfl)

/-- C73 does not hold for `get_metadata`: there are files of quadratic length that are accepted, have metadata and no
recursion, on which it takes exponentially many iterations, in every order. -/
theorem C73_refuted (n : Nat) : ∃ f d, f.length ≤ 250 * (n + 2) ^ 2 ∧ Ended f ∧ Parses f (.domain d) ∧ ∀ ord,
    (∃ ws, Returns ord f none (.ok ws)) ∧ (∃ md, Metadata ord f md ∧ md.recursion = .nonRecursive) ∧
    ∀ k, k < 2 ^ n → getMetadata ord k f = .timeout := by
  have hp : Parses (towerFile (n + 1)) (.domain (towerDomain (n + 1))) :=
    (C45_grammar _ _).mpr ⟨_, tower_text _, feeds_onLine tower_spells⟩
  refine ⟨towerFile (n + 1), towerDomain (n + 1), tower_length _, .inr ⟨32, tower_ended _, by decide⟩, hp, fun ord => ?_⟩
  have ha := (C23_acceptance (ord := ord) hp).mpr (tower_ok _)
  obtain ⟨md, hmd⟩ := C37_returns_partial (ord' := ord) hp ha (by
    rw [tower_tasks]; simp) (fun m hm s hs _ => by
    rw [tower_methods] at hm
    obtain ⟨j, _, rfl⟩ := List.mem_map.mp hm
    exact .inr (.inl rfl))
  refine ⟨ha, ⟨md, hmd, (C34_non_recursive hp hmd).mpr fun ⟨x, hx⟩ => tower_acyclic hx⟩, fun k hk => ?_⟩
  cases h : getMetadata ord k (towerFile (n + 1)) with
  | timeout => rfl
  | ok md' =>
    have := C73_metadata_least hp h (choices_nodup 0 (n + 1)) fun c hc => choices_descent (by omega) hc
    rw [choices_length, Nat.pow_succ] at this
    omega
  | err e =>
    obtain ⟨N, hN⟩ := hmd
    have h1 := (getMetadata_le ord (Nat.le_max_left k N) (towerFile (n + 1))).eq (by rw [h]; simp)
    rw [h, hN _ (Nat.le_max_right k N)] at h1
    cases h1
  | panic e =>
    obtain ⟨N, hN⟩ := hmd
    have h1 := (getMetadata_le ord (Nat.le_max_left k N) (towerFile (n + 1))).eq (by rw [h]; simp)
    rw [h, hN _ (Nat.le_max_right k N)] at h1
    cases h1

end Verif
