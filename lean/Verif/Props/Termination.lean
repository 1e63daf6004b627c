import Mathlib.Logic.Hydra
import Mathlib.Data.Set.Finite.Lattice
import Mathlib.Data.Finite.Prod
import Verif.Props.Networks

/-! C53: domains that are reported to be non-recursive. -/

namespace Verif

open Spec

variable [Env] {ord : HashOrd} {f : Bytes} {d : DomainAST} {p : ProblemAST} {md : MetaData}

omit [Env] in
theorem hasSub_wellFounded (h : ¬ ∃ x, Relation.TransGen (HasSub d) x x) : WellFounded fun y x => HasSub d x y := by
  classical
  let F : Finset Name := (d.methods.flatMap fun m => m.tn.subtasks.map (·.task.name)).toFinset
  let rank (x : Name) : Nat := (F.filter fun y => Relation.TransGen (HasSub d) x y).card
  refine Subrelation.wf (r := InvImage (· < ·) rank) (fun {y x} hxy => ?_) (InvImage.wf _ Nat.lt_wfRel.wf)
  refine Finset.card_lt_card ⟨fun z hz => ?_, fun hsub => ?_⟩
  · simp only [Finset.mem_filter] at hz ⊢
    exact ⟨hz.1, .head hxy hz.2⟩
  · have hy : y ∈ F.filter fun y => Relation.TransGen (HasSub d) x y := by
      simp only [Finset.mem_filter]
      refine ⟨?_, .single hxy⟩
      obtain ⟨m, hm, _, s, hs, rfl⟩ := hxy
      simp only [F, List.mem_toFinset, List.mem_flatMap, List.mem_map]
      exact ⟨m, hm, s, hs, rfl⟩
    exact h ⟨y, (Finset.mem_filter.mp (hsub hy)).2⟩

omit [Env] in
theorem rewrites_wellFounded (h : ¬ ∃ x, Relation.TransGen (HasSub d) x x) : WellFounded fun n' n => Rewrites d n n' := by
  have wf := (hasSub_wellFounded h).cutExpand
  refine Subrelation.wf (r := InvImage (Relation.CutExpand fun y x => HasSub d x y) fun l : List Name => (l : Multiset Name))
    (fun {n' n} hr => ?_) (InvImage.wf _ wf)
  cases hr with
  | @mk before after m hm =>
    refine ⟨(m.tn.subtasks.map (·.task.name) : List Name), m.task.name, ?_, ?_⟩
    · intro y hy
      obtain ⟨s, hs, rfl⟩ := List.mem_map.mp hy
      exact ⟨m, hm, rfl, s, hs, rfl⟩
    · simp only [← Multiset.coe_add, ← Multiset.cons_coe, ← Multiset.singleton_add]
      ac_rfl

omit [Env] in
/-- A cycle can be decomposed forever. -/
theorem endless_of_cycle (h : ∃ x, Relation.TransGen (HasSub d) x x) : Endless d := by
  let P (n : List Name) : Prop := ∃ x ∈ n, Relation.TransGen (HasSub d) x x
  have step (n : {n // P n}) : ∃ n' : {n // P n}, Rewrites d n.1 n'.1 := by
    obtain ⟨n, x, hx, hc⟩ := n
    obtain ⟨y, hy, hyx⟩ := Relation.TransGen.head'_iff.mp hc
    have hyy : Relation.TransGen (HasSub d) y y := Relation.TransGen.tail'_iff.mpr ⟨x, hyx, hy⟩
    obtain ⟨m, hm, rfl, s, hs, rfl⟩ := hy
    obtain ⟨a, b, rfl⟩ := List.append_of_mem hx
    exact ⟨⟨_, s.task.name, by simp only [List.mem_append, List.mem_map]; exact .inl (.inr ⟨s, hs, rfl⟩), hyy⟩, .mk hm⟩
  obtain ⟨x, hx⟩ := h
  choose next hnext using step
  refine ⟨fun i => (next^[i] ⟨[x], x, by simp, hx⟩).1, fun i => ?_⟩
  beta_reduce
  rw [Function.iterate_succ_apply']
  exact hnext _

/-- C53: the class is "non-recursive" exactly if no task network can be decomposed forever. -/
theorem C53_terminates (hf : Parses f (.domain d)) (h : Metadata ord f md) :
    md.recursion = .nonRecursive ↔ ¬ Endless d := by
  rw [C34_non_recursive hf h]
  refine ⟨fun hno ⟨n, hn⟩ => ?_, fun hno hc => hno (endless_of_cycle hc)⟩
  have wf := rewrites_wellFounded hno
  have key : ∀ l i, n i = l → False := by
    intro l
    induction l using wf.induction with
    | _ l ih => exact fun i hi => ih _ (hi ▸ hn i) (i + 1) rfl
  exact key _ 0 rfl

omit [Env] in
theorem finite_forall₂ {α β : Type} {R : α → β → Prop} {bs : List β} (h : ∀ b ∈ bs, {a | R a b}.Finite) :
    {l | List.Forall₂ R l bs}.Finite := by
  induction bs with
  | nil =>
    refine (Set.finite_singleton []).subset fun l hl => ?_
    simpa using hl
  | cons b bs ih =>
    refine ((h b (by simp)).image2 (fun a l => a :: l) (ih fun b hb => h b (by simp [hb]))).subset fun l hl => ?_
    cases hl with
    | cons h1 h2 => exact ⟨_, h1, _, h2, rfl⟩

omit [Env] in
/-- There are finitely many instances of a task network. -/
theorem finite_instances (params : List Symbol) (tn : HTN) :
    {n | ∃ σ, Respects d p params σ ∧ n = instances params σ tn}.Finite := by
  let V : Set Name := {x | x ∈ (p.objects ++ constantsOf d).map (·.name)}
  have hV : V.Finite := List.finite_toSet _
  refine (finite_forall₂ (R := fun (g : Ground) (s : Subtask) => g.1 = s.task.name ∧
    g.2 ∈ {l | List.Forall₂ (fun (x : Name) (v : Symbol) => x ∈ V ∪ {v.name}) l s.terms}) (bs := tn.subtasks)
    fun s _ => ?_).subset ?_
  · refine (((Set.finite_singleton s.task.name).prod (finite_forall₂
      (R := fun (x : Name) (v : Symbol) => x ∈ V ∪ {v.name}) (bs := s.terms)
      fun v _ => hV.union (Set.finite_singleton _)))).subset ?_
    rintro ⟨a, b⟩ ⟨h1, h2⟩
    exact ⟨h1, h2⟩
  · rintro n ⟨σ, hσ, rfl⟩
    simp only [instances, Set.mem_ofPred_eq, List.forall₂_map_left_iff, List.forall₂_same]
    refine fun s _ => ⟨trivial, fun v _ => ?_⟩
    unfold value
    split
    · left
      rename_i hv
      obtain ⟨s', hs', he⟩ := List.mem_map.mp hv
      obtain ⟨t, ht, _⟩ := hσ s' hs'
      rw [he] at ht
      show _ ∈ (p.objects ++ constantsOf d).map (·.name)
      cases ht with
      | here h =>
        obtain ⟨h1, h2⟩ := firstNamed_mem h
        exact List.mem_map.mpr ⟨_, List.mem_append_left _ h1, h2⟩
      | outer _ h => cases h with
        | here h =>
          obtain ⟨h1, h2⟩ := firstNamed_mem h
          exact List.mem_map.mpr ⟨_, List.mem_append_right _ h1, h2⟩
        | outer _ h => cases h
    · exact .inr rfl

omit [Env] in
theorem finite_splits {α : Type} (l : List α) : {x : List α × List α | x.1 ++ x.2 = l}.Finite := by
  induction l with
  | nil =>
    refine (Set.finite_singleton ([], [])).subset ?_
    rintro ⟨a, b⟩ h
    obtain ⟨rfl, rfl⟩ := List.append_eq_nil_iff.mp h
    rfl
  | cons a l ih =>
    refine ((ih.image fun x => (a :: x.1, x.2)).union (Set.finite_singleton ([], a :: l))).subset ?_
    rintro ⟨b, c⟩ h
    cases b with
    | nil => right; cases h; rfl
    | cons b bs => left; cases h; exact ⟨(bs, c), rfl, rfl⟩

omit [Env] in
theorem finite_decomposes (n : List Ground) : {n' | Decomposes d p n n'}.Finite := by
  let S (m : Method) : Set (List Ground) := {x | ∃ σ, Respects d p m.params σ ∧ x = instances m.params σ m.tn}
  have h1 : {m | m ∈ d.methods}.Finite := List.finite_toSet _
  refine ((finite_splits n).biUnion fun x _ => h1.biUnion fun m _ =>
    (finite_instances (d := d) (p := p) m.params m.tn).image fun i => x.1 ++ i ++ x.2.tail).subset ?_
  rintro n' h
  cases h with
  | @mk before after m σ hm hσ =>
    simp only [Set.mem_iUnion]
    exact ⟨(before, _ :: after), rfl, m, hm, _, ⟨σ, hσ, rfl⟩, rfl⟩

omit [Env] in
theorem Spec.Decomposes.rewrites {n n' : List Ground} (h : Decomposes d p n n') :
    Rewrites d (n.map (·.1)) (n'.map (·.1)) := by
  cases h with
  | @mk before after m σ hm hσ =>
    have : (instances m.params σ m.tn).map (·.1) = m.tn.subtasks.map (·.task.name) := by
      simp [instances, Function.comp_def]
    simp only [List.map_append, List.map_cons, this]
    exact .mk hm

/-- C53: if the class is "non-recursive", only finitely many task networks can be obtained from a problem. -/
theorem C53_finite (hf : Parses f (.domain d)) (h : Metadata ord f md) (hr : md.recursion = .nonRecursive) :
    {n | Obtained d p n}.Finite := by
  have wf := rewrites_wellFounded ((C34_non_recursive hf h).mp hr)
  have wf' : WellFounded fun n' n => Decomposes d p n n' :=
    Subrelation.wf (r := InvImage (fun n' n => Rewrites d n n') (List.map fun g : Ground => g.1)) (fun hd => hd.rewrites) (InvImage.wf _ wf)
  have reach : ∀ n, {n' | Relation.ReflTransGen (Decomposes d p) n n'}.Finite := by
    intro n
    induction n using wf'.induction with
    | _ n ih =>
      refine ((Set.finite_singleton n).union ((finite_decomposes n).biUnion fun k hk => ih k hk)).subset ?_
      intro n' hn'
      rcases Relation.ReflTransGen.cases_head hn' with h | ⟨k, hk, h⟩
      · exact .inl h.symm
      · right
        simp only [Set.mem_iUnion]
        exact ⟨k, hk, h⟩
  have init : {n | Initial d p n}.Finite := by
    cases hi : p.initTn with
    | none =>
      refine Set.finite_empty.subset ?_
      rintro _ ⟨h1, _⟩
      rw [hi] at h1; cases h1
    | some i =>
      refine (finite_instances (d := d) (p := p) (i.params.getD []) i.tn).subset ?_
      rintro _ ⟨h1, hσ⟩
      rw [hi] at h1; cases h1
      exact ⟨_, hσ, rfl⟩
  refine (init.biUnion fun n _ => reach n).subset ?_
  rintro n ⟨n0, h1, h2⟩
  simp only [Set.mem_iUnion]
  exact ⟨n0, h1, h2⟩

omit [Env] in
/-- Instance: a non-recursive domain with a problem whose initial task network can be decomposed. -/
example : @Parses Env.plain constDomain (.domain constDomainAST) ∧
    (∃ md, @Metadata Env.plain HashOrd.id constDomain md ∧ md.recursion = .nonRecursive) ∧
    Obtained constDomainAST objectProblemAST [(b!"act", [b!"o"]), (b!"act", [b!"c"]), (b!"act", [b!"c"]), (b!"t", [b!"c"])] :=
  ⟨constDomain_parses, ⟨⟨.nonRecursive, [], [], 1, 1, 1⟩, @metadata_run Env.plain _ _ 80 _ (by decide +kernel), rfl⟩,
    planning_instance.2.2.2⟩

end Verif
