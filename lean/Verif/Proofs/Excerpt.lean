import Verif.Proofs.Faults
import Verif.Spec.Excerpt

/-! The first finding in a domain or a problem is the first finding in an excerpt of it. -/

namespace Verif

open Spec

variable {α : Type}

theorem firstFinding_cons {c : Check} {cs : List Check} {x : Finding} :
    FirstFinding (c :: cs) x ↔ c x ∨ (Passes c ∧ FirstFinding cs x) := by
  rw [show c :: cs = [c] ++ cs from rfl, firstFinding_append, firstFinding_one]
  simp

/-- A finding in a list of declarations is about one of them, or about the second of two of them. -/
theorem forEach_about {again : List α → α → Check} {body : α → List Check}
    (h1 : ∀ b a x, again b a x → ∃ c ∈ b, again [c] a x) {x : Finding} (as : List α) : ∀ (bef : List α),
    (∀ b ∈ bef, ∀ c ∈ body b, Passes c) → FirstFinding (forEach (fun b a => again b a :: body a) bef as) x →
    (∃ a ∈ as, FirstFinding (body a) x) ∨
      ∃ b a, [b, a].Sublist (bef ++ as) ∧ (∀ c ∈ body b, Passes c) ∧ again [b] a x := by
  induction as with
  | nil => intro bef _ h; exact absurd h not_firstFinding_nil
  | cons a as ih =>
    intro bef hb h
    unfold forEach at h
    rcases firstFinding_append.1 h with h | ⟨h2, h⟩
    · rcases firstFinding_cons.1 h with h | ⟨_, h⟩
      · obtain ⟨c, hc, h⟩ := h1 _ _ _ h
        refine .inr ⟨c, a, ?_, hb c hc, h⟩
        exact (List.singleton_sublist.2 hc).append (List.singleton_sublist.2 List.mem_cons_self)
      · exact .inl ⟨a, List.mem_cons_self, h⟩
    · rcases ih (bef ++ [a]) (by
        intro b hb'
        rcases List.mem_append.1 hb' with hb' | hb'
        · exact hb b hb'
        · cases List.mem_singleton.1 hb'
          exact fun c hc => h2 c (List.mem_cons_of_mem _ hc)) h with ⟨b, hb, h⟩ | ⟨b, c, h3, h4, h5⟩
      · exact .inl ⟨b, List.mem_cons_of_mem _ hb, h⟩
      · exact .inr ⟨b, c, by simpa using h3, h4, h5⟩

theorem forEach_two {again : List α → α → Check} {body : α → List Check} (h0 : ∀ a, Passes (again [] a))
    (h1 : ∀ b a x, again b a x → ∃ c ∈ b, again [c] a x) {x : Finding} {as : List α}
    (h : FirstFinding (forEach (fun b a => again b a :: body a) [] as) x) :
    ∃ as', as'.Sublist as ∧ as'.length ≤ 2 ∧ FirstFinding (forEach (fun b a => again b a :: body a) [] as') x := by
  rcases forEach_about h1 as [] (by simp) h with ⟨a, ha, h⟩ | ⟨b, a, h2, h3, h4⟩
  · refine ⟨[a], List.singleton_sublist.2 ha, by simp, ?_⟩
    simp only [forEach, List.append_nil]
    exact firstFinding_cons.2 (.inr ⟨h0 a, h⟩)
  · refine ⟨[b, a], by simpa using h2, by simp, ?_⟩
    simp only [forEach, List.append_nil]
    refine firstFinding_append.2 (.inr ⟨?_, firstFinding_cons.2 (.inl h4)⟩)
    intro c hc
    rcases List.mem_cons.1 hc with rfl | hc
    · exact h0 b
    · exact h3 c hc

theorem nameAgain_nil {mk : DupErr → SemErr} {nl : α → Name × Nat} (a : α) : Passes (nameAgain mk nl [] a) := by
  rintro x ⟨b, hb, _⟩
  cases hb

theorem nameAgain_one {mk : DupErr → SemErr} {nl : α → Name × Nat} (b : List α) (a : α) (x : Finding)
    (h : nameAgain mk nl b a x) : ∃ c ∈ b, nameAgain mk nl [c] a x := by
  obtain ⟨c, hc, h⟩ := h
  exact ⟨c, hc, c, List.mem_singleton.2 rfl, h⟩

/-- With nothing found, nothing is found in a part. -/
theorem forEach_part {again : List α → α → Check} {body : α → List Check}
    (hm : ∀ b b' a x, (∀ c ∈ b', c ∈ b) → again b' a x → again b a x) {as' as : List α} (hs : as'.Sublist as) :
    ∀ (bef bef' : List α), (∀ c ∈ bef', c ∈ bef) →
    (∀ c ∈ forEach (fun b a => again b a :: body a) bef as, Passes c) →
    ∀ c ∈ forEach (fun b a => again b a :: body a) bef' as', Passes c := by
  induction hs with
  | slnil => intro _ _ _ _ c hc; simp [forEach] at hc
  | cons a _ ih =>
    intro bef bef' hb h
    refine ih (bef ++ [a]) bef' (fun c hc => List.mem_append_left _ (hb c hc)) fun c hc => h c ?_
    unfold forEach
    exact List.mem_append_right _ hc
  | cons_cons a _ ih =>
    intro bef bef' hb h c hc
    unfold forEach at hc h
    rcases List.mem_append.1 hc with hc | hc
    · rcases List.mem_cons.1 hc with rfl | hc
      · intro x hx
        exact h _ (List.mem_append_left _ List.mem_cons_self) x (hm _ _ _ _ hb hx)
      · exact h c (List.mem_append_left _ (List.mem_cons_of_mem _ hc))
    · refine ih (bef ++ [a]) (bef' ++ [a]) ?_ (fun c hc => h c (List.mem_append_right _ hc)) c hc
      intro c hc
      rcases List.mem_append.1 hc with hc | hc
      · exact List.mem_append_left _ (hb c hc)
      · exact List.mem_append_right _ hc

theorem nameAgain_mono {mk : DupErr → SemErr} {nl : α → Name × Nat} (b b' : List α) (a : α) (x : Finding)
    (h : ∀ c ∈ b', c ∈ b) (hx : nameAgain mk nl b' a x) : nameAgain mk nl b a x := by
  obtain ⟨c, hc, hx⟩ := hx
  exact ⟨c, h c hc, hx⟩

theorem firstFinding_flatMap {g : α → List Check} {x : Finding} : ∀ {as : List α}, FirstFinding (as.flatMap g) x →
    ∃ a ∈ as, FirstFinding (g a) x
  | [], h => absurd h not_firstFinding_nil
  | a :: as, h => by
    rw [List.flatMap_cons] at h
    rcases firstFinding_append.1 h with h | ⟨_, h⟩
    · exact ⟨a, List.mem_cons_self, h⟩
    · obtain ⟨b, hb, h⟩ := firstFinding_flatMap h
      exact ⟨b, List.mem_cons_of_mem _ hb, h⟩

/-- The checks of a method need neither the requirements nor the functions nor the other methods. -/
theorem methodChecks_part (d : DomainAST) (rs : List Req) (fs : List Predicate) (ms : List Method) :
    methodChecks { d with requirements := rs, functions := fs, methods := ms } = methodChecks d := by
  have hc : Callee { d with requirements := rs, functions := fs, methods := ms } = Callee d := by
    funext x ps
    refine propext ⟨?_, ?_⟩
    · rintro (⟨h1, h2⟩ | ⟨h1, h2, h3⟩)
      · exact .action h1 h2
      · exact .task h1 h2 h3
    · rintro (⟨h1, h2⟩ | ⟨h1, h2, h3⟩)
      · exact .action h1 h2
      · exact .task h1 h2 h3
  have hs : subtaskChecks { d with requirements := rs, functions := fs, methods := ms } = subtaskChecks d := by
    funext params s
    unfold subtaskChecks calleeWrong
    rw [hc]
    rfl
  funext m
  unfold methodChecks
  rw [hs]
  rfl

theorem typeCycle_none {d : DomainAST} (h : d.types = none) : Passes (typeCycle d) := by
  have hn : ∀ s t, ¬ DirectSub (typesOf d) s t := by
    rintro s t ⟨y, hy, _⟩
    simp [typesOf, h] at hy
  rintro x ⟨⟨t, ht⟩, _⟩
  cases ht with
  | single h => exact hn _ _ h
  | tail _ h => exact hn _ _ h

theorem passes_append {a b : List Check} (ha : ∀ c ∈ a, Passes c) (hb : ∀ c ∈ b, Passes c) : ∀ c ∈ a ++ b, Passes c := by
  intro c hc
  rcases List.mem_append.1 hc with hc | hc
  · exact ha c hc
  · exact hb c hc

theorem passes_cons {a : Check} {b : List Check} (ha : Passes a) (hb : ∀ c ∈ b, Passes c) : ∀ c ∈ a :: b, Passes c := by
  intro c hc
  rcases List.mem_cons.1 hc with rfl | hc
  · exact ha
  · exact hb c hc

theorem passes_split {a b : List Check} (h : ∀ c ∈ a ++ b, Passes c) : (∀ c ∈ a, Passes c) ∧ ∀ c ∈ b, Passes c :=
  ⟨fun c hc => h c (List.mem_append_left _ hc), fun c hc => h c (List.mem_append_right _ hc)⟩

/-- With nothing found in a domain, nothing is found in an excerpt. -/
theorem passes_excerpt {d d' : DomainAST} (he : Excerpt d d') (h : ∀ c ∈ domainChecks d, Passes c) :
    ∀ c ∈ domainChecks d', Passes c := by
  unfold domainChecks at h
  obtain ⟨h1, h⟩ := passes_split h
  have h2 := h _ List.mem_cons_self
  obtain ⟨h3, h⟩ := passes_split fun c hc => h c (List.mem_cons_of_mem _ hc)
  obtain ⟨h4, h⟩ := passes_split h
  obtain ⟨h5, h6⟩ := passes_split h
  have nil : ∀ c ∈ ([] : List Check), Passes c := by simp
  unfold domainChecks
  cases he with
  | requirements hs _ =>
    refine passes_append ?_ (passes_cons (typeCycle_none rfl) ?_)
    · exact forEach_part (again := reqAgain) (body := fun _ => [])
        (by rintro b b' a x h ⟨h', rfl⟩; exact ⟨h _ h', rfl⟩) hs [] [] (by simp) h1
    · simp [DomainAST.new, forEach]
  | types => exact passes_append (by simp [DomainAST.new, forEach]) (passes_cons h2 (by simp [DomainAST.new, forEach]))
  | predicates hs _ =>
    refine passes_append (by simp [DomainAST.new, forEach]) (passes_cons h2 (passes_append ?_ ?_))
    · exact forEach_part nameAgain_mono hs [] [] (by simp) h3
    · simp [DomainAST.new, forEach]
  | tasks hs _ =>
    refine passes_append (by simp [DomainAST.new, forEach]) (passes_cons h2 (passes_append (by simp [DomainAST.new, forEach])
      (passes_append ?_ ?_)))
    · exact forEach_part nameAgain_mono hs [] [] (by simp) h4
    · simp [DomainAST.new, forEach]
  | actions hs _ =>
    refine passes_append (by simp [DomainAST.new, forEach]) (passes_cons h2 (passes_append h3
      (passes_append (by simp [DomainAST.new, forEach]) (passes_append ?_ (by simp [DomainAST.new, forEach])))))
    exact forEach_part nameAgain_mono hs [] [] (by simp) h5
  | methods hs _ =>
    refine passes_append (by simp [forEach]) (passes_cons h2 (passes_append h3 (passes_append h4 (passes_append h5 ?_))))
    rw [methodChecks_part]
    exact forEach_part nameAgain_mono hs [] [] (by simp) h6

/-- The first finding in a problem is the first finding in an excerpt. -/
theorem finding_excerptP {d : DomainAST} {p : ProblemAST} {x : Finding} (h : FirstFinding (problemChecks d p) x) :
    ∃ p', ExcerptP p p' ∧ FirstFinding (problemChecks d p') x := by
  unfold problemChecks at h
  rcases firstFinding_append.1 h with h | ⟨p1, h⟩
  · rw [List.map_eq_flatMap] at h
    obtain ⟨o, ho, h⟩ := firstFinding_flatMap h
    refine ⟨_, .objects (os := [o]) (List.singleton_sublist.2 ho) (by simp), ?_⟩
    unfold problemChecks
    exact firstFinding_append.2 (.inl h)
  rcases firstFinding_append.1 h with h | ⟨p2, h⟩
  · obtain ⟨os, h1, h2, h3⟩ := forEach_two (again := nameAgain .dupObject symLine) (body := fun _ => []) nameAgain_nil
      nameAgain_one h
    refine ⟨_, .objects h1 h2, ?_⟩
    unfold problemChecks
    refine firstFinding_append.2 (.inr ⟨?_, firstFinding_append.2 (.inl h3)⟩)
    intro c hc
    obtain ⟨o, ho, rfl⟩ := List.mem_map.1 hc
    exact p1 _ (List.mem_map_of_mem (h1.subset ho))
  rcases firstFinding_append.1 h with h | ⟨p3, h⟩
  · obtain ⟨a, ha, h⟩ := firstFinding_flatMap h
    refine ⟨_, .fact ha, ?_⟩
    unfold problemChecks
    refine firstFinding_append.2 (.inr ⟨p1, firstFinding_append.2 (.inr ⟨p2, firstFinding_append.2 (.inl ?_)⟩)⟩)
    rw [List.flatMap_singleton]
    exact h
  have nofacts : ∀ (q : ProblemAST), ∀ c ∈ ([] : List Predicate).flatMap (factChecks d q), Passes c := by simp
  rcases firstFinding_append.1 h with h | ⟨p4, h⟩
  · refine ⟨_, .network, ?_⟩
    unfold problemChecks
    exact firstFinding_append.2 (.inr ⟨p1, firstFinding_append.2 (.inr ⟨p2, firstFinding_append.2 (.inr ⟨nofacts _,
      firstFinding_append.2 (.inl h)⟩)⟩)⟩)
  · refine ⟨_, .goal, ?_⟩
    unfold problemChecks
    exact firstFinding_append.2 (.inr ⟨p1, firstFinding_append.2 (.inr ⟨p2, firstFinding_append.2 (.inr ⟨nofacts _,
      firstFinding_append.2 (.inr ⟨by simp [ProblemAST.new, initTnChecks], h⟩)⟩)⟩)⟩)

/-- With nothing found in a problem, nothing is found in an excerpt. -/
theorem passes_excerptP {d : DomainAST} {p p' : ProblemAST} (he : ExcerptP p p') (h : ∀ c ∈ problemChecks d p, Passes c) :
    ∀ c ∈ problemChecks d p', Passes c := by
  unfold problemChecks at h
  obtain ⟨h1, h⟩ := passes_split h
  obtain ⟨h2, h⟩ := passes_split h
  obtain ⟨h3, h⟩ := passes_split h
  obtain ⟨h4, h5⟩ := passes_split h
  have nofacts : ∀ (q : ProblemAST), ∀ c ∈ ([] : List Predicate).flatMap (factChecks d q), Passes c := by simp
  unfold problemChecks
  cases he with
  | objects hs _ =>
    refine passes_append ?_ (passes_append ?_ (passes_append (nofacts _) (passes_append (by simp [ProblemAST.new, initTnChecks])
      (by simp [ProblemAST.new, goalChecks]))))
    · intro c hc
      obtain ⟨o, ho, rfl⟩ := List.mem_map.1 hc
      exact h1 _ (List.mem_map_of_mem (hs.subset ho))
    · exact forEach_part (again := nameAgain .dupObject symLine) (body := fun _ => []) nameAgain_mono hs [] [] (by simp) h2
  | fact ha =>
    refine passes_append h1 (passes_append h2 (passes_append ?_ (passes_append (by simp [ProblemAST.new, initTnChecks])
      (by simp [ProblemAST.new, goalChecks]))))
    rw [List.flatMap_singleton]
    exact fun c hc => h3 c (List.mem_flatMap.2 ⟨_, ha, hc⟩)
  | network =>
    exact passes_append h1 (passes_append h2 (passes_append (nofacts _) (passes_append h4 (by simp [ProblemAST.new, goalChecks]))))
  | goal =>
    exact passes_append h1 (passes_append h2 (passes_append (nofacts _) (passes_append (by simp [ProblemAST.new, initTnChecks]) h5)))

/-- The first finding in a domain is the first finding in an excerpt. -/
theorem finding_excerpt {d : DomainAST} {x : Finding} (h : FirstFinding (domainChecks d) x) :
    ∃ d', Excerpt d d' ∧ FirstFinding (domainChecks d') x := by
  unfold domainChecks at h
  rcases firstFinding_append.1 h with h | ⟨p1, h⟩
  · obtain ⟨rs, h1, h2, h3⟩ := forEach_two (again := reqAgain) (body := fun _ => []) (by rintro a x ⟨h, _⟩; cases h)
      (by rintro b a x ⟨h, rfl⟩; exact ⟨a, h, by simp [reqAgain]⟩) h
    refine ⟨_, .requirements h1 h2, ?_⟩
    unfold domainChecks
    exact firstFinding_append.2 (.inl h3)
  rcases firstFinding_cons.1 h with h | ⟨p2, h⟩
  · refine ⟨_, .types, ?_⟩
    unfold domainChecks
    exact firstFinding_append.2 (.inr ⟨by simp [DomainAST.new, forEach], firstFinding_cons.2 (.inl h)⟩)
  rcases firstFinding_append.1 h with h | ⟨p3, h⟩
  · obtain ⟨ps, h1, h2, h3⟩ := forEach_two nameAgain_nil nameAgain_one h
    refine ⟨_, .predicates h1 h2, ?_⟩
    unfold domainChecks
    exact firstFinding_append.2 (.inr ⟨by simp [DomainAST.new, forEach], firstFinding_cons.2 (.inr ⟨p2,
      firstFinding_append.2 (.inl h3)⟩)⟩)
  rcases firstFinding_append.1 h with h | ⟨p4, h⟩
  · obtain ⟨ps, h1, h2, h3⟩ := forEach_two nameAgain_nil nameAgain_one h
    refine ⟨_, .tasks h1 h2, ?_⟩
    unfold domainChecks
    exact firstFinding_append.2 (.inr ⟨by simp [DomainAST.new, forEach], firstFinding_cons.2 (.inr ⟨p2,
      firstFinding_append.2 (.inr ⟨by simp [DomainAST.new, forEach], firstFinding_append.2 (.inl h3)⟩)⟩)⟩)
  rcases firstFinding_append.1 h with h | ⟨p5, h⟩
  · obtain ⟨ps, h1, h2, h3⟩ := forEach_two nameAgain_nil nameAgain_one h
    refine ⟨_, .actions h1 h2, ?_⟩
    unfold domainChecks
    exact firstFinding_append.2 (.inr ⟨by simp [DomainAST.new, forEach], firstFinding_cons.2 (.inr ⟨p2,
      firstFinding_append.2 (.inr ⟨p3, firstFinding_append.2 (.inr ⟨by simp [DomainAST.new, forEach],
        firstFinding_append.2 (.inl h3)⟩)⟩)⟩)⟩)
  · obtain ⟨ps, h1, h2, h3⟩ := forEach_two nameAgain_nil nameAgain_one h
    refine ⟨_, .methods h1 h2, ?_⟩
    unfold domainChecks
    exact firstFinding_append.2 (.inr ⟨by simp [forEach], firstFinding_cons.2 (.inr ⟨p2,
      firstFinding_append.2 (.inr ⟨p3, firstFinding_append.2 (.inr ⟨p4,
        firstFinding_append.2 (.inr ⟨p5, by rw [methodChecks_part]; exact h3⟩)⟩)⟩)⟩)⟩)

end Verif
