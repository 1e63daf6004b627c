import Verif.Props.Termination

/-! C54: what the classes of recursion mean for decompositions. -/

namespace Verif

open Spec

variable {ord : HashOrd} {f : Bytes} {d : DomainAST} {md : MetaData}

/-- `y` is a subtask of `m`, all subtasks before it are nullable, and (if `b`) also all subtasks after it. -/
def Inner (d : DomainAST) (b : Bool) (m : Method) (y : Name) : Prop :=
  ∃ pre s post, m.tn.subtasks = pre ++ s :: post ∧ s.task.name = y ∧ (∀ u ∈ pre, Nullable d u.task.name) ∧
    (b = true → ∀ u ∈ post, Nullable d u.task.name)

def CStep (d : DomainAST) (b : Bool) (x y : Name) : Prop := ∃ m ∈ d.methods, m.task.name = x ∧ Inner d b m y

theorem append_cons_cases {α : Type} {B S A pre post : List α} {x : α} (h : B ++ S ++ A = pre ++ x :: post) :
    (∃ B', B = pre ++ x :: B' ∧ post = B' ++ S ++ A) ∨
    (∃ S1 S2, S = S1 ++ x :: S2 ∧ pre = B ++ S1 ∧ post = S2 ++ A) ∨
    ∃ A1, A = A1 ++ x :: post ∧ pre = B ++ S ++ A1 := by
  rcases List.append_eq_append_iff.mp h with ⟨as, h1, h2⟩ | ⟨cs, h1, h2⟩
  · exact .inr (.inr ⟨as, h2, h1⟩)
  · cases cs with
    | nil =>
      refine .inr (.inr ⟨[], by simpa using h2.symm, by simpa using h1.symm⟩)
    | cons c cs =>
      cases h2
      rcases List.append_eq_append_iff.mp h1 with ⟨as, h3, h4⟩ | ⟨cs', h3, h4⟩
      · exact .inr (.inl ⟨as, cs, h4, h3, rfl⟩)
      · cases cs' with
        | nil => exact .inr (.inl ⟨[], cs, by simpa using h4.symm, by simpa using h3.symm, rfl⟩)
        | cons c' cs' => cases h4; exact .inl ⟨cs', h3, by simp⟩

theorem leftmost {b : Bool} {n n' rest : List Name} {y : Name} (h : Relation.ReflTransGen (Rewrites d) n n')
    (hn : n' = y :: rest) (hb : b = true → rest = []) : ∃ pre x post, n = pre ++ x :: post ∧ (∀ u ∈ pre, Nullable d u) ∧
      (b = true → ∀ u ∈ post, Nullable d u) ∧ Relation.ReflTransGen (CStep d b) x y := by
  induction h using Relation.ReflTransGen.head_induction_on with
  | refl => exact ⟨[], y, rest, hn, by simp, fun h => by simp [hb h], .refl⟩
  | head h1 _ ih =>
    obtain ⟨pre, x, post, h2, h3, h4, h5⟩ := ih
    cases h1 with
    | @mk B A m hm =>
      have hnull (h : ∀ u ∈ m.tn.subtasks.map (·.task.name), Nullable d u) : Nullable d m.task.name :=
        .mk hm fun s hs => h _ (List.mem_map_of_mem hs)
      rcases append_cons_cases h2 with ⟨B', rfl, rfl⟩ | ⟨S1, S2, hS, rfl, rfl⟩ | ⟨A1, rfl, rfl⟩
      · refine ⟨pre, x, B' ++ m.task.name :: A, by simp, h3, fun hb u hu => ?_, h5⟩
        simp only [List.mem_append, List.mem_cons] at hu
        rcases hu with hu | rfl | hu
        · exact h4 hb u (by simp [hu])
        · exact hnull fun u hu => h4 hb u (by simp only [List.mem_append]; exact .inl (.inr hu))
        · exact h4 hb u (by simp [hu])
      · refine ⟨B, m.task.name, A, rfl, fun u hu => h3 u (by simp [hu]), fun hb u hu => h4 hb u (by simp [hu]), .head ?_ h5⟩
        obtain ⟨s1, r, hsub, rfl, hr⟩ := List.map_eq_append_iff.mp hS
        obtain ⟨s, s2, rfl, rfl, rfl⟩ := List.map_eq_cons_iff.mp hr
        exact ⟨m, hm, rfl, s1, s, s2, hsub, rfl, fun u hu => h3 _ (List.mem_append_right _ (List.mem_map_of_mem hu)),
          fun hb u hu => h4 hb _ (List.mem_append_left _ (List.mem_map_of_mem hu))⟩
      · refine ⟨B ++ m.task.name :: A1, x, post, by simp, fun u hu => ?_, h4, h5⟩
        simp only [List.mem_append, List.mem_cons] at hu
        rcases hu with hu | rfl | hu
        · exact h3 u (by simp [hu])
        · exact hnull fun u hu => h3 u (by simp only [List.mem_append]; exact .inl (.inr hu))
        · exact h3 u (by simp [hu])

theorem erase {u : Name} (h : Nullable d u) : ∀ B A, Relation.ReflTransGen (Rewrites d) (B ++ u :: A) (B ++ A) := by
  induction h with
  | @mk m hm _ ih =>
    intro B A
    refine .head (.mk hm) ?_
    have : ∀ (S : List Subtask) (B : List Name), (∀ s ∈ S, ∀ B A,
        Relation.ReflTransGen (Rewrites d) (B ++ s.task.name :: A) (B ++ A)) →
        Relation.ReflTransGen (Rewrites d) (B ++ S.map (·.task.name) ++ A) (B ++ A) := by
      intro S
      induction S with
      | nil => intro B _; simpa using .refl
      | cons s S ihS =>
        intro B hS
        have h1 := hS s (by simp) B (S.map (·.task.name) ++ A)
        have h2 := ihS B fun s hs => hS s (by simp [hs])
        simp only [List.map_cons, List.append_assoc, List.cons_append] at h1 h2 ⊢
        exact h1.trans h2
    exact this m.tn.subtasks B ih

theorem erase_all {S : List Name} (h : ∀ u ∈ S, Nullable d u) (B A : List Name) :
    Relation.ReflTransGen (Rewrites d) (B ++ (S ++ A)) (B ++ A) := by
  induction S with
  | nil => exact .refl
  | cons s S ih => exact (erase (h s (by simp)) B (S ++ A)).trans (ih fun u hu => h u (by simp [hu]))

theorem CStep.rewrites {b : Bool} {x y : Name} (h : CStep d b x y) (A : List Name) :
    ∃ rest, Relation.TransGen (Rewrites d) (x :: A) (y :: (rest ++ A)) ∧ (b = true → rest = []) := by
  obtain ⟨m, hm, rfl, pre, s, post, h1, rfl, h2, h3⟩ := h
  have h4 : Relation.TransGen (Rewrites d) (m.task.name :: A) (s.task.name :: (post.map (·.task.name) ++ A)) := by
    refine .head' (.mk (before := []) (after := A) hm) ?_
    rw [h1]
    have := erase_all (d := d) (S := pre.map (·.task.name)) (fun u hu => by
      obtain ⟨v, hv, rfl⟩ := List.mem_map.mp hu
      exact h2 v hv) [] (s.task.name :: (post.map (·.task.name) ++ A))
    simpa using this
  cases b with
  | false => exact ⟨_, h4, by simp⟩
  | true =>
    refine ⟨[], h4.trans_left ?_, fun _ => rfl⟩
    refine erase_all (d := d) (S := post.map (·.task.name)) (fun u hu => ?_) [s.task.name] A
    obtain ⟨v, hv, rfl⟩ := List.mem_map.mp hu
    exact h3 rfl v hv

theorem csteps_rewrites {b : Bool} {x y : Name} (h : Relation.TransGen (CStep d b) x y) (A : List Name) :
    ∃ rest, Relation.TransGen (Rewrites d) (x :: A) (y :: (rest ++ A)) ∧ (b = true → rest = []) := by
  induction h with
  | single h => exact h.rewrites A
  | tail _ h ih =>
    obtain ⟨r1, h1, h2⟩ := ih
    obtain ⟨r2, h3, h4⟩ := h.rewrites (r1 ++ A)
    refine ⟨r2 ++ r1, by simpa using h1.trans h3, fun hb => by simp [h2 hb, h4 hb]⟩

theorem csteps_iff (b : Bool) : (∃ t rest, Relation.TransGen (Rewrites d) [t] (t :: rest) ∧ (b = true → rest = [])) ↔
    ∃ t, Relation.TransGen (CStep d b) t t := by
  constructor
  · rintro ⟨t, rest, h, hb⟩
    obtain ⟨n, h1, h2⟩ := Relation.TransGen.head'_iff.mp h
    obtain ⟨pre, x, post, rfl, h3, h4, h5⟩ := leftmost h2 rfl hb
    refine ⟨t, .head' ?_ h5⟩
    generalize hn : [t] = n0 at h1
    generalize hn' : pre ++ x :: post = n1 at h1
    cases h1 with
    | @mk B A m hm =>
      have : B = [] ∧ A = [] ∧ t = m.task.name := by
        cases B with
        | nil => cases hn; exact ⟨rfl, rfl, rfl⟩
        | cons b B => simp at hn
      obtain ⟨rfl, rfl, rfl⟩ := this
      simp only [List.nil_append, List.append_nil] at hn'
      obtain ⟨s1, r, hsub, rfl, hr⟩ := List.map_eq_append_iff.mp hn'.symm
      obtain ⟨s, s2, rfl, rfl, rfl⟩ := List.map_eq_cons_iff.mp hr
      exact ⟨m, hm, rfl, s1, s, s2, hsub, rfl, fun u hu => h3 _ (List.mem_map_of_mem hu),
        fun hb u hu => h4 hb _ (List.mem_map_of_mem hu)⟩
  · rintro ⟨t, h⟩
    obtain ⟨rest, h1, h2⟩ := csteps_rewrites h []
    exact ⟨t, rest, by simpa using h1, h2⟩

/-! ### Cycles of methods -/

/-- A closed walk. -/
def Walk (d : DomainAST) (b : Bool) (c : List Method) : Prop :=
  c ≠ [] ∧ (∀ m ∈ c, m ∈ d.methods) ∧ (c ++ c.take 1).IsChain fun m m' => Inner d b m m'.task.name

theorem walk_of_csteps {b : Bool} {x y : Name} (h : Relation.TransGen (CStep d b) x y) : ∃ m l, m.task.name = x ∧
    (∀ m' ∈ m :: l, m' ∈ d.methods) ∧ (m :: l).IsChain (fun m m' => Inner d b m m'.task.name) ∧
    ∀ e ∈ (m :: l).getLast?, Inner d b e y := by
  induction h with
  | single h =>
    obtain ⟨m, hm, rfl, h⟩ := h
    exact ⟨m, [], rfl, by simpa using hm, by simp, by simpa using h⟩
  | tail _ h ih =>
    obtain ⟨m, l, h1, h2, h3, h4⟩ := ih
    obtain ⟨m', hm', rfl, h⟩ := h
    refine ⟨m, l ++ [m'], h1, ?_, ?_, ?_⟩
    · intro e he
      rw [← List.cons_append, List.mem_append, List.mem_singleton] at he
      rcases he with he | rfl
      · exact h2 e he
      · exact hm'
    · rw [← List.cons_append, List.isChain_append]
      exact ⟨h3, by simp, fun e he e' he' => by simp only [List.head?_cons, Option.mem_def, Option.some.injEq] at he'; subst he'; exact h4 e he⟩
    · intro e he
      rw [← List.cons_append, List.getLast?_append] at he
      simp at he
      subst he
      exact h

theorem repeated {c : List Method} (h : ¬ (c.map (·.task.name)).Nodup) :
    ∃ l1 m l2 m' l3, c = l1 ++ (m :: l2 ++ m' :: l3) ∧ m.task.name = m'.task.name := by
  induction c with
  | nil => simp at h
  | cons m l ih =>
    by_cases hm : m.task.name ∈ l.map (·.task.name)
    · obtain ⟨m', hm', he⟩ := List.mem_map.mp hm
      obtain ⟨a, b, rfl⟩ := List.append_of_mem hm'
      exact ⟨[], m, a, m', b, by simp, he.symm⟩
    · obtain ⟨l1, m1, l2, m2, l3, rfl, he⟩ := ih (by simpa [hm] using h)
      exact ⟨m :: l1, m1, l2, m2, l3, by simp, he⟩

theorem simple_walk {b : Bool} {c : List Method} (h : Walk d b c) :
    ∃ c, Walk d b c ∧ (c.map (·.task.name)).Nodup := by
  induction hn : c.length using Nat.strong_induction_on generalizing c with
  | _ n ih =>
    by_cases hnd : (c.map (·.task.name)).Nodup
    · exact ⟨c, h, hnd⟩
    · obtain ⟨l1, m, l2, m', l3, rfl, he⟩ := repeated hnd
      refine ih (m :: l2).length (by simp at hn ⊢; omega) (c := m :: l2) ⟨by simp, fun e he => h.2.1 e ?_, ?_⟩ rfl
      · simp only [List.mem_append, List.mem_cons] at he ⊢
        tauto
      · have h1 := h.2.2
        rw [List.isChain_append] at h1
        have h2 := h1.1
        rw [List.isChain_append] at h2
        have h3 := h2.2.1
        rw [List.isChain_append] at h3
        rw [List.isChain_append]
        refine ⟨h3.1, by simp, fun e he' e' he'' => ?_⟩
        have := h3.2.2 e he' m' (by simp)
        simp only [List.take_succ_cons, List.take_zero, List.head?_cons, Option.mem_def, Option.some.injEq] at he''
        subst he''
        rw [he]
        exact this

theorem chain_steps {R : Method → Method → Prop} : ∀ (l l' : List Method), (l ++ l').IsChain R →
    ∀ p ∈ l.zip (l.tail ++ l'), R p.1 p.2 := by
  intro l
  induction l with
  | nil => simp
  | cons a l ih =>
    intro l' hch p hp
    cases l with
    | nil =>
      cases l' with
      | nil => simp at hp
      | cons x l' =>
        simp only [List.tail_cons, List.nil_append, List.zip_cons_cons, List.zip_nil_left, List.mem_singleton] at hp
        subst hp
        simp only [List.cons_append, List.nil_append, List.isChain_cons_cons] at hch
        exact hch.1
    | cons x l =>
      simp only [List.tail_cons, List.cons_append, List.zip_cons_cons, List.mem_cons] at hp
      simp only [List.cons_append, List.isChain_cons_cons] at hch
      rcases hp with rfl | hp
      · exact hch.1
      · exact ih l' hch.2 p (by simpa using hp)

theorem steps_chain {R : Method → Method → Prop} : ∀ (l l' : List Method), l'.length ≤ 1 →
    (∀ p ∈ l.zip (l.tail ++ l'), R p.1 p.2) → (l ++ l').IsChain R := by
  intro l
  induction l with
  | nil =>
    intro l' hl _
    match l', hl with
    | [], _ => simp
    | [x], _ => simp
  | cons a l ih =>
    intro l' hl hp
    cases l with
    | nil =>
      match l', hl with
      | [], _ => simp
      | [x], _ => simpa using hp (a, x) (by simp)
    | cons x l =>
      simp only [List.cons_append, List.isChain_cons_cons]
      exact ⟨hp (a, x) (by simp), by simpa using ih l' hl fun p h => hp p (by simp at h ⊢; exact .inr h)⟩

theorem takeWhile_mem {α : Type} {q : α → Bool} {pre post : List α} {s : α} (hs : q s = false) :
    ∀ u ∈ (pre ++ s :: post).takeWhile q, u ∈ pre := by
  induction pre with
  | nil => simp [hs]
  | cons a pre ih =>
    intro u hu
    simp only [List.cons_append, List.takeWhile_cons] at hu
    split at hu
    · rcases List.mem_cons.mp hu with rfl | hu
      · simp
      · exact List.mem_cons_of_mem _ (ih u hu)
    · cases hu

theorem dropWhile_mem {α : Type} {q : α → Bool} {pre post : List α} {s : α} (hs : q s = false) :
    ∀ u ∈ ((pre ++ s :: post).dropWhile q).tail, u ∈ post ∨ ∃ v ∈ pre, q v = false ∧ (u ∈ pre ∨ u = s) := by
  induction pre with
  | nil => intro u hu; simp [hs] at hu; exact .inl hu
  | cons a pre ih =>
    intro u hu
    simp only [List.cons_append, List.dropWhile_cons] at hu
    split at hu
    · rcases ih u hu with h | ⟨v, hv, h1, h2⟩
      · exact .inl h
      · exact .inr ⟨v, by simp [hv], h1, by rcases h2 with h | h <;> simp [h]⟩
    · rename_i ha
      simp only [List.tail_cons, List.mem_append, List.mem_cons] at hu
      rcases hu with h | rfl | h
      · exact .inr ⟨a, by simp, by simpa using ha, by simp [h]⟩
      · exact .inr ⟨a, by simp, by simpa using ha, .inr rfl⟩
      · exact .inl h

theorem inner_iff {b : Bool} {m m' : Method} : Inner d b m m'.task.name ↔ Links m m' ∧
    (∀ s ∈ Preceding m m', Nullable d s.task.name) ∧ (b = true → ∀ s ∈ Following m m', Nullable d s.task.name) := by
  constructor
  · rintro ⟨pre, s, post, h1, h2, h3, h4⟩
    have hs : (fun s : Subtask => decide (s.task.name ≠ m'.task.name)) s = false := by simpa using h2
    refine ⟨⟨s, by simp [h1], h2⟩, fun u hu => ?_, fun hb u hu => ?_⟩
    · unfold Preceding at hu
      rw [h1] at hu
      exact h3 u (takeWhile_mem (q := fun s : Subtask => decide (s.task.name ≠ m'.task.name)) hs u hu)
    · unfold Following at hu
      rw [h1] at hu
      rcases dropWhile_mem (q := fun s : Subtask => decide (s.task.name ≠ m'.task.name)) hs u hu with h | ⟨v, hv, hq, h | rfl⟩
      · exact h4 hb u h
      · exact h3 u h
      · have hv' := h3 v hv
        have : v.task.name = m'.task.name := by simpa using hq
        rw [this, ← h2] at hv'
        exact hv'
  · rintro ⟨⟨s, hs, he⟩, h2, h3⟩
    have hd : ∃ x r, (m.tn.subtasks.dropWhile fun s => decide (s.task.name ≠ m'.task.name)) = x :: r ∧
        x.task.name = m'.task.name := by
      cases hdw : m.tn.subtasks.dropWhile fun s => decide (s.task.name ≠ m'.task.name) with
      | nil =>
        have := List.dropWhile_eq_nil_iff.mp hdw s hs
        simp [he] at this
      | cons x r =>
        refine ⟨x, r, rfl, ?_⟩
        have := List.head_dropWhile_not (fun s : Subtask => decide (s.task.name ≠ m'.task.name)) (w := by rw [hdw]; simp)
        simp only [hdw, List.head_cons] at this
        simpa using this
    obtain ⟨x, r, hx, hxn⟩ := hd
    refine ⟨Preceding m m', x, Following m m', ?_, hxn, h2, h3⟩
    unfold Preceding Following
    rw [hx]
    have := List.takeWhile_append_dropWhile (p := fun s : Subtask => decide (s.task.name ≠ m'.task.name)) (l := m.tn.subtasks)
    rw [hx] at this
    exact this.symm

theorem walk_csteps {b : Bool} {m e : Method} {l : List Method} (hm : ∀ m' ∈ m :: l, m' ∈ d.methods)
    (h : (m :: l ++ [e]).IsChain fun m m' => Inner d b m m'.task.name) :
    Relation.TransGen (CStep d b) m.task.name e.task.name := by
  induction l generalizing m with
  | nil => exact .single ⟨m, hm m (by simp), rfl, by simpa using h⟩
  | cons m1 l ih =>
    simp only [List.cons_append, List.isChain_cons_cons] at h
    exact .head ⟨m, hm m (by simp), rfl, h.1⟩ (ih (fun x hx => hm x (by simp [List.mem_cons.mp hx])) (by simpa using h.2))

theorem csteps_cycle (b : Bool) : (∃ t, Relation.TransGen (CStep d b) t t) ↔
    ∃ c, Cycle d c ∧ NullBefore d c ∧ (b = true → NullAfter d c) := by
  constructor
  · rintro ⟨t, h⟩
    obtain ⟨m, l, rfl, h1, h2, h3⟩ := walk_of_csteps h
    have hw : Walk d b (m :: l) := by
      refine ⟨by simp, h1, ?_⟩
      rw [List.isChain_append]
      refine ⟨h2, by simp, fun e he e' he' => ?_⟩
      simp only [List.take_succ_cons, List.take_zero, List.head?_cons, Option.mem_def, Option.some.injEq] at he'
      subst he'
      exact h3 e he
    obtain ⟨c, hc, hnd⟩ := simple_walk hw
    have hst : ∀ p ∈ steps c, Inner d b p.1 p.2.task.name := chain_steps c (c.take 1) hc.2.2
    exact ⟨c, ⟨hc.1, hc.2.1, hnd, hc.2.2.imp fun _ _ h => (inner_iff.mp h).1⟩, fun p hp => (inner_iff.mp (hst p hp)).2.1,
      fun hb p hp => (inner_iff.mp (hst p hp)).2.2 hb⟩
  · rintro ⟨c, hc, h1, h2⟩
    have hch : (c ++ c.take 1).IsChain fun m m' => Inner d b m m'.task.name := by
      refine steps_chain c (c.take 1) (by simp) fun p hp => inner_iff.mpr ⟨chain_steps c (c.take 1) hc.links p hp, h1 p hp, fun hb => h2 hb p hp⟩
    obtain ⟨m, l, rfl⟩ := List.exists_cons_of_ne_nil hc.ne
    exact ⟨_, walk_csteps hc.mem hch⟩

theorem loosely_iff : (∃ c, Cycle d c ∧ LooselyNullBefore d c) ↔ ∃ c, Cycle d c ∧ NullBefore d c := by
  constructor
  · rintro ⟨c, hc, h⟩
    have := (csteps_cycle (d := d) false).mp ?_
    · obtain ⟨c, h1, h2, _⟩ := this; exact ⟨c, h1, h2⟩
    obtain ⟨m0, l, rfl⟩ := List.exists_cons_of_ne_nil hc.ne
    have hstep : ∀ p ∈ steps (m0 :: l), CStep d false p.1.task.name p.2.task.name ∨ CStep d false p.1.task.name m0.task.name := by
      intro p hp
      obtain ⟨hm, _, hl⟩ := steps_links hc p hp
      rcases h p hp with ⟨s, r, m, h1, h2, h3⟩ | h1
      · cases h2
        refine .inr ⟨p.1, hm, rfl, [], s, ?_⟩
        unfold Preceding at h1
        cases hs : p.1.tn.subtasks with
        | nil => rw [hs] at h1; cases h1
        | cons a as =>
          rw [hs, List.takeWhile_cons] at h1
          split at h1
          · cases h1; exact ⟨as, rfl, h3, by simp, by simp⟩
          · cases h1
      · exact .inl ⟨p.1, hm, rfl, inner_iff.mpr ⟨hl, h1, by simp⟩⟩
    have hch := steps_chain (R := fun m m' => CStep d false m.task.name m'.task.name ∨ CStep d false m.task.name m0.task.name)
      (m0 :: l) ((m0 :: l).take 1) (by simp) hstep
    have key : ∀ (l : List Method) (m : Method), Relation.ReflTransGen (CStep d false) m0.task.name m.task.name →
        (m :: l ++ [m0]).IsChain (fun m m' => CStep d false m.task.name m'.task.name ∨ CStep d false m.task.name m0.task.name) →
        Relation.TransGen (CStep d false) m0.task.name m0.task.name := by
      intro l
      induction l with
      | nil =>
        intro m hr hch
        simp only [List.cons_append, List.nil_append, List.isChain_cons_cons] at hch
        exact Relation.TransGen.tail'_iff.mpr ⟨_, hr, hch.1.elim id id⟩
      | cons m1 l ih =>
        intro m hr hch
        simp only [List.cons_append, List.isChain_cons_cons] at hch
        rcases hch.1 with h1 | h1
        · exact ih m1 (hr.tail h1) (by simpa using hch.2)
        · exact Relation.TransGen.tail'_iff.mpr ⟨_, hr, h1⟩
    exact ⟨_, key l m0 .refl (by simpa using hch)⟩
  · rintro ⟨c, hc, h⟩
    exact ⟨c, hc, fun p hp => .inr (h p hp)⟩

theorem leftRecursive_iff : LeftRecursive d ↔ ∃ c, Cycle d c ∧ NullBefore d c := by
  have := (csteps_iff (d := d) false).trans (csteps_cycle false)
  simpa [LeftRecursive] using this

theorem selfRecursive_iff : SelfRecursive d ↔ ∃ c, Cycle d c ∧ NullBefore d c ∧ NullAfter d c := by
  have := (csteps_iff (d := d) true).trans (csteps_cycle true)
  simpa [SelfRecursive] using this

variable [Env]

/-- C54: a domain is reported to be recursive exactly if some task can be decomposed into a network that contains the
task again. -/
theorem C54_recursive (hf : Parses f (.domain d)) (h : Metadata ord f md) :
    md.recursion ≠ .nonRecursive ↔ Recursive d := by
  rw [Ne, C34_non_recursive hf h, not_not]
  constructor
  · rintro ⟨x, hx⟩
    have key : ∀ y, Relation.TransGen (HasSub d) x y → ∃ n, Relation.TransGen (Rewrites d) [x] n ∧ y ∈ n := by
      intro y hy
      induction hy with
      | single h =>
        obtain ⟨m, hm, rfl, s, hs, rfl⟩ := h
        refine ⟨_, .single (.mk (before := []) (after := []) hm), ?_⟩
        simp only [List.nil_append, List.append_nil]
        exact List.mem_map_of_mem hs
      | tail _ h ih =>
        obtain ⟨n, hn, hy⟩ := ih
        obtain ⟨m, hm, rfl, s, hs, rfl⟩ := h
        obtain ⟨a, b, rfl⟩ := List.append_of_mem hy
        refine ⟨_, hn.tail (.mk hm), ?_⟩
        simp only [List.mem_append]
        exact .inl (.inr (List.mem_map_of_mem hs))
    obtain ⟨n, hn, hm⟩ := key x hx
    exact ⟨x, n, hn, hm⟩
  · rintro ⟨t, n, hn, ht⟩
    have key : ∀ n, Relation.TransGen (Rewrites d) [t] n → ∀ y ∈ n, Relation.TransGen (HasSub d) t y := by
      intro n hn
      have step {n n' : List Name} (h : Rewrites d n n') : ∀ y ∈ n', y ∈ n ∨ ∃ x ∈ n, HasSub d x y := by
        intro y hy
        cases h with
        | @mk B A m hm =>
          simp only [List.mem_append, List.mem_map] at hy
          rcases hy with (h | ⟨s, hs, rfl⟩) | h
          · exact .inl (by simp [h])
          · exact .inr ⟨m.task.name, by simp, m, hm, rfl, s, hs, rfl⟩
          · exact .inl (by simp [h])
      induction hn with
      | single h =>
        generalize hn0 : [t] = n0 at h
        intro y hy
        cases h with
        | @mk B A m hm =>
          have : B = [] ∧ A = [] ∧ t = m.task.name := by
            cases B with
            | nil => cases hn0; exact ⟨rfl, rfl, rfl⟩
            | cons b B => simp at hn0
          obtain ⟨rfl, rfl, rfl⟩ := this
          simp only [List.nil_append, List.append_nil, List.mem_map] at hy
          obtain ⟨s, hs, rfl⟩ := hy
          exact .single ⟨m, hm, rfl, s, hs, rfl⟩
      | tail _ h ih =>
        intro y hy
        rcases step h y hy with hy | ⟨x, hx, hxy⟩
        · exact ih y hy
        · exact (ih x hx).tail hxy
    exact ⟨t, key n hn t ht⟩

/-- Left recursion is never missed, whatever the orders of the methods and the nullable tasks reported: if some task can be
decomposed into a network that starts with the task again, a class other than "non-recursive" and "recursive" is
reported. -/
theorem C54_left_found (hf : Parses f (.domain d)) (ha : ∃ ws, Returns ord f none (.ok ws)) (hc : NoClash d)
    (h : Metadata ord f md) (hl : LeftRecursive d) : md.recursion.cls ≠ .none ∧ md.recursion.cls ≠ .plain := by
  obtain ⟨c, hcy, hn⟩ := leftRecursive_iff.mp hl
  have key : ¬ (md.recursion.cls = .none ∨ md.recursion.cls = .plain) := fun hk => by
    obtain ⟨p, hp, _, s, hs, _, hno⟩ := C49_plain hf ha h hk c hcy
    exact hno hc (hn p hp s hs)
  exact ⟨fun h => key (.inl h), fun h => key (.inr h)⟩

/-- C54 for left recursion, the part that holds: under the conditions of `C49_class_partial`, a class other than
"non-recursive" and "recursive" is reported exactly if some task can be decomposed into a network that starts with the
task again.  Missing: for methods with partial orders and wrongly reported nullable tasks only `C54_left_found` holds, see
`C49_order_refuted`. -/
theorem C54_left_partial (hf : Parses f (.domain d)) (ha : ∃ ws, Returns ord f none (.ok ws)) (hc : NoClash d)
    (hseq : ∀ m ∈ d.methods, Sequential m.tn) (h : Metadata ord f md) (hx : ∀ x, x ∈ md.nullables ↔ Nullable d x) :
    (md.recursion.cls ≠ .none ∧ md.recursion.cls ≠ .plain) ↔ LeftRecursive d := by
  have h1 := (C49_class_partial hf ha hc hseq h hx).1
  rw [leftRecursive_iff, ← loosely_iff]
  generalize md.recursion.cls = k at h1
  cases k with
  | none => exact ⟨fun h => absurd rfl h.1, fun ⟨c, h2, _⟩ => absurd ⟨c, h2⟩ h1⟩
  | plain => exact ⟨fun h => absurd rfl h.2, fun h2 => absurd h2 h1.1⟩
  | growingEmptyPrefix => exact ⟨fun _ => h1.2.2, fun _ => by simp⟩
  | empty => exact ⟨fun _ => let ⟨c, h2, h3, _⟩ := h1.2; ⟨c, h2, h3⟩, fun _ => by simp⟩
  | growAndShrink => exact ⟨fun _ => let ⟨c, h2, h3, _⟩ := h1; ⟨c, h2, h3⟩, fun _ => by simp⟩

/-- C54 for empty recursion, the part that holds: under the conditions of `C49_class_partial`, one of the last two
classes is reported if some task can be decomposed into itself and nothing else; and only then, if the misjudged
prefixes of C49 make no difference.  Missing: see `C54_refuted`. -/
theorem C54_self_partial (hf : Parses f (.domain d)) (ha : ∃ ws, Returns ord f none (.ok ws)) (hc : NoClash d)
    (hseq : ∀ m ∈ d.methods, Sequential m.tn) (h : Metadata ord f md) (hx : ∀ x, x ∈ md.nullables ↔ Nullable d x) :
    (SelfRecursive d → md.recursion.cls = .empty ∨ md.recursion.cls = .growAndShrink) ∧
    ((∀ c, Cycle d c → LooselyNullBefore d c → NullBefore d c) →
      md.recursion.cls = .empty ∨ md.recursion.cls = .growAndShrink → SelfRecursive d) := by
  obtain ⟨h1, _, h2⟩ := C49_class_partial hf ha hc hseq h hx
  constructor
  · intro hself
    obtain ⟨c, h3, h4, h5⟩ := selfRecursive_iff.mp hself
    have h4' : LooselyNullBefore d c := fun p hp => .inr (h4 p hp)
    by_cases hn : NoneAfter c
    · generalize md.recursion.cls = k at h1
      cases k with
      | none => exact absurd ⟨c, h3⟩ h1
      | plain => exact absurd ⟨c, h3, h4'⟩ h1.1
      | growingEmptyPrefix => exact absurd ⟨c, h3, h4', hn⟩ h1.2.1
      | empty => exact .inl rfl
      | growAndShrink => exact .inr rfl
    · generalize md.recursion.cls = k at h1
      cases k with
      | none => exact absurd ⟨c, h3⟩ h1
      | plain => exact absurd ⟨c, h3, h4'⟩ h1.1
      | growingEmptyPrefix => exact absurd ⟨c, h3, h4', h5, hn⟩ h1.1
      | empty => exact .inl rfl
      | growAndShrink => exact .inr rfl
  · intro hsame hcls
    have h3 := h2 hsame
    rw [selfRecursive_iff]
    rcases hcls with hcls | hcls <;> rw [hcls] at h3
    · obtain ⟨_, c, h4, h5, h6⟩ := h3
      exact ⟨c, h4, h5, fun p hp s hs => by rw [h6 p hp] at hs; cases hs⟩
    · obtain ⟨c, h4, h5, h6, _⟩ := h3
      exact ⟨c, h4, h5, h6⟩

omit [Env] in
/-- Instance: `loopDomain` meets the conditions of both theorems, and by them it is left recursive. -/
example : ∃ d, @Parses Env.plain loopDomain (.domain d) ∧ LeftRecursive d := by
  obtain ⟨d, md, h1, h2, h3, h4, h5, h6, h7⟩ := loop_instance
  exact ⟨d, h1, (@C54_left_partial HashOrd.id _ _ md Env.plain h1 h4 h2 h3 h5 h6).mp (by rw [h7]; simp)⟩

omit [Env] in
/-- C54 does not hold in general: all conditions are met and the class reported is "empty recursion", although no task
can be decomposed into itself and nothing else. -/
theorem C54_refuted : ∃ d md, @Parses Env.plain prefixDomain (.domain d) ∧ NoClash d ∧ (∀ m ∈ d.methods, Sequential m.tn) ∧
    (∃ ws, @Returns Env.plain HashOrd.id prefixDomain none (.ok ws)) ∧ @Metadata Env.plain HashOrd.id prefixDomain md ∧
    (∀ x, x ∈ md.nullables ↔ Nullable d x) ∧ md.recursion.cls = .empty ∧ ¬ SelfRecursive d := by
  obtain ⟨d, md, h1, h2, h3, h4, h5, h6, h7, _⟩ := C49_refuted
  refine ⟨d, md, h1, h2, h3, h4, h5, h6, h7, fun hself => ?_⟩
  obtain ⟨a, h1', h2'⟩ := @parses_holds prefixDomain Env.plain 80
    (shapeIs [b!"x", b!"y"] [b!"a"] [(b!"x", [b!"x", b!"a", b!"y"]), (b!"y", [b!"x"])]) (by decide +kernel)
  cases @Parses.det Env.plain _ _ _ h1 h1'
  obtain ⟨d', hd', _, _, hm⟩ := shape_of h2'
  cases hd'
  have hno := not_nullable hm [b!"x", b!"y", b!"a"] (by decide)
  obtain ⟨t, ht⟩ := (csteps_iff (d := d) true).mp (let ⟨t, h⟩ := hself; ⟨t, [], h, fun _ => rfl⟩)
  have step {x y : Name} (h : CStep d true x y) : x = b!"y" ∧ y = b!"x" := by
    obtain ⟨m, hmm, rfl, pre, s, post, h1, rfl, h2, h3⟩ := h
    have h4 := methods_shape hm hmm
    simp only [List.mem_cons, Prod.mk.injEq, List.not_mem_nil, or_false] at h4
    have hpre : ∀ x ∈ pre.map (·.task.name), x ∉ [b!"x", b!"y", b!"a"] := by
      intro x hx hin
      obtain ⟨u, hu, rfl⟩ := List.mem_map.mp hx
      exact hno _ hin (h2 u hu)
    have hpost : ∀ x ∈ post.map (·.task.name), x ∉ [b!"x", b!"y", b!"a"] := by
      intro x hx hin
      obtain ⟨u, hu, rfl⟩ := List.mem_map.mp hx
      exact hno _ hin (h3 rfl u hu)
    rw [h1, List.map_append, List.map_cons] at h4
    rcases h4 with ⟨_, h5⟩ | ⟨h5, h6⟩
    · exfalso
      cases hp : pre.map (·.task.name) with
      | nil =>
        rw [hp] at h5
        simp only [List.nil_append, List.cons.injEq] at h5
        exact hpost b!"a" (by rw [h5.2]; simp) (by simp)
      | cons a l =>
        rw [hp] at h5 hpre
        simp only [List.cons_append, List.cons.injEq] at h5
        exact hpre a (by simp) (by rw [h5.1]; simp)
    · refine ⟨h5, ?_⟩
      cases hp : pre.map (·.task.name) with
      | nil =>
        rw [hp] at h6
        simp only [List.nil_append, List.cons.injEq] at h6
        exact h6.1
      | cons a l => rw [hp] at h6; simp at h6
  obtain ⟨y, h8, h9⟩ := Relation.TransGen.head'_iff.mp ht
  obtain ⟨rfl, rfl⟩ := step h8
  rcases Relation.ReflTransGen.cases_head h9 with h | ⟨z, h, _⟩
  · exact absurd h (by decide)
  · exact absurd (step h).1 (by decide)

end Verif
