import Mathlib.Data.Finset.Card
import Mathlib.Data.Finset.Dedup
import Verif.Proofs.Recursion
import Verif.Spec.Recursion

/-! Classification of cycles: the context of a task in a method, and the maximum over all cycles. -/

namespace Verif

open Spec

/-! ### Loops over partial orders -/

theorem isSubstr_iff {x : Name} : ∀ {s : Name}, isSubstr x s = true ↔ x <:+: s
  | [] => by
    rw [isSubstr, List.infix_nil, List.isEmpty_iff]
  | c :: cs => by
    rw [isSubstr, Bool.or_eq_true, List.isPrefixOf_iff_prefix, isSubstr_iff, List.infix_cons_iff]

theorem mem_successors {os : List (Name × Name)} {t x : Name} : x ∈ successors os t ↔ (t, x) ∈ os := by
  simp [successors]

theorem mem_occurrences {h : HTN} {x i : Name} : i ∈ occurrences h x ↔ Labels h x i := by
  unfold occurrences Labels
  rw [List.mem_dedup, List.mem_filterMap]
  constructor
  · rintro ⟨s, hs, h1⟩
    split at h1
    · rename_i id hid
      split at h1
      · rename_i hx; cases h1; exact ⟨s, hs, hx, id, hid, rfl⟩
      · cases h1
    · cases h1
  · rintro ⟨s, hs, hx, id, hid, rfl⟩
    exact ⟨s, hs, by simp [hid, hx]⟩

/-- What makes the loop of `get_prefix` go round. -/
def prefixHits (os : List (Name × Name)) (occ : List Name) (t : Name) : List Name :=
  (successors os t).flatMap fun o => occ.filter fun x => isSubstr x o

theorem mem_prefixHits {os : List (Name × Name)} {occ : List Name} {t k : Name} :
    k ∈ prefixHits os occ t ↔ k ∈ occ ∧ ∃ j, (t, j) ∈ os ∧ k <:+: j := by
  simp only [prefixHits, List.mem_flatMap, List.mem_filter, mem_successors, isSubstr_iff]
  constructor
  · rintro ⟨j, h1, h2, h3⟩; exact ⟨h2, j, h1, h3⟩
  · rintro ⟨h2, j, h1, h3⟩; exact ⟨j, h1, h2, h3⟩

theorem prefixLoop_ok {os : List (Name × Name)} {occ : List Name} : ∀ {n : Nat} {stack : List Name},
    prefixLoop os occ n stack = .ok () → ∀ t ∈ stack, prefixHits os occ t = []
  | _, [], _ => by simp
  | 0, _ :: _, h => by simp [prefixLoop] at h
  | n + 1, t :: stack, h => by
    rw [prefixLoop] at h
    have h1 := prefixLoop_ok h
    intro t' ht'
    rcases List.mem_cons.mp ht' with rfl | ht'
    · by_contra hne
      refine hne (h1 _ (List.mem_append_left _ ?_))
      obtain ⟨a, l, hl⟩ := List.exists_cons_of_ne_nil hne
      change t' ∈ (prefixHits os occ t').map _
      rw [hl]
      simp
    · exact h1 _ (List.mem_append_right _ ht')

theorem prefixLoop_term {os : List (Name × Name)} {occ : List Name} : ∀ {n : Nat} {stack : List Name},
    stack.length ≤ n → (∀ t ∈ stack, prefixHits os occ t = []) → prefixLoop os occ n stack = .ok ()
  | 0, [], _, _ => by simp [prefixLoop]
  | _ + 1, [], _, _ => by simp [prefixLoop]
  | 0, _ :: _, h, _ => by simp at h
  | n + 1, t :: stack, h, hs => by
    rw [prefixLoop]
    have : ((successors os t).flatMap fun o => occ.filter fun x => isSubstr x o) = [] :=
      hs t List.mem_cons_self
    rw [this]
    exact prefixLoop_term (by simpa using h) fun t' ht' => hs t' (List.mem_cons_of_mem _ ht')

variable {ord : HashOrd} {site : Site}

theorem suffixLoop_ok {os : List (Name × Name)} : ∀ {n : Nat} {stack acc r : List Name},
    suffixLoop ord site os n stack acc = .ok r →
    (∀ t ∈ stack, _root_.Acc (fun b a => (a, b) ∈ os) t) ∧
    ∀ j, j ∈ r ↔ j ∈ acc ∨ ∃ t ∈ stack, Relation.TransGen (fun a b => (a, b) ∈ os) t j
  | _, [], acc, r, h => by
    have : acc = r := by unfold suffixLoop at h; cases h; rfl
    subst this; simp
  | 0, _ :: _, _, _, h => by simp [suffixLoop] at h
  | n + 1, t :: stack, acc, r, h => by
    rw [suffixLoop] at h
    obtain ⟨h1, h2⟩ := suffixLoop_ok h
    have hout : ∀ x, x ∈ arrange ord (site ++ t.map (·.toNat)) (successors os t) ↔ (t, x) ∈ os := by
      intro x; rw [mem_arrange, mem_successors]
    constructor
    · intro t' ht'
      rcases List.mem_cons.mp ht' with rfl | ht'
      · exact ⟨_, fun b hb => h1 b (List.mem_append_left _ (List.mem_reverse.mpr ((hout b).mpr hb)))⟩
      · exact h1 _ (List.mem_append_right _ ht')
    · intro j
      rw [h2, List.mem_append]
      simp only [List.mem_append, List.mem_reverse, hout, List.mem_cons, exists_eq_or_imp]
      constructor
      · rintro ((h | h) | ⟨u, h | h, hj⟩)
        · exact .inl h
        · exact .inr (.inl (.single h))
        · exact .inr (.inl (.head h hj))
        · exact .inr (.inr ⟨u, h, hj⟩)
      · rintro (h | h | ⟨u, h, hj⟩)
        · exact .inl (.inl h)
        · rcases Relation.TransGen.head'_iff.mp h with ⟨u, hu, huj⟩
          rcases Relation.reflTransGen_iff_eq_or_transGen.mp huj with rfl | h'
          · exact .inl (.inr hu)
          · exact .inr ⟨u, .inl hu, h'⟩
        · exact .inr ⟨u, .inr h, hj⟩

theorem suffixLoop_pop {os : List (Name × Name)} {t : Name} (h : _root_.Acc (fun b a => (a, b) ∈ os) t) :
    ∃ N l, ∀ n stack acc, suffixLoop ord site os (N + n) (t :: stack) acc = suffixLoop ord site os n stack (acc ++ l) := by
  induction h with
  | intro t _ ih =>
    have hl : ∀ l : List Name, (∀ x ∈ l, (t, x) ∈ os) → ∃ N l', ∀ n stack acc,
        suffixLoop ord site os (N + n) (l ++ stack) acc = suffixLoop ord site os n stack (acc ++ l') := by
      intro l
      induction l with
      | nil => exact fun _ => ⟨0, [], by simp⟩
      | cons a l ihl =>
        intro hm
        obtain ⟨N1, l1, h1⟩ := ih a (hm a List.mem_cons_self)
        obtain ⟨N2, l2, h2⟩ := ihl fun x hx => hm x (List.mem_cons_of_mem _ hx)
        refine ⟨N1 + N2, l1 ++ l2, fun n stack acc => ?_⟩
        rw [Nat.add_assoc, List.cons_append, h1, h2, List.append_assoc]
    obtain ⟨N, l', h⟩ := hl (arrange ord (site ++ t.map (·.toNat)) (successors os t)).reverse (by
      intro x hx; rw [List.mem_reverse, mem_arrange, mem_successors] at hx; exact hx)
    refine ⟨N + 1, arrange ord (site ++ t.map (·.toNat)) (successors os t) ++ l', fun n stack acc => ?_⟩
    rw [show N + 1 + n = (N + n) + 1 by omega, suffixLoop]
    simp only [h, List.append_assoc]

theorem suffixLoop_term {os : List (Name × Name)} : ∀ {stack : List Name},
    (∀ t ∈ stack, _root_.Acc (fun b a => (a, b) ∈ os) t) → ∃ N, ∀ acc, ∃ r, suffixLoop ord site os N stack acc = .ok r
  | [], _ => ⟨0, fun acc => ⟨acc, by simp [suffixLoop]⟩⟩
  | t :: stack, h => by
    obtain ⟨N1, l, h1⟩ := suffixLoop_pop (ord := ord) (site := site) (h t List.mem_cons_self)
    obtain ⟨N2, h2⟩ := suffixLoop_term (os := os) (stack := stack) fun t ht => h t (List.mem_cons_of_mem _ ht)
    refine ⟨N1 + N2, fun acc => ?_⟩
    rw [h1]; exact h2 _

/-- In a finite relation, what does not lead to a cycle is accessible. -/
theorem acc_iff {os : List (Name × Name)} {t : Name} : _root_.Acc (fun b a => (a, b) ∈ os) t ↔
    ∀ j, Relation.ReflTransGen (fun a b => (a, b) ∈ os) t j → ¬ Relation.TransGen (fun a b => (a, b) ∈ os) j j := by
  constructor
  · intro h
    have hcyc : ∀ j, _root_.Acc (fun b a => (a, b) ∈ os) j → ¬ Relation.TransGen (fun a b => (a, b) ∈ os) j j := by
      intro j hj
      have hj' : _root_.Acc (Relation.TransGen (fun b a => (a, b) ∈ os)) j := hj.transGen
      intro hc
      have : Relation.TransGen (fun b a => (a, b) ∈ os) j j := Relation.transGen_swap.mp hc
      induction hj' with
      | intro j _ ih => exact ih j this hj hc this
    intro j hj
    refine hcyc j ?_
    induction hj with
    | refl => exact h
    | tail _ h2 ih => exact ih.inv h2
  · classical
    intro h
    generalize hn : ((os.map Prod.snd).toFinset.filter (Relation.TransGen (fun a b => (a, b) ∈ os) t)).card = n
    induction n using Nat.strong_induction_on generalizing t with
    | _ n ih =>
      refine ⟨_, fun b hb => ih _ ?_ (fun j hj => h j (.head hb hj)) rfl⟩
      rw [← hn]
      apply Finset.card_lt_card
      rw [Finset.ssubset_iff_of_subset]
      · refine ⟨b, ?_, ?_⟩
        · simp only [Finset.mem_filter, List.mem_toFinset, List.mem_map]
          exact ⟨⟨_, hb, rfl⟩, .single hb⟩
        · simp only [Finset.mem_filter, not_and]
          exact fun _ => h b (.single hb)
      · intro x hx
        simp only [Finset.mem_filter] at hx ⊢
        exact ⟨hx.1, .head hb hx.2⟩

/-! ### The context of a task in a method -/

theorem subIndices_ok {g : TDG} : ∀ {l : List Subtask} {r : List Nat},
    subIndices g l = .ok r ↔ l.map (fun s => taskIndexFirst g.tasks s.task.name) = r.map some
  | [], r => by cases r <;> simp [subIndices]
  | m :: ms, r => by
    rw [subIndices]
    cases h : taskIndexFirst g.tasks m.task.name with
    | none => cases r <;> simp [h]
    | some i =>
      simp only [R.bind_ok_iff, List.map_cons, h]
      constructor
      · rintro ⟨r', h1, h2⟩
        cases h2
        simp [subIndices_ok.mp h1]
      · intro h'
        cases r with
        | nil => simp at h'
        | cons j r' =>
          simp only [List.map_cons, List.cons.injEq, Option.some.injEq] at h'
          exact ⟨r', subIndices_ok.mpr h'.2, by rw [h'.1]⟩

theorem nullIndices_ok {g : TDG} : ∀ {l : List Name} {r : List Nat},
    nullIndices g l = .ok r ↔ l.map (fun s => taskIndexFirst g.tasks s) = r.map some
  | [], r => by cases r <;> simp [nullIndices]
  | m :: ms, r => by
    rw [nullIndices]
    cases h : taskIndexFirst g.tasks m with
    | none => cases r <;> simp [h]
    | some i =>
      simp only [R.bind_ok_iff, List.map_cons, h]
      constructor
      · rintro ⟨r', h1, h2⟩
        cases h2
        simp [nullIndices_ok.mp h1]
      · intro h'
        cases r with
        | nil => simp at h'
        | cons j r' =>
          simp only [List.map_cons, List.cons.injEq, Option.some.injEq] at h'
          exact ⟨r', nullIndices_ok.mpr h'.2, by rw [h'.1]⟩

theorem idIndices_ok {g : TDG} {h : HTN} : ∀ {l : List Name} {r : List Nat},
    idIndices g h l = .ok r ↔ l.map (fun i => (idToTask h i).bind (taskIndexFirst g.tasks)) = r.map some
  | [], r => by cases r <;> simp [idIndices]
  | m :: ms, r => by
    rw [idIndices]
    cases h1 : idToTask h m with
    | none => cases r <;> simp [h1]
    | some t =>
      cases h2 : taskIndexFirst g.tasks t with
      | none => cases r <;> simp [h1, h2]
      | some i =>
        simp only [h2, R.bind_ok_iff, List.map_cons, h1, Option.bind_some]
        constructor
        · rintro ⟨r', h3, h4⟩
          cases h4
          simp [idIndices_ok.mp h3]
        · intro h'
          cases r with
          | nil => simp at h'
          | cons j r' =>
            simp only [List.map_cons, List.cons.injEq, Option.some.injEq] at h'
            exact ⟨r', idIndices_ok.mpr h'.2, by rw [h'.1]⟩

theorem map_some_of {α β} {f : α → Option β} : ∀ {l : List α}, (∀ x ∈ l, ∃ y, f x = some y) → ∃ r : List β, l.map f = r.map some
  | [], _ => ⟨[], rfl⟩
  | a :: l, h => by
    obtain ⟨y, hy⟩ := h a List.mem_cons_self
    obtain ⟨r, hr⟩ := map_some_of (f := f) fun x hx => h x (List.mem_cons_of_mem (a := x) a hx)
    exact ⟨y :: r, by simp [hy, hr]⟩

theorem mem_map_some {α β} {f : α → Option β} {l : List α} {r : List β} (h : l.map f = r.map some) {y : β} :
    y ∈ r ↔ ∃ x ∈ l, f x = some y := by
  have : some y ∈ r.map some ↔ y ∈ r := by simp
  rw [← this, ← h, List.mem_map]

theorem idToTask_iff {h : HTN} {i : Name} : (∃ x, idToTask h i = some x) ↔ ∃ y, Labels h y i := by
  unfold idToTask Labels
  simp only [Option.map_eq_some_iff]
  constructor
  · rintro ⟨_, s, hs, rfl⟩
    have h1 := List.mem_of_find?_eq_some hs
    have h2 := List.find?_some hs
    rw [List.mem_reverse] at h1
    split at h2
    · rename_i id hid
      exact ⟨_, s, h1, rfl, id, hid, by simpa using h2⟩
    · cases h2
  · rintro ⟨y, s, hs, _, id, hid, hi⟩
    cases hf : h.subtasks.reverse.find? (fun s => match s.id with | some j => decide (j.name = i) | none => false) with
    | some s' => exact ⟨_, s', rfl, rfl⟩
    | none =>
      rw [List.find?_eq_none] at hf
      exact absurd (by simp [hid, hi]) (hf s (List.mem_reverse.mpr hs))

theorem idToTask_labels {h : HTN} {i x : Name} (hx : idToTask h i = some x) : Labels h x i := by
  unfold idToTask at hx
  obtain ⟨s, hs, rfl⟩ := Option.map_eq_some_iff.mp hx
  have h1 := List.mem_of_find?_eq_some hs
  have h2 := List.find?_some hs
  rw [List.mem_reverse] at h1
  split at h2
  · rename_i id hid
    exact ⟨s, h1, rfl, id, hid, by simpa using h2⟩
  · cases h2

/-- The subtasks before the first subtask `x`. -/
def beforeTask (h : HTN) (x : Name) : List Subtask := h.subtasks.takeWhile fun s => s.task.name ≠ x

/-- The subtasks after the first subtask `x`. -/
def afterTask (h : HTN) (x : Name) : List Subtask := (h.subtasks.dropWhile fun s => s.task.name ≠ x).tail

theorem findIdx_take {α} {p : α → Bool} : ∀ {l : List α} {i : Nat}, l.findIdx? p = some i →
    l.take i = l.takeWhile (fun x => !p x) ∧ l.drop (i + 1) = (l.dropWhile (fun x => !p x)).tail
  | [], i, h => by simp at h
  | a :: l, i, h => by
    rw [List.findIdx?_cons] at h
    by_cases ha : p a
    · rw [if_pos ha] at h
      cases h
      simp [ha]
    · rw [if_neg ha] at h
      obtain ⟨j, hj, rfl⟩ := Option.map_eq_some_iff.mp h
      obtain ⟨h1, h2⟩ := findIdx_take hj
      simp [ha, h1, h2]

theorem findIdx_context {h : HTN} {x : Name} {i : Nat} (hi : h.subtasks.findIdx? (fun s => s.task.name = x) = some i) :
    h.subtasks.take i = beforeTask h x ∧ h.subtasks.drop (i + 1) = afterTask h x := by
  have := findIdx_take hi
  simpa only [beforeTask, afterTask, ne_eq, decide_not] using this

namespace TDG

variable {g : TDG} {t m : Nat}

/-- The names of the prefix: the subtasks before, or none in a partial order. -/
def prefixNames (h : HTN) (x : Name) : List Name :=
  match h.orderings with
  | .total => (beforeTask h x).map (·.task.name)
  | .partial_ _ => []

/-- Membership in the suffix: the subtasks after, or those whose labels are ordered after. -/
def InSuffix (h : HTN) (x y : Name) : Prop :=
  match h.orderings with
  | .total => ∃ s ∈ afterTask h x, s.task.name = y
  | .partial_ _ => ∃ i j, Labels h x i ∧ Relation.TransGen (Before h) i j ∧ idToTask h j = some y

theorem before_eq {h : HTN} {os : List (Name × Name)} (ho : h.orderings = .partial_ os) :
    Before h = fun a b => (a, b) ∈ os := by
  funext a b
  simp [Before, ho]

theorem getPrefix_ok {n : Nat} {r : List Nat} (h : g.getPrefix ord n t m = .ok r) :
    (prefixNames (g.method m).2 (g.taskName t)).map (taskIndexFirst g.tasks) = r.map some ∧
    ∀ os, (g.method m).2.orderings = .partial_ os → os.length = (g.method m).2.subtasks.length - 1 ∧
      ∀ i j k, Labels (g.method m).2 (g.taskName t) i → Before (g.method m).2 i j →
        Labels (g.method m).2 (g.taskName t) k → ¬ k <:+: j := by
  unfold getPrefix at h
  unfold prefixNames
  simp only at h
  split at h
  · rename_i ho
    rw [ho]
    refine ⟨?_, fun os h' => by cases h'⟩
    split at h
    · rename_i i hi
      rw [(findIdx_context hi).1] at h
      have := subIndices_ok.mp h
      simpa [Function.comp_def] using this
    · cases h
  · rename_i os ho
    rw [ho]
    split at h
    · cases h
    · rename_i hlen
      obtain ⟨_, h1, h2⟩ := R.bind_ok_iff.mp h
      cases h2
      refine ⟨rfl, fun os' ho' => ?_⟩
      cases ho'
      refine ⟨by simpa using hlen, fun i j k hi hj hk hinf => ?_⟩
      have := prefixLoop_ok h1 i (by rw [List.mem_reverse, mem_arrange, mem_occurrences]; exact hi)
      have hmem : k ∈ prefixHits os (occurrences (g.method m).2 (g.taskName t)) i :=
        mem_prefixHits.mpr ⟨mem_occurrences.mpr hk, j, by rw [before_eq ho] at hj; exact hj, hinf⟩
      rw [this] at hmem
      cases hmem

theorem getSuffix_ok {n : Nat} {r : List Nat} (h : g.getSuffix ord n t m = .ok r) :
    (∀ i, i ∈ r ↔ ∃ y, InSuffix (g.method m).2 (g.taskName t) y ∧ taskIndexFirst g.tasks y = some i) ∧
    ∀ os, (g.method m).2.orderings = .partial_ os → os.length = (g.method m).2.subtasks.length - 1 ∧
      ∀ i j, Labels (g.method m).2 (g.taskName t) i → Relation.TransGen (Before (g.method m).2) i j →
        ¬ Relation.TransGen (Before (g.method m).2) j j ∧ ∃ y, Labels (g.method m).2 y j := by
  unfold getSuffix at h
  unfold InSuffix
  simp only at h
  split at h
  · rename_i ho
    rw [ho]
    refine ⟨?_, fun os h' => by cases h'⟩
    split at h
    · rename_i i hi
      rw [(findIdx_context hi).2] at h
      have := subIndices_ok.mp h
      intro i
      rw [mem_map_some this]
      constructor
      · rintro ⟨s, h1, h2⟩; exact ⟨_, ⟨s, h1, rfl⟩, h2⟩
      · rintro ⟨_, ⟨s, h1, rfl⟩, h2⟩; exact ⟨s, h1, h2⟩
    · cases h
  · rename_i os ho
    rw [ho]
    split at h
    · cases h
    · rename_i hlen
      obtain ⟨ids, h1, h2⟩ := R.bind_ok_iff.mp h
      obtain ⟨h3, h4⟩ := suffixLoop_ok h1
      have h5 := idIndices_ok.mp h2
      have hids : ∀ j, j ∈ ids ↔ ∃ i, Labels (g.method m).2 (g.taskName t) i ∧
          Relation.TransGen (Before (g.method m).2) i j := by
        intro j
        rw [h4, before_eq ho]
        simp only [List.not_mem_nil, List.mem_reverse, mem_arrange, mem_occurrences, false_or]
      refine ⟨fun i => ?_, fun os' ho' => ?_⟩
      · rw [mem_map_some h5]
        constructor
        · rintro ⟨j, hj, he⟩
          obtain ⟨y, hy, hi⟩ := Option.bind_eq_some_iff.mp he
          obtain ⟨k, hk, hkj⟩ := (hids j).mp hj
          exact ⟨y, ⟨k, j, hk, hkj, hy⟩, hi⟩
        · rintro ⟨y, ⟨k, j, hk, hkj, hy⟩, hi⟩
          exact ⟨j, (hids j).mpr ⟨k, hk, hkj⟩, by rw [hy, Option.bind_some, hi]⟩
      · cases ho'
        refine ⟨by simpa using hlen, fun i j hi hj => ⟨?_, ?_⟩⟩
        · rw [before_eq ho] at hj ⊢
          exact acc_iff.mp (h3 i (by rw [List.mem_reverse, mem_arrange, mem_occurrences]; exact hi)) j hj.to_reflTransGen
        · have hm : (idToTask (g.method m).2 j).bind (taskIndexFirst g.tasks) ∈
              ids.map (fun i => (idToTask (g.method m).2 i).bind (taskIndexFirst g.tasks)) :=
            List.mem_map.mpr ⟨j, (hids j).mpr ⟨i, hi, hj⟩, rfl⟩
          rw [h5] at hm
          obtain ⟨k, _, hk⟩ := List.mem_map.mp hm
          obtain ⟨y, hy, _⟩ := Option.bind_eq_some_iff.mp hk.symm
          exact idToTask_iff.mp ⟨y, hy⟩

theorem tractable_of {n n' : Nat} {r r' : List Nat} (h : g.getPrefix ord n t m = .ok r)
    (h' : g.getSuffix ord n' t m = .ok r') : Tractable (g.method m).2 (g.taskName t) := fun os ho =>
  ⟨((getPrefix_ok h).2 os ho).1, ((getPrefix_ok h).2 os ho).2, ((getSuffix_ok h').2 os ho).2⟩

theorem context_term (hT : Tractable (g.method m).2 (g.taskName t))
    (hA : ∃ s ∈ (g.method m).2.subtasks, s.task.name = g.taskName t)
    (hB : ∀ s ∈ (g.method m).2.subtasks, ∃ i, taskIndexFirst g.tasks s.task.name = some i) :
    ∃ N, ∀ n, N ≤ n → (∃ r, g.getPrefix ord n t m = .ok r) ∧ ∃ r, g.getSuffix ord n t m = .ok r := by
  suffices h : ∃ N, (∃ r, g.getPrefix ord N t m = .ok r) ∧ ∃ r, g.getSuffix ord N t m = .ok r by
    obtain ⟨N, ⟨r, h1⟩, r', h2⟩ := h
    refine ⟨N, fun n hn => ⟨⟨r, ?_⟩, r', ?_⟩⟩
    · rw [(getPrefix_le g ord hn t m).eq (by rw [h1]; simp), h1]
    · rw [(getSuffix_le g ord hn t m).eq (by rw [h2]; simp), h2]
  unfold getPrefix getSuffix
  simp only
  cases ho : (g.method m).2.orderings with
  | total =>
    refine ⟨0, ?_⟩
    cases hf : (g.method m).2.subtasks.findIdx? (fun s => decide (s.task.name = g.taskName t)) with
    | none =>
      rw [List.findIdx?_eq_none_iff] at hf
      obtain ⟨s, hs, he⟩ := hA
      have := hf s hs
      simp [he] at this
    | some i =>
      constructor
      · obtain ⟨r, hr⟩ := map_some_of (l := (g.method m).2.subtasks.take i)
          (f := fun s => taskIndexFirst g.tasks s.task.name) fun s hs => hB s (List.mem_of_mem_take hs)
        exact ⟨r, subIndices_ok.mpr hr⟩
      · obtain ⟨r, hr⟩ := map_some_of (l := (g.method m).2.subtasks.drop (i + 1))
          (f := fun s => taskIndexFirst g.tasks s.task.name) fun s hs => hB s (List.mem_of_mem_drop hs)
        exact ⟨r, subIndices_ok.mpr hr⟩
  | partial_ os =>
    obtain ⟨h1, h2, h3⟩ := hT os ho
    simp only [h1, ne_eq, not_true_eq_false, if_false]
    have hp : ∀ i ∈ (arrange ord [3, t, m] (occurrences (g.method m).2 (g.taskName t))).reverse,
        prefixHits os (occurrences (g.method m).2 (g.taskName t)) i = [] := by
      intro i hi
      rw [List.mem_reverse, mem_arrange, mem_occurrences] at hi
      rw [List.eq_nil_iff_forall_not_mem]
      intro k hk
      obtain ⟨a, j, b, c⟩ := mem_prefixHits.mp hk
      exact h2 i j k hi (by rw [before_eq ho]; exact b) (mem_occurrences.mp a) c
    rw [before_eq ho] at h3
    obtain ⟨N, hN⟩ := suffixLoop_term (ord := ord) (site := [5, t, m]) (os := os)
      (stack := (arrange ord [4, t, m] (occurrences (g.method m).2 (g.taskName t))).reverse) (by
        intro i hi
        rw [List.mem_reverse, mem_arrange, mem_occurrences] at hi
        refine acc_iff.mpr fun j hj hc => ?_
        rcases Relation.reflTransGen_iff_eq_or_transGen.mp hj with rfl | hj
        · exact (h3 j j hi hc).1 hc
        · exact (h3 i j hi hj).1 hc)
    obtain ⟨ids, hids⟩ := hN []
    have hids' := (suffixLoop_ok hids).2
    obtain ⟨r, hr⟩ := map_some_of (l := ids) (f := fun i => (idToTask (g.method m).2 i).bind (taskIndexFirst g.tasks)) (by
      intro j hj
      rw [hids'] at hj
      simp only [List.not_mem_nil, List.mem_reverse, mem_arrange, mem_occurrences, false_or] at hj
      obtain ⟨i, hi, hij⟩ := hj
      obtain ⟨y, hy⟩ := idToTask_iff.mpr (h3 i j hi hij).2
      obtain ⟨s, hs, he, _⟩ := idToTask_labels hy
      obtain ⟨k, hk⟩ := hB s hs
      exact ⟨k, by rw [hy, Option.bind_some, ← he, hk]⟩)
    refine ⟨max N (arrange ord [3, t, m] (occurrences (g.method m).2 (g.taskName t))).reverse.length, ⟨[], ?_⟩, r, ?_⟩
    · rw [prefixLoop_term (Nat.le_max_right _ _) hp]; rfl
    · rw [((suffixLoop_le ord [5, t, m] os) (Nat.le_max_left _ _) _ _).eq (by rw [hids]; simp), hids]
      exact idIndices_ok.mpr hr

end TDG

end Verif
