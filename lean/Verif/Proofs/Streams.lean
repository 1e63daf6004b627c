import Verif.Model.Streams
import Verif.Spec.Streams
import Verif.Proofs.Messages

/-! Reading the output of the commands. -/

namespace Verif

open Spec

theorem linesIn_line {x : Bytes} (h : 10 ∉ x) (r : Bytes) : linesIn (x ++ 10 :: r) = (linesIn r).map (x :: ·) := by
  induction x with
  | nil => simp [linesIn]
  | cons c x ih =>
    simp only [List.mem_cons, not_or] at h
    rw [List.cons_append, linesIn, if_neg (Ne.symm h.1), ih h.2]
    cases linesIn r <;> rfl

theorem linesIn_lines {ls : List Bytes} (h : ∀ x ∈ ls, 10 ∉ x) : linesIn (ls.flatMap (· ++ [10])) = some ls := by
  induction ls with
  | nil => rfl
  | cons x ls ih =>
    rw [List.flatMap_cons, List.append_assoc, List.singleton_append, linesIn_line (h x List.mem_cons_self),
      ih fun y hy => h y (List.mem_cons_of_mem _ hy)]
    rfl

theorem stripped_append (p b : Bytes) : stripped p (p ++ b) = some b := by simp [stripped]

/-! ### Cycles -/

theorem between_ne (r : Bytes) : between r ≠ [] := by
  cases r with
  | nil => simp [between]
  | cons c r =>
    rw [between]
    split
    · simp
    · cases between r <;> simp

theorem between_name {x : Bytes} (h : 40 ∉ x ∧ 41 ∉ x) (r : Bytes) : between (x ++ r) = glue x (between r) := by
  induction x with
  | nil =>
    cases hw : between r with
    | nil => exact absurd hw (between_ne r)
    | cons w ws => simp [glue, hw]
  | cons c x ih =>
    simp only [List.mem_cons, not_or] at h
    have hc : ¬ (c = 40 ∨ c = 41) := by
      rintro (rfl | rfl)
      · exact h.1.1 rfl
      · exact h.2.1 rfl
    rw [List.cons_append, between, if_neg hc, ih ⟨h.1.2, h.2.2⟩]
    cases hw : between r with
    | nil => exact absurd hw (between_ne r)
    | cons w ws => simp [glue]

theorem between_open (r : Bytes) : between (40 :: r) = [] :: between r := rfl

theorem between_close (r : Bytes) : between (41 :: r) = [] :: between r := rfl

/-- The text of some steps. -/
def stepsText (c : List (Bytes × Bytes)) (last : Bytes) : Bytes :=
  c.flatMap (fun p => b!"[" ++ p.1 ++ b!"]-(" ++ p.2 ++ b!")->") ++ (b!"[" ++ last ++ b!"]")

theorem bracketed_brackets (x : Bytes) : bracketed (b!"[" ++ x ++ b!"]") = some x := by
  unfold bracketed
  rw [List.append_assoc, stripped_append]
  exact before_snoc 93 x

theorem read_steps {last : Bytes} (hl : 40 ∉ last ∧ 41 ∉ last) : ∀ {c : List (Bytes × Bytes)},
    (∀ p ∈ c, (40 ∉ p.1 ∧ 41 ∉ p.1) ∧ 40 ∉ p.2 ∧ 41 ∉ p.2) →
    ∃ w ws, between (stepsText c last) = w :: ws ∧ readSteps w ws = some (c, last)
  | [], _ => by
    refine ⟨b!"[" ++ last ++ b!"]", [], ?_, ?_⟩
    · have h : 40 ∉ b!"[" ++ last ++ b!"]" ∧ 41 ∉ b!"[" ++ last ++ b!"]" := by simp [hl.1, hl.2]
      have := between_name h []
      simpa [stepsText, between, glue] using this
    · simp only [readSteps, bracketed_brackets, Option.map_some]
  | (t, m) :: c, h => by
    obtain ⟨w, ws, h1, h2⟩ := read_steps hl (c := c) fun p hp => h p (List.mem_cons_of_mem _ hp)
    obtain ⟨ht, hm⟩ := h (t, m) List.mem_cons_self
    have he : stepsText ((t, m) :: c) last = (b!"[" ++ t ++ b!"]-") ++ 40 :: (m ++ 41 :: (b!"->" ++ stepsText c last)) := by
      simp [stepsText]
    have h3 : 40 ∉ b!"[" ++ t ++ b!"]-" ∧ 41 ∉ b!"[" ++ t ++ b!"]-" := by simp [ht.1, ht.2]
    refine ⟨b!"[" ++ t ++ b!"]-", m :: (b!"->" ++ w) :: ws, ?_, ?_⟩
    · rw [he, between_name h3, between_open, between_name hm, between_close, between_name (by decide), h1]
      simp [glue]
    · have h4 : (before 45 (b!"[" ++ t ++ b!"]-")).bind bracketed = some t := by
        rw [show b!"[" ++ t ++ b!"]-" = (b!"[" ++ t ++ b!"]") ++ [45] by simp, before_snoc]
        exact bracketed_brackets t
      rw [readSteps, h4, stripped_append]
      simp only [Option.bind_eq_bind, Option.bind_some, h2]

theorem read_cycle {t : Bytes} {m : Bytes} {c : List (Bytes × Bytes)}
    (h : ∀ p ∈ (t, m) :: c, (40 ∉ p.1 ∧ 41 ∉ p.1) ∧ 40 ∉ p.2 ∧ 41 ∉ p.2) :
    readCycle (stepsText ((t, m) :: c) t) = some ((t, m) :: c) := by
  obtain ⟨w, ws, h1, h2⟩ := read_steps (h _ List.mem_cons_self).1 h
  rw [readCycle, h1]
  simp [h2]

/-! ### Metadata -/

/-- The lines with the nullable tasks. -/
def nullLines : List Bytes → List Bytes
  | [] => [b!"\tNullable Tasks: None"]
  | x :: l => b!"\tNullable Tasks:" :: (x :: l).map (b!"\t\t" ++ ·)

/-- The lines after the class and the cycle. -/
def tailLines (nulls : List Bytes) (a t m : Nat) : List Bytes :=
  nullLines nulls ++
  [b!"\tNumber of actions: " ++ Verif.decimal a, b!"\tNumber of abstract tasks: " ++ Verif.decimal t,
    b!"\tNumber of methods: " ++ Verif.decimal m, []]

theorem read_nulls {l : Bytes} (ls : List Bytes) (h : stripped b!"\t\t" l = none) : ∀ nulls : List Bytes,
    readNulls (nulls.map (b!"\t\t" ++ ·) ++ l :: ls) = (nulls, l :: ls)
  | [] => by simp [readNulls, h]
  | x :: nulls => by
    rw [List.map_cons, List.cons_append, readNulls, stripped_append]
    simp only [read_nulls ls h nulls]

theorem read_totals (cls : Class) (cycle : List (Bytes × Bytes)) (nulls : List Bytes) (a t m : Nat) :
    readTotals cls cycle nulls [b!"\tNumber of actions: " ++ Verif.decimal a, b!"\tNumber of abstract tasks: " ++ Verif.decimal t,
      b!"\tNumber of methods: " ++ Verif.decimal m, []] = some ⟨cls, cycle, nulls, a, t, m⟩ := by
  simp only [readTotals, stripped_append, Option.bind_eq_bind, Option.bind_some, readNumber_decimal, if_true]

theorem read_tail (cls : Class) (cycle : List (Bytes × Bytes)) (nulls : List Bytes) (a t m : Nat) :
    readTasks cls cycle (tailLines nulls a t m) = some ⟨cls, cycle, nulls, a, t, m⟩ := by
  cases nulls with
  | nil =>
    rw [tailLines, nullLines, List.singleton_append, readTasks, if_pos rfl]
    exact read_totals ..
  | cons x l =>
    rw [tailLines, nullLines, List.cons_append, readTasks, if_neg (by decide), if_pos rfl, read_nulls _ (by
      simp [stripped])]
    exact read_totals ..

theorem decimal_line (n : Nat) : 10 ∉ Verif.decimal n := by
  intro h
  have := (decimal_digits n).2 _ h
  exact absurd this (by decide)

theorem tail_lines {nulls : List Bytes} (h : ∀ x ∈ nulls, 10 ∉ x) (a t m : Nat) : ∀ x ∈ tailLines nulls a t m, 10 ∉ x := by
  intro x hx
  have hd := decimal_line
  rw [tailLines, List.mem_append] at hx
  rcases hx with hx | hx
  · cases nulls with
    | nil =>
      rw [nullLines, List.mem_singleton] at hx
      subst hx
      decide
    | cons y l =>
      rw [nullLines, List.mem_cons] at hx
      rcases hx with rfl | hx
      · decide
      · obtain ⟨z, hz, rfl⟩ := List.mem_map.mp hx
        simp [h z hz]
  · simp only [List.mem_cons, List.not_mem_nil, or_false] at hx
    rcases hx with rfl | rfl | rfl | rfl <;> simp [hd]

/-- The text for the nullable tasks. -/
def nullText : List Name → Text
  | [] => [.s "\tNullable Tasks: None\n"]
  | x :: l => .s "\tNullable Tasks:\n" :: ((x :: l).map fun x => [.s "\t\t", .n x, .s "\n"]).flatten

/-- The text has these lines. -/
theorem tail_bytes (nulls : List Bytes) (a t m : Nat) :
    Text.bytes (nullText nulls ++
      [.s "\tNumber of actions: ", .i a, .s "\n", .s "\tNumber of abstract tasks: ", .i t, .s "\n",
        .s "\tNumber of methods: ", .i m, .s "\n"]) ++ [10] = (tailLines nulls a t m).flatMap (· ++ [10]) := by
  rw [tailLines, List.flatMap_append, bytes_append, List.append_assoc]
  congr 1
  · cases nulls with
    | nil => simp [nullText, nullLines, bytes_s, bytes_nil, keyLit]
    | cons x l =>
      rw [nullText, nullLines]
      simp only [bytes_s, keyLit, List.flatMap_cons]
      refine congrArg₂ _ (by simp) ?_
      generalize x :: l = l
      induction l with
      | nil => rfl
      | cons x l ih =>
        rw [List.map_cons, List.flatten_cons, bytes_append, ih, List.map_cons, List.flatMap_cons]
        simp [bytes_s, bytes_n, bytes_nil, keyLit]
  · simp [bytes_s, bytes_i, bytes_nil, keyLit]

end Verif
