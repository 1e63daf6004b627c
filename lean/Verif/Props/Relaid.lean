import Verif.Proofs.RelaidLex
import Verif.Props.Comments

/-! C91: the answer moves with the text. -/

namespace Verif

open Spec

variable [Env] {ord : HashOrd} {f f' g g' : Bytes} {Λ Μ : Nat → Nat → Prop} {r : R (List Warning)}

/-- What an answer says about the parser. -/
theorem returns_reading {prob : Option Bytes} (h : Returns ord f prob r) : (∃ a, Parses f a) ∨
    (∃ n e, parse n f = .err e ∧ r = .err e) ∨ ∃ n x, parse n f = .panic x ∧ r = .panic x := by
  obtain ⟨hr, N, hN⟩ := h
  have h1 := hN N (Nat.le_refl _)
  unfold verify at h1
  cases hp : parse N f with
  | ok a => exact .inl ⟨a, .of_ok hp⟩
  | err e => rw [hp] at h1; exact .inr (.inl ⟨N, e, hp, h1.symm⟩)
  | panic x => rw [hp] at h1; exact .inr (.inr ⟨N, x, hp, h1.symm⟩)
  | timeout => rw [hp] at h1; exact absurd h1.symm hr

theorem returns_unread {prob : Option Bytes} {N : Nat} {o : R AST} {s : R (List Warning)} (h : ∀ n, N ≤ n → parse n f = o)
    (ho : (∃ e, o = .err e ∧ s = .err e) ∨ ∃ x, o = .panic x ∧ s = .panic x) : Returns ord f prob s := by
  rcases ho with ⟨e, rfl, rfl⟩ | ⟨x, rfl, rfl⟩ <;>
    exact ⟨by simp, N, fun n hn => by unfold verify; rw [h n hn]; rfl⟩

/-- C91: two domain files that differ only in layout and in the spelling of tokens, up to some place from which on they agree,
get the same answer with the lines of corresponding places. -/
theorem C91_domain (h : Relaid id Λ 1 1 f f') (hr : Returns ord f none r) :
    ∃ r', Returns ord f' none r' ∧ SameAnswer id Λ Λ r r' := by
  rcases returns_reading hr with ⟨a, ha⟩ | ⟨n, e, he, rfl⟩ | ⟨n, x, hx, rfl⟩
  · obtain ⟨A, φ₁, φ₂, h1, rfl, h2⟩ := parses_relaid h ha
    cases A with
    | problem P =>
      have i1 : Returns ord f none (.panic .expectedDomain) := (returns_parsed ha).mpr ⟨by simp, 0, fun _ _ => rfl⟩
      cases hr.det i1
      exact ⟨_, (returns_parsed h2).mpr ⟨by simp, 0, fun _ _ => rfl⟩, .panic⟩
    | domain D =>
      rcases domain_relaid (ord := ord) Function.injective_id h1 ha h2 with ⟨ws, _, i1, i2⟩ | ⟨s, s', i1, i2, i3, _⟩
      · cases hr.det i1
        exact ⟨_, i2, sameAnswer_mv (r := .ok ws) h1 h1 (by simp)⟩
      · cases hr.det (i1 none)
        exact ⟨_, i2 none, i3⟩
  · obtain ⟨e', N, h1, h2, h3⟩ := err_relaid h he
    exact ⟨_, returns_unread h1 (.inl ⟨e', rfl, rfl⟩), .err h2 h3⟩
  · obtain ⟨N, h1⟩ := panic_relaid h hx
    exact ⟨_, returns_unread h1 (.inr ⟨x, rfl, rfl⟩), .panic⟩

theorem returns_reading_problem {d : DomainAST} {ws : List Warning} (hf : Parses f (.domain d)) (ha : Accepts ord d ws)
    (h : Returns ord f (some g) r) : (∃ a, Parses g a) ∨
    (∃ n e, parse n g = .err e ∧ r = .err e) ∨ ∃ n x, parse n g = .panic x ∧ r = .panic x := by
  obtain ⟨hr, N, hN⟩ := (returns_parsed hf).mp h
  obtain ⟨M, hM⟩ := ha
  have h1 := hN (max N M) (by omega)
  simp only [hM (max N M) (by omega), R.bind_ok] at h1
  cases hp : parse (max N M) g with
  | ok a => exact .inl ⟨a, .of_ok hp⟩
  | err e => rw [hp] at h1; exact .inr (.inl ⟨_, e, hp, h1.symm⟩)
  | panic x => rw [hp] at h1; exact .inr (.inr ⟨_, x, hp, h1.symm⟩)
  | timeout => rw [hp] at h1; exact absurd h1.symm hr

theorem returns_unread_problem {d : DomainAST} {ws : List Warning} (hf : Parses f (.domain d)) (ha : Accepts ord d ws) {N : Nat}
    {o : R AST} {s : R (List Warning)} (h : ∀ n, N ≤ n → parse n g = o)
    (ho : (∃ e, o = .err e ∧ s = .err e) ∨ (∃ x, o = .panic x ∧ s = .panic x) ∨
      ∃ d, o = .ok (.domain d) ∧ s = .panic .expectedProblem) : Returns ord f (some g) s := by
  obtain ⟨M, hM⟩ := ha
  rw [returns_parsed hf]
  rcases ho with ⟨e, rfl, rfl⟩ | ⟨x, rfl, rfl⟩ | ⟨d, rfl, rfl⟩ <;>
    exact ⟨by simp, max N M, fun n hn => by simp [hM n (by omega), h n (by omega)]⟩

/-- C91 with a problem: the lines of warnings are lines of the domain file; the lines of an error are lines of the problem file
if the domain is accepted, and otherwise of the domain file. -/
theorem C91_problem (h : Relaid id Λ 1 1 f f') (h' : Relaid id Μ 1 1 g g') (hr : Returns ord f (some g) r) :
    ∃ r', Returns ord f' (some g') r' ∧
      (((∃ ws, Returns ord f none (.ok ws)) ∧ SameAnswer id Λ Μ r r') ∨
        ((¬ ∃ ws, Returns ord f none (.ok ws)) ∧ SameAnswer id Λ Λ r r')) := by
  rcases returns_reading hr with ⟨a, ha⟩ | ⟨n, e, he, rfl⟩ | ⟨n, x, hx, rfl⟩
  · obtain ⟨A, φ₁, φ₂, h1, rfl, h2⟩ := parses_relaid h ha
    cases A with
    | problem P =>
      have i1 : ∀ prob, Returns ord f prob (.panic .expectedDomain) :=
        fun prob => (returns_parsed ha).mpr ⟨by simp, 0, fun _ _ => rfl⟩
      cases hr.det (i1 _)
      refine ⟨_, (returns_parsed h2).mpr ⟨by simp, 0, fun _ _ => rfl⟩, .inr ⟨?_, .panic⟩⟩
      rintro ⟨ws, hws⟩
      cases hws.det (i1 none)
    | domain D =>
      rcases domain_relaid (ord := ord) Function.injective_id h1 ha h2 with ⟨ws, hac, i1, i2⟩ | ⟨s, s', i1, i2, i3, i4⟩
      · have j1 := (accepts_mv (ρ := id) (φ := φ₁) Function.injective_id hac).1
        have j2 := (accepts_mv (ρ := id) (φ := φ₂) Function.injective_id hac).1
        suffices hs : ∃ r', Returns ord f' (some g') r' ∧ SameAnswer id Λ Μ r r' by
          obtain ⟨r', k1, k2⟩ := hs
          exact ⟨r', k1, .inl ⟨⟨_, i1⟩, k2⟩⟩
        rcases returns_reading_problem ha j1 hr with ⟨b, hb⟩ | ⟨n, e, he, rfl⟩ | ⟨n, x, hx, rfl⟩
        · obtain ⟨B, ψ₁, ψ₂, k1, rfl, k2⟩ := parses_relaid h' hb
          cases B with
          | problem P =>
            obtain ⟨s, s', l1, l2, l3⟩ := problem_relaid (ord := ord) Function.injective_id h1 k1 ha h2 hb k2 hac
            cases hr.det l1
            exact ⟨s', l2, l3⟩
          | domain D' =>
            obtain ⟨N, hN⟩ := hb
            obtain ⟨M, hM⟩ := k2
            cases hr.det (returns_unread_problem ha j1 hN (.inr (.inr ⟨_, rfl, rfl⟩)))
            exact ⟨_, returns_unread_problem h2 j2 hM (.inr (.inr ⟨_, rfl, rfl⟩)), .panic⟩
        · obtain ⟨e', N, k1, k2, k3⟩ := err_relaid h' he
          exact ⟨_, returns_unread_problem h2 j2 k1 (.inl ⟨e', rfl, rfl⟩), .err k2 k3⟩
        · obtain ⟨N, k1⟩ := panic_relaid h' hx
          exact ⟨_, returns_unread_problem h2 j2 k1 (.inr (.inl ⟨x, rfl, rfl⟩)), .panic⟩
      · cases hr.det (i1 _)
        refine ⟨_, i2 _, .inr ⟨?_, i3⟩⟩
        rintro ⟨ws, hws⟩
        exact i4 ws ((i1 none).det hws)
  · obtain ⟨e', N, h1, h2, h3⟩ := err_relaid h he
    refine ⟨_, returns_unread h1 (.inl ⟨e', rfl, rfl⟩), .inr ⟨?_, .err h2 h3⟩⟩
    rintro ⟨ws, hws⟩
    cases hws.det (returns_unread (N := n) (fun m hm => by rw [parse_fuel hm (by simp [he]), he]) (.inl ⟨e, rfl, rfl⟩))
  · obtain ⟨N, h1⟩ := panic_relaid h hx
    refine ⟨_, returns_unread h1 (.inr ⟨x, rfl, rfl⟩), .inr ⟨?_, .panic⟩⟩
    rintro ⟨ws, hws⟩
    cases hws.det (returns_unread (N := n) (fun m hm => by rw [parse_fuel hm (by simp [hx]), hx]) (.inr ⟨x, rfl, rfl⟩))

/-- C91: hence, if one of the files is answered, so is the other. -/
theorem C91_ends (h : Relaid id Λ 1 1 f f') : (∃ r, Returns ord f none r) ↔ ∃ r, Returns ord f' none r := by
  constructor
  · rintro ⟨r, hr⟩
    obtain ⟨r', h1, _⟩ := C91_domain h hr
    exact ⟨r', h1⟩
  · rintro ⟨r, hr⟩
    obtain ⟨r', h1, _⟩ := C91_domain h.symm hr
    exact ⟨r', h1⟩

/-- Where a line goes if `k` lines are inserted after line `L`. -/
def insertedAt (L k l : Nat) : Nat := if l ≤ L then l else l + k

/-- C91: layout put in front of a file, whatever the file contains, moves all lines by the number of its line ends. -/
theorem C91_front {lay : Bytes} (hl : Layout lay) (hr : Returns ord f none r) :
    ∃ r', Returns ord (lay ++ f) none r' ∧ SameAnswer id (fun l l' => l' = l + newlines lay) (fun l l' => l' = l + newlines lay) r r' := by
  refine C91_domain (f := f) (.same (lay := []) (fun _ => rfl) .nil hl fun k _ => ?_) hr
  simp only [newlines, List.count_nil]
  omega

omit [Env] in
theorem relaid_insert {ts : List Tk} {n : Nat} {p lay r : Bytes} (hw : Written ts n p) (hp : p.getLast? = some 10) (hl : Layout lay)
    (h1 : ∀ l, n ≤ l → l < n + newlines p → Λ l l)
    (h2 : ∀ l, n + newlines p ≤ l → Λ l (l + newlines lay)) : Relaid id Λ n n (p ++ r) (p ++ (lay ++ r)) := by
  induction hw with
  | @done n lay₀ hl₀ =>
    rw [← List.append_assoc]
    refine .same (fun _ => rfl) hl₀ (hl₀.append hl) fun k _ => ?_
    rw [newlines_append]
    have := h2 (n + newlines lay₀ + k) (by omega)
    rwa [show n + newlines lay₀ + k + newlines lay = n + (newlines lay₀ + newlines lay) + k by omega] at this
  | @token t ts n lay₀ w rest hl₀ hs hf _ ih =>
    have hw0 : newlines w = 0 := (newlines_eq_zero _).2 (spells_not_newline hs)
    have hne : rest ≠ [] := by
      rintro rfl
      rw [List.append_nil, List.getLast?_append_of_ne_nil _ (spells_ne_nil hs)] at hp
      exact spells_not_newline hs (List.mem_of_getLast? hp)
    have hlast : rest.getLast? = some 10 := by
      rwa [← List.append_assoc, List.getLast?_append_of_ne_nil _ hne] at hp
    have hpos : 0 < newlines rest := List.count_pos_iff.mpr (List.mem_of_getLast? hlast)
    simp only [newlines_append, hw0, Nat.zero_add] at h1 h2
    have hfo : ∀ x, Follows t (rest ++ x) := by
      intro x
      obtain ⟨c, cs, rfl⟩ := List.exists_cons_of_ne_nil hne
      unfold Follows at hf ⊢
      split at hf <;> simp_all
    have e : rnToken id t = t := by cases t <;> rfl
    simp only [List.append_assoc]
    exact .token hl₀ hl₀ hs (by rwa [e]) (hfo _) (hfo _) (h1 _ (by omega) (by omega))
      (ih hlast (fun l i1 i2 => h1 l (by omega) (by omega)) fun l i1 => h2 l (by omega))

/-- C91: layout inserted at the end of a line of a file moves the lines behind it and keeps the others.  The part before
consists of tokens; the rest is arbitrary. -/
theorem C91_insert {ts : List Tk} {p q lay : Bytes} (hw : Written ts 1 (p ++ [10])) (hl : Layout lay)
    (hr : Returns ord (p ++ 10 :: q) none r) :
    ∃ r', Returns ord (p ++ 10 :: (lay ++ q)) none r' ∧
      SameAnswer id (fun l l' => l' = insertedAt (1 + newlines p) (newlines lay) l)
        (fun l l' => l' = insertedAt (1 + newlines p) (newlines lay) l) r r' := by
  have e : newlines (p ++ [10]) = newlines p + 1 := by rw [newlines_append]; rfl
  have := relaid_insert (r := q) (Λ := fun l l' => l' = insertedAt (1 + newlines p) (newlines lay) l) hw (by simp) hl
    (fun l i1 i2 => by rw [insertedAt, if_pos (by omega)]) fun l i1 => by rw [insertedAt, if_neg (by omega)]
  simp only [List.append_assoc, List.singleton_append] at this
  exact C91_domain this hr

omit [Env] in
/-- Two files that consist of tokens throughout. -/
theorem relaid_written {ρ : Name → Name} {ts ts' : List Tk} {n n' : Nat} (hw : Written ts n f) (hw' : Written ts' n' f')
    (h : Laid ρ Λ ts ts') (he : Λ (n + newlines f) (n' + newlines f')) : Relaid ρ Λ n n' f f' := by
  induction hw generalizing ts' n' f' with
  | done hl =>
    cases h
    cases hw' with
    | done hl' => exact .done hl hl' he
  | @token t ts n lay w rest hl hs hf _ ih =>
    cases h with
    | @cons _ b _ us h1 h2 =>
      cases hw' with
      | @token t' _ _ lay' w' rest' hl' hs' hf' hr' =>
        obtain ⟨e, h3⟩ := h1
        dsimp only at e h3
        subst e
        refine .token hl hl' hs hs' hf (by cases t <;> exact hf') h3 (ih hr' h2 ?_)
        rwa [newlines_append, newlines_append, newlines_append, newlines_append, (newlines_eq_zero _).2 (spells_not_newline hs),
          (newlines_eq_zero _).2 (spells_not_newline hs'), Nat.zero_add, Nat.zero_add, ← Nat.add_assoc, ← Nat.add_assoc] at he

/-- C91: a domain whose names are replaced one by one by other names, with other layout, gets the same answer with these names
and the lines of corresponding places. -/
theorem C91_renamed {ρ : Name → Name} (hρ : Function.Injective ρ) {d : DomainAST} (h : Relaid ρ Λ 1 1 f f')
    (hf : Parses f (.domain d)) (hr : Returns ord f none r) :
    ∃ r', Returns ord f' none r' ∧ SameAnswer ρ Λ Λ r r' := by
  obtain ⟨A, φ₁, φ₂, h1, h3, h2⟩ := parses_relaid h hf
  cases A with
  | problem P => cases h3
  | domain D =>
    cases h3
    rcases domain_relaid (ord := ord) hρ h1 hf h2 with ⟨ws, _, i1, i2⟩ | ⟨s, s', i1, i2, i3, _⟩
    · cases hr.det i1
      exact ⟨_, i2, sameAnswer_mv (r := .ok ws) h1 h1 (by simp)⟩
    · cases hr.det (i1 none)
      exact ⟨_, i2 none, i3⟩

/-- C91: likewise with a problem. -/
theorem C91_renamed_problem {ρ : Name → Name} (hρ : Function.Injective ρ) {d : DomainAST} {p : ProblemAST}
    (h : Relaid ρ Λ 1 1 f f') (h' : Relaid ρ Μ 1 1 g g') (hf : Parses f (.domain d)) (hg : Parses g (.problem p))
    (ha : ∃ ws, Returns ord f none (.ok ws)) (hr : Returns ord f (some g) r) :
    ∃ r', Returns ord f' (some g') r' ∧ SameAnswer ρ Λ Μ r r' := by
  obtain ⟨A, φ₁, φ₂, h1, h3, h2⟩ := parses_relaid h hf
  obtain ⟨B, ψ₁, ψ₂, k1, k3, k2⟩ := parses_relaid h' hg
  cases A with
  | problem P => cases h3
  | domain D =>
    cases h3
    cases B with
    | domain D => cases k3
    | problem P =>
      cases k3
      obtain ⟨ws', hws⟩ := ha
      rcases domain_relaid (ord := ord) hρ h1 hf h2 with ⟨ws, hac, _, _⟩ | ⟨s, s', i1, i2, i3, i4⟩
      · obtain ⟨s, s', l1, l2, l3⟩ := problem_relaid (ord := ord) hρ h1 k1 hf h2 hg k2 hac
        cases hr.det l1
        exact ⟨s', l2, l3⟩
      · exact absurd ((i1 none).det hws) (i4 _)

/-! ### Instances -/

/-- The beginning of a domain, and its end: the predicate `p` is declared on lines 2 and 3. -/
def twiceHead : Bytes := b!"(define (domain d)\n(:predicates (p)"

def twiceTail : Bytes := b!"(p)))\n"

omit [Env] in
/-- A comment and an empty line between them move the second line but not the first. -/
example : (∃ ts, Written ts 1 (twiceHead ++ [10])) ∧ Layout b!"; again\n\n" ∧
    @Returns Env.plain HashOrd.id (twiceHead ++ 10 :: twiceTail) none (.err (.semantic (.dupPredicate ⟨b!"p", 2, 3⟩))) ∧
    @Returns Env.plain HashOrd.id (twiceHead ++ 10 :: (b!"; again\n\n" ++ twiceTail)) none
      (.err (.semantic (.dupPredicate ⟨b!"p", 2, 5⟩))) ∧
    insertedAt (1 + newlines twiceHead) (newlines b!"; again\n\n") 2 = 2 ∧
    insertedAt (1 + newlines twiceHead) (newlines b!"; again\n\n") 3 = 5 := by
  refine ⟨?_, .comment b!" again" _ (by decide) (.blank _ _ (by decide) .nil),
    @returns_run Env.plain _ _ _ 40 _ (by decide +kernel) (by simp),
    @returns_run Env.plain _ _ _ 40 _ (by decide +kernel) (by simp), by decide, by decide⟩
  obtain ⟨ts, hs⟩ : ∃ ts, scan 60 1 (twiceHead ++ [10]) = some ts := ⟨_, rfl⟩
  exact ⟨ts, scan_written hs⟩

/-- What C91 says about these files. -/
example (hr : Returns ord (twiceHead ++ 10 :: twiceTail) none r) :
    ∃ r', Returns ord (twiceHead ++ 10 :: (b!"; again\n\n" ++ twiceTail)) none r' ∧
      SameAnswer id (fun l l' => l' = insertedAt 2 2 l) (fun l l' => l' = insertedAt 2 2 l) r r' := by
  obtain ⟨ts, hs⟩ : ∃ ts, scan 60 1 (twiceHead ++ [10]) = some ts := ⟨_, rfl⟩
  exact C91_insert (scan_written hs) (.comment b!" again" _ (by decide) (.blank _ _ (by decide) .nil)) hr

omit [Env] in
/-- A file that cannot be read, with two lines in front of it. -/
example : @Returns Env.plain HashOrd.id b!"(define (domain d)\n(:predicate" none
      (.err (.lexical ⟨.invalidKeyword, b!"predicat", 2⟩)) ∧
    @Returns Env.plain HashOrd.id b!" ;\n\n(define (domain d)\n(:predicate" none
      (.err (.lexical ⟨.invalidKeyword, b!"predicat", 4⟩)) :=
  ⟨@returns_run Env.plain _ _ _ 40 _ (by decide +kernel) (by simp),
    @returns_run Env.plain _ _ _ 40 _ (by decide +kernel) (by simp)⟩

/-- A domain on one line, and the same with an `x` before each name and on three lines. -/
def singleLine : Bytes := b!"(define (domain d) (:predicates (p ?a)) (:action m :parameters (?b) :precondition (p ?c)))\n"

def threeLines : Bytes := b!"(define (domain xd) (:predicates (xp ?xa))\n(:action xm :parameters (?xb) ; or ?c\n:precondition (xp ?xc)))\n"

omit [Env] in
/-- The undeclared `?c` on line 1 becomes the undeclared `?xc` on line 3. -/
example : Function.Injective (fun x : Name => (120 :: x : Name)) ∧
    Relaid (fun x => 120 :: x) (fun l l' => l ≤ l') 1 1 singleLine threeLines ∧
    @Returns Env.plain HashOrd.id singleLine none (.err (.semantic (.undefParameter ⟨b!"c", 1⟩))) ∧
    @Returns Env.plain HashOrd.id threeLines none (.err (.semantic (.undefParameter ⟨b!"xc", 3⟩))) := by
  refine ⟨fun x y h => (List.cons.inj h).2, ?_, @returns_run Env.plain _ _ _ 40 _ (by decide +kernel) (by simp),
    @returns_run Env.plain _ _ _ 40 _ (by decide +kernel) (by simp)⟩
  obtain ⟨ts, hs⟩ : ∃ ts, scan 120 1 singleLine = some ts := ⟨_, rfl⟩
  obtain ⟨ts', hs'⟩ : ∃ ts', scan 120 1 threeLines = some ts' := ⟨_, rfl⟩
  refine relaid_written (scan_written hs) (scan_written hs') ?_ (by decide)
  cases hs
  cases hs'
  repeat' first | exact .nil | refine .cons ⟨rfl, by decide⟩ ?_

end Verif
