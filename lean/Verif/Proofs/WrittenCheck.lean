import Verif.Spec.Lexical

/-! A checker for `Written`, to exhibit concrete files. -/

namespace Verif

open Spec

/-- Splits off layout; the flag tells whether a comment is open. -/
def splitLayout : Bool → Bytes → Bytes × Bytes
  | _, [] => ([], [])
  | false, c :: cs =>
    if Blank c then (c :: (splitLayout false cs).1, (splitLayout false cs).2)
    else if c = 59 then (c :: (splitLayout true cs).1, (splitLayout true cs).2) else ([], c :: cs)
  | true, c :: cs => (c :: (splitLayout (c != 10) cs).1, (splitLayout (c != 10) cs).2)

theorem splitLayout_eq : ∀ (b : Bool) (s : Bytes), (splitLayout b s).1 ++ (splitLayout b s).2 = s
  | _, [] => by simp [splitLayout]
  | false, c :: cs => by
    rw [splitLayout]
    split
    · simp [splitLayout_eq false cs]
    · split
      · simp [splitLayout_eq true cs]
      · simp
  | true, c :: cs => by
    rw [splitLayout]
    simp [splitLayout_eq (c != 10) cs]

/-- Checks layout; the flag tells whether a comment is open. -/
def isLayout : Bool → Bytes → Bool
  | b, [] => !b
  | false, c :: cs => if Blank c then isLayout false cs else if c = 59 then isLayout true cs else false
  | true, c :: cs => isLayout (c != 10) cs

theorem isLayout_spec : ∀ (s : Bytes), (isLayout false s = true → Layout s) ∧
    (isLayout true s = true → ∃ body r, s = body ++ 10 :: r ∧ 10 ∉ body ∧ Layout r)
  | [] => ⟨fun _ => .nil, fun h => by simp [isLayout] at h⟩
  | c :: cs => by
    obtain ⟨h1, h2⟩ := isLayout_spec cs
    refine ⟨fun h => ?_, fun h => ?_⟩
    · rw [isLayout] at h
      split at h
      · rename_i hb
        exact .blank c cs hb (h1 h)
      · split at h
        · rename_i hc
          obtain ⟨body, r, rfl, h3, h4⟩ := h2 h
          rw [hc]
          exact .comment body r h3 h4
        · cases h
    · rw [isLayout] at h
      by_cases hc : c = 10
      · subst hc
        exact ⟨[], cs, rfl, by simp, h1 h⟩
      · have : (c != 10) = true := by simpa using hc
        rw [this] at h
        obtain ⟨body, r, rfl, h3, h4⟩ := h2 h
        refine ⟨c :: body, r, rfl, ?_, h4⟩
        simp only [List.mem_cons, not_or]
        exact ⟨fun h => hc h.symm, h3⟩

/-- Splits off a word, a parenthesis, or another single byte. -/
def splitWord : Bytes → Bytes × Bytes
  | [] => ([], [])
  | c :: cs => if c = 40 ∨ c = 41 then ([c], cs) else ((c :: cs).takeWhile fun c => ¬ Delim c, (c :: cs).dropWhile fun c => ¬ Delim c)

theorem splitWord_eq (s : Bytes) : (splitWord s).1 ++ (splitWord s).2 = s := by
  cases s with
  | nil => rfl
  | cons c cs =>
    rw [splitWord]
    split
    · rfl
    · exact List.takeWhile_append_dropWhile

/-- The token written as the given word. -/
def tokenOf (w : Bytes) : Option Token :=
  if w = [45] then some (.punct .dash)
  else if w = [40] then some (.punct .lparen)
  else if w = [41] then some (.punct .rparen)
  else if w = [60] then some (.op .lt)
  else if w = [61] then some (.op .equal)
  else match w with
    | 58 :: x => (colonTable.find? fun e => e.1 = x).map (·.2)
    | 63 :: x => if Word x then some (.ident x) else none
    | c :: x =>
      match plainTable.find? fun e => e.1 = c :: x with
      | some e => some e.2
      | none => if Word (c :: x) ∧ ¬ Digit c ∧ c ≠ 45 then some (.ident (c :: x)) else none
    | [] => none

theorem tokenOf_spells {w : Bytes} {t : Token} (h : tokenOf w = some t) : Spells t w := by
  unfold tokenOf at h
  split at h
  · rename_i hw; subst hw; cases h; exact .dash
  split at h
  · rename_i hw; subst hw; cases h; exact .lparen
  split at h
  · rename_i hw; subst hw; cases h; exact .rparen
  split at h
  · rename_i hw; subst hw; cases h; exact .lt
  split at h
  · rename_i hw; subst hw; cases h; exact .equal
  split at h
  · rename_i x _ _ _ _ _
    obtain ⟨e, he, rfl⟩ := Option.map_eq_some_iff.mp h
    have h1 := List.find?_some he
    have h2 := List.mem_of_find?_eq_some he
    simp only [decide_eq_true_eq] at h1
    subst h1
    exact .colon h2
  · split at h
    · rename_i hx; cases h; exact .variable_ hx
    · cases h
  · rename_i c x _ _ _ _ _ _ _
    split at h
    · rename_i e he
      cases h
      have h1 := List.find?_some he
      have h2 := List.mem_of_find?_eq_some he
      simp only [decide_eq_true_eq] at h1
      rw [← h1]
      exact .plain h2
    · rename_i he
      split at h
      · rename_i hx
        cases h
        refine .name ⟨hx.1, ⟨c, x, rfl, hx.2⟩, fun t ht => ?_⟩
        have := List.find?_eq_none.mp he _ ht
        simp at this
      · cases h
  · cases h

/-- Checks for a delimiter. -/
def delimB : Bytes → Bool
  | c :: _ => decide (Delim c)
  | [] => false

theorem delimB_spec {r : Bytes} (h : delimB r = true) : ∃ c, r.head? = some c ∧ Delim c := by
  cases r with
  | nil => cases h
  | cons c r => exact ⟨c, rfl, by simpa [delimB] using h⟩

/-- Checks what follows a token (numbers are left out). -/
def mayFollow (t : Token) (r : Bytes) : Bool :=
  match t with
  | .punct _ | .op .le | .op .ge | .op .equal => true
  | .op .lt | .op .gt => r.head? != some 61
  | .num _ | .eof => false
  | _ => delimB r

theorem mayFollow_spec {t : Token} {r : Bytes} (h : mayFollow t r = true) : Follows t r := by
  cases t with
  | op o =>
    cases o <;> simp only [mayFollow, bne_iff_ne, ne_eq] at h <;> simp only [Follows] <;>
      first | trivial | exact h | exact delimB_spec h
  | num n => cases h
  | eof => cases h
  | punct p => trivial
  | kw k => exact delimB_spec h
  | req k => exact delimB_spec h
  | ident k => exact delimB_spec h

/-- The tokens of a file whose words are all spelled as in `Spells`. -/
def scan : Nat → Nat → Bytes → Option (List (Token × Nat))
  | 0, _, _ => none
  | k + 1, n, s =>
    let a := splitLayout false s
    if isLayout false a.1 then
      if a.2 = [] then some []
      else
        let b := splitWord a.2
        match tokenOf b.1 with
        | none => none
        | some t =>
          if mayFollow t b.2 then (scan k (n + newlines a.1) b.2).map ((t, n + newlines a.1) :: ·) else none
    else none

theorem scan_written : ∀ {k n : Nat} {s : Bytes} {ts : List (Token × Nat)}, scan k n s = some ts → Written ts n s
  | 0, _, _, _, h => by simp [scan] at h
  | k + 1, n, s, ts, h => by
    rw [scan] at h
    simp only at h
    split at h
    · rename_i hl
      have hl := (isLayout_spec _).1 hl
      have he := splitLayout_eq false s
      split at h
      · rename_i hn
        cases h
        rw [hn, List.append_nil] at he
        rw [← he]
        exact .done hl
      · split at h
        · cases h
        · rename_i t ht
          split at h
          · rename_i hf
            obtain ⟨us, hu, rfl⟩ := Option.map_eq_some_iff.mp h
            have := Written.token hl (tokenOf_spells ht) (mayFollow_spec hf) (scan_written hu)
            rw [splitWord_eq, he] at this
            exact this
          · cases h
    · cases h

end Verif
