import Verif.Spec.Json
import Verif.Model.JsonText

/-! The JSON grammar is unambiguous, and the writer follows it. -/

namespace Verif.Spec.JSON

theorem blank_prefix {w w' : Bytes} {a b : UInt8} {r r' : Bytes} (h : Blank w) (h' : Blank w') (ha : ¬ Blank [a])
    (hb : ¬ Blank [b]) (e : w ++ a :: r = w' ++ b :: r') : w = w' ∧ a = b ∧ r = r' := by
  induction w generalizing w' with
  | nil =>
    cases w' with
    | nil => simpa using e
    | cons c w' =>
      simp only [List.nil_append, List.cons_append, List.cons.injEq] at e
      exact absurd (fun x hx => by simp only [List.mem_singleton] at hx; subst hx; rw [e.1]; exact h' c List.mem_cons_self) ha
  | cons c w ih =>
    cases w' with
    | nil =>
      simp only [List.nil_append, List.cons_append, List.cons.injEq] at e
      exact absurd (fun x hx => by simp only [List.mem_singleton] at hx; subst hx; rw [← e.1]; exact h c List.mem_cons_self) hb
    | cons c' w' =>
      simp only [List.cons_append, List.cons.injEq] at e
      obtain ⟨rfl, h1, h2⟩ := ih (fun x hx => h x (List.mem_cons_of_mem _ hx)) (fun x hx => h' x (List.mem_cons_of_mem _ hx)) e.2
      exact ⟨by rw [e.1], h1, h2⟩

theorem hexDigit_det {c : UInt8} {m n : Nat} (h : HexDigit c m) (h' : HexDigit c n) : m = n := by
  simp only [HexDigit, UInt8.le_iff_toNat_le] at h h'
  simp only [UInt8.toNat_ofNat] at h h'
  rcases h with h | h | h <;> rcases h' with h' | h' | h' <;> omega

theorem chars_prefix {x t x' t' r r' : Bytes} (h : Chars x t) (h' : Chars x' t') (e : t ++ 34 :: r = t' ++ 34 :: r') :
    x = x' ∧ t = t' ∧ r = r' := by
  induction h generalizing x' t' with
  | nil =>
    cases h' with
    | nil => simpa using e
    | plain h1 => simp only [List.nil_append, List.cons_append, List.cons.injEq] at e; exact absurd e.1.symm h1
    | escape => simp at e
    | unicode => simp at e
  | @plain c x t h1 h2 h3 h ih =>
    cases h' with
    | nil => simp only [List.nil_append, List.cons_append, List.cons.injEq] at e; exact absurd e.1 h1
    | plain h1 h2 h3 h' =>
      simp only [List.cons_append, List.cons.injEq] at e
      obtain ⟨rfl, rfl, rfl⟩ := ih h' e.2
      exact ⟨by rw [e.1], by rw [e.1], rfl⟩
    | escape => simp only [List.cons_append, List.cons.injEq] at e; exact absurd e.1 h2
    | unicode => simp only [List.cons_append, List.cons.injEq] at e; exact absurd e.1 h2
  | @escape c e0 x t h1 h ih =>
    cases h' with
    | nil => simp at e
    | plain _ h2 => simp only [List.cons_append, List.cons.injEq] at e; exact absurd e.1.symm h2
    | @escape c' e' x' t' h1' h' =>
      simp only [List.cons_append, List.cons.injEq] at e
      obtain ⟨rfl, rfl, rfl⟩ := ih h' e.2.2
      have : c = c' := by
        simp only [List.mem_cons, Prod.mk.injEq, List.not_mem_nil, or_false] at h1 h1'
        rcases h1 with h1 | h1 | h1 | h1 | h1 | h1 | h1 | h1 <;> rcases h1' with h1' | h1' | h1' | h1' | h1' | h1' | h1' | h1' <;>
          first
          | exact h1.2.trans h1'.2.symm
          | exact absurd (h1.1.symm.trans (e.2.1.trans h1'.1)) (by decide)
      exact ⟨by rw [this], by rw [e.2.1], rfl⟩
    | unicode =>
      simp only [List.cons_append, List.cons.injEq] at e
      rw [e.2.1] at h1
      simp at h1
  | @unicode c a b m n x t h1 h2 h3 h4 h ih =>
    cases h' with
    | nil => simp at e
    | plain _ h2 => simp only [List.cons_append, List.cons.injEq] at e; exact absurd e.1.symm h2
    | escape h1' =>
      simp only [List.cons_append, List.cons.injEq] at e
      rw [← e.2.1] at h1'
      simp at h1'
    | @unicode c' a' b' m' n' x' t' h1' h2' h3' h4' h' =>
      simp only [List.cons_append, List.cons.injEq, true_and] at e
      obtain ⟨rfl, rfl, e⟩ := e
      obtain ⟨rfl, rfl, rfl⟩ := ih h' e
      have : c = c' := UInt8.toNat_inj.mp (by rw [h3, h3', hexDigit_det h1 h1', hexDigit_det h2 h2'])
      exact ⟨by rw [this], rfl, rfl⟩

/-- Characters of numbers. -/
def NumChar (c : UInt8) : Prop := Digit c ∨ c = 46 ∨ c = 101 ∨ c = 69 ∨ c = 43 ∨ c = 45

/-- What may follow a number. -/
def Stop (r : Bytes) : Prop := ∀ c ∈ r.head?, ¬ NumChar c

theorem number_prefix {t t' r r' : Bytes} (h : ∀ c ∈ t, NumChar c) (h' : ∀ c ∈ t', NumChar c) (hr : Stop r) (hr' : Stop r')
    (e : t ++ r = t' ++ r') : t = t' := by
  induction t generalizing t' with
  | nil =>
    cases t' with
    | nil => rfl
    | cons c t' =>
      have : r = c :: (t' ++ r') := by simpa using e
      exact absurd (h' c List.mem_cons_self) (hr c (by rw [this]; rfl))
  | cons c t ih =>
    cases t' with
    | nil =>
      have : r' = c :: (t ++ r) := by simpa using e.symm
      exact absurd (h c List.mem_cons_self) (hr' c (by rw [this]; rfl))
    | cons c' t' =>
      simp only [List.cons_append, List.cons.injEq] at e
      rw [e.1, ih (fun x hx => h x (List.mem_cons_of_mem _ hx)) (fun x hx => h' x (List.mem_cons_of_mem _ hx)) e.2]

theorem IntText.chars {t : Bytes} (h : IntText t) : ∀ c ∈ t, NumChar c := fun c hc => .inl (h.2.1 c hc)

theorem RealText.chars {t : Bytes} (h : RealText t) : ∀ c ∈ t, NumChar c := by
  obtain ⟨int, frac, exp, rfl, h1, h2, h3, _⟩ := h
  intro c hc
  simp only [List.mem_append] at hc
  rcases hc with (hc | hc) | hc
  · exact h1.chars c hc
  · rcases h2 with rfl | ⟨ds, rfl, _, h2⟩
    · cases hc
    · rcases List.mem_cons.mp hc with rfl | hc
      · exact .inr (.inl rfl)
      · exact .inl (h2 c hc)
  · rcases h3 with rfl | ⟨e, sign, ds, rfl, he, hs, _, h3⟩
    · cases hc
    · simp only [List.cons_append, List.mem_cons, List.mem_append] at hc
      rcases hc with rfl | hc | hc
      · rcases he with rfl | rfl
        · exact .inr (.inr (.inl rfl))
        · exact .inr (.inr (.inr (.inl rfl)))
      · rcases hs with rfl | rfl | rfl
        · cases hc
        · simp only [List.mem_singleton] at hc; exact .inr (.inr (.inr (.inr (.inl hc))))
        · simp only [List.mem_singleton] at hc; exact .inr (.inr (.inr (.inr (.inr hc))))
      · exact .inl (h3 c hc)

theorem RealText.notInt {t : Bytes} (h : RealText t) (h' : IntText t) : False := by
  obtain ⟨int, frac, exp, rfl, _, h2, h3, h4⟩ := h
  rcases h4 with h4 | h4
  · rcases h2 with rfl | ⟨ds, rfl, _⟩
    · exact h4 rfl
    · exact absurd (h'.2.1 46 (by simp)) (by unfold Digit; decide)
  · rcases h3 with rfl | ⟨e, sign, ds, rfl, he, _⟩
    · exact h4 rfl
    · rcases he with rfl | rfl
      · exact absurd (h'.2.1 101 (by simp)) (by unfold Digit; decide)
      · exact absurd (h'.2.1 69 (by simp)) (by unfold Digit; decide)

theorem IntText.head {t : Bytes} (h : IntText t) : ∃ c s, t = c :: s ∧ Digit c := by
  cases t with
  | nil => exact absurd rfl h.1
  | cons c s => exact ⟨c, s, rfl, h.2.1 c List.mem_cons_self⟩

theorem RealText.head {t : Bytes} (h : RealText t) : ∃ c s, t = c :: s ∧ Digit c := by
  obtain ⟨int, frac, exp, rfl, h1, _⟩ := h
  obtain ⟨c, s, rfl, hc⟩ := h1.head
  exact ⟨c, s ++ frac ++ exp, by simp, hc⟩

/-- Kinds of values that are told apart by the first character. -/
def kind : Json → Nat
  | .null => 0
  | .num _ => 1
  | .real _ => 1
  | .str _ => 2
  | .arr _ => 3
  | .obj _ => 4

/-- The first character of a value of a kind. -/
def Heads : Nat → UInt8 → Prop
  | 0, c => c = 110
  | 1, c => Digit c
  | 2, c => c = 34
  | 3, c => c = 91
  | 4, c => c = 123
  | _, _ => False

theorem heads_blank {k : Nat} {c : UInt8} (h : Heads k c) : ¬ Blank [c] := by
  intro hb
  have := hb c List.mem_cons_self
  unfold Heads at h
  split at h <;> first
    | exact h
    | (subst h; revert this; decide)
    | (rcases this with rfl | rfl | rfl | rfl <;> (revert h; unfold Digit; decide))

theorem heads_close {k : Nat} {c : UInt8} (h : Heads k c) : c ≠ 93 ∧ c ≠ 125 := by
  constructor <;> rintro rfl <;> revert h <;> unfold Heads <;> split <;> first | (unfold Digit; decide) | decide | exact id

theorem heads_det {k k' : Nat} {c : UInt8} (h : Heads k c) (h' : Heads k' c) : k = k' := by
  unfold Heads at h h'
  split at h <;> split at h' <;> first
    | rfl
    | exact h.elim
    | exact h'.elim
    | (subst h; revert h'; first | decide | (unfold Digit; decide))
    | (subst h'; revert h; unfold Digit; decide)

theorem spells_head {j : Json} {t : Bytes} (h : Spells j t) : ∃ c s, t = c :: s ∧ Heads (kind j) c := by
  cases h with
  | null => exact ⟨_, _, rfl, rfl⟩
  | num h => exact h.head
  | real h => exact h.head
  | _ => exact ⟨_, _, rfl, rfl⟩

theorem spells_kind {j j' : Json} {t t' r r' : Bytes} (h : Spells j t) (h' : Spells j' t') (e : t ++ r = t' ++ r') :
    kind j = kind j' := by
  obtain ⟨c, s, rfl, h1⟩ := spells_head h
  obtain ⟨c', s', rfl, h2⟩ := spells_head h'
  simp only [List.cons_append, List.cons.injEq] at e
  rw [← e.1] at h2
  exact heads_det h1 h2

theorem stop_blank {w : Bytes} {a : UInt8} {r : Bytes} (h : Blank w) (ha : ¬ NumChar a) : Stop (w ++ a :: r) := by
  cases w with
  | nil => intro c hc; cases hc; exact ha
  | cons c w =>
    intro x hx
    cases hx
    rcases h c List.mem_cons_self with rfl | rfl | rfl | rfl <;> (unfold NumChar Digit; decide)

/-- A value with white space around it and a closing character. -/
theorem value_prefix {j j' : Json} {t t' w w' v v' r r' : Bytes} {a b : UInt8}
    (ih : ∀ {j' t' r r'}, Spells j' t' → Stop r → Stop r' → t ++ r = t' ++ r' → j = j' ∧ t = t')
    (h : Spells j t) (h' : Spells j' t') (hw : Blank w) (hw' : Blank w') (hv : Blank v) (hv' : Blank v')
    (ha : ¬ NumChar a ∧ ¬ Blank [a]) (hb : ¬ NumChar b ∧ ¬ Blank [b])
    (e : w ++ (t ++ (v ++ a :: r)) = w' ++ (t' ++ (v' ++ b :: r'))) :
    w = w' ∧ j = j' ∧ t = t' ∧ v = v' ∧ a = b ∧ r = r' := by
  obtain ⟨c, s, hs, h1⟩ := spells_head h
  obtain ⟨c', s', hs', h2⟩ := spells_head h'
  have e0 : w = w' ∧ c = c' ∧ s ++ (v ++ a :: r) = s' ++ (v' ++ b :: r') :=
    blank_prefix hw hw' (heads_blank h1) (heads_blank h2) (by simpa [hs, hs'] using e)
  obtain ⟨rfl, rfl, e1⟩ := e0
  obtain ⟨rfl, rfl⟩ := ih h' (stop_blank hv ha.1) (stop_blank hv' hb.1) (by rw [hs, hs']; simpa using e1)
  rw [List.append_cancel_left_eq, List.append_cancel_left_eq] at e
  obtain ⟨rfl, rfl, rfl⟩ := blank_prefix hv hv' ha.2 hb.2 e
  exact ⟨rfl, rfl, rfl, rfl, rfl, rfl⟩

theorem close93 : ¬ NumChar 93 ∧ ¬ Blank [93] := by unfold NumChar Digit Blank; decide
theorem close125 : ¬ NumChar 125 ∧ ¬ Blank [125] := by unfold NumChar Digit Blank; decide
theorem close44 : ¬ NumChar 44 ∧ ¬ Blank [44] := by unfold NumChar Digit Blank; decide

theorem items_head {l : List Json} {t : Bytes} (h : Items l t) : ∃ w c s, t = w ++ c :: s ∧ Blank w ∧ ¬ Blank [c] ∧ c ≠ 93 := by
  cases h with
  | @one j w t w' hw h =>
    obtain ⟨c, s, rfl, hc⟩ := spells_head h
    exact ⟨w, c, s ++ w', by simp, hw, heads_blank hc, (heads_close hc).1⟩
  | @more j js w t w' r hw h =>
    obtain ⟨c, s, rfl, hc⟩ := spells_head h
    exact ⟨w, c, s ++ w' ++ 44 :: r, by simp, hw, heads_blank hc, (heads_close hc).1⟩

theorem fields_head {l : List (String × Json)} {t : Bytes} (h : Fields l t) : ∃ w s, t = w ++ 34 :: s ∧ Blank w := by
  cases h with
  | one hw => exact ⟨_, _, by simp only [List.append_assoc, List.cons_append]; rfl, hw⟩
  | more hw => exact ⟨_, _, by simp only [List.append_assoc, List.cons_append]; rfl, hw⟩

theorem quote : ¬ Blank [34] := by unfold Blank; decide
theorem colon : ¬ Blank [58] := by unfold Blank; decide

theorem key_inj {k k' : String} (h : k.toByteArray.data.toList = k'.toByteArray.data.toList) : k = k' :=
  String.toByteArray_inj.mp (ByteArray.ext (Array.toList_inj.mp h))

/-- The key of a field and the colon. -/
theorem key_prefix {k k' : String} {w w' kt kt' w1 w1' r r' : Bytes} (hw : Blank w) (hw' : Blank w')
    (h : Chars k.toByteArray.data.toList kt) (h' : Chars k'.toByteArray.data.toList kt') (h1 : Blank w1) (h1' : Blank w1')
    (e : w ++ 34 :: (kt ++ 34 :: (w1 ++ 58 :: r)) = w' ++ 34 :: (kt' ++ 34 :: (w1' ++ 58 :: r'))) :
    w = w' ∧ k = k' ∧ kt = kt' ∧ w1 = w1' ∧ r = r' := by
  obtain ⟨rfl, _, e1⟩ := blank_prefix hw hw' quote quote e
  obtain ⟨hk, rfl, e2⟩ := chars_prefix h h' e1
  obtain ⟨rfl, _, e3⟩ := blank_prefix h1 h1' colon colon e2
  exact ⟨rfl, key_inj hk, rfl, rfl, e3⟩

mutual

theorem spells_prefix : ∀ {j t}, Spells j t → ∀ {j' t' r r'}, Spells j' t' → Stop r → Stop r' → t ++ r = t' ++ r' →
    j = j' ∧ t = t'
  | _, _, .null, j', t', r, r', h', hr, hr', e => by
    have hk := spells_kind .null h' e
    cases h' with
    | null => exact ⟨rfl, rfl⟩
    | _ => exact absurd hk (by simp [kind])
  | _, _, .num h1 h2, j', t', r, r', h', hr, hr', e => by
    have hk := spells_kind (.num h1 h2) h' e
    cases h' with
    | num h1' h2' =>
      obtain rfl := number_prefix h1.chars h1'.chars hr hr' e
      exact ⟨by rw [← h2, h2'], rfl⟩
    | real h1' =>
      obtain rfl := number_prefix h1.chars h1'.chars hr hr' e
      exact (h1'.notInt h1).elim
    | _ => exact absurd hk (by simp [kind])
  | _, _, .real h1, j', t', r, r', h', hr, hr', e => by
    have hk := spells_kind (.real h1) h' e
    cases h' with
    | num h1' h2' =>
      obtain rfl := number_prefix h1.chars h1'.chars hr hr' e
      exact (h1.notInt h1').elim
    | real h1' =>
      obtain rfl := number_prefix h1.chars h1'.chars hr hr' e
      exact ⟨rfl, rfl⟩
    | _ => exact absurd hk (by simp [kind])
  | _, _, .str h, j', t', r, r', h', hr, hr', e => by
    have hk := spells_kind (.str h) h' e
    cases h' with
    | str h' =>
      obtain ⟨rfl, rfl, _⟩ := chars_prefix (r := r) (r' := r') h h' (by simpa using e)
      exact ⟨rfl, rfl⟩
    | _ => exact absurd hk (by simp [kind])
  | _, _, .noItems (w := w) h, j', t', r, r', h', hr, hr', e => by
    have hk := spells_kind (.noItems h) h' e
    cases h' with
    | noItems h' =>
      obtain ⟨rfl, _, _⟩ := blank_prefix (r := r) (r' := r') h h' close93.2 close93.2 (by simpa using e)
      exact ⟨rfl, rfl⟩
    | arr h' =>
      obtain ⟨w', c, s, rfl, h2, h3, h4⟩ := items_head h'
      obtain ⟨_, h5, _⟩ := blank_prefix (r := r) (r' := s ++ [93] ++ r') h h2 close93.2 h3 (by simpa using e)
      exact absurd h5.symm h4
    | _ => exact absurd hk (by simp [kind])
  | _, _, .arr h, j', t', r, r', h', hr, hr', e => by
    have hk := spells_kind (.arr h) h' e
    cases h' with
    | noItems h' =>
      obtain ⟨w', c, s, rfl, h2, h3, h4⟩ := items_head h
      obtain ⟨_, h5, _⟩ := blank_prefix (r := s ++ [93] ++ r) (r' := r') h2 h' h3 close93.2 (by simpa using e)
      exact absurd h5 h4
    | arr h' =>
      obtain ⟨rfl, rfl⟩ := items_prefix h (r := r) (r' := r') h' (by simpa using e)
      exact ⟨rfl, rfl⟩
    | _ => exact absurd hk (by simp [kind])
  | _, _, .noFields (w := w) h, j', t', r, r', h', hr, hr', e => by
    have hk := spells_kind (.noFields h) h' e
    cases h' with
    | noFields h' =>
      obtain ⟨rfl, _, _⟩ := blank_prefix (r := r) (r' := r') h h' close125.2 close125.2 (by simpa using e)
      exact ⟨rfl, rfl⟩
    | obj h' =>
      obtain ⟨w', s, rfl, h2⟩ := fields_head h'
      obtain ⟨_, h5, _⟩ := blank_prefix (r := r) (r' := s ++ [125] ++ r') h h2 close125.2 quote (by simpa using e)
      exact absurd h5 (by decide)
    | _ => exact absurd hk (by simp [kind])
  | _, _, .obj h, j', t', r, r', h', hr, hr', e => by
    have hk := spells_kind (.obj h) h' e
    cases h' with
    | noFields h' =>
      obtain ⟨w', s, rfl, h2⟩ := fields_head h
      obtain ⟨_, h5, _⟩ := blank_prefix (r := s ++ [125] ++ r) (r' := r') h2 h' quote close125.2 (by simpa using e)
      exact absurd h5 (by decide)
    | obj h' =>
      obtain ⟨rfl, rfl⟩ := fields_prefix h (r := r) (r' := r') h' (by simpa using e)
      exact ⟨rfl, rfl⟩
    | _ => exact absurd hk (by simp [kind])

theorem items_prefix : ∀ {l t}, Items l t → ∀ {l' t' r r'}, Items l' t' → t ++ 93 :: r = t' ++ 93 :: r' → l = l' ∧ t = t'
  | _, _, .one hw h hv, l', t', r, r', h', e => by
    cases h' with
    | one hw' h' hv' =>
      obtain ⟨rfl, rfl, rfl, rfl, _⟩ := value_prefix (r := r) (r' := r') (spells_prefix h) h h' hw hw' hv hv' close93 close93
        (by simpa using e)
      exact ⟨rfl, rfl⟩
    | @more _ _ _ _ _ s hw' h' hv' =>
      obtain ⟨_, _, _, _, h5, _⟩ := value_prefix (r := r) (r' := s ++ 93 :: r') (spells_prefix h) h h' hw hw' hv hv' close93
        close44 (by simpa using e)
      exact absurd h5 (by decide)
  | _, _, .more (r := s) hw h hv hr, l', t', r, r', h', e => by
    cases h' with
    | one hw' h' hv' =>
      obtain ⟨_, _, _, _, h5, _⟩ := value_prefix (r := s ++ 93 :: r) (r' := r') (spells_prefix h) h h' hw hw' hv hv' close44
        close93 (by simpa using e)
      exact absurd h5 (by decide)
    | @more _ _ _ _ _ s' hw' h' hv' hr' =>
      obtain ⟨rfl, rfl, rfl, rfl, _, e1⟩ := value_prefix (r := s ++ 93 :: r) (r' := s' ++ 93 :: r') (spells_prefix h) h h' hw hw'
        hv hv' close44 close44 (by simpa using e)
      obtain ⟨rfl, rfl⟩ := items_prefix hr hr' e1
      exact ⟨rfl, rfl⟩

theorem fields_prefix : ∀ {l t}, Fields l t → ∀ {l' t' r r'}, Fields l' t' → t ++ 125 :: r = t' ++ 125 :: r' →
    l = l' ∧ t = t'
  | _, _, .one (w2 := w2) (t := t) (w' := v) hw hk h1 h2 h hv, l', t', r, r', h', e => by
    cases h' with
    | @one _ _ _ _ _ w2' t' v' hw' hk' h1' h2' h' hv' =>
      obtain ⟨rfl, rfl, rfl, rfl, e1⟩ := key_prefix (r := w2 ++ (t ++ (v ++ 125 :: r)))
        (r' := w2' ++ (t' ++ (v' ++ 125 :: r'))) hw hw' hk hk' h1 h1' (by simpa using e)
      obtain ⟨rfl, rfl, rfl, rfl, _⟩ := value_prefix (spells_prefix h) h h' h2 h2' hv hv' close125 close125 e1
      exact ⟨rfl, rfl⟩
    | @more _ _ _ _ _ _ w2' t' v' s hw' hk' h1' h2' h' hv' =>
      obtain ⟨rfl, rfl, rfl, rfl, e1⟩ := key_prefix (r := w2 ++ (t ++ (v ++ 125 :: r)))
        (r' := w2' ++ (t' ++ (v' ++ 44 :: (s ++ 125 :: r')))) hw hw' hk hk' h1 h1' (by simpa using e)
      obtain ⟨_, _, _, _, h5, _⟩ := value_prefix (spells_prefix h) h h' h2 h2' hv hv' close125 close44 e1
      exact absurd h5 (by decide)
  | _, _, .more (w2 := w2) (t := t) (w' := v) (r := s) hw hk h1 h2 h hv hr, l', t', r, r', h', e => by
    cases h' with
    | @one _ _ _ _ _ w2' t' v' hw' hk' h1' h2' h' hv' =>
      obtain ⟨rfl, rfl, rfl, rfl, e1⟩ := key_prefix (r := w2 ++ (t ++ (v ++ 44 :: (s ++ 125 :: r))))
        (r' := w2' ++ (t' ++ (v' ++ 125 :: r'))) hw hw' hk hk' h1 h1' (by simpa using e)
      obtain ⟨_, _, _, _, h5, _⟩ := value_prefix (spells_prefix h) h h' h2 h2' hv hv' close44 close125 e1
      exact absurd h5 (by decide)
    | @more _ _ _ _ _ _ w2' t' v' s' hw' hk' h1' h2' h' hv' hr' =>
      obtain ⟨rfl, rfl, rfl, rfl, e1⟩ := key_prefix (r := w2 ++ (t ++ (v ++ 44 :: (s ++ 125 :: r))))
        (r' := w2' ++ (t' ++ (v' ++ 44 :: (s' ++ 125 :: r')))) hw hw' hk hk' h1 h1' (by simpa using e)
      obtain ⟨rfl, rfl, rfl, rfl, _, e2⟩ := value_prefix (spells_prefix h) h h' h2 h2' hv hv' close44 close44 e1
      obtain ⟨rfl, rfl⟩ := fields_prefix hr hr' e2
      exact ⟨rfl, rfl⟩

end

/-- A text is that of at most one value. -/
theorem JsonText.det {j j' : Json} {t : Bytes} (h : JsonText j t) (h' : JsonText j' t) : j = j' := by
  obtain ⟨w, s, v, hw, h, hv, rfl⟩ := h
  obtain ⟨w', s', v', hw', h', hv', e⟩ := h'
  obtain ⟨c, q, hs, h1⟩ := spells_head h
  obtain ⟨c', q', hs', h2⟩ := spells_head h'
  obtain ⟨rfl, _, _⟩ := blank_prefix (r := q ++ v) (r' := q' ++ v') hw hw' (heads_blank h1) (heads_blank h2)
    (by rw [hs, hs'] at e; simpa using e)
  have stop {v : Bytes} (h : Blank v) : Stop v := by
    cases v with
    | nil => intro c hc; cases hc
    | cons a v =>
      refine stop_blank (w := []) (fun _ h => nomatch h) ?_
      rcases h a List.mem_cons_self with rfl | rfl | rfl | rfl <;> (unfold NumChar Digit; decide)
  exact (spells_prefix h h' (stop hv) (stop hv') (by simpa using e)).1

/-! ### The writer -/

theorem digitsValue_snoc (t : Bytes) (c : UInt8) : digitsValue (t ++ [c]) = 10 * digitsValue t + (c.toNat - 48) := by
  simp [digitsValue, List.foldl_append]

theorem digit_toNat {n : Nat} (h : n < 10) : (48 + n.toUInt8 : UInt8).toNat = 48 + n := by
  have : (n.toUInt8).toNat = n := by simp; omega
  rw [UInt8.toNat_add, this]
  simp only [UInt8.toNat_ofNat]
  omega

theorem digit_digit {n : Nat} (h : n < 10) : Digit (48 + n.toUInt8) := by
  unfold Digit
  rw [UInt8.le_iff_toNat_le, UInt8.le_iff_toNat_le, digit_toNat h]
  simp only [UInt8.toNat_ofNat]
  omega

theorem decimal_ok (n : Nat) : IntText (decimal n) ∧ digitsValue (decimal n) = n ∧ (n ≠ 0 → (decimal n).head? ≠ some 48) := by
  induction n using Nat.strongRecOn with
  | ind n ih =>
    unfold decimal
    by_cases h : n < 10
    · rw [if_pos h]
      refine ⟨⟨by simp, by simpa using digit_digit h, fun h1 => by simpa using h1⟩, ?_, ?_⟩
      · simp only [digitsValue, List.foldl_cons, List.foldl_nil, digit_toNat h]; omega
      · intro h0 h1
        simp only [List.head?_cons, Option.some.injEq] at h1
        have := congrArg UInt8.toNat h1
        rw [digit_toNat h] at this
        simp only [UInt8.toNat_ofNat] at this
        omega
    · rw [if_neg h]
      obtain ⟨⟨h1, h2, h3⟩, h4, h5⟩ := ih (n / 10) (by omega)
      have hh : (decimal (n / 10) ++ [48 + (n % 10).toUInt8]).head? = (decimal (n / 10)).head? := by
        cases hx : decimal (n / 10) with
        | nil => exact absurd hx h1
        | cons a l => rfl
      refine ⟨⟨by simp, ?_, ?_⟩, ?_, ?_⟩
      · intro c hc
        rcases List.mem_append.mp hc with hc | hc
        · exact h2 c hc
        · simp only [List.mem_singleton] at hc
          subst hc
          exact digit_digit (by omega)
      · rw [hh]
        intro h6
        exact absurd h6 (h5 (by omega))
      · rw [digitsValue_snoc, h4, digit_toNat (by omega)]; omega
      · intro _
        rw [hh]
        exact h5 (by omega)

theorem hexDigit_ok {n : UInt8} (h : n.toNat < 16) : HexDigit (hexDigit n) n.toNat := by
  unfold hexDigit HexDigit
  split
  · rename_i h1
    rw [UInt8.lt_iff_toNat_lt] at h1
    simp only [UInt8.toNat_ofNat] at h1
    left
    simp only [UInt8.le_iff_toNat_le, UInt8.toNat_add, UInt8.toNat_ofNat]
    omega
  · rename_i h1
    rw [UInt8.lt_iff_toNat_lt] at h1
    simp only [UInt8.toNat_ofNat] at h1
    right; left
    simp only [UInt8.le_iff_toNat_le, UInt8.toNat_add, UInt8.toNat_ofNat]
    omega

theorem escapeByte_ok {x t : Bytes} (c : UInt8) (h : Chars x t) : Chars (c :: x) (escapeByte c ++ t) := by
  unfold escapeByte
  split
  · rename_i h1; subst h1; exact .escape (by decide) h
  split
  · rename_i h1; subst h1; exact .escape (by decide) h
  split
  · rename_i h1; subst h1; exact .escape (by decide) h
  split
  · rename_i h1; subst h1; exact .escape (by decide) h
  split
  · rename_i h1; subst h1; exact .escape (by decide) h
  split
  · rename_i h1; subst h1; exact .escape (by decide) h
  split
  · rename_i h1; subst h1; exact .escape (by decide) h
  split
  · rename_i h1
    rw [UInt8.lt_iff_toNat_lt] at h1
    simp only [UInt8.toNat_ofNat] at h1
    refine .unicode (m := (c / 16).toNat) (n := (c % 16).toNat) (hexDigit_ok ?_) (hexDigit_ok ?_) ?_ ?_ h
    · rw [UInt8.toNat_div]; simp only [UInt8.toNat_ofNat, Nat.reducePow, Nat.reduceMod]; omega
    · rw [UInt8.toNat_mod]; simp only [UInt8.toNat_ofNat, Nat.reducePow, Nat.reduceMod]; omega
    · rw [UInt8.toNat_div, UInt8.toNat_mod]; simp only [UInt8.toNat_ofNat, Nat.reducePow, Nat.reduceMod]; omega
    · rw [UInt8.lt_iff_toNat_lt]; simp only [UInt8.toNat_ofNat, Nat.reducePow, Nat.reduceMod]; omega
  · rename_i h34 h92 _ _ _ _ _ h32
    exact .plain h34 h92 (by simpa using h32) h

theorem chars_ok (x : Bytes) : Chars x (x.flatMap escapeByte) := by
  induction x with
  | nil => exact .nil
  | cons c x ih => rw [List.flatMap_cons]; exact escapeByte_ok c ih

theorem newline_blank (d : Nat) : Blank (newline d) := by
  intro c hc
  rcases List.mem_cons.mp hc with rfl | hc
  · exact .inr (.inr (.inl rfl))
  · exact .inl (List.eq_of_mem_replicate hc)

theorem blank_nil : Blank [] := fun _ h => nomatch h
theorem blank_space : Blank [32] := by unfold Blank; decide

mutual

theorem text_spells {real : List UInt8 → Option Bytes} (hr : ∀ l t, real l = some t → RealText t) (d : Nat) :
    ∀ j, Spells (printed real j) (j.text real d)
  | .null => by simp only [printed, Json.text]; exact .null
  | .num n => by simp only [printed, Json.text]; exact .num (decimal_ok n).1 (decimal_ok n).2.1
  | .real l => by
    simp only [printed, Json.text]
    cases h : real l with
    | none => exact .null
    | some t => exact .real (hr l t h)
  | .str x => by simp only [printed, Json.text, jsonString]; exact .str (chars_ok x)
  | .arr [] => by simp only [printed, printedItems, Json.text]; exact .noItems (w := []) blank_nil
  | .arr (j :: js) => by
    simp only [printed, printedItems, Json.text]
    have := items_spells hr (d + 1) js (newline_blank (d + 1)) (text_spells hr (d + 1) j) (newline_blank d)
    simpa [List.append_assoc] using Spells.arr this
  | .obj [] => by simp only [printed, printedFields, Json.text]; exact .noFields (w := []) blank_nil
  | .obj ((k, j) :: fs) => by
    simp only [printed, printedFields, Json.text, jsonString]
    have := fields_spells hr (d + 1) fs (k := k) (newline_blank (d + 1)) (chars_ok _) blank_nil blank_space
      (text_spells hr (d + 1) j) (newline_blank d)
    simpa [List.append_assoc, keyBytes] using Spells.obj this

theorem items_spells {real : List UInt8 → Option Bytes} (hr : ∀ l t, real l = some t → RealText t) (d : Nat) :
    ∀ (js : List Json) {j : Json} {w t w' : Bytes}, Blank w → Spells j t → Blank w' →
      Items (j :: printedItems real js) (w ++ (t ++ (Json.items real d js ++ w')))
  | [], j, w, t, w', hw, h, hw' => by
    simp only [printedItems, Json.items, List.nil_append]
    simpa using Items.one hw h hw'
  | j' :: js, j, w, t, w', hw, h, hw' => by
    simp only [printedItems, Json.items]
    have := Items.more hw h blank_nil (items_spells hr d js (newline_blank d) (text_spells hr d j') hw')
    simpa [List.append_assoc] using this

theorem fields_spells {real : List UInt8 → Option Bytes} (hr : ∀ l t, real l = some t → RealText t) (d : Nat) :
    ∀ (fs : List (String × Json)) {k : String} {j : Json} {w kt w1 w2 t w' : Bytes}, Blank w →
      Chars k.toByteArray.data.toList kt → Blank w1 → Blank w2 → Spells j t → Blank w' →
      Fields ((k, j) :: printedFields real fs) (w ++ 34 :: kt ++ 34 :: w1 ++ 58 :: w2 ++ (t ++ (Json.fields real d fs ++ w')))
  | [], k, j, w, kt, w1, w2, t, w', hw, hk, h1, h2, h, hw' => by
    simp only [printedFields, Json.fields, List.nil_append]
    simpa using Fields.one hw hk h1 h2 h hw'
  | (k', j') :: fs, k, j, w, kt, w1, w2, t, w', hw, hk, h1, h2, h, hw' => by
    simp only [printedFields, Json.fields, jsonString]
    have := Fields.more hw hk h1 h2 h blank_nil
      (fields_spells hr d fs (k := k') (newline_blank d) (chars_ok _) blank_nil blank_space (text_spells hr d j') hw')
    simpa [List.append_assoc, keyBytes] using this

end

/-! ### From printed values to syntax trees -/

/-- Is the value `null`? -/
def isNull : Json → Bool
  | .null => true
  | _ => false

mutual

/-- Puts an empty spelling for real numbers without a text. -/
def unprint : Json → Json
  | .null => .null
  | .num n => .num n
  | .real l => .real l
  | .str x => .str x
  | .arr l => .arr (unprintItems l)
  | .obj l => .obj (unprintFields l)

def unprintItems : List Json → List Json
  | [] => []
  | j :: js => unprint j :: unprintItems js

def unprintFields : List (String × Json) → List (String × Json)
  | [] => []
  | (k, j) :: fs => (k, if k = "Real" ∧ isNull j then .real [] else unprint j) :: unprintFields fs

end

variable {real : List UInt8 → Option Bytes}

theorem unprint_items (l : List Json) : unprintItems (printedItems real l) = l.map fun j => unprint (printed real j) := by
  induction l with
  | nil => rfl
  | cons j l ih => simp [printedItems, unprintItems, ih]

theorem unprint_map {α} {f g : α → Json} (l : List α) (h : ∀ a, unprint (printed real (f a)) = g a) :
    unprint (printed real (.arr (l.map f))) = .arr (l.map g) := by
  simp only [printed, unprint, unprint_items, List.map_map]
  congr 1
  exact List.map_congr_left fun a _ => h a

theorem unprint_opt {α} {f : α → Json} {g : α → α} (o : Option α) (h : ∀ a, unprint (printed real (f a)) = f (g a)) :
    unprint (printed real (jOpt f o)) = jOpt f (o.map g) := by
  cases o with
  | none => rfl
  | some a => exact h a

theorem unprint_opt' {α} {f : α → Json} (o : Option α) (h : ∀ a, unprint (printed real (f a)) = f a) :
    unprint (printed real (jOpt f o)) = jOpt f o := by
  cases o with
  | none => rfl
  | some a => exact h a

theorem unprint_pos (n : Nat) : unprint (printed real (jPos n)) = jPos n := by
  simp [jPos, printed, printedFields, unprint, unprintFields]

theorem unprint_symbol (s : Symbol) : unprint (printed real (jSymbol s)) = jSymbol s := by
  unfold jSymbol
  cases s.ty <;> cases s.tyPos <;>
    simp [jPos, printed, printedFields, unprint, unprintFields]

theorem unprint_symbols (l : List Symbol) : unprint (printed real (jSymbols l)) = jSymbols l := unprint_map l unprint_symbol

/-- Value of a field, for keys other than `Real`. -/
theorem unprint_field {k : String} {j : Json} {fs : List (String × Json)} (h : k ≠ "Real") :
    unprintFields (printedFields real ((k, j) :: fs)) =
      (k, unprint (printed real j)) :: unprintFields (printedFields real fs) := by
  simp [printedFields, unprintFields, h]

theorem unprint_obj {l : List (String × Json)} :
    unprint (printed real (.obj l)) = .obj (unprintFields (printedFields real l)) := by simp [printed, unprint]

theorem unprint_nil : unprintFields (printedFields real []) = [] := rfl

theorem unprint_str {x : Name} : unprint (printed real (.str x)) = .str x := by simp [printed, unprint]

theorem unprint_pair {a b : Json} : unprint (printed real (.arr [a, b])) = .arr [unprint (printed real a), unprint (printed real b)] := by
  simp [printed, printedItems, unprint, unprintItems]

theorem unprint_predicate (p : Predicate) : unprint (printed real (jPredicate p)) = jPredicate p := by
  simp [jPredicate, unprint_obj, unprint_field, unprint_nil, unprint_str, unprint_pos, unprint_symbols]

theorem unprint_num (n : Num) : unprint (printed real (jNum n)) = jNum (respellNum (realText real) n) := by
  cases n with
  | int n => simp [jNum, respellNum, printed, printedFields, unprint, unprintFields]
  | real l =>
    simp only [jNum, respellNum, printed, printedFields, realText]
    cases h : real l <;> simp [unprint, unprintFields, isNull]

mutual

theorem unprint_formula : ∀ f : Formula, unprint (printed real (jFormula f)) = jFormula (respellFormula (realText real) f)
  | .empty => by simp [jFormula, respellFormula, unprint_str]
  | .atom p => by simp [jFormula, respellFormula, unprint_obj, unprint_field, unprint_nil, unprint_predicate]
  | .not f => by simp [jFormula, respellFormula, unprint_obj, unprint_field, unprint_nil, unprint_formula f]
  | .and fs => by simp [jFormula, respellFormula, unprint_obj, unprint_field, unprint_nil, unprint_formulas fs]
  | .or fs => by simp [jFormula, respellFormula, unprint_obj, unprint_field, unprint_nil, unprint_formulas fs]
  | .xor fs => by simp [jFormula, respellFormula, unprint_obj, unprint_field, unprint_nil, unprint_formulas fs]
  | .imply ps qs => by
    simp [jFormula, respellFormula, unprint_obj, unprint_field, unprint_nil, unprint_pair, unprint_formulas ps, unprint_formulas qs]
  | .exists_ vs f => by
    simp [jFormula, respellFormula, unprint_obj, unprint_field, unprint_nil, unprint_pair, unprint_symbols, unprint_formula f]
  | .forall_ vs f => by
    simp [jFormula, respellFormula, unprint_obj, unprint_field, unprint_nil, unprint_pair, unprint_symbols, unprint_formula f]
  | .weighted w f => by
    simp [jFormula, respellFormula, unprint_obj, unprint_field, unprint_nil, unprint_pair, unprint_num, unprint_formula f]
  | .equals a b => by simp [jFormula, respellFormula, unprint_obj, unprint_field, unprint_nil, unprint_pair, unprint_str]

theorem unprint_formulas : ∀ fs : List Formula, unprint (printed real (.arr (jFormulas fs))) =
    .arr (jFormulas (respellFormulas (realText real) fs))
  | [] => rfl
  | f :: fs => by
    have h := unprint_formulas fs
    simp only [printed, unprint, Json.arr.injEq] at h
    simp only [jFormulas, respellFormulas, printed, printedItems, unprint, unprintItems, unprint_formula f, h]

end

theorem unprint_subtask (s : Subtask) : unprint (printed real (jSubtask s)) = jSubtask s := by
  simp [jSubtask, unprint_obj, unprint_field, unprint_nil, unprint_symbol, unprint_symbols, unprint_opt' _ unprint_symbol]

theorem unprint_constraint (c : Constraint) : unprint (printed real (jConstraint c)) = jConstraint c := by
  cases c <;> simp [jConstraint, unprint_obj, unprint_field, unprint_nil, unprint_pair, unprint_str]

theorem unprint_ordering (o : Ordering) : unprint (printed real (jOrdering o)) = jOrdering o := by
  cases o with
  | total => exact unprint_str
  | partial_ l =>
    simp only [jOrdering, unprint_obj, unprint_field (k := "Partial") (by decide), unprint_nil]
    rw [unprint_map l (g := fun e => .arr [.str e.1, .str e.2]) fun a => by rw [unprint_pair, unprint_str, unprint_str]]

theorem unprint_htn (h : HTN) : unprint (printed real (jHtn h)) = jHtn h := by
  simp [jHtn, unprint_obj, unprint_field, unprint_nil, unprint_map _ unprint_subtask, unprint_opt' _ unprint_pos,
    unprint_ordering, unprint_opt' _ fun l => unprint_map l unprint_constraint]

theorem unprint_initTn (t : InitTN) : unprint (printed real (jInitTn t)) = jInitTn t := by
  simp [jInitTn, unprint_obj, unprint_field, unprint_nil, unprint_opt' _ unprint_symbols, unprint_htn]

theorem unprint_req (r : Req) : unprint (printed real (jReq r)) = jReq r := by cases r <;> exact unprint_str

theorem unprint_task (t : Task) : unprint (printed real (jTask t)) = jTask t := by
  simp [jTask, unprint_obj, unprint_field, unprint_nil, unprint_str, unprint_pos, unprint_symbols]

theorem unprint_action (a : Action) : unprint (printed real (jAction a)) =
    jAction { a with pre := a.pre.map (respellFormula (realText real)), eff := a.eff.map (respellFormula (realText real)) } := by
  simp [jAction, unprint_obj, unprint_field, unprint_nil, unprint_str, unprint_pos, unprint_symbols,
    unprint_opt _ unprint_formula]

theorem unprint_method (m : Method) : unprint (printed real (jMethod m)) =
    jMethod { m with pre := m.pre.map (respellFormula (realText real)) } := by
  simp [jMethod, unprint_obj, unprint_field, unprint_nil, unprint_symbol, unprint_symbols, unprint_htn,
    unprint_opt _ unprint_formula]

theorem unprint_domain (d : DomainAST) : unprint (printed real (jDomain d)) = jDomain (respellDomain (realText real) d) := by
  simp only [jDomain, unprint_obj, unprint_field (k := "name") (by decide), unprint_field (k := "types") (by decide),
    unprint_field (k := "constants") (by decide), unprint_field (k := "requirements") (by decide),
    unprint_field (k := "predicates") (by decide), unprint_field (k := "compound_tasks") (by decide),
    unprint_field (k := "methods") (by decide), unprint_field (k := "actions") (by decide),
    unprint_field (k := "functions") (by decide), unprint_nil, unprint_str, unprint_opt' _ unprint_symbols,
    unprint_map _ unprint_req, unprint_map _ unprint_predicate, unprint_map _ unprint_task, unprint_map _ unprint_method,
    unprint_map _ unprint_action, respellDomain, List.map_map]
  rfl

theorem unprint_problem (p : ProblemAST) : unprint (printed real (jProblem p)) = jProblem (respellProblem (realText real) p) := by
  simp only [jProblem, unprint_obj, unprint_field (k := "requirements") (by decide), unprint_field (k := "init_tn") (by decide),
    unprint_field (k := "init_state") (by decide), unprint_field (k := "goal") (by decide),
    unprint_field (k := "objects") (by decide), unprint_nil, unprint_map _ unprint_req, unprint_opt' _ unprint_initTn,
    unprint_map _ unprint_predicate, unprint_opt _ unprint_formula, unprint_symbols, respellProblem]

end Verif.Spec.JSON
