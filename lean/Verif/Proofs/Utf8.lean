import Verif.Spec.Utf8
import Verif.Proofs.LexerSpec

/-! Decoding is the inverse of encoding. -/

namespace Verif

open Spec

theorem ofNat_toNat_lt {n : Nat} (h : n < 256) : (UInt8.ofNat n).toNat = n := by
  simp [Nat.mod_eq_of_lt h]

theorem decode_encode {n : Nat} (h : Scalar n) (r : Bytes) :
    decodeUtf8 (encode n ++ r) = (decodeUtf8 r).map (n :: ·) := by
  unfold Scalar at h
  unfold encode
  split
  · rename_i h1
    rw [List.singleton_append, decodeUtf8.eq_def]
    have h2 : (UInt8.ofNat n).toNat = n := ofNat_toNat_lt (by omega)
    have : UInt8.ofNat n < 0x80 := by rw [UInt8.lt_iff_toNat_lt, h2]; exact h1
    simp only [if_pos this, h2]
  split
  · rename_i h1 h2
    have ha : (UInt8.ofNat (0xC0 + n / 64)).toNat = 0xC0 + n / 64 := ofNat_toNat_lt (by omega)
    have hb : (UInt8.ofNat (0x80 + n % 64)).toNat = 0x80 + n % 64 := ofNat_toNat_lt (by omega)
    generalize UInt8.ofNat (0xC0 + n / 64) = a at *
    generalize UInt8.ofNat (0x80 + n % 64) = b at *
    rw [List.cons_append, List.singleton_append, decodeUtf8.eq_def]
    have c1 : ¬ a < 0x80 := by
      rw [UInt8.lt_iff_toNat_lt, ha, show (0x80 : UInt8).toNat = 128 from rfl]; omega
    have c2 : (decide (0xC2 ≤ a) && decide (a ≤ 0xDF) && isCont b) = true := by
      simp only [isCont, Bool.and_eq_true, decide_eq_true_eq, UInt8.le_iff_toNat_le, ha, hb,
        show (0xC2 : UInt8).toNat = 0xC2 from rfl, show (0xDF : UInt8).toNat = 0xDF from rfl,
        show (0x80 : UInt8).toNat = 0x80 from rfl, show (0xBF : UInt8).toNat = 0xBF from rfl]
      omega
    simp only [if_neg c1, c2, if_true, ha, hb]
    rw [show (0xC0 + n / 64 - 0xC0) * 64 + (0x80 + n % 64 - 0x80) = n by omega]
  split
  · rename_i h1 h2 h3
    have ha : (UInt8.ofNat (0xE0 + n / 4096)).toNat = 0xE0 + n / 4096 := ofNat_toNat_lt (by omega)
    have hb : (UInt8.ofNat (0x80 + n / 64 % 64)).toNat = 0x80 + n / 64 % 64 := ofNat_toNat_lt (by omega)
    have hc : (UInt8.ofNat (0x80 + n % 64)).toNat = 0x80 + n % 64 := ofNat_toNat_lt (by omega)
    generalize UInt8.ofNat (0xE0 + n / 4096) = a at *
    generalize UInt8.ofNat (0x80 + n / 64 % 64) = b at *
    generalize UInt8.ofNat (0x80 + n % 64) = c at *
    rw [List.cons_append, List.cons_append, List.singleton_append, decodeUtf8.eq_def]
    have c1 : ¬ a < 0x80 := by
      rw [UInt8.lt_iff_toNat_lt, ha, show (0x80 : UInt8).toNat = 128 from rfl]; omega
    have c2 : (decide (0xC2 ≤ a) && decide (a ≤ 0xDF) && isCont b) = false := by
      have : ¬ a ≤ 0xDF := by rw [UInt8.le_iff_toNat_le, ha, show (0xDF : UInt8).toNat = 0xDF from rfl]; omega
      simp [this]
    have c3 : (((a == 0xE0 && decide (0xA0 ≤ b) && decide (b ≤ 0xBF)) ||
        (decide (0xE1 ≤ a) && decide (a ≤ 0xEC) && isCont b) ||
        (a == 0xED && decide (0x80 ≤ b) && decide (b ≤ 0x9F)) ||
        (decide (0xEE ≤ a) && decide (a ≤ 0xEF) && isCont b)) && isCont c) = true := by
      simp only [isCont, Bool.and_eq_true, Bool.or_eq_true, decide_eq_true_eq, beq_iff_eq, UInt8.le_iff_toNat_le,
        ← UInt8.toNat_inj, ha, hb, hc,
        show (0xE0 : UInt8).toNat = 0xE0 from rfl, show (0xE1 : UInt8).toNat = 0xE1 from rfl,
        show (0xEC : UInt8).toNat = 0xEC from rfl, show (0xED : UInt8).toNat = 0xED from rfl,
        show (0xEE : UInt8).toNat = 0xEE from rfl, show (0xEF : UInt8).toNat = 0xEF from rfl,
        show (0xA0 : UInt8).toNat = 0xA0 from rfl, show (0x9F : UInt8).toNat = 0x9F from rfl,
        show (0x80 : UInt8).toNat = 0x80 from rfl, show (0xBF : UInt8).toNat = 0xBF from rfl]
      omega
    simp only [if_neg c1, c2, c3, if_true, ha, hb, hc, Bool.false_eq_true, if_false]
    rw [show (0xE0 + n / 4096 - 0xE0) * 4096 + (0x80 + n / 64 % 64 - 0x80) * 64 + (0x80 + n % 64 - 0x80) = n by omega]
  · rename_i h1 h2 h3
    have ha : (UInt8.ofNat (0xF0 + n / 262144)).toNat = 0xF0 + n / 262144 := ofNat_toNat_lt (by omega)
    have hb : (UInt8.ofNat (0x80 + n / 4096 % 64)).toNat = 0x80 + n / 4096 % 64 := ofNat_toNat_lt (by omega)
    have hc : (UInt8.ofNat (0x80 + n / 64 % 64)).toNat = 0x80 + n / 64 % 64 := ofNat_toNat_lt (by omega)
    have hd : (UInt8.ofNat (0x80 + n % 64)).toNat = 0x80 + n % 64 := ofNat_toNat_lt (by omega)
    generalize UInt8.ofNat (0xF0 + n / 262144) = a at *
    generalize UInt8.ofNat (0x80 + n / 4096 % 64) = b at *
    generalize UInt8.ofNat (0x80 + n / 64 % 64) = c at *
    generalize UInt8.ofNat (0x80 + n % 64) = d at *
    rw [List.cons_append, List.cons_append, List.cons_append, List.singleton_append, decodeUtf8.eq_def]
    have c1 : ¬ a < 0x80 := by
      rw [UInt8.lt_iff_toNat_lt, ha, show (0x80 : UInt8).toNat = 128 from rfl]; omega
    have c2 : (decide (0xC2 ≤ a) && decide (a ≤ 0xDF) && isCont b) = false := by
      have : ¬ a ≤ 0xDF := by rw [UInt8.le_iff_toNat_le, ha, show (0xDF : UInt8).toNat = 0xDF from rfl]; omega
      simp [this]
    have c3 : (((a == 0xE0 && decide (0xA0 ≤ b) && decide (b ≤ 0xBF)) ||
        (decide (0xE1 ≤ a) && decide (a ≤ 0xEC) && isCont b) ||
        (a == 0xED && decide (0x80 ≤ b) && decide (b ≤ 0x9F)) ||
        (decide (0xEE ≤ a) && decide (a ≤ 0xEF) && isCont b)) && isCont c) = false := by
      have e1 : ¬ a ≤ 0xEF := by rw [UInt8.le_iff_toNat_le, ha, show (0xEF : UInt8).toNat = 0xEF from rfl]; omega
      have e2 : ¬ a ≤ 0xEC := by rw [UInt8.le_iff_toNat_le, ha, show (0xEC : UInt8).toNat = 0xEC from rfl]; omega
      have e3 : (a == 0xE0) = false := by
        rw [beq_eq_false_iff_ne]; rintro rfl; exact e1 (by decide)
      have e4 : (a == 0xED) = false := by
        rw [beq_eq_false_iff_ne]; rintro rfl; exact e1 (by decide)
      simp [e1, e2, e3, e4]
    have c4 : (((a == 0xF0 && decide (0x90 ≤ b) && decide (b ≤ 0xBF)) ||
        (decide (0xF1 ≤ a) && decide (a ≤ 0xF3) && isCont b) ||
        (a == 0xF4 && decide (0x80 ≤ b) && decide (b ≤ 0x8F))) && isCont c && isCont d) = true := by
      simp only [isCont, Bool.and_eq_true, Bool.or_eq_true, decide_eq_true_eq, beq_iff_eq, UInt8.le_iff_toNat_le,
        ← UInt8.toNat_inj, ha, hb, hc, hd,
        show (0xF0 : UInt8).toNat = 0xF0 from rfl, show (0xF1 : UInt8).toNat = 0xF1 from rfl,
        show (0xF3 : UInt8).toNat = 0xF3 from rfl, show (0xF4 : UInt8).toNat = 0xF4 from rfl,
        show (0x90 : UInt8).toNat = 0x90 from rfl, show (0x8F : UInt8).toNat = 0x8F from rfl,
        show (0x80 : UInt8).toNat = 0x80 from rfl, show (0xBF : UInt8).toNat = 0xBF from rfl]
      omega
    simp only [if_neg c1, c2, c3, c4, if_true, ha, hb, hc, hd, Bool.false_eq_true, if_false]
    rw [show (0xF0 + n / 262144 - 0xF0) * 262144 + (0x80 + n / 4096 % 64 - 0x80) * 4096 + (0x80 + n / 64 % 64 - 0x80) * 64 +
      (0x80 + n % 64 - 0x80) = n by omega]

theorem decode_encodeText {t : List Nat} (h : ∀ n ∈ t, Scalar n) : decodeUtf8 (encodeText t) = some t := by
  induction t with
  | nil => rfl
  | cons n t ih =>
    rw [encodeText, List.flatMap_cons, decode_encode (h n List.mem_cons_self),
      show List.flatMap encode t = encodeText t from rfl, ih fun m hm => h m (List.mem_cons_of_mem _ hm)]
    rfl

theorem byte_of {b : UInt8} {n : Nat} (h : n = b.toNat) : UInt8.ofNat n = b := by
  rw [h]; simp

/-- Only encodings of texts can be decoded. -/
theorem encode_decode {l : Bytes} {t : List Nat} (h : decodeUtf8 l = some t) :
    (∀ n ∈ t, Scalar n) ∧ l = encodeText t := by
  have key {n : Nat} {a l r : Bytes} {t : List Nat} (ih : ∀ {t}, decodeUtf8 r = some t → (∀ n ∈ t, Scalar n) ∧ r = encodeText t)
      (hn : Scalar n) (ha : encode n = a) (hl : l = a ++ r) (h : (decodeUtf8 r).map (n :: ·) = some t) :
      (∀ n ∈ t, Scalar n) ∧ l = encodeText t := by
    obtain ⟨u, hu, rfl⟩ := Option.map_eq_some_iff.mp h
    obtain ⟨h1, h2⟩ := ih hu
    refine ⟨List.forall_mem_cons.mpr ⟨hn, h1⟩, ?_⟩
    rw [encodeText, List.flatMap_cons, ha, hl, h2]; rfl
  induction hl : l.length using Nat.strongRecOn generalizing l t with
  | _ m ih =>
  subst hl
  have ih' : ∀ r : Bytes, r.length < l.length → ∀ {t}, decodeUtf8 r = some t → (∀ n ∈ t, Scalar n) ∧ r = encodeText t :=
    fun r hr _ h => ih r.length hr h rfl
  rw [decodeUtf8.eq_def] at h
  match l, h, ih' with
  | [], h, _ => cases h; exact ⟨by simp, rfl⟩
  | a :: r, h, ih' =>
    dsimp only at h
    have hlt := a.toNat_lt
    split at h
    · rename_i h1
      rw [UInt8.lt_iff_toNat_lt, show (0x80 : UInt8).toNat = 0x80 from rfl] at h1
      refine key (a := [a]) (ih' _ (by simp only [List.length_cons]; omega)) (.inl (by omega)) ?_ rfl h
      rw [encode, if_pos h1, byte_of rfl]
    rename_i h1
    rw [UInt8.lt_iff_toNat_lt, show (0x80 : UInt8).toNat = 0x80 from rfl] at h1
    match r, h, ih' with
    | [], h, _ => cases h
    | b :: r, h, ih' =>
    dsimp only at h
    split at h
    · rename_i h2
      simp only [isCont, Bool.and_eq_true, decide_eq_true_eq, UInt8.le_iff_toNat_le,
        show (0xC2 : UInt8).toNat = 0xC2 from rfl, show (0xDF : UInt8).toNat = 0xDF from rfl,
        show (0x80 : UInt8).toNat = 0x80 from rfl, show (0xBF : UInt8).toNat = 0xBF from rfl] at h2
      refine key (a := [a, b]) (ih' _ (by simp only [List.length_cons]; omega)) (.inl (by omega)) ?_ rfl h
      rw [encode, if_neg (by omega), if_pos (by omega), byte_of (b := a) (by omega), byte_of (b := b) (by omega)]
    match r, h, ih' with
    | [], h, _ => cases h
    | c :: r, h, ih' =>
    dsimp only at h
    split at h
    · rename_i _ h2
      simp only [isCont, Bool.and_eq_true, Bool.or_eq_true, decide_eq_true_eq, beq_iff_eq, UInt8.le_iff_toNat_le,
        ← UInt8.toNat_inj, show (0xE0 : UInt8).toNat = 0xE0 from rfl, show (0xE1 : UInt8).toNat = 0xE1 from rfl,
        show (0xEC : UInt8).toNat = 0xEC from rfl, show (0xED : UInt8).toNat = 0xED from rfl,
        show (0xEE : UInt8).toNat = 0xEE from rfl, show (0xEF : UInt8).toNat = 0xEF from rfl,
        show (0xA0 : UInt8).toNat = 0xA0 from rfl, show (0x9F : UInt8).toNat = 0x9F from rfl,
        show (0x80 : UInt8).toNat = 0x80 from rfl, show (0xBF : UInt8).toNat = 0xBF from rfl] at h2
      refine key (a := [a, b, c]) (ih' _ (by simp only [List.length_cons]; omega)) (by unfold Scalar; omega) ?_ rfl h
      rw [encode, if_neg (by omega), if_neg (by omega), if_pos (by omega), byte_of (b := a) (by omega),
        byte_of (b := b) (by omega), byte_of (b := c) (by omega)]
    match r, h, ih' with
    | [], h, _ => cases h
    | d :: r, h, ih' =>
    dsimp only at h
    split at h
    · rename_i _ h2
      simp only [isCont, Bool.and_eq_true, Bool.or_eq_true, decide_eq_true_eq, beq_iff_eq, UInt8.le_iff_toNat_le,
        ← UInt8.toNat_inj, show (0xF0 : UInt8).toNat = 0xF0 from rfl, show (0xF1 : UInt8).toNat = 0xF1 from rfl,
        show (0xF3 : UInt8).toNat = 0xF3 from rfl, show (0xF4 : UInt8).toNat = 0xF4 from rfl,
        show (0x90 : UInt8).toNat = 0x90 from rfl, show (0x8F : UInt8).toNat = 0x8F from rfl,
        show (0x80 : UInt8).toNat = 0x80 from rfl, show (0xBF : UInt8).toNat = 0xBF from rfl] at h2
      refine key (a := [a, b, c, d]) (ih' _ (by simp only [List.length_cons]; omega)) (by unfold Scalar; omega) ?_ rfl h
      rw [encode, if_neg (by omega), if_neg (by omega), if_neg (by omega), byte_of (b := a) (by omega),
        byte_of (b := b) (by omega), byte_of (b := c) (by omega), byte_of (b := d) (by omega)]
    · cases h

/-- `from_utf8` accepts exactly the encodings of texts. -/
theorem validUtf8_iff {l : Bytes} : validUtf8 l = true ↔ ∃ t, (∀ n ∈ t, Scalar n) ∧ l = encodeText t := by
  unfold validUtf8
  rw [Option.isSome_iff_exists]
  constructor
  · rintro ⟨t, h⟩; exact ⟨t, encode_decode h⟩
  · rintro ⟨t, h, rfl⟩; exact ⟨t, decode_encodeText h⟩

end Verif
