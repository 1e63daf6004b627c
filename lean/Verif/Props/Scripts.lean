import Verif.Proofs.Utf8
import Verif.Proofs.Instance

/-! C69: names with characters outside ASCII. -/

namespace Verif

open Spec

theorem latin1_iff (b : UInt8) : latin1Alnum b = true ↔ Latin1Letter b.toNat := by
  have : ∀ n : Fin 256, latin1Alnum (UInt8.ofNat n.val) = true ↔ Latin1Letter n.val := by decide +kernel
  have h := this ⟨b.toNat, b.toNat_lt⟩
  simpa using h

theorem good_byte {b : UInt8} (h : ¬ Delim b) : isBadByte b = false ↔ b = 95 ∨ b = 45 ∨ Latin1Letter b.toNat := by
  have h' : isLexemeByte b = true := by
    by_contra hc
    exact h ((isLexemeByte_false_iff b).1 (by simpa using hc))
  rw [← latin1_iff]
  unfold isBadByte
  rw [h']
  cases latin1Alnum b <;> simp
  tauto

theorem nameChar_iff [Env] (n : Nat) : (cpAlnum n || n == 95 || n == 45) = true ↔ NameChar n := by
  unfold NameChar cpAlnum
  simp only [Bool.or_eq_true, beq_iff_eq]
  split
  · rename_i h
    rw [latin1_iff, ofNat_toNat_lt h]
    constructor
    · rintro ((h1 | h1) | h1)
      · exact .inr (.inr (.inl ⟨h, h1⟩))
      · exact .inl h1
      · exact .inr (.inl h1)
    · rintro (h1 | h1 | ⟨_, h1⟩ | ⟨h1, _⟩)
      · exact .inl (.inr h1)
      · exact .inr h1
      · exact .inl (.inl h1)
      · omega
  · constructor
    · rintro ((h1 | h1) | h1)
      · exact .inr (.inr (.inr ⟨by omega, h1⟩))
      · exact .inl h1
      · exact .inr (.inl h1)
    · rintro (h1 | h1 | ⟨_, h1⟩ | ⟨_, h1⟩)
      · exact .inl (.inr h1)
      · exact .inr h1
      · omega
      · exact .inl (.inl h1)

/-- A byte of an encoding is ASCII only if it is the character itself. -/
theorem encode_bytes {n : Nat} (h : Scalar n) {b : UInt8} (hb : b ∈ encode n) : 128 ≤ b.toNat ∨ b.toNat = n := by
  unfold Scalar at h
  unfold encode at hb
  split at hb
  · rename_i h1
    simp only [List.mem_singleton] at hb
    subst hb
    exact .inr (ofNat_toNat_lt (by omega))
  split at hb
  · simp only [List.mem_cons, List.not_mem_nil, or_false] at hb
    rcases hb with rfl | rfl <;> left <;> rw [ofNat_toNat_lt (by omega)] <;> omega
  split at hb
  · simp only [List.mem_cons, List.not_mem_nil, or_false] at hb
    rcases hb with rfl | rfl | rfl <;> left <;> rw [ofNat_toNat_lt (by omega)] <;> omega
  · simp only [List.mem_cons, List.not_mem_nil, or_false] at hb
    rcases hb with rfl | rfl | rfl | rfl <;> left <;> rw [ofNat_toNat_lt (by omega)] <;> omega

theorem text_nodelim {t : List Nat} (h : ∀ n ∈ t, Scalar n ∧ n ∉ [9, 10, 13, 32, 40, 41]) :
    ∀ b ∈ encodeText t, ¬ Delim b := by
  intro b hb hd
  obtain ⟨n, hn, hb⟩ := List.mem_flatMap.1 hb
  obtain ⟨h1, h2⟩ := h n hn
  have h3 : b.toNat ∈ [9, 10, 13, 32, 40, 41] := by
    rcases hd with hd | rfl | rfl
    · simp only [Blank, List.mem_cons, List.not_mem_nil, or_false] at hd
      rcases hd with rfl | rfl | rfl | rfl <;> decide
    · decide
    · decide
  rcases encode_bytes h1 hb with h4 | h4
  · simp only [List.mem_cons, List.not_mem_nil, or_false] at h3
    omega
  · exact h2 (h4 ▸ h3)

/-- The lexeme of any word that is followed by a delimiter. -/
theorem scanLexeme_any (w : Bytes) (c : UInt8) (r : Bytes) (hw : ∀ x ∈ w, ¬ Delim x) (hc : Delim c) :
    scanLexeme (w ++ c :: r) = (w, c :: r, w.any isBadByte) := by
  have hc' : isLexemeByte c = false := (isLexemeByte_false_iff c).2 hc
  induction w with
  | nil =>
    cases r with
    | nil => simp [scanLexeme, isBadByte, hc']
    | cons d r => simp [scanLexeme, hc']
  | cons x w ih =>
    have ih := ih (fun y hy => hw y (List.mem_cons_of_mem _ hy))
    have hx : isLexemeByte x = true := by
      by_contra hn
      exact hw x List.mem_cons_self ((isLexemeByte_false_iff x).1 (by simpa using hn))
    obtain ⟨d, ds, hd⟩ : ∃ d ds, w ++ c :: r = d :: ds := by
      cases w with
      | nil => exact ⟨c, r, rfl⟩
      | cons y w => exact ⟨y, w ++ c :: r, rfl⟩
    rw [List.cons_append, hd, scanLexeme, if_pos hx, ← hd, ih]
    simp

theorem peekLexeme_text {t : List Nat} (h : ∀ n ∈ t, Scalar n ∧ n ∉ [9, 10, 13, 32, 40, 41]) {d : UInt8} (hd : Delim d)
    (r : Bytes) : ((∀ n ∈ t, BytesRead n) → peekLexeme (encodeText t ++ d :: r) = .ok (encodeText t) (d :: r)) ∧
      ((¬ ∀ n ∈ t, BytesRead n) → peekLexeme (encodeText t ++ d :: r) = .err (encodeText t)) := by
  have hs := scanLexeme_any (encodeText t) d r (text_nodelim h) hd
  have hv : validUtf8 (encodeText t) = true := by
    unfold validUtf8
    rw [decode_encodeText fun n hn => (h n hn).1]
    rfl
  have hb : (encodeText t).any isBadByte = false ↔ ∀ n ∈ t, BytesRead n := by
    rw [List.any_eq_false]
    constructor
    · intro h1 n hn b hb
      have hm : b ∈ encodeText t := List.mem_flatMap.2 ⟨n, hn, hb⟩
      exact (good_byte (text_nodelim h b hm)).1 (by simpa using h1 b hm)
    · intro h1 b hb
      have hnd := text_nodelim h b hb
      obtain ⟨n, hn, hb⟩ := List.mem_flatMap.1 hb
      simpa using (good_byte hnd).2 (h1 n hn b hb)
  obtain ⟨e, es, he⟩ : ∃ e es, encodeText t ++ d :: r = e :: es := by
    cases encodeText t with
    | nil => exact ⟨d, r, rfl⟩
    | cons y w => exact ⟨y, w ++ d :: r, rfl⟩
  constructor
  · intro h1
    rw [he] at hs ⊢
    simp [peekLexeme, hs, hv, hb.2 h1]
  · intro h1
    have : (encodeText t).any isBadByte = true := by
      by_contra hc
      exact h1 (hb.1 (by simpa using hc))
    rw [he] at hs ⊢
    simp [peekLexeme, hs, hv, this]

theorem encode_ne_nil (n : Nat) : ∃ b l, encode n = b :: l := by
  unfold encode
  split
  · exact ⟨_, _, rfl⟩
  split
  · exact ⟨_, _, rfl⟩
  split
  · exact ⟨_, _, rfl⟩
  · exact ⟨_, _, rfl⟩

section
variable [Env]

/-- What is read at a word of any script. -/
theorem getToken_script {t : List Nat} (h : ScriptWord t) {lay : Bytes} (hl : Layout lay) {d : UInt8} (hd : Delim d)
    (r : Bytes) (n : Nat) :
    ((∀ c ∈ t, NameChar c ∧ BytesRead c) →
      getToken ⟨lay ++ (encodeText t ++ d :: r), n⟩ = .tok (.ident (encodeText t)) ⟨d :: r, n + newlines lay⟩) ∧
    ((¬ ∀ c ∈ t, NameChar c ∧ BytesRead c) →
      ∃ s', getToken ⟨lay ++ (encodeText t ++ d :: r), n⟩ =
        .err ⟨.invalidIdentifier, encodeText t, n + newlines lay⟩ s') := by
  obtain ⟨h1, ⟨c, u, rfl, hc⟩, h3⟩ := h
  obtain ⟨b, l, hbl⟩ := encode_ne_nil c
  have hcs := (h1 c List.mem_cons_self).1
  have hb : (65 ≤ b.toNat ∧ b.toNat ≤ 90) ∨ (97 ≤ b.toNat ∧ b.toNat ≤ 122) ∨ b.toNat = 95 ∨ 128 ≤ b.toNat := by
    rcases encode_bytes hcs (b := b) (by rw [hbl]; exact List.mem_cons_self) with h4 | h4
    · omega
    · rw [h4]; exact hc
  have key : ∀ k : UInt8, ¬ ((65 ≤ k.toNat ∧ k.toNat ≤ 90) ∨ (97 ≤ k.toNat ∧ k.toNat ≤ 122) ∨ k.toNat = 95 ∨
      128 ≤ k.toNat) → b ≠ k := by
    rintro k hk rfl
    exact hk hb
  have hs : StartByte b := by
    refine ⟨?_, key _ (by decide)⟩
    intro hbk
    simp only [Blank, List.mem_cons, List.not_mem_nil, or_false] at hbk
    rcases hbk with rfl | rfl | rfl | rfl <;> revert hb <;> decide
  have hdig : isDigit b = false := by
    by_contra hh
    have := (isDigit_iff b).1 (by simpa using hh)
    obtain ⟨e1, e2⟩ := this
    rw [UInt8.le_iff_toNat_le] at e1 e2
    have e1 : 48 ≤ b.toNat := e1
    have e2 : b.toNat ≤ 57 := e2
    omega
  have hp := (plainWord_none _).2 h3
  obtain ⟨k1, k2⟩ := peekLexeme_text h1 hd r
  have hdec : identCharsOk (encodeText (c :: u)) = true ↔ ∀ n ∈ c :: u, NameChar n := by
    unfold identCharsOk
    rw [decode_encodeText fun n hn => (h1 n hn).1]
    simp only [List.all_eq_true, nameChar_iff]
  have hcons : encodeText (c :: u) = b :: (l ++ encodeText u) := by
    rw [encodeText, List.flatMap_cons, hbl]; rfl
  generalize hw : encodeText (c :: u) = w at *
  subst hcons
  unfold getToken
  rw [lex_skip hl]
  unfold lex
  simp only [List.cons_append] at k1 k2 ⊢
  simp only [skipLayout_start hs, key 45 (by decide), key 40 (by decide), key 41 (by decide), key 60 (by decide),
    key 62 (by decide), key 61 (by decide), key 63 (by decide), key 58 (by decide), hdig, if_false, Bool.false_eq_true]
  constructor
  · intro hg
    simp only [k1 fun x hx => (hg x hx).2, hp, hdec.2 fun x hx => (hg x hx).1, if_true]
  · intro hg
    by_cases hr : ∀ x ∈ c :: u, BytesRead x
    · have hn : identCharsOk (b :: (l ++ encodeText u)) = false := by
        by_contra hh
        have := hdec.1 (by simpa using hh)
        exact hg fun x hx => ⟨this x hx, hr x hx⟩
      simp only [k1 hr, hp, hn, Bool.false_eq_true, if_false]
      exact ⟨_, rfl⟩
    · simp only [k2 hr]
      exact ⟨_, rfl⟩

/-- C69, the part that holds: a word of letters, digits, `_` and `-` of any script is read as the name it spells, on its
line, if each byte of its characters is itself a letter, digit or mark of Latin-1 (as in every ASCII word).  Missing: the
other words, see `C69_refuted`. -/
theorem C69_names_partial {t : List Nat} (h : ScriptWord t) (hn : ∀ c ∈ t, NameChar c) (hr : ∀ c ∈ t, BytesRead c)
    {lay : Bytes} (hl : Layout lay) {d : UInt8} (hd : Delim d) (r : Bytes) (n : Nat) :
    getToken ⟨lay ++ (encodeText t ++ d :: r), n⟩ = .tok (.ident (encodeText t)) ⟨d :: r, n + newlines lay⟩ :=
  (getToken_script h hl hd r n).1 fun c hc => ⟨hn c hc, hr c hc⟩

/-- C69 does not hold for any other word: it is reported as an invalid identifier. -/
theorem C69_refuted {t : List Nat} (h : ScriptWord t) (hr : ∃ c ∈ t, ¬ BytesRead c)
    {lay : Bytes} (hl : Layout lay) {d : UInt8} (hd : Delim d) (r : Bytes) (n : Nat) :
    ∃ s', getToken ⟨lay ++ (encodeText t ++ d :: r), n⟩ = .err ⟨.invalidIdentifier, encodeText t, n + newlines lay⟩ s' := by
  obtain ⟨c, hc, hr⟩ := hr
  exact (getToken_script h hl hd r n).2 fun h => hr (h c hc).2

/-- C69, the converse: a word with a character that is neither a letter, a digit nor a mark is never read as a name. -/
theorem C69_only_names {t : List Nat} (h : ScriptWord t) (hr : ∃ c ∈ t, ¬ NameChar c)
    {lay : Bytes} (hl : Layout lay) {d : UInt8} (hd : Delim d) (r : Bytes) (n : Nat) :
    ∃ s', getToken ⟨lay ++ (encodeText t ++ d :: r), n⟩ = .err ⟨.invalidIdentifier, encodeText t, n + newlines lay⟩ s' := by
  obtain ⟨c, hc, hr⟩ := hr
  exact (getToken_script h hl hd r n).2 fun h => hr (h c hc).1

/-- C69 for variables: only the bytes are looked at, so characters that are not letters can be read as variables. -/
theorem C69_variables {t : List Nat} (h : ∀ n ∈ t, Scalar n ∧ n ∉ [9, 10, 13, 32, 40, 41])
    {lay : Bytes} (hl : Layout lay) {d : UInt8} (hd : Delim d) (r : Bytes) (n : Nat) :
    ((∀ c ∈ t, BytesRead c) → getToken ⟨lay ++ (63 :: encodeText t ++ d :: r), n⟩ =
      .tok (.ident (encodeText t)) ⟨d :: r, n + newlines lay⟩) ∧
    ((∃ c ∈ t, ¬ BytesRead c) → ∃ s', getToken ⟨lay ++ (63 :: encodeText t ++ d :: r), n⟩ =
      .err ⟨.invalidIdentifier, encodeText t, n + newlines lay⟩ s') := by
  obtain ⟨k1, k2⟩ := peekLexeme_text h hd r
  have hs : StartByte 63 := ⟨by decide, by decide⟩
  unfold getToken
  rw [lex_skip hl]
  unfold lex
  simp only [List.cons_append, skipLayout_start hs]
  constructor
  · intro hg
    simp [k1 hg]
  · rintro ⟨c, hc, hr⟩
    simp [k2 fun h => hr (h c hc)]

end

/-- Which characters outside ASCII are read: those all of whose groups of six bits but the first are among nine values,
except U+05C0 to U+05FF.  In particular no Hebrew letter, and of the accented letters of Latin-1 only
`ê ò ó õ ù ú ü ý þ`. -/
theorem C69_readable {n : Nat} (h : Scalar n) (h128 : 128 ≤ n) : BytesRead n ↔
    n % 64 ∈ [42, 50, 51, 53, 57, 58, 60, 61, 62] ∧ (n < 0x800 → n / 64 ≠ 23) ∧
    (0x800 ≤ n → n / 64 % 64 ∈ [42, 50, 51, 53, 57, 58, 60, 61, 62]) ∧
    (0x10000 ≤ n → n / 4096 % 64 ∈ [42, 50, 51, 53, 57, 58, 60, 61, 62]) := by
  unfold Scalar at h
  have cont : ∀ k, k < 64 → ((UInt8.ofNat (0x80 + k) = 95 ∨ UInt8.ofNat (0x80 + k) = 45 ∨
      Latin1Letter (UInt8.ofNat (0x80 + k)).toNat) ↔ k ∈ [42, 50, 51, 53, 57, 58, 60, 61, 62]) := by decide +kernel
  have lead : ∀ k, k < 64 → ((UInt8.ofNat (0xC0 + k) = 95 ∨ UInt8.ofNat (0xC0 + k) = 45 ∨
      Latin1Letter (UInt8.ofNat (0xC0 + k)).toNat) ↔ k ≠ 23 ∧ k ≠ 55) := by decide +kernel
  unfold BytesRead encode
  rw [if_neg (by omega)]
  split
  · simp only [List.forall_mem_cons, cont (n % 64) (by omega), lead (n / 64) (by omega), List.not_mem_nil, false_implies,
      implies_true]
    constructor
    · rintro ⟨h1, h2, _⟩
      exact ⟨h2, fun _ => h1.1, fun _ => by omega, fun _ => by omega⟩
    · rintro ⟨h1, h2, _, _⟩
      exact ⟨⟨h2 (by omega), by omega⟩, h1, trivial⟩
  split
  · have := lead (32 + n / 4096) (by omega)
    rw [show 0xC0 + (32 + n / 4096) = 0xE0 + n / 4096 by omega] at this
    simp only [List.forall_mem_cons, cont (n % 64) (by omega), cont (n / 64 % 64) (by omega), this, List.not_mem_nil,
      false_implies, implies_true]
    constructor
    · rintro ⟨h1, h2, h3, _⟩
      exact ⟨h3, fun _ => by omega, fun _ => h2, fun _ => by omega⟩
    · rintro ⟨h1, _, h2, _⟩
      exact ⟨⟨by omega, by omega⟩, h2 (by omega), h1, trivial⟩
  · have := lead (48 + n / 262144) (by omega)
    rw [show 0xC0 + (48 + n / 262144) = 0xF0 + n / 262144 by omega] at this
    simp only [List.forall_mem_cons, cont (n % 64) (by omega), cont (n / 64 % 64) (by omega),
      cont (n / 4096 % 64) (by omega), this, List.not_mem_nil, false_implies, implies_true]
    constructor
    · rintro ⟨h1, h2, h3, h4, _⟩
      exact ⟨h4, fun _ => by omega, fun _ => h3, fun _ => h2⟩
    · rintro ⟨h1, _, h2, h3⟩
      exact ⟨⟨by omega, by omega⟩, h3 (by omega), h2 (by omega), h1, trivial⟩

/-- Every ASCII letter, digit and mark is read. -/
theorem C69_ascii {n : Nat} (h : n < 128) : BytesRead n ↔ n = 95 ∨ n = 45 ∨ Latin1Letter n := by
  unfold BytesRead encode
  rw [if_pos h]
  simp only [List.mem_singleton, forall_eq]
  simp only [← UInt8.toNat_inj, ofNat_toNat_lt (by omega : n < 256)]
  rfl

/-! ### Instances -/

/-- The word `müde` meets the hypotheses of `C69_names_partial`. -/
example : ScriptWord [109, 252, 100, 101] ∧ (∀ c ∈ [109, 252, 100, 101], @NameChar Env.plain c) ∧
    ∀ c ∈ [109, 252, 100, 101], BytesRead c := by
  refine ⟨⟨by decide, ⟨109, _, rfl, by decide⟩, by simp [plainTable, encodeText, encode]⟩, ?_, ?_⟩
  · unfold NameChar; decide
  · unfold BytesRead; decide

/-- The words `café` and `שלום` meet the hypotheses of `C69_refuted`, although all their characters are letters. -/
example : ScriptWord [99, 97, 102, 233] ∧ ScriptWord [0x5E9, 0x5DC, 0x5D5, 0x5DD] ∧ ¬ BytesRead 233 ∧ ¬ BytesRead 0x5E9 ∧
    ∀ c ∈ [99, 97, 102, 233], @NameChar Env.plain c := by
  refine ⟨⟨by decide, ⟨99, _, rfl, by decide⟩, by simp [plainTable, encodeText, encode]⟩,
    ⟨by decide, ⟨0x5E9, _, rfl, by decide⟩, by simp [plainTable, encodeText, encode]⟩, ?_, ?_, ?_⟩
  · unfold BytesRead; decide
  · unfold BytesRead; decide
  · unfold NameChar; decide

/-- The mathematical symbol U+2AB2 is not a letter; as a variable it is read, as a name it is not. -/
example : BytesRead 0x2AB2 ∧ ScriptWord [0x2AB2] := by
  refine ⟨by unfold BytesRead; decide, by decide, ⟨0x2AB2, _, rfl, by decide⟩, by simp [plainTable, encodeText, encode]⟩

end Verif
