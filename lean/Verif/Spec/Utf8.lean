import Verif.Spec.Lexical
import Verif.Model.Lexer

/-! UTF-8, RFC 3629, and the words of any script. -/

namespace Verif.Spec

/-- The code points that have an encoding: up to U+10FFFF without the surrogates. -/
def Scalar (n : Nat) : Prop := n < 0xD800 ∨ (0xE000 ≤ n ∧ n ≤ 0x10FFFF)

instance (n : Nat) : Decidable (Scalar n) := by unfold Scalar; infer_instance

/-- The encoding of a code point, RFC 3629 section 3. -/
def encode (n : Nat) : Bytes :=
  if n < 0x80 then [.ofNat n]
  else if n < 0x800 then [.ofNat (0xC0 + n / 64), .ofNat (0x80 + n % 64)]
  else if n < 0x10000 then [.ofNat (0xE0 + n / 4096), .ofNat (0x80 + n / 64 % 64), .ofNat (0x80 + n % 64)]
  else [.ofNat (0xF0 + n / 262144), .ofNat (0x80 + n / 4096 % 64), .ofNat (0x80 + n / 64 % 64), .ofNat (0x80 + n % 64)]

/-- The encoding of a text. -/
def encodeText (t : List Nat) : Bytes := t.flatMap encode

/-- The letters and digits among the first 256 code points (general categories L and N of Unicode). -/
def Latin1Letter (n : Nat) : Prop :=
  (48 ≤ n ∧ n ≤ 57) ∨ (65 ≤ n ∧ n ≤ 90) ∨ (97 ≤ n ∧ n ≤ 122) ∨ n ∈ [0xAA, 0xB2, 0xB3, 0xB5, 0xB9, 0xBA, 0xBC, 0xBD, 0xBE] ∨
  (0xC0 ≤ n ∧ n ≤ 0xFF ∧ n ≠ 0xD7 ∧ n ≠ 0xF7)

instance (n : Nat) : Decidable (Latin1Letter n) := by unfold Latin1Letter; infer_instance

/-- A letter or digit of any script, or one of the two marks allowed in names.  Which code points from U+0100 on are
letters or digits is left to the environment. -/
def NameChar [Env] (n : Nat) : Prop :=
  n = 95 ∨ n = 45 ∨ (n < 256 ∧ Latin1Letter n) ∨ (256 ≤ n ∧ Env.alnum n = true)

/-- Every byte of the encoding of the character is, taken as a character of its own, a letter, a digit or a mark. -/
def BytesRead (n : Nat) : Prop := ∀ b ∈ encode n, b = 95 ∨ b = 45 ∨ Latin1Letter b.toNat

/-- A word of any script that is meant as a name: characters of Unicode none of which ends a word, the first of which is
an ASCII letter, `_`, or not ASCII at all, and which is not reserved. -/
def ScriptWord (t : List Nat) : Prop :=
  (∀ n ∈ t, Scalar n ∧ n ∉ [9, 10, 13, 32, 40, 41]) ∧
  (∃ c u, t = c :: u ∧ ((65 ≤ c ∧ c ≤ 90) ∨ (97 ≤ c ∧ c ≤ 122) ∨ c = 95 ∨ 128 ≤ c)) ∧
  ∀ k, (encodeText t, k) ∉ plainTable

end Verif.Spec
