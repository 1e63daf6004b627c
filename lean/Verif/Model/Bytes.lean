import Lean

/-!
Bytes, names, and UTF-8 decoding.

A file is a `List UInt8` (the `Vec<u8>` of the API, `/repo/src/lib.rs:22-25`).
Identifiers are byte strings (`&str` slices of the file).
-/

namespace Verif

/-- Contents of a file (`Vec<u8>`). -/
abbrev Bytes := List UInt8

/-- An identifier: a `&'a str` slice of the file, kept as its bytes. -/
abbrev Name := List UInt8

open Lean Elab Term Meta in
/-- `b!"text"` is the list of the UTF-8 bytes of `text`. -/
elab:max "b!" s:str : term => do
  let bytes := s.getString.toUTF8.toList
  let u8 := Lean.mkConst ``UInt8
  let mut e := mkApp (Lean.mkConst ``List.nil [Level.zero]) u8
  for x in bytes.reverse do
    let lit := mkRawNatLit x.toNat
    let inst := mkApp (Lean.mkConst ``UInt8.instOfNat) lit
    let n := mkApp3 (Lean.mkConst ``OfNat.ofNat [Level.zero]) u8 lit inst
    e := mkApp3 (Lean.mkConst ``List.cons [Level.zero]) u8 n e
  return e

/-- `is_whitespace`, `/repo/src/lexical_analyzer/tokenizer.rs:327-332`. -/
def isWs (c : UInt8) : Bool := c == 32 || c == 9 || c == 10 || c == 13

/-- `char::is_ascii_digit` on a byte read as a char. -/
def isDigit (c : UInt8) : Bool := 48 ≤ c && c ≤ 57

/-- ASCII letter. -/
def isLetter (c : UInt8) : Bool := (65 ≤ c && c ≤ 90) || (97 ≤ c && c ≤ 122)

/-- `(b as char).is_alphanumeric()` for a byte `b` (Latin-1 range).  Above 127 the alphanumeric code points are
U+00AA, U+00B2, U+00B3, U+00B5, U+00B9, U+00BA, U+00BC..U+00BE, U+00C0..U+00D6, U+00D8..U+00F6, U+00F8..U+00FF. -/
def latin1Alnum (c : UInt8) : Bool :=
  isDigit c || isLetter c ||
  c == 0xAA || c == 0xB2 || c == 0xB3 || c == 0xB5 || c == 0xB9 || c == 0xBA ||
  (0xBC ≤ c && c ≤ 0xBE) || (0xC0 ≤ c && c ≤ 0xD6) || (0xD8 ≤ c && c ≤ 0xF6) || 0xF8 ≤ c

/-- A UTF-8 continuation byte. -/
def isCont (c : UInt8) : Bool := 0x80 ≤ c && c ≤ 0xBF

/-- `std::str::from_utf8` followed by `chars()`: the code points of a byte string, or `none` if it is not valid UTF-8
(Unicode table 3-7: no overlong forms, no surrogates, nothing above U+10FFFF). -/
def decodeUtf8 : List UInt8 → Option (List Nat)
  | [] => some []
  | a :: r =>
    if a < 0x80 then (decodeUtf8 r).map (a.toNat :: ·)
    else match r with
    | [] => none
    | b :: r =>
      if 0xC2 ≤ a && a ≤ 0xDF && isCont b then
        (decodeUtf8 r).map (((a.toNat - 0xC0) * 64 + (b.toNat - 0x80)) :: ·)
      else match r with
      | [] => none
      | c :: r =>
        if ((a == 0xE0 && 0xA0 ≤ b && b ≤ 0xBF) || (0xE1 ≤ a && a ≤ 0xEC && isCont b) ||
            (a == 0xED && 0x80 ≤ b && b ≤ 0x9F) || (0xEE ≤ a && a ≤ 0xEF && isCont b)) && isCont c then
          (decodeUtf8 r).map (((a.toNat - 0xE0) * 4096 + (b.toNat - 0x80) * 64 + (c.toNat - 0x80)) :: ·)
        else match r with
        | [] => none
        | d :: r =>
          if ((a == 0xF0 && 0x90 ≤ b && b ≤ 0xBF) || (0xF1 ≤ a && a ≤ 0xF3 && isCont b) ||
              (a == 0xF4 && 0x80 ≤ b && b ≤ 0x8F)) && isCont c && isCont d then
            (decodeUtf8 r).map (((a.toNat - 0xF0) * 262144 + (b.toNat - 0x80) * 4096
              + (c.toNat - 0x80) * 64 + (d.toNat - 0x80)) :: ·)
          else none

/-- `from_utf8(..).is_ok()`. -/
def validUtf8 (l : List UInt8) : Bool := (decodeUtf8 l).isSome

/-- Environment functions of the Rust standard library that are not tabulated here.
`alnum` is `char::is_alphanumeric` for code points of 256 and above; `showReal` is the text `Display` prints for an
`f64` given by its spelling.  Theorems hold for every choice. -/
class Env where
  alnum : Nat → Bool
  showReal : List UInt8 → String

/-- `char::is_alphanumeric`. -/
def cpAlnum [Env] (n : Nat) : Bool :=
  if n < 256 then latin1Alnum (UInt8.ofNat n) else Env.alnum n

/-- Pieces of a message: literal text, an identifier of the file, or a number. -/
inductive Piece where
  | s (x : String)
  | n (x : Name)
  | i (x : Nat)
  deriving DecidableEq, Repr

/-- Text of a message, as a sequence of pieces that is concatenated when displayed. -/
abbrev Text := List Piece

end Verif
