import Verif.Model.Json

/-!
The text of a JSON value: `serde_json::to_string_pretty`, called in `/repo/src/lib.rs:99` and `lib.rs:113`.  `serde_json` is
a dependency and not part of `/repo`; this file follows its documented output (`PrettyFormatter` with two spaces).
-/

namespace Verif

/-- Bytes of a field name. -/
def keyBytes (k : String) : Bytes := k.toByteArray.data.toList

/-- A line break and the indentation of depth `d`. -/
def newline (d : Nat) : Bytes := 10 :: List.replicate (2 * d) 32

/-- Digits of a number. -/
def decimal (n : Nat) : Bytes :=
  if n < 10 then [48 + n.toUInt8] else decimal (n / 10) ++ [48 + (n % 10).toUInt8]

/-- A hexadecimal digit (lower case). -/
def hexDigit (n : UInt8) : UInt8 := if n < 10 then 48 + n else 87 + n

/-- One byte inside a string. -/
def escapeByte (c : UInt8) : Bytes :=
  if c = 34 then [92, 34]
  else if c = 92 then [92, 92]
  else if c = 8 then [92, 98]
  else if c = 9 then [92, 116]
  else if c = 10 then [92, 110]
  else if c = 12 then [92, 102]
  else if c = 13 then [92, 114]
  else if c < 32 then [92, 117, 48, 48, hexDigit (c / 16), hexDigit (c % 16)]
  else [c]

/-- A string with its quotes. -/
def jsonString (x : Bytes) : Bytes := 34 :: x.flatMap escapeByte ++ [34]

mutual

/-- A value at depth `d`.  `real` gives the text of an `f64` from its spelling in the file, `none` if it is infinite
(written as `null`). -/
def Json.text (real : List UInt8 → Option Bytes) (d : Nat) : Json → Bytes
  | .null => b!"null"
  | .num n => decimal n
  | .real l => match real l with
    | some t => t
    | none => b!"null"
  | .str x => jsonString x
  | .arr [] => b!"[]"
  | .arr (j :: js) => 91 :: newline (d + 1) ++ j.text real (d + 1) ++ Json.items real (d + 1) js ++ newline d ++ [93]
  | .obj [] => b!"{}"
  | .obj ((k, j) :: fs) =>
    123 :: newline (d + 1) ++ jsonString (keyBytes k) ++ b!": " ++ j.text real (d + 1) ++ Json.fields real (d + 1) fs ++
      newline d ++ [125]

/-- The items of an array after the first. -/
def Json.items (real : List UInt8 → Option Bytes) (d : Nat) : List Json → Bytes
  | [] => []
  | j :: js => 44 :: newline d ++ j.text real d ++ Json.items real d js

/-- The fields of an object after the first. -/
def Json.fields (real : List UInt8 → Option Bytes) (d : Nat) : List (String × Json) → Bytes
  | [] => []
  | (k, j) :: fs => 44 :: newline d ++ jsonString (keyBytes k) ++ b!": " ++ j.text real d ++ Json.fields real d fs

end

end Verif
