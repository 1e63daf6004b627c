import Verif.Model.Json

/-!
The JSON grammar (RFC 8259), as a relation between values and texts: `Spells j t` says that `t` is a text of `j`.  White
space may be anywhere between tokens, and every escape of a character below 128 is included; `\u` escapes of other
characters are left out.  Negative numbers are left out, too.
-/

namespace Verif.Spec.JSON

/-- White space. -/
def Blank (w : Bytes) : Prop := ∀ c ∈ w, c = 32 ∨ c = 9 ∨ c = 10 ∨ c = 13

/-- A decimal digit. -/
def Digit (c : UInt8) : Prop := 48 ≤ c ∧ c ≤ 57

/-- Value of digits, most significant first. -/
def digitsValue (t : Bytes) : Nat := t.foldl (fun n c => 10 * n + (c.toNat - 48)) 0

/-- Digits without a superfluous zero at the front. -/
def IntText (t : Bytes) : Prop := t ≠ [] ∧ (∀ c ∈ t, Digit c) ∧ (t.head? = some 48 → t = [48])

/-- A number with a fraction or an exponent. -/
def RealText (t : Bytes) : Prop := ∃ int frac exp, t = int ++ frac ++ exp ∧ IntText int ∧
  (frac = [] ∨ ∃ ds, frac = 46 :: ds ∧ ds ≠ [] ∧ ∀ c ∈ ds, Digit c) ∧
  (exp = [] ∨ ∃ e sign ds, exp = e :: sign ++ ds ∧ (e = 101 ∨ e = 69) ∧ (sign = [] ∨ sign = [43] ∨ sign = [45]) ∧
    ds ≠ [] ∧ ∀ c ∈ ds, Digit c) ∧
  (frac ≠ [] ∨ exp ≠ [])

/-- Value of a hexadecimal digit. -/
def HexDigit (c : UInt8) (n : Nat) : Prop :=
  (48 ≤ c ∧ c ≤ 57 ∧ n = c.toNat - 48) ∨ (97 ≤ c ∧ c ≤ 102 ∧ n = c.toNat - 87) ∨ (65 ≤ c ∧ c ≤ 70 ∧ n = c.toNat - 55)

/-- The content of a string and the text between its quotes. -/
inductive Chars : Bytes → Bytes → Prop
  | nil : Chars [] []
  | plain {c x t} : c ≠ 34 → c ≠ 92 → 32 ≤ c → Chars x t → Chars (c :: x) (c :: t)
  | escape {c e x t} : (e, c) ∈ [((34 : UInt8), (34 : UInt8)), (92, 92), (47, 47), (98, 8), (102, 12), (110, 10), (114, 13),
      (116, 9)] → Chars x t → Chars (c :: x) (92 :: e :: t)
  | unicode {c a b : UInt8} {m n : Nat} {x t} : HexDigit a m → HexDigit b n → c.toNat = 16 * m + n → c < 128 → Chars x t →
      Chars (c :: x) (92 :: 117 :: 48 :: 48 :: a :: b :: t)

mutual

/-- `t` is a text of the value. -/
inductive Spells : Json → Bytes → Prop
  | null : Spells .null b!"null"
  | num {n t} : IntText t → digitsValue t = n → Spells (.num n) t
  | real {t} : RealText t → Spells (.real t) t
  | str {x t} : Chars x t → Spells (.str x) (34 :: t ++ [34])
  | noItems {w} : Blank w → Spells (.arr []) (91 :: w ++ [93])
  | arr {l t} : Items l t → Spells (.arr l) (91 :: t ++ [93])
  | noFields {w} : Blank w → Spells (.obj []) (123 :: w ++ [125])
  | obj {l t} : Fields l t → Spells (.obj l) (123 :: t ++ [125])

/-- `t` is a text of the items, at least one, with commas between them. -/
inductive Items : List Json → Bytes → Prop
  | one {j w t w'} : Blank w → Spells j t → Blank w' → Items [j] (w ++ t ++ w')
  | more {j js w t w' r} : Blank w → Spells j t → Blank w' → Items js r → Items (j :: js) (w ++ t ++ w' ++ 44 :: r)

/-- `t` is a text of the fields, at least one, with commas between them. -/
inductive Fields : List (String × Json) → Bytes → Prop
  | one {k : String} {j w kt w1 w2 t w'} : Blank w → Chars k.toByteArray.data.toList kt → Blank w1 → Blank w2 → Spells j t →
      Blank w' → Fields [(k, j)] (w ++ 34 :: kt ++ 34 :: w1 ++ 58 :: w2 ++ t ++ w')
  | more {k : String} {j fs w kt w1 w2 t w' r} : Blank w → Chars k.toByteArray.data.toList kt → Blank w1 → Blank w2 → Spells j t →
      Blank w' → Fields fs r → Fields ((k, j) :: fs) (w ++ 34 :: kt ++ 34 :: w1 ++ 58 :: w2 ++ t ++ w' ++ 44 :: r)

end

/-- A JSON text, possibly with white space around it. -/
def JsonText (j : Json) (t : Bytes) : Prop := ∃ w t' w', Blank w ∧ Spells j t' ∧ Blank w' ∧ t = w ++ t' ++ w'

mutual

/-- The value with every real number replaced by its text, and by `null` if it has none. -/
def printed (real : List UInt8 → Option Bytes) : Json → Json
  | .null => .null
  | .num n => .num n
  | .real l => match real l with
    | some t => .real t
    | none => .null
  | .str x => .str x
  | .arr l => .arr (printedItems real l)
  | .obj l => .obj (printedFields real l)

def printedItems (real : List UInt8 → Option Bytes) : List Json → List Json
  | [] => []
  | j :: js => printed real j :: printedItems real js

def printedFields (real : List UInt8 → Option Bytes) : List (String × Json) → List (String × Json)
  | [] => []
  | (k, j) :: fs => (k, printed real j) :: printedFields real fs

end

/-! ### Syntax trees up to the spelling of real numbers -/

/-- Real numbers respelled by `f`. -/
def respellNum (f : List UInt8 → List UInt8) : Num → Num
  | .int n => .int n
  | .real l => .real (f l)

mutual

def respellFormula (f : List UInt8 → List UInt8) : Formula → Formula
  | .empty => .empty
  | .atom p => .atom p
  | .not g => .not (respellFormula f g)
  | .and gs => .and (respellFormulas f gs)
  | .or gs => .or (respellFormulas f gs)
  | .xor gs => .xor (respellFormulas f gs)
  | .imply gs hs => .imply (respellFormulas f gs) (respellFormulas f hs)
  | .exists_ vs g => .exists_ vs (respellFormula f g)
  | .forall_ vs g => .forall_ vs (respellFormula f g)
  | .weighted w g => .weighted (respellNum f w) (respellFormula f g)
  | .equals a b => .equals a b

def respellFormulas (f : List UInt8 → List UInt8) : List Formula → List Formula
  | [] => []
  | g :: gs => respellFormula f g :: respellFormulas f gs

end

/-- A domain with its real numbers respelled. -/
def respellDomain (f : List UInt8 → List UInt8) (d : DomainAST) : DomainAST :=
  { d with
    methods := d.methods.map fun m => { m with pre := m.pre.map (respellFormula f) }
    actions := d.actions.map fun a => { a with pre := a.pre.map (respellFormula f), eff := a.eff.map (respellFormula f) } }

/-- A problem with its real numbers respelled. -/
def respellProblem (f : List UInt8 → List UInt8) (p : ProblemAST) : ProblemAST :=
  { p with goal := p.goal.map (respellFormula f) }

/-- The text of a real number, empty if it has none. -/
def realText (real : List UInt8 → Option Bytes) (l : List UInt8) : List UInt8 := (real l).getD []

end Verif.Spec.JSON
