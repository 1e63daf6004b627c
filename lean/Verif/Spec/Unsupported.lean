import Verif.Spec.Grammar

/-!
Specification of the parts of HDDL and PDDL that are not supported, by the token at which they show.  It mentions neither
the parser nor the grammar of the supported language.
-/

namespace Verif.Spec

open Verif

/-- The keyword of a token. -/
def keyword? : Token → Option Kw
  | .kw k => some k
  | _ => none

/-- The last keyword of a text: it tells what the text that follows belongs to. -/
def lastKeyword (c : List Tk) : Option Kw := (c.filterMap fun x => keyword? x.1).getLast?

/-- The operators that may be used after a keyword. -/
def operatorsAfter : Option Kw → List Op
  | some .precondition | some .effect | some .goal => [.and, .or, .not, .xor, .forall_, .exists_, .probabilistic, .equal]
  | some .subtasks | some .orderedSubtasks => [.and]
  | some .ordering => [.and, .lt]
  | some .constraints => [.and, .not, .equal]
  | _ => []

/-- Where formulas are written. -/
def formulaPlace : Option Kw → Bool
  | some .precondition | some .effect | some .goal => true
  | _ => false

/-- Where subtasks are written. -/
def subtaskPlace : Option Kw → Bool
  | some .subtasks | some .orderedSubtasks => true
  | _ => false

/-- `Opened c m`: the text `c` ends with an opening parenthesis, a name, and the names and types `m`. -/
def Opened (c m : List Tk) : Prop := ∃ c' l1 x l2, c = c' ++ (lpar, l1) :: (.ident x, l2) :: m ∧ Items m

/-- `Unsupported c t`: after the text `c`, the token `t` shows that something not supported is used. -/
inductive Unsupported (c : List Tk) : Token → Prop
  /-- an operator that is not supported there: implications and numeric comparisons anywhere, negated facts and values of
  functions in the initial state, disjunctions of subtasks or constraints, .. -/
  | operator {o} : o ∉ operatorsAfter (lastKeyword c) → Unsupported c (.op o)
  /-- a choice of types, `- (either a b)`, and anything else after a dash that is not a name -/
  | type {c' l t} : c = c' ++ [(.punct .dash, l)] → (∀ x, t ≠ .ident x) → Unsupported c t
  /-- something with a name that is applied to something in parentheses: conditional effects `(when (p) (q))`, preferences
  `(preference n (p))`, assignments `(increase (f) 1)`, terms with functions; `(label (task ..))` is supported where
  subtasks are written -/
  | nested {m} : Opened c m → (m ≠ [] ∨ subtaskPlace (lastKeyword c) = false) → Unsupported c lpar
  /-- something with a name that is applied to a keyword, an operator or a number -/
  | argument {m t} : Opened c m → (∀ x, t ≠ .ident x) → (∀ p, t ≠ .punct p) → Unsupported c t
  /-- a number outside of formulas -/
  | number {n} : formulaPlace (lastKeyword c) = false → Unsupported c (.num n)

end Verif.Spec
