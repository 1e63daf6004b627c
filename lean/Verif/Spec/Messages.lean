import Verif.Spec.Lexical

/-!
Reading messages.  A reader who has nothing but the bytes of a message splits them into words and looks for the fixed
words of the known sentences.  Independent of the code that prints messages.
-/

namespace Verif.Spec

open Verif

/-- What declarations and uses can be about. -/
inductive Noun where
  | object | predicate | action | task | method | parameter | type | subtask
  deriving DecidableEq, Repr

/-- What a message can say. -/
inductive Report where
  | invalidIdentifier (x : Bytes) (line : Nat)
  | invalidKeyword (x : Bytes) (line : Nat)
  | invalidReal (x : Bytes) (line : Nat)
  | syntax (expected found : Bytes) (line : Nat)
  | repeated (what : Noun) (x : Bytes) (first second : Nat)
  | repeatedRequirement (r : Req)
  | undefined (what : Noun) (x : Bytes) (line : Nat)
  | predicateArity (x : Bytes) (expected found line : Nat)
  | taskArity (x : Bytes) (expected found : Nat)
  | argumentType (x : Bytes) (expected found : Option Bytes) (line : Nat)
  | cyclicTypes
  | cyclicOrdering (line : Nat)
  /-- a compound task without a primitive refinement (a warning) -/
  | noRefinement (x : Bytes) (line : Nat)
  deriving DecidableEq, Repr

/-- The words of a text: what is between the spaces. -/
def words : Bytes → List Bytes
  | [] => [[]]
  | c :: r =>
    if c = 32 then [] :: words r
    else match words r with
      | [] => [[c]]
      | w :: ws => (c :: w) :: ws

/-- A number. -/
def readNumber (w : Bytes) : Option Nat := if w ≠ [] ∧ ∀ c ∈ w, Digit c then some (decimal w) else none

/-- What is left of a word after removing a last byte `c`. -/
def before (c : UInt8) (w : Bytes) : Option Bytes := if w.getLast? = some c then some w.dropLast else none

/-- What is left of a word after removing a first byte `c`. -/
def after (c : UInt8) (w : Bytes) : Option Bytes := if w.head? = some c then some w.tail else none

/-- A word in single quotes. -/
def quoted (w : Bytes) : Option Bytes := (before 39 w).bind (after 39)

/-- A word in single quotes, followed by `c`. -/
def quotedThen (c : UInt8) (w : Bytes) : Option Bytes := (before c w).bind quoted

def nounOf (w : Bytes) : Option Noun :=
  if w = b!"object" then some .object
  else if w = b!"predicate" then some .predicate
  else if w = b!"action" then some .action
  else if w = b!"task" then some .task
  else if w = b!"method" then some .method
  else if w = b!"parameter" then some .parameter
  else if w = b!"type" then some .type
  else if w = b!"subtask" then some .subtask
  else none

/-- Requirements as they are written in files. -/
def requirementOf (w : Bytes) : Option Req :=
  if w = b!":method-preconditions" then some .methodPreconditions
  else if w = b!":hierarchy" then some .hierarchy
  else if w = b!":typing" then some .typedObjects
  else if w = b!":negative-preconditions" then some .negativePreconditions
  else if w = b!":universal-preconditions" then some .universalPreconditions
  else if w = b!":equality" then some .equality
  else if w = b!":strips" then some .strips
  else if w = b!":probabilistic-effects" then some .probabilisticEffects
  else none

/-- "takes 2 parameters, but 3 are given." -/
def readCounts : List Bytes → Option (Nat × Nat)
  | [w1, w2, w3, w4, w5, w6, w7] =>
    if w1 = b!"takes" ∧ w3 = b!"parameters," ∧ w4 = b!"but" ∧ w6 = b!"are" ∧ w7 = b!"given." then do
      some (← readNumber w2, ← readNumber w5)
    else none
  | _ => none

/-- "'x' is first defined in line 2, and then redefined in line 3." -/
def readRepeated (what : Noun) : List Bytes → Option Report
  | [x, w1, w2, w3, w4, w5, n, w6, w7, w8, w9, w10, m] =>
    if [w1, w2, w3, w4, w5] = [b!"is", b!"first", b!"defined", b!"in", b!"line"] ∧
        [w6, w7, w8, w9, w10] = [b!"and", b!"then", b!"redefined", b!"in", b!"line"] then do
      some (.repeated what (← quoted x) (← (before 44 n).bind readNumber) (← (before 46 m).bind readNumber))
    else none
  | _ => none

/-- "Expected object of type 'a', but found 'b'.", "Expected object of type 'a', but did not find any typing.",
"Expected no type, but found 'b'." -/
def readTypes : List Bytes → Option (Option Bytes × Option Bytes)
  | w1 :: w2 :: w3 :: w4 :: r =>
    if [w1, w2, w3, w4] = [b!"Expected", b!"object", b!"of", b!"type"] then
      match r with
      | [x, w5, w6, y] =>
        if [w5, w6] = [b!"but", b!"found"] then do some (some (← quotedThen 44 x), some (← quotedThen 46 y)) else none
      | [x, w5, w6, w7, w8, w9, w10] =>
        if [w5, w6, w7, w8, w9, w10] = [b!"but", b!"did", b!"not", b!"find", b!"any", b!"typing."] then do
          some (some (← quotedThen 44 x), none)
        else none
      | _ => none
    else if [w1, w2, w3, w4] = [b!"Expected", b!"no", b!"type,", b!"but"] then
      match r with
      | [w5, y] => if w5 = b!"found" then do some (none, some (← quotedThen 46 y)) else none
      | _ => none
    else none
  | _ => none

/-- The part of a syntax error after the word "expected": the text in quotes, and the text in the last quotes. -/
def readExpected (r : Bytes) : Option (Bytes × Bytes) := do
  let r ← after 39 r
  let r ← (before 10 r).bind (before 39)
  let found := (r.reverse.takeWhile (· ≠ 39)).reverse
  let expected := r.take (r.length - (b!"', but found '").length - found.length)
  if r = expected ++ (b!"', but found '" ++ found) then some (expected, found) else none

/-- What follows "line 3:". -/
def readLined (n : Nat) (r : List Bytes) : Option Report :=
  match r with
  | [] => none
  | w :: ws =>
    if w = b!"expected" then (readExpected ([32].intercalate ws)).map fun x => .syntax x.1 x.2 n
    else if w = b!"Type" then
      match ws with
      | w1 :: w2 :: w3 :: x :: ts =>
        if [w1, w2, w3] = [b!"error", b!"for", b!"variable"] then do
          let t ← readTypes ts
          some (.argumentType (← before 46 x) t.1 t.2 n)
        else none
      | _ => none
    else if w = b!"compound" then
      match ws with
      | w1 :: x :: ts =>
        if w1 = b!"task" ∧ ts = [b!"does", b!"not", b!"have", b!"a", b!"primitive", b!"refinement"] then
          some (.noRefinement x n)
        else none
      | _ => none
    else if ws = [b!"ordering", b!"is", b!"cyclic."] then
      if w = b!"task" then some (.cyclicOrdering n) else none
    else if ws = [b!"is", b!"an", b!"invalid", b!"identifier."] then (quoted w).map fun x => .invalidIdentifier x n
    else if ws = [b!"is", b!"an", b!"invalid", b!"keyword."] then (quoted w).map fun x => .invalidKeyword x n
    else if ws = [b!"is", b!"an", b!"invalid", b!"real", b!"number.", b!"Expected", b!"digits", b!"after", b!"'.'"] then
      (quoted w).map fun x => .invalidReal x n
    else
      match ws with
      | [] => none
      | x :: ts =>
        if ts = [b!"is", b!"not", b!"defined."] then (nounOf w).map fun k => .undefined k x n
        else if w = b!"predicate" then (readCounts ts).map fun c => .predicateArity x c.1 c.2 n
        else none

/-- What a message says. -/
def readReport (b : Bytes) : Option Report :=
  match words b with
  | w :: x :: ts =>
    if w = b!"line" then do readLined (← (before 58 x).bind readNumber) ts
    else if w = b!"requirement" ∧ ts = [] then (requirementOf x).map .repeatedRequirement
    else if w = b!"Task" then (readCounts ts).map fun c => .taskArity x c.1 c.2
    else if w = b!"Type" then
      if x = b!"hierarchy" ∧ ts = [b!"is", b!"cyclic."] then some .cyclicTypes else none
    else if w = b!"compound" then if x = b!"task" then readRepeated .task ts else none
    else (nounOf w).bind fun k => readRepeated k (x :: ts)
  | _ => none

end Verif.Spec
