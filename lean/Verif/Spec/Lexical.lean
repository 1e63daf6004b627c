import Verif.Model.Token

/-!
Specification of the lexical level, independent of the tokenizer: what counts as layout, which words are reserved,
how each token is written, and which byte may follow it.
-/

namespace Verif.Spec

open Verif

/-- Number of newline bytes. -/
def newlines (b : Bytes) : Nat := b.count 10

/-- The four blanks: space, tab, newline, carriage return. -/
def Blank (c : UInt8) : Prop := c ∈ [32, 9, 10, 13]

instance (c : UInt8) : Decidable (Blank c) := by unfold Blank; infer_instance

/-- Layout: any mixture of blanks and comments (`;` up to and including the next newline). -/
inductive Layout : Bytes → Prop
  | nil : Layout []
  | blank (c : UInt8) (l : Bytes) : Blank c → Layout l → Layout (c :: l)
  | comment (body l : Bytes) : 10 ∉ body → Layout l → Layout (59 :: (body ++ 10 :: l))

/-- Reserved words written with a colon, with the published aliases. -/
def colonTable : List (Bytes × Token) := [
  (b!"negative-preconditions", .req .negativePreconditions),
  (b!"strips", .req .strips),
  (b!"hierarchy", .req .hierarchy),
  (b!"equality", .req .equality),
  (b!"method-preconditions", .req .methodPreconditions),
  (b!"typing", .req .typedObjects),
  (b!"universal-preconditions", .req .universalPreconditions),
  (b!"requirements", .kw .requirements),
  (b!"objects", .kw .objects),
  (b!"types", .kw .types),
  (b!"constants", .kw .constants),
  (b!"predicates", .kw .predicates),
  (b!"functions", .kw .functions),
  (b!"init", .kw .init),
  (b!"htn", .kw .htn),
  (b!"task", .kw .task),
  (b!"action", .kw .action),
  (b!"parameters", .kw .parameters),
  (b!"method", .kw .method),
  (b!"precondition", .kw .precondition),
  (b!"effect", .kw .effect),
  (b!"subtasks", .kw .subtasks),
  (b!"tasks", .kw .subtasks),
  (b!"ordered-subtasks", .kw .orderedSubtasks),
  (b!"ordered-tasks", .kw .orderedSubtasks),
  (b!"ordering", .kw .ordering),
  (b!"order", .kw .ordering),
  (b!"constraints", .kw .constraints),
  (b!"goal", .kw .goal),
  (b!"domain", .kw .domain),
  (b!"problem", .kw .problem)]

/-- Reserved words written without a colon. -/
def plainTable : List (Bytes × Token) := [
  (b!"define", .kw .define),
  (b!"domain", .kw .domain),
  (b!"problem", .kw .problem),
  (b!"and", .op .and),
  (b!"or", .op .or),
  (b!"oneof", .op .xor),
  (b!"not", .op .not),
  (b!"forall", .op .forall_),
  (b!"exists", .op .exists_),
  (b!"imply", .op .implication),
  (b!"probabilistic", .op .probabilistic)]

/-- ASCII digit. -/
def Digit (c : UInt8) : Prop := 48 ≤ c ∧ c ≤ 57

/-- ASCII letter, digit, underscore or hyphen. -/
def WordByte (c : UInt8) : Prop :=
  (65 ≤ c ∧ c ≤ 90) ∨ (97 ≤ c ∧ c ≤ 122) ∨ Digit c ∨ c = 95 ∨ c = 45

instance (c : UInt8) : Decidable (Digit c) := by unfold Digit; infer_instance
instance (c : UInt8) : Decidable (WordByte c) := by unfold WordByte; infer_instance

/-- A word: ASCII letters, digits, `_` and `-`. -/
def Word (w : Bytes) : Prop := ∀ c ∈ w, WordByte c

instance (w : Bytes) : Decidable (Word w) := by unfold Word; infer_instance

/-- The number denoted by a string of decimal digits. -/
def decimal : Bytes → Nat
  | [] => 0
  | c :: cs => (c.toNat - 48) * 10 ^ cs.length + decimal cs

/-- A plain name: a word that starts with a letter or an underscore and is not reserved. -/
def PlainName (w : Bytes) : Prop :=
  Word w ∧ (∃ c r, w = c :: r ∧ ¬ Digit c ∧ c ≠ 45) ∧ ∀ t, (w, t) ∉ plainTable

/-- `Spells t w`: the token `t` may be written `w`. -/
inductive Spells : Token → Bytes → Prop
  | dash : Spells (.punct .dash) [45]
  | lparen : Spells (.punct .lparen) [40]
  | rparen : Spells (.punct .rparen) [41]
  | lt : Spells (.op .lt) [60]
  | le : Spells (.op .le) [60, 61]
  | gt : Spells (.op .gt) [62]
  | ge : Spells (.op .ge) [62, 61]
  | equal : Spells (.op .equal) [61]
  | colon {w t} : (w, t) ∈ colonTable → Spells t (58 :: w)
  | plain {w t} : (w, t) ∈ plainTable → Spells t w
  | variable_ {w} : Word w → Spells (.ident w) (63 :: w)
  | name {w} : PlainName w → Spells (.ident w) w
  | int {w} : w ≠ [] → (∀ c ∈ w, Digit c) → decimal w < 2 ^ 63 → Spells (.num (.int (decimal w))) w
  | real {w u} : w ≠ [] → (∀ c ∈ w, Digit c) → (∀ c ∈ u, Digit c) →
      Spells (.num (.real (w ++ 46 :: u))) (w ++ 46 :: u)

/-- A byte that ends a word: a blank or a parenthesis. -/
def Delim (c : UInt8) : Prop := Blank c ∨ c = 40 ∨ c = 41

instance (c : UInt8) : Decidable (Delim c) := by unfold Delim; infer_instance

/-- What may follow a token: words need a delimiter, integers anything but a digit or a dot, reals anything but a
digit, `<` and `>` anything but `=`; the other tokens may be followed by anything. -/
def Follows : Token → Bytes → Prop
  | .punct _, _ => True
  | .op .lt, r | .op .gt, r => r.head? ≠ some 61
  | .op .le, _ | .op .ge, _ | .op .equal, _ => True
  | .num (.int _), r => ∀ c, r.head? = some c → ¬ Digit c ∧ c ≠ 46
  | .num (.real _), r => ∀ c, r.head? = some c → ¬ Digit c
  | .kw _, r | .op _, r | .req _, r | .ident _, r => ∃ c, r.head? = some c ∧ Delim c
  | .eof, _ => False

/-- `TextOf t w`: a superset of `Spells` that also admits names with non-ASCII bytes (names are only known not to contain
blanks or parentheses) and integers of any size; the end of file has the empty text. -/
inductive TextOf : Token → Bytes → Prop
  | spells {t w} : Spells t w → TextOf t w
  | variable_ {w} : (∀ c ∈ w, ¬ Delim c) → TextOf (.ident w) (63 :: w)
  | name {w} : (∀ c ∈ w, ¬ Delim c) → (∀ t, (w, t) ∉ plainTable) → TextOf (.ident w) w
  | eof : TextOf .eof []

/-- `Written ts n file`: `file` is the token sequence `ts` written out with arbitrary layout, where `n` is the line
of the first byte and every token carries the line on which it starts. -/
inductive Written : List (Token × Nat) → Nat → Bytes → Prop
  | done {n lay} : Layout lay → Written [] n lay
  | token {t ts n lay w rest} : Layout lay → Spells t w → Follows t rest → Written ts (n + newlines lay) rest →
      Written ((t, n + newlines lay) :: ts) n (lay ++ (w ++ rest))

end Verif.Spec
