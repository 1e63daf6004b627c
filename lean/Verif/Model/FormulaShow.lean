import Verif.Model.MessageText

/-!
The text of a formula: `Display for Formula`, `/repo/src/syntactic_analyzer/syntax_tree/nodes/formula.rs:64-100`.
`parse_action` (domain_parser/action_parser.rs:33) builds it for the effect of every action and does not use it.
-/

namespace Verif

/-- What a formatting call appends to its formatter, and how many bytes it writes to this and all other strings on the way. -/
structure Fmt where
  bytes : Bytes
  work : Nat
  deriving DecidableEq, Repr

namespace Fmt

/-- `write!(f, "..")` of a text that is at hand. -/
def lit (b : Bytes) : Fmt := ⟨b, b.length⟩

instance : Append Fmt := ⟨fun x y => ⟨x.bytes ++ y.bytes, x.work + y.work⟩⟩

/-- The separated concatenation of strings. -/
def glue (sep : Bytes) : List Bytes → Bytes
  | [] => []
  | [x] => x
  | x :: y :: xs => x ++ (sep ++ glue sep (y :: xs))

/-- `xs.iter().map(|x| format!("{}", x)).collect::<Vec<_>>().join(sep)`: each element is written to a string of its own, then
all are copied. -/
def join (sep : Bytes) (xs : List Fmt) : Fmt :=
  ⟨glue sep (xs.map bytes), (xs.map work).sum + (glue sep (xs.map bytes)).length⟩

/-- `write!(f, "{}", s)` where `s` is a string that has been built as `x`. -/
def copied (x : Fmt) : Fmt := ⟨x.bytes, x.work + x.bytes.length⟩

end Fmt

/-- `ToString for Predicate`, nodes/predicate.rs:47-57. -/
def Predicate.text (p : Predicate) : Bytes := p.name ++ [40] ++ p.vars.flatMap (fun v => v.name ++ [44]) ++ [41]

/-- `" ∧ "` in UTF-8. -/
def andSep : Bytes := [32, 0xE2, 0x88, 0xA7, 32]

/-- `" ∨ "` in UTF-8. -/
def orSep : Bytes := [32, 0xE2, 0x88, 0xA8, 32]

/-- `" ⊕ "` in UTF-8. -/
def xorSep : Bytes := [32, 0xE2, 0x8A, 0x95, 32]

/-- `vars.iter().map(|var| format!("{}", var.name)).collect::<Vec<_>>().join(", ")`, formula.rs:88 and 92. -/
def varsText (vs : List Symbol) : Fmt := .join [44, 32] (vs.map fun v => .lit v.name)

mutual

/-- `Display for Formula`, formula.rs:64-100. -/
def Formula.fmt [Env] : Formula → Fmt
  | .empty => .lit [0xE2, 0x88, 0x85]
  | .atom p => (Fmt.lit p.text).copied
  | .not f => .lit [0xC2, 0xAC, 40] ++ f.fmt ++ .lit [41]
  | .and fs => .lit [40] ++ (Fmt.join andSep (Formula.fmts fs)).copied ++ .lit [41]
  | .or fs => .lit [40] ++ (Fmt.join orSep (Formula.fmts fs)).copied ++ .lit [41]
  | .xor fs => .lit [40] ++ (Fmt.join xorSep (Formula.fmts fs)).copied ++ .lit [41]
  | .imply ps qs => .lit [40] ++ (Fmt.join andSep (Formula.fmts ps)).copied ++ .lit [41, 32, 0xE2, 0x87, 0x92, 32, 40] ++
      (Fmt.join andSep (Formula.fmts qs)).copied ++ .lit [41]
  | .exists_ vs f => .lit [0xE2, 0x88, 0x83] ++ (varsText vs).copied ++ .lit [58, 32] ++ f.fmt
  | .forall_ vs f => .lit [0xE2, 0x88, 0x80] ++ (varsText vs).copied ++ .lit [58, 32] ++ f.fmt
  | .weighted w f => .lit b!"weight: " ++ .lit w.show.bytes ++ .lit b!", formula: " ++ f.fmt
  | .equals a b => .lit a ++ .lit [32, 61, 32] ++ .lit b

/-- The texts of the operands. -/
def Formula.fmts [Env] : List Formula → List Fmt
  | [] => []
  | f :: fs => f.fmt :: Formula.fmts fs

end

/-- The texts that are built while the actions of a domain are read, action_parser.rs:33. -/
def effectTexts [Env] (d : DomainAST) : List Fmt := d.actions.filterMap fun a => a.eff.map Formula.fmt

end Verif
