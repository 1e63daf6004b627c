import Verif.Model.LspFiles
import Verif.Spec.Utf8

/-! URLs, files and folders. -/

namespace Verif.Spec

/-- `c` is the hexadecimal digit of value `v`. -/
def HexDigit (c : UInt8) (v : Nat) : Prop :=
  b!"0123456789abcdef"[v]? = some c ∨ b!"0123456789ABCDEF"[v]? = some c

/-- `q` is `p` with its escapes replaced (URL standard, section 1.3).  A percent sign without two digits is no escape. -/
inductive Unescaped : Bytes → Bytes → Prop
  | nil : Unescaped [] []
  | plain {c p q} : c ≠ 37 → Unescaped p q → Unescaped (c :: p) (c :: q)
  | escape {a b x y p q} : HexDigit a x → HexDigit b y → Unescaped p q →
      Unescaped (37 :: a :: b :: p) (.ofNat (16 * x + y) :: q)
  | percent {p q} : (∀ a b r, p = a :: b :: r → ¬ ((∃ x, HexDigit a x) ∧ ∃ y, HexDigit b y)) → Unescaped p q →
      Unescaped (37 :: p) (37 :: q)

/-- The path has no escapes. -/
def NoEscape (p : Bytes) : Prop :=
  ∀ pre a b x y post, HexDigit a x → HexDigit b y → p ≠ pre ++ 37 :: a :: b :: post

/-- The URL is that of a file of this computer. -/
def IsFile (u : DocUrl) : Prop := u.path.head? = some 47 ∧ (u.host = none ∨ u.host = some b!"localhost")

/-- The URL denotes the file with path `p`. -/
def FileOf (u : DocUrl) (p : Bytes) : Prop := IsFile u ∧ Unescaped u.path p

/-- `dir` is the folder of `p`: a name follows it, after a slash (several slashes count as one, as do slashes at the
end). -/
def FolderOf (p dir : Bytes) : Prop :=
  ∃ pre name : Bytes, ∃ j k : Nat, name ≠ [] ∧ 47 ∉ name ∧ pre.getLast? ≠ some 47 ∧
    p = pre ++ List.replicate (k + 1) 47 ++ name ++ List.replicate j 47 ∧ dir = if pre = [] then [47] else pre

/-- `p` is the path of the entry `name` of the folder `dir`. -/
def EntryOf (dir name p : Bytes) : Prop := (dir = b!"/" ∧ p = 47 :: name) ∨ (dir ≠ b!"/" ∧ p = dir ++ b!"/" ++ name)

/-- A name with extension `hddl` or `pddl`. -/
def HddlFile (name : Bytes) : Prop := ∃ stem, stem ≠ [] ∧ (name = stem ++ b!".hddl" ∨ name = stem ++ b!".pddl")

/-- The contents of the `hddl` and `pddl` files among the entries of a folder, all of which can be read. -/
inductive Contents (fs : FileSys) (dir : Bytes) : List Bytes → List Bytes → Prop
  | nil : Contents fs dir [] []
  | other {name names cs} : ¬ HddlFile name → Contents fs dir names cs → Contents fs dir (name :: names) cs
  | file {name names p c cs} : HddlFile name → EntryOf dir name p → fs.read p = some c → Contents fs dir names cs →
      Contents fs dir (name :: names) (c :: cs)

/-- The bytes are a text of Unicode. -/
def IsText (dir : Bytes) : Prop := ∃ t, (∀ n ∈ t, Scalar n) ∧ dir = encodeText t

end Verif.Spec
