import Verif.Spec.Lexical

/-! Layout with a given number of comments. -/

namespace Verif.Spec

open Verif

/-- Blanks and `k` comments (`;` up to and including the next newline). -/
inductive LayoutWith : Nat → Bytes → Prop
  | nil : LayoutWith 0 []
  | blank {k : Nat} {l : Bytes} (c : UInt8) : Blank c → LayoutWith k l → LayoutWith k (c :: l)
  | comment {k : Nat} {l : Bytes} (body : Bytes) : 10 ∉ body → LayoutWith k l → LayoutWith (k + 1) (59 :: (body ++ 10 :: l))

/-- No layout begins here: the end of the file, a byte of a token, or a comment that is not ended. -/
def NoLayout (l : Bytes) : Prop := ∀ b r, l = b :: r → ¬ Blank b ∧ (b = 59 → 10 ∉ r)

end Verif.Spec
