import Verif.Spec.Grammar

/-!
What a message about a wrong token refers to: nothing about the parser.
-/

namespace Verif.Spec

open Verif

/-- How a token is named in a message that was produced by looking one token ahead: there `<=` and `>=` show as `<` and
`>`. -/
def shown : Token → Token
  | .op .le => .op .lt
  | .op .ge => .op .gt
  | t => t

/-- The same tokens, possibly on other lines. -/
def SameTokens (ts ts' : List Tk) : Prop := ts'.map Prod.fst = ts.map Prod.fst

end Verif.Spec
