import Verif.Model.Token

/-! A concrete environment and a test of results, used only in examples. -/

namespace Verif

/-- No non-Latin letters, and reals shown as nothing. -/
@[reducible] def Env.plain : Env := ⟨fun _ => false, fun _ => ""⟩

/-- The result is a value that passes the test. -/
def R.holds {α} (p : α → Bool) : R α → Bool
  | .ok a => p a
  | _ => false

end Verif
