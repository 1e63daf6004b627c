import Verif.Model.LspAsync
import Verif.Spec.Output
import Verif.Spec.Lexical

/-! Histories of messages of the language server. -/

namespace Verif.Spec

variable {U : Type}

/-- The notifications in a history. -/
def notes : List (Msg U) → List (LspEvent U)
  | [] => []
  | .note e :: ms => e :: notes ms
  | .ask _ :: ms => notes ms

/-- `u` is saved without its text being sent. -/
def ReadsDisk (u : U) (ms : List (Msg U)) : Prop := ∃ d, Msg.note (.didSave u none d) ∈ ms

/-- A notification that brings a text. -/
def Brings (u : U) (t : Bytes) (m : Msg U) : Prop :=
  m = .note (.didOpen u t) ∨ (∃ d, m = .note (.didSave u (some t) d)) ∨ ∃ ts, m = .note (.didChange u (t :: ts))

/-- A text that is empty or ends with a blank or a parenthesis. -/
def Ended (t : Bytes) : Prop := t = [] ∨ ∃ c, t.getLast? = some c ∧ Delim c

/-- The server can have got the text `t` for `u` from these messages: one of them brings it, or one of them is a save
without text and a view of the file system has it. -/
def Origin (world : FileSys → Prop) (ms : List (Msg DocUrl)) (u : DocUrl) (t : Bytes) : Prop :=
  (∃ m ∈ ms, Brings u t m) ∨ (ReadsDisk u ms ∧ ∃ fs, world fs ∧ fs.read u.path = some t)

/-- `k` steps lead from `s` to `s'`. -/
inductive Moves {S : Type} (R : S → S → Prop) : Nat → S → S → Prop
  | refl (s : S) : Moves R 0 s s
  | tail {k : Nat} {s t u : S} : Moves R k s t → R t u → Moves R (k + 1) s u

/-- No step is possible. -/
def Stuck {S : Type} (R : S → S → Prop) (s : S) : Prop := ∀ t, ¬ R s t

end Verif.Spec
