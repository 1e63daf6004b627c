import Verif.Model.MessageText

/-! What a command writes to its two streams. -/

namespace Verif

/-- The bytes that `println!` (`true`) or `eprintln!` (`false`) write, bin/hddl_analyzer/main.rs:19-80: one line after the
other. -/
def streamOf (std : Bool) (out : List OutLine) : Bytes := out.flatMap fun o => if o.bytes.1 = std then o.bytes.2 else []

end Verif
