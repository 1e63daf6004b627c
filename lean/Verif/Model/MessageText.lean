import Verif.Model.Cli

/-! The bytes of a message. -/

namespace Verif

/-- `write!` appends the pieces one after the other: literal text as it is, identifiers as they are written in the file,
numbers (`u32` and `usize`) in decimal. -/
def Piece.bytes : Piece → Bytes
  | .s x => keyBytes x
  | .n x => x
  | .i k => decimal k

/-- What `to_string` returns. -/
def Text.bytes (t : Text) : Bytes := t.flatMap Piece.bytes

/-- A line written by `println!` or `eprintln!`, bin/hddl_analyzer/main.rs:44-80, with its stream (`true` for standard
output). -/
def OutLine.bytes : OutLine → Bool × Bytes
  | .stdout t => (true, Text.bytes t ++ [10])
  | .stderr t => (false, Text.bytes t ++ [10])

end Verif
