import Verif.Model.Display
import Verif.Model.JsonText

/-! Command line.  `/repo/src/bin/hddl_analyzer/main.rs`. -/

namespace Verif

/-- A line written by the program. -/
inductive OutLine where
  | stdout (t : Text)
  | stderr (t : Text)
  deriving DecidableEq, Repr

/-- Result of reading a file: its content or the text of the error. -/
abbrev ReadResult := Except Text Bytes

/-- `eprintln!("{}[Error]{} {}", red, reset, error)`. -/
def errorLine (t : Text) : OutLine := .stderr ([.s "\x1b[31m[Error]\x1b[0m "] ++ t)

/-- `println!("{}[Ok]{}", green, reset)`. -/
def okLine : OutLine := .stdout [.s "\x1b[32m[Ok]\x1b[0m"]

/-- `println!("{}[Warning]{} {}", yellow, reset, warning)`. -/
def warnLine (w : Warning) : OutLine := .stdout ([.s "\x1b[33m[Warning]\x1b[0m "] ++ w.show)

/-- Output for a result of `verify`, main.rs:44-54 and 62-74. -/
def verifyOutput [Env] : R (List Warning) → R (List OutLine)
  | .ok ws => .ok (ws.map warnLine ++ [okLine])
  | .err e => e.show.bind fun t => .ok [errorLine t]
  | .panic p => .panic p
  | .timeout => .timeout

/-- The `verify` command, main.rs:35-81. -/
def cliVerify [Env] (ord : HashOrd) (fuel : Nat) (domain : ReadResult) (problem : Option ReadResult) : R (List OutLine) :=
  match domain with
  | .error t => .ok [errorLine t]
  | .ok d =>
    match problem with
    | some (.error t) => .ok [errorLine t]
    | some (.ok p) => verifyOutput (verify ord fuel d (some p))
    | none => verifyOutput (verify ord fuel d none)

/-- The `metadata` command, main.rs:19-34 (it ignores a problem file). -/
def cliMetadata [Env] (ord : HashOrd) (fuel : Nat) (domain : ReadResult) : R (List OutLine) :=
  match domain with
  | .error t => .ok [errorLine t]
  | .ok d =>
    match getMetadata ord fuel d with
    | .ok m => .ok [.stdout m.show]
    | .err e => e.show.bind fun t => .ok [errorLine t]
    | .panic p => .panic p
    | .timeout => .timeout

/-- The file named with `to_json`: the name as given, the `Debug` text of its path in the current directory, and the
result of `fs::write`.  That `env::current_dir` fails is not modelled. -/
structure OutFile where
  name : Text
  path : Text
  written : Except Text Unit

/-- Output for a result of `to_json`, main.rs:91-116 (`done o` is the line printed after writing, main.rs:104) and
124-146 (main.rs:134): the lines printed, and the content of the file if one is written. -/
def serializeOutput [Env] (real : List UInt8 → Option Bytes) (done : OutFile → Text) (out : Option OutFile) :
    R Json → R (List OutLine × Option Bytes)
  | .ok j =>
    match out with
    | none => .ok ([okLine, .stdout [.n (j.text real 0)]], none)
    | some o =>
      match o.written with
      | .ok _ => .ok ([.stdout (done o)], some (j.text real 0))
      | .error t => .ok ([errorLine t], none)
  | .err e => e.show.bind fun t => .ok ([errorLine t], none)
  | .panic p => .panic p
  | .timeout => .timeout

/-- The `to_json` command (`Commands::Serialize`), main.rs:82-156. -/
def cliSerialize [Env] (real : List UInt8 → Option Bytes) (ord : HashOrd) (fuel : Nat) (domain : ReadResult)
    (problem : Option ReadResult) (out : Option OutFile) : R (List OutLine × Option Bytes) :=
  match domain with
  | .error t => .ok ([errorLine t], none)
  | .ok d =>
    match problem with
    | some (.error t) => .ok ([errorLine t], none)
    | some (.ok p) => serializeOutput real (fun o => o.path) out (toJson ord fuel d (some p))
    | none => serializeOutput real (fun o => [.s "Result successfully written to "] ++ o.name) out (toJson ord fuel d none)

/-- Exit code: `main` returns `()` in every case, so 0 unless a panic (101). -/
def exitCode {α} : R α → Option Nat
  | .ok _ => some 0
  | .err _ => some 0
  | .panic _ => some 101
  | .timeout => none

end Verif
