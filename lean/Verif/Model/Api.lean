import Verif.Model.Parser
import Verif.Model.ProblemAnalyzer
import Verif.Model.Json

/-! The public functions.  `/repo/src/lib.rs`. -/

namespace Verif

variable [Env]

/-- `HDDLAnalyzer::verify`, lib.rs:22-54. -/
def verify (ord : HashOrd) (fuel : Nat) (domain : Bytes) (problem : Option Bytes) : R (List Warning) :=
  (parse fuel domain).bind fun
    | .problem _ => .panic .expectedDomain
    | .domain d =>
      (verifyDomain ord fuel d).bind fun st =>
        match problem with
        | none => .ok st.warnings
        | some p =>
          (parse fuel p).bind fun
            | .domain _ => .panic .expectedProblem
            | .problem p => verifyProblem st p

/-- `MetaData`, `/repo/src/output/metadata.rs:53-60` (counts unbounded instead of `u32`). -/
structure MetaData where
  recursion : RecType
  nullables : List Name
  domainName : Name
  nActions : Nat
  nTasks : Nat
  nMethods : Nat
  deriving DecidableEq, Repr

/-- `HDDLAnalyzer::get_metadata`, lib.rs:56-79 (its second argument is not used). -/
def getMetadata (ord : HashOrd) (fuel : Nat) (domain : Bytes) : R MetaData :=
  (parse fuel domain).bind fun
    | .problem _ => .panic .expectedDomain
    | .domain d =>
      (TDG.new ord d).bind fun tdg =>
      (tdg.nullables fuel).bind fun nulls =>
      (tdg.recursionType ord fuel nulls).bind fun rt =>
        .ok ⟨rt, arrange ord [20] nulls, [], d.actions.length, d.tasks.length, d.methods.length⟩

/-- `HDDLAnalyzer::to_json`, lib.rs:81-118, as a JSON value; the root is a hash map. -/
def toJson (ord : HashOrd) (fuel : Nat) (domain : Bytes) (problem : Option Bytes) : R Json :=
  (parse fuel domain).bind fun
    | .problem _ => .panic .expectedDomain
    | .domain d =>
      match problem with
      | none => .ok (.obj (arrange ord [30] [("domain", jDomain d)]))
      | some p =>
        (parse fuel p).bind fun
          | .domain _ => .panic .expectedProblem
          | .problem p => .ok (.obj (arrange ord [30] [("domain", jDomain d), ("problem", jProblem p)]))

end Verif
