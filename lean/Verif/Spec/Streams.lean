import Verif.Spec.Messages
import Verif.Spec.Recursion

/-!
Reading the output of a command.  A reader who has nothing but the bytes of the two streams splits them into lines and looks
for the known beginnings.  Independent of the code that prints.
-/

namespace Verif.Spec

open Verif

/-- The lines of a text, without their ends.  Nothing may follow the last end. -/
def linesIn : Bytes → Option (List Bytes)
  | [] => some []
  | c :: r =>
    if c = 10 then (linesIn r).map ([] :: ·)
    else match linesIn r with
      | some (l :: ls) => some ((c :: l) :: ls)
      | _ => none

/-- What is left of a text after removing `p` at its beginning. -/
def stripped (p b : Bytes) : Option Bytes := if b.take p.length = p then some (b.drop p.length) else none

/-! ### The command `verify` -/

/-- What the command says: the file is accepted, with these compound tasks that have no refinement and their lines; or there
is an error. -/
inductive Verdict where
  | accepted (unrefined : List (Bytes × Nat))
  | rejected (r : Report)
  deriving DecidableEq, Repr

/-- "[Warning] line 3: compound task t does not have a primitive refinement", with the first word in yellow. -/
def readWarning (l : Bytes) : Option (Bytes × Nat) :=
  match (stripped b!"\x1b[33m[Warning]\x1b[0m " l).bind readReport with
  | some (.noRefinement x n) => some (x, n)
  | _ => none

/-- Either there are only warnings and a last line "[Ok]" on standard output, or there is only one error on standard error. -/
def readVerdict (out err : Bytes) : Option Verdict :=
  if err = [] then do
    let ls ← linesIn out
    if ls.getLast? = some b!"\x1b[32m[Ok]\x1b[0m" then (ls.dropLast.mapM readWarning).map .accepted else none
  else if out = [] then do
    let l ← before 10 err
    ((stripped b!"\x1b[31m[Error]\x1b[0m " l).bind readReport).map .rejected
  else none

/-! ### The command `metadata` -/

/-- What the command says about a domain. -/
structure Summary where
  cls : Class
  /-- tasks and methods of a cycle -/
  cycle : List (Bytes × Bytes)
  nullable : List Bytes
  actions : Nat
  tasks : Nat
  methods : Nat
  deriving DecidableEq

/-- The parts of a text between parentheses. -/
def between : Bytes → List Bytes
  | [] => [[]]
  | c :: r =>
    if c = 40 ∨ c = 41 then [] :: between r
    else match between r with
      | [] => [[c]]
      | w :: ws => (c :: w) :: ws

/-- A name in brackets. -/
def bracketed (w : Bytes) : Option Bytes := (stripped b!"[" w).bind (before 93)

/-- "[t]-", "m", "->[u]-", "n", .., "->[t]": tasks with their methods, and the last task. -/
def readSteps (t : Bytes) : List Bytes → Option (List (Bytes × Bytes) × Bytes)
  | [] => (bracketed t).map fun x => ([], x)
  | [_] => none
  | m :: u :: r => do
    let x ← (before 45 t).bind bracketed
    let s ← readSteps (← stripped b!"->" u) r
    some ((x, m) :: s.1, s.2)

/-- "[t]-(m)->[u]-(n)->[t]": the last task is the first one. -/
def readCycle (b : Bytes) : Option (List (Bytes × Bytes)) :=
  match between b with
  | [] => none
  | t :: r => do
    let s ← readSteps t r
    if s.1.head?.map Prod.fst = some s.2 then some s.1 else none

/-- The classes as they are printed. -/
def readClass (w : Bytes) : Option Class :=
  if w = b!"Recursive" then some .plain
  else if w = b!"Empty recursion" then some .empty
  else if w = b!"Growing empty prefix recursion" then some .growingEmptyPrefix
  else if w = b!"Grow and shrink recursion" then some .growAndShrink
  else none

/-- The last lines: three counts, and an empty line. -/
def readTotals (cls : Class) (cycle : List (Bytes × Bytes)) (nulls : List Bytes) : List Bytes → Option Summary
  | [a, t, m, e] => do
    let a ← (stripped b!"\tNumber of actions: " a).bind readNumber
    let t ← (stripped b!"\tNumber of abstract tasks: " t).bind readNumber
    let m ← (stripped b!"\tNumber of methods: " m).bind readNumber
    if e = [] then some ⟨cls, cycle, nulls, a, t, m⟩ else none
  | _ => none

/-- Lines that begin with two tabs have the nullable tasks. -/
def readNulls : List Bytes → List Bytes × List Bytes
  | [] => ([], [])
  | l :: ls => match stripped b!"\t\t" l with
    | some x => (x :: (readNulls ls).1, (readNulls ls).2)
    | none => ([], l :: ls)

/-- The lines after the class and the cycle. -/
def readTasks (cls : Class) (cycle : List (Bytes × Bytes)) : List Bytes → Option Summary
  | [] => none
  | l :: ls =>
    if l = b!"\tNullable Tasks: None" then readTotals cls cycle [] ls
    else if l = b!"\tNullable Tasks:" then readTotals cls cycle (readNulls ls).1 (readNulls ls).2
    else none

/-- The whole text. -/
def readSummary (out : Bytes) : Option Summary := do
  match ← linesIn out with
  | l :: k :: ls =>
    if l = b!"Description" then do
      let k ← stripped b!"\tHierarchy type: " k
      if k = b!"Non-recursive" then readTasks .none [] ls
      else match ls with
        | [] => none
        | c :: ls => do
          let cls ← readClass k
          let c ← (stripped b!"\tCycle: " c).bind readCycle
          readTasks cls c ls
    else none
  | _ => none

end Verif.Spec
