import Mathlib.Data.List.Dedup
import Mathlib.Data.List.Lattice
import Verif.Model.AST
import Verif.Model.Hash

/-! Task decomposition graph.  `/repo/src/semantic_analyzer/tdg.rs`. -/

namespace Verif

/-- `TDG`, tdg.rs:5-10.  Tasks are numbered (compound tasks first, then actions) and so are methods.
`fromTasks[t]` are the methods of task `t` and `toTasks[m]` the tasks of method `m`, each in the (fixed) iteration order
of its hash set; `keys` is the iteration order of the map `edges_from_tasks`. -/
structure TDG where
  /-- name, and whether the task is compound -/
  tasks : List (Name × Bool)
  methods : List (Name × HTN)
  fromTasks : List (List Nat)
  toTasks : List (List Nat)
  keys : List Nat

/-- `task_indices`, tdg.rs:29-33: the last task of a given name. -/
def taskIndexLast (tasks : List (Name × Bool)) (x : Name) : Option Nat :=
  ((List.range tasks.length).reverse).find? fun i => (tasks[i]?.map (·.1)) = some x

/-- `get_task_index`, tdg.rs:394-401: the first task of a given name. -/
def taskIndexFirst (tasks : List (Name × Bool)) (x : Name) : Option Nat :=
  (List.range tasks.length).find? fun i => (tasks[i]?.map (·.1)) = some x

/-- The tasks of the graph, tdg.rs:15-22. -/
def tdgTasks (d : DomainAST) : List (Name × Bool) :=
  d.tasks.map (fun t => (t.name, true)) ++ d.actions.map (fun a => (a.name, false))

/-- The task of every method, tdg.rs:37-48. -/
def methodTasks (tasks : List (Name × Bool)) : List Method → R (List Nat)
  | [] => .ok []
  | m :: ms =>
    match taskIndexLast tasks m.task.name with
    | some i => (methodTasks tasks ms).bind fun r => .ok (i :: r)
    | none => .panic .tdgTask

/-- The indices of the subtasks of a method, tdg.rs:52-60. -/
def subtaskIndices (tasks : List (Name × Bool)) : List Subtask → R (List Nat)
  | [] => .ok []
  | s :: ss =>
    match taskIndexLast tasks s.task.name with
    | some i => (subtaskIndices tasks ss).bind fun r => .ok (i :: r)
    | none => .panic .tdgSubtask

/-- "method to task" edges, tdg.rs:51-62. -/
def methodSubtasks (tasks : List (Name × Bool)) : List Method → R (List (List Nat))
  | [] => .ok []
  | m :: ms =>
    (subtaskIndices tasks m.tn.subtasks).bind fun i =>
      (methodSubtasks tasks ms).bind fun r => .ok (i :: r)

/-- `TDG::new`, tdg.rs:13-69. -/
def TDG.new (ord : HashOrd) (d : DomainAST) : R TDG :=
  let tasks := tdgTasks d
  (methodTasks tasks d.methods).bind fun owner =>
    (methodSubtasks tasks d.methods).bind fun subs =>
      .ok {
        tasks := tasks
        methods := d.methods.map fun m => (m.name.name, m.tn)
        fromTasks := (List.range tasks.length).map fun t =>
          arrange ord [0, t] ((List.range owner.length).filter fun m => owner[m]? = some t)
        toTasks := subs.mapIdx fun m l => arrange ord [1, m] l.dedup
        keys := arrange ord [2] (List.range tasks.length)
      }

/-- `edges_from_tasks.get(t)`, empty if absent. -/
def TDG.methodsOf (g : TDG) (t : Nat) : List Nat := (g.fromTasks[t]?).getD []

/-- `edges_to_tasks.get(m)`, empty if absent. -/
def TDG.tasksOf (g : TDG) (m : Nat) : List Nat := (g.toTasks[m]?).getD []

/-- The breadth first search of `reachable`, tdg.rs:96-114: returns `reach_t`. -/
def TDG.bfs (g : TDG) : Nat → List Nat → List Nat → List Nat → R (List Nat)
  | _, [], _, reach => .ok reach
  | 0, _ :: _, _, _ => .timeout
  | n + 1, t :: queue, visited, reach =>
    if t ∈ visited then g.bfs n queue visited reach
    else
      let new := (g.methodsOf t).flatMap g.tasksOf
      g.bfs n (queue ++ new) (t :: visited) (new ∪ reach)

/-- State of the loop of `compute_nullables`, tdg.rs:440-443. -/
structure NullState where
  nullables : List Nat
  newNullables : List Nat
  unit : List (Nat × List Nat)
  changedN : Bool
  changedU : Bool

/-- `unit_reachability.get(x)`. -/
def unitGet (u : List (Nat × List Nat)) (x : Nat) : Option (List Nat) :=
  (u.find? fun e => e.1 = x).map (·.2)

/-- Base case of the nullables, tdg.rs:405-417. -/
def TDG.null0 (g : TDG) : List Nat :=
  g.keys.filter fun t => (g.methodsOf t).any fun m => (g.tasksOf m).isEmpty

/-- Base case of the unit reachability, tdg.rs:420-439.  Simplified: entries are kept in the order of the tasks and
a second insertion under the same key (possible only for duplicate names) recomputes the same value. -/
def TDG.unit0 (g : TDG) : List (Nat × List Nat) :=
  (g.tasks.filter (·.2)).filterMap fun t =>
    (taskIndexFirst g.tasks t.1).map fun i =>
      (i, ((g.methodsOf i).filterMap fun m => match g.tasksOf m with | [x] => some x | _ => none) ∪ [i])

/-- Test of the nullables induction step, tdg.rs:449-456. -/
def looksNullable (s : NullState) (x : Nat) : Bool :=
  match unitGet s.unit x with
  | some set => set.any fun y => y ∈ s.nullables
  | none => false

/-- Nullables induction step, tdg.rs:446-461. -/
def TDG.stepNullables (g : TDG) (s : NullState) : List Nat :=
  (g.keys.filter fun t => (g.methodsOf t).any fun m => (g.tasksOf m).all (looksNullable s)) ∪ s.newNullables

/-- The task picked by the scan of lines 476-488: the first task of the method that is not nullable (the `break` only
ends the scan, it does not discard the pick). -/
def TDG.pick (g : TDG) (nullables : List Nat) (m : Nat) : Option Nat :=
  (g.tasksOf m).find? fun x => x ∉ nullables

/-- New unit reachability set of a task, tdg.rs:465-490. -/
def TDG.stepUnit (g : TDG) (s : NullState) (c : Nat) (prev : List Nat) : List Nat :=
  ((g.methodsOf c).filterMap (g.pick s.nullables)) ∪
    ((prev.flatMap fun p => (unitGet s.unit p).getD []) ∪ prev)

/-- One iteration of the loop of `compute_nullables`, tdg.rs:444-512.  Lines 508-511 extend the entries that changed
(the others are left as they are; extending them by an equal set is the same). -/
def TDG.nullStep (g : TDG) (s : NullState) : NullState :=
  let newN := g.stepNullables s
  let unchanged := s.unit.any fun e => (g.stepUnit s e.1 e.2).all fun x => x ∈ e.2
  let same := newN.length = s.nullables.length
  { nullables := if same then s.nullables else newN ∪ s.nullables
    newNullables := newN
    unit := s.unit.map fun e => (e.1, g.stepUnit s e.1 e.2)
    changedN := if same then false else s.changedN
    changedU := if unchanged then false else s.changedU }

/-- The loop of `compute_nullables`, tdg.rs:444-512. -/
def TDG.nullLoop (g : TDG) : Nat → NullState → R (List Nat)
  | 0, s => if s.changedN || s.changedU then .timeout else .ok s.nullables
  | n + 1, s => if s.changedN || s.changedU then g.nullLoop n (g.nullStep s) else .ok s.nullables

/-- Names of a list of task indices as a set of names, tdg.rs:513-517. -/
def TDG.names (g : TDG) (l : List Nat) : List Name := (l.filterMap fun i => g.tasks[i]?.map (·.1)).dedup

/-- `compute_nullables`, tdg.rs:403-518. -/
def TDG.nullables (g : TDG) (fuel : Nat) : R (List Name) :=
  (g.nullLoop fuel ⟨g.null0, [], g.unit0, true, true⟩).bind fun l => .ok (g.names l)

/-- `ReachableSet`, tdg.rs:527-531. -/
structure ReachableSet where
  primitives : List Name
  compounds : List Name
  nullable : Bool
  deriving DecidableEq, Repr

/-- `reachable`, tdg.rs:71-136. -/
def TDG.reachable (g : TDG) (fuel : Nat) (name : Name) : R ReachableSet :=
  match taskIndexFirst g.tasks name with
  | none => .panic .tdgIndex
  | some i =>
    match g.tasks[i]? with
    | some (n, false) => .ok ⟨[n], [], false⟩
    | _ =>
      (g.bfs fuel [i] [] [i]).bind fun reach =>
        (g.nullables fuel).bind fun nulls =>
          let at_ (b : Bool) := (List.range g.tasks.length).filter fun j =>
            (j ∈ reach) && (g.tasks[j]?.map (·.2)) == some b
          .ok ⟨g.names (at_ false), g.names (at_ true), name ∈ nulls⟩

/-- `RecursionType`, `/repo/src/output/metadata.rs:4-10`. -/
inductive RecType where
  | nonRecursive
  | recursive (c : List (Name × Name))
  | empty (c : List (Name × Name))
  | growingEmptyPrefix (c : List (Name × Name))
  | growAndShrink (c : List (Name × Name))
  deriving DecidableEq, Repr

/-- `str::contains`: `x` occurs in `s`. -/
def isSubstr (x : Name) : Name → Bool
  | [] => x.isEmpty
  | c :: cs => x.isPrefixOf (c :: cs) || isSubstr x cs

/-- `task_occurances`, tdg.rs:276-287 and 349-360: the ids of the subtasks with the given task. -/
def occurrences (h : HTN) (task : Name) : List Name :=
  (h.subtasks.filterMap fun s => match s.id with
    | some id => if s.task.name = task then some id.name else none
    | none => none).dedup

/-- `id_to_task_mapping`, tdg.rs:275-287 and 348-360: later subtasks overwrite earlier ones. -/
def idToTask (h : HTN) (id : Name) : Option Name :=
  (h.subtasks.reverse.find? fun s => match s.id with | some i => i.name = id | none => false).map (·.task.name)

/-- `adjacency.get(t)`, tdg.rs:289-297 and 362-370 (as a set without its iteration order). -/
def successors (os : List (Name × Name)) (t : Name) : List Name :=
  ((os.filter fun e => e.1 = t).map (·.2)).dedup

/-- The loop of `get_prefix` on partial orders, tdg.rs:301-315.  Whenever it finds something it pushes the same id back,
so it can only end with an empty prefix. -/
def prefixLoop (os : List (Name × Name)) (occ : List Name) : Nat → List Name → R Unit
  | _, [] => .ok ()
  | 0, _ :: _ => .timeout
  | n + 1, t :: stack =>
    let hits := (successors os t).flatMap fun o => occ.filter fun x => isSubstr x o
    prefixLoop os occ n (hits.map (fun _ => t) ++ stack)

/-- The loop of `get_suffix` on partial orders, tdg.rs:374-382: the top of the stack is the head of the list.
`site` and the id identify the hash set iterated.  Simplified: the sets are rebuilt in every call, here calls with the same
arguments use the same order. -/
def suffixLoop (ord : HashOrd) (site : Site) (os : List (Name × Name)) : Nat → List Name → List Name → R (List Name)
  | _, [], acc => .ok acc
  | 0, _ :: _, _ => .timeout
  | n + 1, t :: stack, acc =>
    let out := arrange ord (site ++ t.map (·.toNat)) (successors os t)
    suffixLoop ord site os n (out.reverse ++ stack) (acc ++ out)

/-- Task indices of a list of ids; panics on an id that is not in the mapping, tdg.rs:383-389. -/
def idIndices (g : TDG) (h : HTN) : List Name → R (List Nat)
  | [] => .ok []
  | id :: ids =>
    match idToTask h id with
    | none => .panic .tdgId
    | some t =>
      match taskIndexFirst g.tasks t with
      | none => .panic .tdgIndex
      | some i => (idIndices g h ids).bind fun r => .ok (i :: r)

/-- Task indices of a list of subtasks, tdg.rs:261-266 and 334-339. -/
def subIndices (g : TDG) : List Subtask → R (List Nat)
  | [] => .ok []
  | s :: ss =>
    match taskIndexFirst g.tasks s.task.name with
    | none => .panic .tdgIndex
    | some i => (subIndices g ss).bind fun r => .ok (i :: r)

/-- Name and task network of a method (out-of-range indices do not occur). -/
def TDG.method (g : TDG) (m : Nat) : Name × HTN := (g.methods[m]?).getD ([], ⟨[], none, .total, none⟩)

/-- Name of a task (out-of-range indices do not occur). -/
def TDG.taskName (g : TDG) (t : Nat) : Name := ((g.tasks[t]?).getD ([], false)).1

/-- `get_prefix`, tdg.rs:254-325. -/
def TDG.getPrefix (g : TDG) (ord : HashOrd) (fuel : Nat) (t m : Nat) : R (List Nat) :=
  let h := (g.method m).2
  let task := g.taskName t
  match h.orderings with
  | .total =>
    match h.subtasks.findIdx? fun s => s.task.name = task with
    | some i => subIndices g (h.subtasks.take i)
    | none => .panic .tdgNotInMethod
  | .partial_ os =>
    if os.length ≠ h.subtasks.length - 1 then .panic .tdgAssert
    else
      let occ := occurrences h task
      (prefixLoop os occ fuel (arrange ord [3, t, m] occ).reverse).bind fun _ => .ok []

/-- `get_suffix`, tdg.rs:327-392. -/
def TDG.getSuffix (g : TDG) (ord : HashOrd) (fuel : Nat) (t m : Nat) : R (List Nat) :=
  let h := (g.method m).2
  let task := g.taskName t
  match h.orderings with
  | .total =>
    match h.subtasks.findIdx? fun s => s.task.name = task with
    | some i => subIndices g (h.subtasks.drop (i + 1))
    | none => .panic .tdgNotInMethod
  | .partial_ os =>
    if os.length ≠ h.subtasks.length - 1 then .panic .tdgAssert
    else
      let occ := occurrences h task
      (suffixLoop ord [5, t, m] os fuel (arrange ord [4, t, m] occ).reverse []).bind fun ids => idIndices g h ids

/-- The loop over the edges of a cycle, tdg.rs:170-187: whether the prefix of the cycle can be empty, and the suffix.
The cycle is a list of (task, method) pairs that ends with the task it started with. -/
def TDG.cycleInfo (g : TDG) (ord : HashOrd) (fuel : Nat) (nulls : List Nat) (newTask : Nat) :
    List (Nat × Nat) → R (Bool × List Nat)
  | (_, m) :: (t, m') :: rest =>
    (g.getPrefix ord fuel t m).bind fun pre =>
      let eps := match pre with
        | [] => true
        | p :: _ => p == newTask || pre.all fun x => x ∈ nulls
      (g.getSuffix ord fuel t m).bind fun suf =>
        (g.cycleInfo ord fuel nulls newTask ((t, m') :: rest)).bind fun r =>
          .ok (eps && r.1, suf ++ r.2)
  | _ => .ok (true, [])

/-- The cycle with names, tdg.rs:189-197. -/
def TDG.cycleNames (g : TDG) (c : List (Nat × Nat)) : List (Name × Name) :=
  c.map fun p => (g.taskName p.1, (g.method p.2).1)

/-- The update of `recursion_type` for a cycle, tdg.rs:198-237. -/
def updateRec (rt : RecType) (eps : Bool) (suffix nulls : List Nat) (c : List (Name × Name)) : RecType :=
  if eps then
    if suffix.isEmpty then
      match rt with
      | .growAndShrink _ => rt
      | _ => .empty c
    else
      let ns := suffix.all fun x => x ∈ nulls
      match rt with
      | .growAndShrink _ => rt
      | .empty _ => if ns then .growAndShrink c else rt
      | _ => if ns then .growAndShrink c else .growingEmptyPrefix c
  else
    match rt with
    | .nonRecursive => .recursive c
    | _ => rt

/-- The position of a task on a path, tdg.rs:158-166: the part of the path from its first occurrence on. -/
def cycleFrom (path : List (Nat × Nat)) (t : Nat) : Option (List (Nat × Nat)) :=
  match path.dropWhile (fun p => p.1 ≠ t) with
  | [] => none
  | l => some l

/-- The loop over the tasks of the current method, tdg.rs:156-249.  `path` is in order, `m` is its last method.
Returns the new stack and recursion type. -/
def TDG.expand (g : TDG) (ord : HashOrd) (fuel : Nat) (nulls : List Nat) (path : List (Nat × Nat)) (m : Nat) :
    List Nat → List (List (Nat × Nat)) → RecType → R (List (List (Nat × Nat)) × RecType)
  | [], stack, rt => .ok (stack, rt)
  | x :: xs, stack, rt =>
    match cycleFrom path x with
    | some c =>
      let cyc := c ++ [(x, m)]
      (g.cycleInfo ord fuel nulls x cyc).bind fun (eps, suffix) =>
        g.expand ord fuel nulls path m xs stack (updateRec rt eps suffix nulls (g.cycleNames cyc))
    | none =>
      g.expand ord fuel nulls path m xs
        (((g.methodsOf x).map fun m' => path ++ [(x, m')]).reverse ++ stack) rt

/-- The depth first search over the paths of the graph, tdg.rs:154-250; the top of the stack is the head. -/
def TDG.recLoop (g : TDG) (ord : HashOrd) (fuel : Nat) (nulls : List Nat) :
    Nat → List (List (Nat × Nat)) → RecType → R RecType
  | _, [], rt => .ok rt
  | 0, _ :: _, _ => .timeout
  | n + 1, path :: stack, rt =>
    match path.getLast? with
    | none => g.recLoop ord fuel nulls n stack rt
    | some (_, m) =>
      (g.expand ord fuel nulls path m (g.tasksOf m) stack rt).bind fun (stack', rt') =>
        g.recLoop ord fuel nulls n stack' rt'

/-- Indices of the nullable symbols, tdg.rs:139-142. -/
def nullIndices (g : TDG) : List Name → R (List Nat)
  | [] => .ok []
  | x :: xs =>
    match taskIndexFirst g.tasks x with
    | none => .panic .tdgIndex
    | some i => (nullIndices g xs).bind fun r => .ok (i :: r)

/-- `get_recursion_type`, tdg.rs:138-252. -/
def TDG.recursionType (g : TDG) (ord : HashOrd) (fuel : Nat) (nullables : List Name) : R RecType :=
  (nullIndices g nullables).bind fun nulls =>
    g.recLoop ord fuel nulls fuel
      ((g.keys.flatMap fun t => (g.methodsOf t).map fun m => [(t, m)]).reverse) .nonRecursive

end Verif
