import Mathlib.Logic.Relation
import Mathlib.Data.List.Infix
import Verif.Spec.Decomposition
import Verif.Spec.Grammar
import Verif.Model.Display

/-!
Recursive decomposition, in terms of the methods of a domain.  Nothing here mentions the decomposition graph or the
search for cycles.
-/

namespace Verif.Spec

open Verif

/-- The task of `m'` is a subtask of `m`. -/
def Links (m m' : Method) : Prop := ∃ s ∈ m.tn.subtasks, s.task.name = m'.task.name

/-- Methods of different tasks, each leading to the task of the next one and the last one to the task of the first. -/
structure Cycle (d : DomainAST) (c : List Method) : Prop where
  ne : c ≠ []
  mem : ∀ m ∈ c, m ∈ d.methods
  nodup : (c.map (·.task.name)).Nodup
  links : (c ++ c.take 1).IsChain Links

/-- `i` is the label of a subtask `x`. -/
def Labels (h : HTN) (x i : Name) : Prop := ∃ s ∈ h.subtasks, s.task.name = x ∧ ∃ y, s.id = some y ∧ y.name = i

/-- The conditions under which the context of a subtask `x` of a task network can be computed: the network is totally
ordered, or there is one constraint less than subtasks, no label of `x` occurs inside a label that directly follows a
label of `x`, and what follows a label of `x` is not on a cycle and labels a subtask. -/
def Tractable (h : HTN) (x : Name) : Prop := ∀ os, h.orderings = .partial_ os →
  os.length = h.subtasks.length - 1 ∧
  (∀ i j k, Labels h x i → Before h i j → Labels h x k → ¬ k <:+: j) ∧
  ∀ i j, Labels h x i → Relation.TransGen (Before h) i j → ¬ Relation.TransGen (Before h) j j ∧ ∃ y, Labels h y j

/-- The subtasks are done one after the other (or there is at most one). -/
def Sequential (h : HTN) : Prop :=
  h.subtasks = [] ∨ h.orderings = .total ∨ (h.subtasks.length = 1 ∧ h.orderings = .partial_ [])

/-- The steps of a cycle: a method and the one it leads to. -/
def steps (c : List Method) : List (Method × Method) := c.zip (c.tail ++ c.take 1)

/-- The subtasks of `m` before the first subtask that is the task of `m'`. -/
def Preceding (m m' : Method) : List Subtask := m.tn.subtasks.takeWhile fun s => s.task.name ≠ m'.task.name

/-- The subtasks of `m` after the first subtask that is the task of `m'`. -/
def Following (m m' : Method) : List Subtask := (m.tn.subtasks.dropWhile fun s => s.task.name ≠ m'.task.name).tail

/-- Everything that comes before the tasks of the cycle is nullable. -/
def NullBefore (d : DomainAST) (c : List Method) : Prop :=
  ∀ p ∈ steps c, ∀ s ∈ Preceding p.1 p.2, Nullable d s.task.name

/-- Nothing comes after the tasks of the cycle. -/
def NoneAfter (c : List Method) : Prop := ∀ p ∈ steps c, Following p.1 p.2 = []

/-- Everything that comes after the tasks of the cycle is nullable. -/
def NullAfter (d : DomainAST) (c : List Method) : Prop :=
  ∀ p ∈ steps c, ∀ s ∈ Following p.1 p.2, Nullable d s.task.name

/-- As `NullBefore`, except that anything goes if it starts with the first task of the cycle. -/
def LooselyNullBefore (d : DomainAST) (c : List Method) : Prop :=
  ∀ p ∈ steps c, (∃ s l m, Preceding p.1 p.2 = s :: l ∧ c.head? = some m ∧ s.task.name = m.task.name) ∨
    ∀ s ∈ Preceding p.1 p.2, Nullable d s.task.name

/-- The classes of recursion. -/
inductive Class where
  | none | plain | growingEmptyPrefix | empty | growAndShrink
  deriving DecidableEq, Repr

/-- The class of the recursion of a domain, given which cycles count as having an empty prefix, an empty suffix and a nullable
suffix: the first of these that applies. -/
def ClassBy (d : DomainAST) (emptyPrefix emptySuffix nullSuffix : List Method → Prop) (k : Class) : Prop :=
  let shrink := ∃ c, Cycle d c ∧ emptyPrefix c ∧ nullSuffix c ∧ ¬ emptySuffix c
  let empty := ∃ c, Cycle d c ∧ emptyPrefix c ∧ emptySuffix c
  let growing := ∃ c, Cycle d c ∧ emptyPrefix c
  let any := ∃ c, Cycle d c
  match k with
  | .growAndShrink => shrink
  | .empty => ¬ shrink ∧ empty
  | .growingEmptyPrefix => ¬ shrink ∧ ¬ empty ∧ growing
  | .plain => ¬ growing ∧ any
  | .none => ¬ any

/-- A cycle that shows that the class is at least `k`. -/
def ShowsBy (emptyPrefix emptySuffix nullSuffix : List Method → Prop) (c : List Method) : Class → Prop
  | .growAndShrink => emptyPrefix c ∧ nullSuffix c ∧ ¬ emptySuffix c
  | .empty => emptyPrefix c ∧ emptySuffix c
  | .growingEmptyPrefix => emptyPrefix c
  | .plain => True
  | .none => False

/-- The class of the recursion of a domain with sequential methods, given what counts as an empty prefix of a cycle. -/
def ClassIs (d : DomainAST) (emptyPrefix : List Method → Prop) (k : Class) : Prop :=
  ClassBy d emptyPrefix NoneAfter (NullAfter d) k

/-- A cycle that shows that the class is at least `k`. -/
def Shows (d : DomainAST) (emptyPrefix : List Method → Prop) (c : List Method) (k : Class) : Prop :=
  ShowsBy emptyPrefix NoneAfter (NullAfter d) c k

/-! What the analyser takes for the context of a subtask: in totally ordered networks the subtasks before and after its
first occurrence; in partially ordered ones nothing before it, and after it the subtasks whose labels come, by the
constraints, after one of its labels. -/

/-- The last subtask labelled `j` is `y`. -/
def LastLabelled (h : HTN) (j y : Name) : Prop := ∃ l s l', h.subtasks = l ++ s :: l' ∧ s.task.name = y ∧
  (∃ z, s.id = some z ∧ z.name = j) ∧ ∀ s' ∈ l', ∀ z, s'.id = some z → z.name ≠ j

/-- The tasks taken to come before the task of `m'` in `m`. -/
def TakenBefore (m m' : Method) : List Name :=
  match m.tn.orderings with
  | .total => (Preceding m m').map (·.task.name)
  | .partial_ _ => []

/-- `y` is taken to come after the task of `m'` in `m`. -/
def TakenAfter (m m' : Method) (y : Name) : Prop :=
  match m.tn.orderings with
  | .total => ∃ s ∈ Following m m', s.task.name = y
  | .partial_ _ => ∃ i j, Labels m.tn m'.task.name i ∧ Relation.TransGen (Before m.tn) i j ∧ LastLabelled m.tn j y

/-- More than one task or action has the name `x`. -/
def Ambiguous (d : DomainAST) (x : Name) : Prop := 2 ≤ (d.tasks.map (·.name) ++ d.actions.map (·.name)).count x

/-- The cycle is taken to have an empty prefix: at each step, what comes before is in `null` or starts with the first
task of the cycle (unless its name is ambiguous). -/
def TakenEmptyPrefix (d : DomainAST) (null : Name → Prop) (c : List Method) : Prop :=
  ∀ p ∈ steps c, (∃ m, c.head? = some m ∧ (TakenBefore p.1 p.2).head? = some m.task.name ∧ ¬ Ambiguous d m.task.name) ∨
    ∀ y ∈ TakenBefore p.1 p.2, null y

/-- The cycle is taken to have no suffix. -/
def TakenEmptySuffix (c : List Method) : Prop := ∀ p ∈ steps c, ∀ y, ¬ TakenAfter p.1 p.2 y

/-- The cycle is taken to have a nullable suffix. -/
def TakenNullSuffix (null : Name → Prop) (c : List Method) : Prop := ∀ p ∈ steps c, ∀ y, TakenAfter p.1 p.2 y → null y

/-- Every task with a method and every subtask is declared. -/
def Resolved (d : DomainAST) : Prop :=
  ∀ m ∈ d.methods, ∀ x ∈ m.task.name :: m.tn.subtasks.map (·.task.name),
    x ∈ d.tasks.map (·.name) ∨ x ∈ d.actions.map (·.name)

/-- The text of a cycle. -/
def cycleText (c : List Method) : Text :=
  c.flatMap (fun m => [.s "[", .n m.task.name, .s "]-(", .n m.name.name, .s ")->"]) ++
    (c.take 1).flatMap fun m => [.s "[", .n m.task.name, .s "]"]

/-- The heading of a class. -/
def Class.heading : Class → String
  | .none => "Non-recursive"
  | .plain => "Recursive\n"
  | .growingEmptyPrefix => "Growing empty prefix recursion\n"
  | .empty => "Empty recursion\n"
  | .growAndShrink => "Grow and shrink recursion\n"

/-- Kinds of blocks. -/
def DBlock.isTask : DBlock → Bool | .task _ => true | _ => false
def DBlock.isMethod : DBlock → Bool | .method _ => true | _ => false
def DBlock.isAction : DBlock → Bool | .action _ => true | _ => false

end Verif.Spec
