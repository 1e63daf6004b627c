import Verif.Model.Lsp
import Verif.Spec.WellFormed

/-! What users see of errors: the line of an error, and the text of a document. -/

namespace Verif.Spec

/-- The line of an error, if it has one; for duplicates that of the second definition. -/
def lineOf : PErr → Option Nat
  | .lexical e => some e.pos
  | .syntactic e => some e.pos
  | .semantic (.dupObject e) | .semantic (.dupPredicate e) | .semantic (.dupAction e) | .semantic (.dupTask e)
  | .semantic (.dupMethod e) | .semantic (.dupParameter e) => some e.second
  | .semantic (.undefPredicate e) | .semantic (.undefType e) | .semantic (.undefSubtask e) | .semantic (.undefTask e)
  | .semantic (.undefParameter e) | .semantic (.undefObject e) => some e.pos
  | .semantic (.predArity e) | .semantic (.taskArity e) => some e.pos
  | .semantic (.predArgType e) | .semantic (.taskArgType e) => some e.pos
  | .semantic (.cyclicOrdering p) => some p
  | .semantic (.dupRequirement _) | .semantic .cyclicType => none

/-- Something is defined twice. -/
def Duplicate : PErr → Prop
  | .semantic (.dupObject _) | .semantic (.dupPredicate _) | .semantic (.dupAction _) | .semantic (.dupTask _)
  | .semantic (.dupMethod _) | .semantic (.dupParameter _) => True
  | _ => False

/-- The problem gives an object of type `t` to a predicate whose parameter has no type. -/
def TypedForUntyped (d : DomainAST) (p : ProblemAST) : Prop :=
  ∃ (a q : Predicate) (i : Nat) (v f : Symbol) (t : Name), FactOf p a ∧ q ∈ d.predicates ∧ q.name = a.name ∧
    a.vars[i]? = some v ∧ q.vars[i]? = some f ∧ f.ty = none ∧ TypeIn [p.objects] v.name (some t)

/-! ### Documents of the language server -/

variable {U : Type}

/-- The texts received with a notification, in order; a save without text is for the content of the file on disk. -/
def received : LspEvent U → List (U × Bytes)
  | .didOpen u t => [(u, t)]
  | .didSave u (some t) _ => [(u, t)]
  | .didSave u none disk => [(u, disk)]
  | .didChange u ts => ts.map fun t => (u, t)

/-- `t` is the last text received for `u`. -/
def Latest (es : List (LspEvent U)) (u : U) (t : Bytes) : Prop :=
  ∃ pre post, es.flatMap received = pre ++ (u, t) :: post ∧ ∀ x ∈ post, x.1 ≠ u

/-- No text was received for `u`. -/
def Never (es : List (LspEvent U)) (u : U) : Prop := ∀ x ∈ es.flatMap received, x.1 ≠ u

/-- Changes come with one text each (as they do if the whole text is sent). -/
def OneChange (es : List (LspEvent U)) : Prop := ∀ u ts, LspEvent.didChange u ts ∈ es → ts.length ≤ 1

end Verif.Spec
