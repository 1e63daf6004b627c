import Verif.Model.AST
import Verif.Model.Graph
import Verif.Model.Hash

/-! Type checking.  `/repo/src/semantic_analyzer/type_checker`, `/repo/src/semantic_analyzer/undefined_elements.rs`. -/

namespace Verif

/-- Return a semantic error. -/
abbrev semErr {α} (e : SemErr) : R α := .err (.semantic e)

/-- `TypeChecker`, generic_type_checker.rs:4-6: the nodes and edges of the `GraphMap`. -/
structure TypeGraph where
  nodes : List Name
  edges : List (Name × Name)
  deriving DecidableEq, Repr

/-- The loop of `TypeChecker::new`, generic_type_checker.rs:17-30.  Simplified: adding a node or an edge twice leaves
duplicates in the lists, which no query can observe. -/
def typeGraphOf : List Symbol → TypeGraph
  | [] => ⟨[], []⟩
  | t :: ts =>
    let g := typeGraphOf ts
    match t.ty with
    | none => ⟨t.name :: g.nodes, g.edges⟩
    | some p => ⟨t.name :: p :: g.nodes, (t.name, p) :: g.edges⟩

/-- `TypeChecker::new`, generic_type_checker.rs:9-36. -/
def TypeGraph.new : Option (List Symbol) → TypeGraph
  | none => ⟨[], []⟩
  | some ts => typeGraphOf ts

/-- `verify_type_hierarchy`, generic_type_checker.rs:38-45. -/
def TypeGraph.verify (g : TypeGraph) : R Unit :=
  if isAcyclic g.edges then .ok () else semErr .cyclicType

/-- `check_type_declarations`, generic_type_checker.rs:47-62 (the error is returned instead of an `Option`). -/
def TypeGraph.checkDecls (g : TypeGraph) : List Symbol → R Unit
  | [] => .ok ()
  | p :: ps =>
    match p.ty with
    | none => g.checkDecls ps
    | some t =>
      if t ∈ g.nodes then g.checkDecls ps
      else match p.tyPos with
        | some q => semErr (.undefType ⟨t, q⟩)
        | none => .panic .typePos

/-- `is_var_type_consistent`, generic_type_checker.rs:64-90. -/
def TypeGraph.consistent (g : TypeGraph) (found expected : Option Name) : Bool :=
  match found, expected with
  | some f, some e => if f = e then true else hasPath g.edges f e
  | none, none => true
  | none, some _ => false
  | some _, none => false

/-- Look up a symbol by name in a `HashSet<&Symbol>` filled in list order: `insert` keeps the first of two equal
elements, and equality is equality of names (symbol.rs:28-40). -/
def findSym (l : List Symbol) (x : Name) : Option Symbol := l.find? fun s => s.name = x

/-- Look up a parameter in `HashMap::from_iter(parameters)`: later entries overwrite earlier ones. -/
def findParam (l : List Symbol) (x : Name) : Option Symbol := l.reverse.find? fun s => s.name = x

mutual

/-- `check_predicate_declarations`, undefined_elements.rs:3-54. -/
def checkPredDecls (declared : List Predicate) : Formula → R Unit
  | .empty => .ok ()
  | .atom p =>
    match declared.find? fun d => p.name = d.name with
    | some d =>
      if p.vars.length = d.vars.length then .ok ()
      else semErr (.predArity ⟨p.name, d.vars.length, p.vars.length, p.pos⟩)
    | none => semErr (.undefPredicate ⟨p.name, p.pos⟩)
  | .not f => checkPredDecls declared f
  | .and fs => checkPredDeclsList declared fs
  | .or fs => checkPredDeclsList declared fs
  | .xor fs => checkPredDeclsList declared fs
  | .forall_ _ f => checkPredDecls declared f
  | .equals _ _ => .ok ()
  | .weighted _ f => checkPredDecls declared f
  | .imply _ _ => .panic .existsFormula
  | .exists_ _ _ => .panic .existsFormula

/-- The loop over the operands, undefined_elements.rs:37-39. -/
def checkPredDeclsList (declared : List Predicate) : List Formula → R Unit
  | [] => .ok ()
  | f :: fs => (checkPredDecls declared f).bind fun _ => checkPredDeclsList declared fs

end

/-- Types of the arguments of an atom, domain_type_checker.rs:57-77: parameters first, then constants. -/
def argTypes (params constants : List Symbol) : List Symbol → R (List (Symbol × Option Name))
  | [] => .ok []
  | v :: vs =>
    match findParam params v.name with
    | some p => (argTypes params constants vs).bind fun r => .ok ((v, p.ty) :: r)
    | none =>
      match findSym constants v.name with
      | some c => (argTypes params constants vs).bind fun r => .ok ((v, c.ty) :: r)
      | none => semErr (.undefParameter ⟨v.name, v.pos⟩)

/-- The loop over the pairs of found and expected types, domain_type_checker.rs:92-105; `mk` builds the error. -/
def checkArgTypes (g : TypeGraph) (mk : TypeErr → SemErr) : List (Symbol × Option Name) → List (Option Name) → R Unit
  | (v, f) :: fs, e :: es =>
    if g.consistent f e then checkArgTypes g mk fs es
    else semErr (mk ⟨e, f, v.name, v.pos⟩)
  | _, _ => .ok ()

/-- The body of the loop of `check_formula`, domain_type_checker.rs:54-116. -/
def checkAtom (g : TypeGraph) (params constants : List Symbol) (declared : List Predicate) (p : Predicate) : R Unit :=
  match declared.find? fun d => d.name = p.name with
  | some d =>
    (argTypes params constants p.vars).bind fun found =>
      if found.length ≠ d.vars.length then
        semErr (.predArity ⟨p.name, d.vars.length, found.length, p.pos⟩)
      else checkArgTypes g .predArgType found (d.vars.map (·.ty))
  | none => semErr (.undefPredicate ⟨p.name, p.pos⟩)

/-- The loop of `check_formula`, domain_type_checker.rs:54-116. -/
def checkAtoms (g : TypeGraph) (params constants : List Symbol) (declared : List Predicate) : List Predicate → R Unit
  | [] => .ok ()
  | p :: ps => (checkAtom g params constants declared p).bind fun _ => checkAtoms g params constants declared ps

/-- `check_formula`, domain_type_checker.rs:36-118. -/
def checkFormula (g : TypeGraph) (params constants : List Symbol) (declared : List Predicate)
    (atoms : List Predicate) : R Unit :=
  (g.checkDecls params).bind fun _ => checkAtoms g params constants declared atoms

/-- `is_task_consistent`, domain_type_checker.rs:120-227.  `actions` and `tasks` are the hash sets in the order in
which they are iterated. -/
def taskConsistent (g : TypeGraph) (task : Symbol) (terms params constants : List Symbol)
    (tasks : List Task) (actions : List Action) : R Unit :=
  (argTypes params constants terms).bind fun found =>
    match actions.find? fun a => a.name = task.name with
    | some d =>
      if terms.length ≠ d.params.length then
        semErr (.taskArity ⟨task.name, d.params.length, terms.length, task.pos⟩)
      else checkArgTypes g .taskArgType found (d.params.map (·.ty))
    | none =>
      match tasks.find? fun t => t.name = task.name with
      | some d =>
        if found.length ≠ d.params.length then
          semErr (.taskArity ⟨task.name, d.params.length, found.length, task.pos⟩)
        else checkArgTypes g .taskArgType found (d.params.map (·.ty))
      | none => semErr (.undefSubtask ⟨task.name, task.pos⟩)

/-- `TaskOrdering::is_acyclic`, nodes/htn.rs:44-57. -/
def Ordering.isAcyclic : Ordering → Bool
  | .total => true
  | .partial_ os => Verif.isAcyclic os

end Verif
