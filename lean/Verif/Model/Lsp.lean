import Verif.Model.Display

/-! Language server.  `/repo/src/language_server`.  Here each handler runs to completion, so a history is a sequence of
events; `LspAsync.lean` is the server with concurrent handlers. -/

namespace Verif

/-- Severity of a diagnostic. -/
inductive Severity where
  | error | information
  deriving DecidableEq, Repr

/-- `Diagnostic`: lines of the range (all columns are 0), severity and message.  The related information of duplicate
errors is never constructed (the conversion panics first). -/
structure Diag where
  startLine : Nat
  endLine : Nat
  severity : Severity
  message : Text
  deriving DecidableEq, Repr

/-- A diagnostic on the (1-based) line `line`; `line - 1` is an unsigned subtraction. -/
def diagAt (line : Nat) (msg : R Text) : R Diag :=
  if line = 0 then .panic .lineUnderflow
  else msg.bind fun m => .ok ⟨line - 1, line, .error, m⟩

/-- A duplicate error: the line subtraction and the message come first, then `Url::parse("//").unwrap()` panics,
diagnostic_utils.rs:184-214. -/
def dupDiag (e : DupErr) : R Diag :=
  if e.second = 0 then .panic .lineUnderflow else .panic .dummyUrl

/-- `From<ParsingError> for Diagnostic`, diagnostic_utils.rs:147-315. -/
def toDiag [Env] : PErr → R Diag
  | .lexical e => diagAt e.pos (.ok e.show)
  | .syntactic e => diagAt e.pos (.ok e.show)
  | .semantic (.dupObject e) => dupDiag e
  | .semantic (.dupPredicate e) => dupDiag e
  | .semantic (.dupAction e) => dupDiag e
  | .semantic (.dupTask e) => dupDiag e
  | .semantic (.dupMethod e) => dupDiag e
  | .semantic (.dupParameter e) => dupDiag e
  | .semantic (.dupRequirement r) => (SemErr.dupRequirement r).show.bind fun m => .ok ⟨0, 1, .information, m⟩
  | .semantic (.undefPredicate e) => diagAt e.pos (SemErr.undefPredicate e).show
  | .semantic (.undefType e) => diagAt e.pos (SemErr.undefType e).show
  | .semantic (.undefSubtask e) => diagAt e.pos (SemErr.undefSubtask e).show
  | .semantic (.undefTask e) => diagAt e.pos (SemErr.undefTask e).show
  | .semantic (.undefParameter e) => diagAt e.pos (SemErr.undefParameter e).show
  | .semantic (.undefObject e) => diagAt e.pos (SemErr.undefObject e).show
  | .semantic (.predArity e) => diagAt e.pos (SemErr.predArity e).show
  | .semantic (.taskArity e) => diagAt e.pos (SemErr.taskArity e).show
  | .semantic (.predArgType e) => diagAt e.pos (SemErr.predArgType e).show
  | .semantic (.taskArgType e) => diagAt e.pos (SemErr.taskArgType e).show
  | .semantic .cyclicType => SemErr.cyclicType.show.bind fun m => .ok ⟨0, 10, .error, m⟩
  | .semantic (.cyclicOrdering p) => diagAt p (SemErr.cyclicOrdering p).show

/-- Items for the outcome of a computation: none for a value, the converted error for an error. -/
def itemsOf [Env] {α} (x : R α) : R (List Diag) :=
  match x with
  | .ok _ => .ok []
  | .err e => (toDiag e).bind fun d => .ok [d]
  | .panic p => .panic p
  | .timeout => .timeout

/-- `diagnose_domain`, diagnostic_utils.rs:23-56. -/
def diagnoseDomain [Env] (ord : HashOrd) (fuel : Nat) (content : Bytes) : R (List Diag) :=
  match parse fuel content with
  | .ok (.domain d) => itemsOf (verifyDomain ord fuel d)
  | .ok (.problem _) => .ok []
  | .err e => (toDiag e).bind fun d => .ok [d]
  | .panic p => .panic p
  | .timeout => .timeout

/-- First half of `diagnose_problem`, diagnostic_utils.rs:74-107: items of the domain and its symbol table. -/
def diagnoseDomainPart [Env] (ord : HashOrd) (fuel : Nat) : Option Bytes → R (List Diag × Option SymbolTable)
  | none => .ok ([], none)
  | some content =>
    match parse fuel content with
    | .ok (.domain d) =>
      match verifyDomain ord fuel d with
      | .ok st => .ok ([], some st)
      | .err e => (toDiag e).bind fun x => .ok ([x], none)
      | .panic p => .panic p
      | .timeout => .timeout
    | .ok (.problem _) => .ok ([], none)
    | .err e => (toDiag e).bind fun x => .ok ([x], none)
    | .panic p => .panic p
    | .timeout => .timeout

/-- `diagnose_problem`, diagnostic_utils.rs:73-144. -/
def diagnoseProblem [Env] (ord : HashOrd) (fuel : Nat) (domain : Option Bytes) (problem : Bytes) : R (List Diag) :=
  (diagnoseDomainPart ord fuel domain).bind fun (items, st) =>
    match parse fuel problem with
    | .ok (.problem p) =>
      match st with
      | some st => (itemsOf (verifyProblem st p)).bind fun is => .ok (items ++ is)
      | none => .ok items
    | .ok (.domain _) => .ok items
    | .err e => (toDiag e).bind fun x => .ok (items ++ [x])
    | .panic p => .panic p
    | .timeout => .timeout

/-- The document store, request_handler.rs:12. -/
abbrev Store (U : Type) := List (U × Bytes)

/-- `documents.get(uri)`. -/
def Store.get {U} [DecidableEq U] (s : Store U) (u : U) : Option Bytes := (s.find? fun e => e.1 = u).map (·.2)

/-- `sync`, request_handler.rs:23-25: `HashMap::insert`. -/
def Store.sync {U} [DecidableEq U] (s : Store U) (u : U) (text : Bytes) : Store U :=
  (u, text) :: s.filter fun e => e.1 ≠ u

/-- Notifications, request_handler.rs:65-90. -/
inductive LspEvent (U : Type) where
  | didOpen (uri : U) (text : Bytes)
  /-- `disk` is the content of the file on disk, read if the notification carries no text -/
  | didSave (uri : U) (text : Option Bytes) (disk : Bytes)
  /-- the texts of the content changes, in order -/
  | didChange (uri : U) (changes : List Bytes)

/-- `did_open`, `did_save`, `did_change`, request_handler.rs:65-90. -/
def Store.handle {U} [DecidableEq U] (s : Store U) : LspEvent U → Store U
  | .didOpen u t => s.sync u t
  | .didSave u t disk => s.sync u (t.getD disk)
  | .didChange u cs => match cs with | c :: _ => s.sync u c | [] => s

/-- The store after a history of notifications. -/
def Store.run {U} [DecidableEq U] (s : Store U) (es : List (LspEvent U)) : Store U := es.foldl Store.handle s

/-- Answer to a diagnostic request. -/
inductive LspAnswer where
  | report (items : List Diag)
  /-- `Error::invalid_params(".. is not synced")` -/
  | notSynced
  deriving DecidableEq, Repr

/-- The search for the domain of a problem, request_handler.rs:117-143: the first file of the folder that classifies as
a domain.  `files` are the contents (on disk) of the files of the folder with extension `hddl` or `pddl`, in the order
in which the directory is read. -/
def findDomain [Env] : List Bytes → R (Option Bytes)
  | [] => .ok none
  | f :: fs =>
    (classify f).bind fun
      | .domain => .ok (some f)
      | _ => findDomain fs

/-- `diagnostic`, request_handler.rs:92-178.  Simplified: the URL is that of a file and the folder can be read. -/
def diagnostic [Env] {U} [DecidableEq U] (ord : HashOrd) (fuel : Nat) (s : Store U) (folder : List Bytes) (u : U) :
    R LspAnswer :=
  match s.get u with
  | none => .ok .notSynced
  | some doc =>
    (classify doc).bind fun
      | .domain => (diagnoseDomain ord fuel doc).bind fun items => .ok (.report items)
      | .problem =>
        (findDomain folder).bind fun dom =>
          (diagnoseProblem ord fuel dom doc).bind fun items => .ok (.report items)
      | .maybeNotHddl => .ok (.report [])

end Verif
