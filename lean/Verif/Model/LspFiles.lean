import Verif.Model.Lsp

/-!
The language server and the file system: URLs, folders and files, `/repo/src/language_server/request_handler.rs:72-178`.
`Lsp.lean` is the same server for documents whose folder can be read.

Contracts of external code.  `Url::path` is the path as written in the URL (percent-encoded).  `Url::to_file_path` (Unix)
fails if the path does not start with a slash (`untitled:x`) or the URL has a host other than `localhost`; otherwise it is
the percent-decoded path, with a slash appended if it ends with a letter and `:` or `|`.  A `FileSys` is what one
request sees; it reads no file and lists no folder twice.  Simplified: paths have no `.` and `..` (URLs are parsed without them).
-/

namespace Verif

/-- `Url` as far as the server looks at it.  `other` stands for the parts that are only compared. -/
structure DocUrl where
  host : Option Bytes
  path : Bytes
  other : Bytes
  deriving DecidableEq, Repr

/-- Value of a hexadecimal digit. -/
def hexVal (c : UInt8) : Option UInt8 :=
  if 48 ≤ c && c ≤ 57 then some (c - 48)
  else if 65 ≤ c && c ≤ 70 then some (c - 55)
  else if 97 ≤ c && c ≤ 102 then some (c - 87)
  else none

/-- `percent_decode`: `%` and two hexadecimal digits become a byte, everything else stays. -/
def percentDecode : Bytes → Bytes
  | [] => []
  | [a] => [a]
  | [a, b] => [a, b]
  | a :: b :: c :: r =>
    if a = 37 then
      match hexVal b, hexVal c with
      | some x, some y => (x * 16 + y) :: percentDecode r
      | _, _ => a :: percentDecode (b :: c :: r)
    else a :: percentDecode (b :: c :: r)

/-- A path that ends with a letter and `:` or `|`. -/
def endsLikeDrive (p : Bytes) : Bool :=
  match p.reverse with
  | c :: a :: _ :: _ => (c == 58 || c == 124) && isLetter a
  | _ => false

/-- `Url::to_file_path` on Unix. -/
def DocUrl.toFilePath (u : DocUrl) : Option Bytes :=
  match u.path with
  | 47 :: _ =>
    if u.host = none ∨ u.host = some b!"localhost" then
      let p := percentDecode u.path
      some (if endsLikeDrive p then p ++ [47] else p)
    else none
  | _ => none

/-- Drop slashes at the end. -/
def dropSlashes (p : Bytes) : Bytes := (p.reverse.dropWhile fun c => c == 47).reverse

/-- Drop everything behind the last slash. -/
def dropLast (p : Bytes) : Bytes := (p.reverse.dropWhile fun c => c != 47).reverse

/-- `Path::parent` on absolute paths. -/
def parentDir (p : Bytes) : Option Bytes :=
  match dropSlashes p with
  | [] => none
  | q =>
    match dropSlashes (dropLast q) with
    | [] => some [47]
    | r => some r

/-- `Path::join` of a folder and the name of an entry. -/
def joinPath (dir name : Bytes) : Bytes := if dir = [47] then 47 :: name else dir ++ 47 :: name

/-- `Path::extension` of a file name: what follows the last dot, if something precedes it. -/
def extension (name : Bytes) : Option Bytes :=
  match name.reverse.span (fun c => c != 46) with
  | (_, []) => none
  | (_, [_]) => none
  | (e, _ :: _) => some e.reverse

/-- The condition of request_handler.rs:121. -/
def isHddlName (name : Bytes) : Bool := extension name == some b!"hddl" || extension name == some b!"pddl"

/-- What the file system answers: `read p` is the content of the file `p` (`none` if it cannot be read: it does not
exist, it is a folder, permissions), `list d` are the names of the entries of the folder `d` in the order in which they
are read (`none` if it cannot be read). -/
structure FileSys where
  read : Bytes → Option Bytes
  list : Bytes → Option (List Bytes)

/-- `did_save`, request_handler.rs:72-82: without a text the file is read from `uri.path()`. -/
def saveFs (s : Store DocUrl) (fs : FileSys) (u : DocUrl) : Option Bytes → R (Store DocUrl)
  | some t => .ok (s.sync u t)
  | none =>
    match fs.read u.path with
    | none => .panic .readFile
    | some c => .ok (s.sync u c)

/-- The search for the domain of a problem, request_handler.rs:119-155: its content, if there is one.  The path of the
folder is printed in a log message, which fails if it is not UTF-8. -/
def searchDomain [Env] (fs : FileSys) (dir : Bytes) : List Bytes → R (Option Bytes)
  | [] => if validUtf8 dir then .ok none else .panic .folderName
  | name :: names =>
    if isHddlName name then
      match fs.read (joinPath dir name) with
      | none => .panic .readFile
      | some c =>
        (classify c).bind fun
          | .domain => if validUtf8 dir then .ok (some c) else .panic .folderName
          | _ => searchDomain fs dir names
    else searchDomain fs dir names

/-- `diagnostic`, request_handler.rs:92-178. -/
def diagnosticFs [Env] (ord : HashOrd) (fuel : Nat) (s : Store DocUrl) (fs : FileSys) (u : DocUrl) : R LspAnswer :=
  match s.get u with
  | none => .ok .notSynced
  | some doc =>
    match u.toFilePath with
    | none => .panic .urlNotFile
    | some path =>
      (classify doc).bind fun
        | .domain => (diagnoseDomain ord fuel doc).bind fun items => .ok (.report items)
        | .problem =>
          match parentDir path with
          | none => .panic .noFolder
          | some dir =>
            match fs.list dir with
            | none => .panic .readDir
            | some names =>
              (searchDomain fs dir names).bind fun dom =>
                (diagnoseProblem ord fuel dom doc).bind fun items => .ok (.report items)
        | .maybeNotHddl => .ok (.report [])

end Verif
