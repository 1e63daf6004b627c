import Verif.Model.LspFiles

/-!
The language server with concurrent handlers: `/repo/src/language_server/request_handler.rs` as run by `tower_lsp`
(`/repo/src/bin/language_server/main.rs:6-13`).

Contracts of external code.  `tower_lsp::Server` starts the handlers in the order in which messages arrive, runs at most
four at a time, interleaves them at `await` points in one task, and does not catch panics: a panic in a handler ends the
process.  `tokio::sync::RwLock` is fair: it is granted in the order of the calls of `read` and `write`, readers together,
a writer alone.  Simplified: a handler gets as far as its first call of `read`, `write` or the file system when it is
started (no budget of `tokio` interferes); log messages are left out.
-/

namespace Verif

/-- Messages of the client. -/
inductive Msg (U : Type) where
  /-- a notification; the content on disk in `didSave` without text is not used here, it is read later -/
  | note (e : LspEvent U)
  /-- a diagnostic request -/
  | ask (u : U)

/-- A handler that waits for the lock, with the number of its message. -/
inductive Waiter (U : Type) where
  | write (i : Nat) (u : U) (t : Bytes)
  | read (i : Nat) (u : U)

/-- State of the server. -/
structure Server (U : Type) where
  /-- messages that no handler was started for -/
  inbox : List (Msg U)
  /-- number of messages that a handler was started for -/
  started : Nat
  /-- `did_save` without text, waiting for `tokio::fs::read`, request_handler.rs:76-78 -/
  reading : List (Nat × U)
  /-- handlers waiting for the lock, the next one first -/
  queue : List (Waiter U)
  /-- `diagnostic` handlers that hold the lock, request_handler.rs:96 -/
  readers : List (Nat × U)
  store : Store U
  /-- answers sent, with the number of the request -/
  answers : List (Nat × LspAnswer)
  /-- the process has ended by a panic -/
  dead : Bool

/-- The server before any message is handled. -/
def Server.init {U} (msgs : List (Msg U)) : Server U := ⟨msgs, 0, [], [], [], [], [], false⟩

/-- Number of handlers that were started and have not ended. -/
def Server.active {U} (s : Server U) : Nat := s.reading.length + s.queue.length + s.readers.length

/-- Start of a handler: `did_open` (lines 65-70), `did_save` (72-82), `did_change` (84-90) and `diagnostic` (92-96) up to
the first call of `write`, `read` or `tokio::fs::read`. -/
def Server.start {U} (s : Server U) : Msg U → Server U
  | .note (.didOpen u t) => { s with queue := s.queue ++ [.write s.started u t] }
  | .note (.didSave u (some t) _) => { s with queue := s.queue ++ [.write s.started u t] }
  | .note (.didSave u none _) => { s with reading := s.reading ++ [(s.started, u)] }
  | .note (.didChange u (t :: _)) => { s with queue := s.queue ++ [.write s.started u t] }
  | .note (.didChange _ []) => s
  | .ask u => { s with queue := s.queue ++ [.read s.started u] }

/-- A step of the server.  `ord` is the order of hash maps in the analysis.  `world` are the views of the file system that
handlers may get: what the accesses of one handler see.  If files change between two accesses, the view is a mixture. -/
inductive Server.Step [Env] (ord : HashOrd) (world : FileSys → Prop) : Server DocUrl → Server DocUrl → Prop
  /-- the next message -/
  | start {s : Server DocUrl} {m ms} : s.dead = false → s.inbox = m :: ms → s.active < 4 →
      Step ord world s { s.start m with inbox := ms, started := s.started + 1 }
  /-- the file is read, request_handler.rs:76-81 -/
  | diskRead {s : Server DocUrl} {a b i u} (fs : FileSys) (text : Bytes) : s.dead = false →
      s.reading = a ++ (i, u) :: b → world fs → fs.read u.path = some text →
      Step ord world s { s with reading := a ++ b, queue := s.queue ++ [.write i u text] }
  /-- the file cannot be read: `unwrap` panics, request_handler.rs:78 -/
  | diskFail {s : Server DocUrl} {a b i u} (fs : FileSys) : s.dead = false → s.reading = a ++ (i, u) :: b →
      world fs → fs.read u.path = none → Step ord world s { s with dead := true }
  /-- the lock is granted to a writer, which inserts and releases it, request_handler.rs:24 -/
  | write {s : Server DocUrl} {q i u t} : s.dead = false → s.queue = .write i u t :: q → s.readers = [] →
      Step ord world s { s with queue := q, store := s.store.sync u t }
  /-- the lock is granted to a reader, request_handler.rs:96 -/
  | read {s : Server DocUrl} {q i u} : s.dead = false → s.queue = .read i u :: q →
      Step ord world s { s with queue := q, readers := s.readers ++ [(i, u)] }
  /-- a diagnostic request is answered and the lock released, request_handler.rs:97-177 -/
  | answer {s : Server DocUrl} {a b i u n} (fs : FileSys) (x : LspAnswer) : s.dead = false →
      s.readers = a ++ (i, u) :: b → world fs → diagnosticFs ord n s.store fs u = .ok x →
      Step ord world s { s with readers := a ++ b, answers := s.answers ++ [(i, x)] }
  /-- the handler panics -/
  | crash {s : Server DocUrl} {a b i u n} (fs : FileSys) (p : Panic) : s.dead = false → s.readers = a ++ (i, u) :: b →
      world fs → diagnosticFs ord n s.store fs u = .panic p → Step ord world s { s with dead := true }

end Verif
