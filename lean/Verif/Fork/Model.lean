import Verif.Util.Lts
/-!
# Model of the configuration's watcher in a daemon that forks

Sources: `/repo/libshpool/src/lib.rs` 442-466 (`run`: the configuration is loaded and watched before the daemon runs),
`/repo/libshpool/src/config.rs` 57-103 (`Manager::new`, `get`), `/repo/libshpool/src/config_watcher.rs` 127-200, 317-342 and 376-409 (the
worker thread), `/repo/libshpool/src/daemon/mod.rs` 49-84 (`run`), `/repo/libshpool/src/daemonize.rs` 149-203 and 242-260 (`daemonize`,
`become_child`), `/repo/libshpool/src/daemon/server.rs` 113-124 (first look at the configuration).

A transition system of the one process that becomes the daemon: its main thread, the worker thread of the watcher, and somebody who edits
the configuration file.  `fork` copies a process with the calling thread only, so the child has neither the worker nor the thread of the
crate `notify`, but it has a copy of the lock, in the state it was in.

Simplifications: there is one configuration file, it exists, and its contents are numbered by edits; `good` says which contents can be
parsed.  The two threads of the watcher are one.  Reading the configuration under a read guard is one step.  The mutex of the log file is
left out: at the level of messages such a daemon logs, the worker logs only while it holds the lock of the configuration (config.rs
78-88).  The parents of the forks only wait and exit; they are left out.
-/

namespace Shpool.Fork

/-- The worker thread: waiting; holding the write guard before reading the file (config.rs 79); after reading contents `v` (80); not
running in this process. -/
inductive Worker where
  | idle
  | locked
  | loaded (v : Nat)
  | gone
  deriving DecidableEq, Repr

/-- Where the main thread is. -/
inductive Main where
  /-- before `Self::load`, config.rs 73 -/
  | start
  /-- before `watcher.watch`, config.rs 93-95 -/
  | loaded
  /-- before `daemon::run`, lib.rs 464; `daemonize` is next if it was started automatically -/
  | watching
  /-- after the first fork, daemonize.rs 165 -/
  | forked1
  /-- after the second fork, daemonize.rs 189, or if there is none: before `Server::new`, mod.rs 70 -/
  | ready
  /-- accepting connections, mod.rs 104 -/
  | serving
  /-- ended with an error, config.rs 73 -/
  | failed
  deriving DecidableEq, Repr

/-- `file`: the contents of the file; `conf`: the contents in use; `event`: there is an event the watcher has not looked at; `due`:
`reload_deadline` is set; `lock`: the write guard is taken. -/
structure St where
  main : Main
  worker : Worker
  file : Nat
  conf : Nat
  watched : Bool
  event : Bool
  due : Bool
  lock : Bool
  deriving DecidableEq, Repr

/-- A process that was just started. -/
def init : St := ⟨.start, .gone, 0, 0, false, false, false, false⟩

inductive Label where
  /-- the main thread goes on -/
  | main
  /-- somebody edits the file -/
  | edit
  /-- the worker looks at an event, config_watcher.rs 379-394 -/
  | take
  /-- the deadline has passed and the worker takes the write guard, config_watcher.rs 399-403, config.rs 79 -/
  | fire
  /-- the worker reads the file, config.rs 80 -/
  | read
  /-- the worker stores what it read, if it could be parsed, and lets go of the guard, config.rs 80-88 -/
  | store
  deriving DecidableEq, Repr

/-- One step. `auto`: the environment says the daemon is to go to the background (`AUTODAEMONIZE_VAR`, mod.rs 49-51). -/
def step (good : Nat → Bool) (auto : Bool) (s : St) : Label → Option St
  | .main => match s.main with
    | .start => if good s.file then some { s with main := .loaded, conf := s.file } else some { s with main := .failed }
    -- the worker is started, and since it now watches the file itself a reload is due, config_watcher.rs 330-342, 426-436
    | .loaded => some { s with main := .watching, worker := .idle, watched := true, due := true }
    -- mod.rs 49-66; daemonize.rs 165
    | .watching => if auto then some { s with main := .forked1, worker := .gone } else some { s with main := .ready }
    -- daemonize.rs 189
    | .forked1 => some { s with main := .ready }
    -- mod.rs 70-73: `config.get()` at server.rs 115 waits for the lock
    | .ready => if s.lock then none else some { s with main := .serving }
    | .serving => none
    | .failed => none
  | .edit => some { s with file := s.file + 1, event := s.event || s.watched }
  | .take => match s.worker with
    | .idle => if s.event then some { s with event := false, due := true } else none
    | _ => none
  | .fire => match s.worker with
    | .idle => if s.due then some { s with worker := .locked, due := false, lock := true } else none
    | _ => none
  | .read => match s.worker with
    | .locked => some { s with worker := .loaded s.file }
    | _ => none
  | .store => match s.worker with
    | .loaded v => some { s with worker := .idle, lock := false, conf := if good v then v else s.conf }
    | _ => none

def Run (good : Nat → Bool) (auto : Bool) (ls : List Label) (s : St) : Prop := runSteps (step good auto) init ls = some s

end Shpool.Fork
