import Verif.Util.Lts
/-!
# Model of the lock around the configuration

Sources: `/repo/libshpool/src/config.rs` 36-106 (`Manager`: the lock, the reload, `get`); the places that call `get`:
`/repo/libshpool/src/daemon/server.rs` 267, 308, 525, 574-577, 915-920, 937, 1009, 1079-1098, 1144-1163, 1185-1289;
`/repo/libshpool/src/daemon/show_motd.rs` 63-66, 104-110, 128-143; `/repo/libshpool/src/daemon/shell.rs` 286-291, 818-825;
`/repo/libshpool/src/session_restore.rs` 27-38, 82-84, 115-117, 163-190.

A transition system: threads that take and give back read guards of the configuration, and the watcher thread that takes the write guard
when a configuration file has changed.  `std::sync::RwLock` is modelled from its documentation and its implementation for Linux: a reader
waits as long as a writer holds the lock or waits for it; it makes no difference whether the reader has a guard already ("this might
deadlock", says the documentation).  Guards live as the rules of the Rust reference (2024 edition) say: a `let config = …get()` until the
end of the function, a temporary until the end of its statement, in a condition of an `if` until the end of the condition.

Simplifications:
* What threads do apart from taking and giving back guards is one step, `work`, that is always possible: other locks are in
  `Verif/Server`, waiting for clients in `Verif/Bidi`.
* A thread may fail whenever it works; its guards are then dropped.
* The pieces of work of the output thread of a session are tasks of their own.
-/

namespace Shpool.CfgLock

/-- What matters here about what threads do. -/
inductive Op where
  /-- `self.config.read()`, config.rs 104 -/
  | read
  /-- dropping a guard -/
  | release
  | work
  deriving DecidableEq, Repr

/-- `let x = config.get()….clone();` and similar: the guard is dropped at the end of the statement. -/
def peek : List Op := [.read, .release]

/-- `build_shell_env`, server.rs 1185-1289: the guard taken in 1191 lives until the end of the function, the one in 1270 until the end
of the condition.  Work: building the list; reading `/etc/environment`. -/
def buildShellEnv : List Op := [.read, .work, .read, .release, .work, .release]

/-- The statement in server.rs 1143-1163: both guards, of 1148 and 1149, live until its end; it starts the output thread. -/
def startOutput : List Op := [.read, .read, .work, .release, .release]

/-- What decides which way an attach request goes. -/
structure Attach where
  /-- the session name is allowed, server.rs 250-265 -/
  nameOk : Bool
  /-- a session is created, server.rs 521-544 -/
  new : Bool
  /-- `header.cmd` is given -/
  cmd : Bool
  /-- `supports_sentinels`, server.rs 1081-1084 -/
  sentinels : Bool
  /-- the mode of the message of the day is `pager`, server.rs 309 -/
  pager : Bool
  /-- the message is due, show_motd.rs 98-102 -/
  due : Bool
  deriving DecidableEq, Repr

/-- `spawn_subshell`, server.rs 905-1181: `shell` in 915 (the guard is dropped at the end of the `if let`), `norc` in 937 only without a
command, `noecho` in 1009, `prompt_prefix` in 1080 and, with sentinels, in 1091, then starting the output thread. -/
def spawnSubshell (a : Attach) : List Op :=
  peek ++ [.work] ++ (if a.cmd then [] else peek) ++ [.work] ++ peek ++ [.work] ++ peek ++ (if a.sentinels then peek ++ [.work] else []) ++
  startOutput ++ [.work]

/-- `motd_value`, show_motd.rs 128-143: the guard lives while the message is put together. -/
def motdValue : List Op := [.read, .work, .release]

/-- `display_in_pager`, show_motd.rs 84-126. -/
def displayInPager (a : Attach) : List Op := if a.due then peek ++ motdValue ++ [.work] else []

/-- `Bindings::new` in `spawn_client_to_shell`, shell.rs 818-825: the guard lives while the bindings are compiled. -/
def bindings : List Op := [.read, .work, .release]

/-- `handle_attach`, server.rs 243-396 with `select_shell_desc` 418-571 (`motd` in 525) and `link_ssh_auth_sock` 573-606 (575). -/
def attachProg (a : Attach) : List Op :=
  if a.nameOk then
    buildShellEnv ++ [.work] ++ (if a.new then peek ++ spawnSubshell a else []) ++ peek ++ [.work] ++ peek ++
    (if a.pager then displayInPager a else []) ++ bindings ++ [.work]
  else [.work]

/-- What is done with the configuration. -/
inductive Task where
  | attach (a : Attach)
  /-- `session_restore::new`, session_restore.rs 163-190, called in shell.rs 290: engine, mode and width -/
  | newSpool
  /-- `Vt100Screen::resize`, `Vt100Lines::resize`, session_restore.rs 82-84, 115-117, when a client attaches or changes its size -/
  | resize
  /-- `DailyMessenger::dump`, show_motd.rs 57-73 -/
  | dump
  /-- the requests that do not look at the configuration: list, detach, kill, session messages, variables, log level -/
  | other
  deriving DecidableEq, Repr

def Task.prog : Task → List Op
  | .attach a => attachProg a
  | .newSpool => peek ++ peek ++ peek
  | .resize => peek
  | .dump => peek ++ motdValue ++ [.work]
  | .other => [.work]

/-- A thread: the guards it holds, and what it has still to do; for the record, what it was started for, what it has done, and the versions
of the configuration it has been given, in order. -/
structure Thread where
  held : Nat
  todo : List Op
  task : Task
  done : List Op
  seen : List Nat
  deriving DecidableEq, Repr

/-- The watcher thread, config.rs 79-91: nothing to do; wants the write guard (82); has it, and loads the files. -/
inductive Writer where
  | idle
  | waiting
  | writing
  deriving DecidableEq, Repr

structure St where
  threads : List Thread
  writer : Writer
  /-- the version of the configuration that is loaded -/
  version : Nat
  deriving DecidableEq, Repr

def init : St := ⟨[], .idle, 0⟩

inductive Label where
  | start (t : Task)
  | go (i : Nat)
  | fail (i : Nat)
  /-- a configuration file has changed -/
  | edit
  | lockWrite
  /-- the files have been loaded, or not, config.rs 83-89 -/
  | unlockWrite (loaded : Bool)
  deriving DecidableEq, Repr

/-- The next step of a thread, if it is possible. -/
def Thread.go (w : Writer) (v : Nat) (t : Thread) : Option Thread :=
  match t.todo with
  | [] => none
  | .read :: r => if w = .idle then some { t with held := t.held + 1, todo := r, done := t.done ++ [.read], seen := t.seen ++ [v] } else none
  | .release :: r => some { t with held := t.held - 1, todo := r, done := t.done ++ [.release] }
  | .work :: r => some { t with todo := r, done := t.done ++ [.work] }

/-- A thread that fails at its work drops its guards and is done. -/
def Thread.fail (t : Thread) : Option Thread :=
  match t.todo with
  | .work :: _ => some { t with held := 0, todo := [] }
  | _ => none

def step (s : St) : Label → Option St
  | .start t => some { s with threads := s.threads ++ [⟨0, t.prog, t, [], []⟩] }
  | .go i => match s.threads[i]? with
    | none => none
    | some t => (t.go s.writer s.version).map fun t' => { s with threads := s.threads.set i t' }
  | .fail i => match s.threads[i]? with
    | none => none
    | some t => t.fail.map fun t' => { s with threads := s.threads.set i t' }
  | .edit => if s.writer = .idle then some { s with writer := .waiting } else none
  | .lockWrite => if s.writer = .waiting ∧ ∀ t ∈ s.threads, t.held = 0 then some { s with writer := .writing } else none
  | .unlockWrite loaded =>
    if s.writer = .writing then some { s with writer := .idle, version := if loaded then s.version + 1 else s.version } else none

/-- The states that can be reached, with the steps that lead there. -/
def Run (ls : List Label) (s : St) : Prop := runSteps step init ls = some s

end Shpool.CfgLock
