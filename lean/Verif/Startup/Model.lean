import Verif.Util.Lts
/-!
# Model of starting and stopping daemons: the files on disk

Sources: `/repo/libshpool/src/daemon/mod.rs` 37-116 (`run`), `/repo/libshpool/src/daemonize.rs` 40-203 (`maybe_launch_daemon`,
`PidFileGuard`, `daemonize`), `/repo/libshpool/src/daemon/events.rs` 85-113 and 190-214 (`EventBus::start`, `ListenerGuard`),
`/repo/libshpool/src/daemon/signals.rs` 57-72, `/repo/libshpool/src/lib.rs` 416-440 (runtime directory and socket path).

A transition system of any number of daemons and clients working on three files: the control socket, the events socket and the
pid file.  Every access to a file is one step.  Simplifications: no systemd activation socket; file operations fail only because
of the presence or absence of the file; the server's own set-up (`Server::new`) does not fail; a daemon that serves does so until
it is terminated by a signal or crashes (`listener.incoming()` never ends).
-/

namespace Shpool.Startup

/-- Where a daemon is.  `opened i`/`locked i`: the pid file it has open is number `i`. -/
inductive Phase where
  | idle
  | starting
  | opened (i : Nat)
  | locked (i : Nat)
  | evCheck
  | evRemove
  | evBind
  | check
  | removing
  | binding
  | serving
  /-- leaving `run` with an error: the events sink's guard, then the pid file's guard -/
  | failEv
  | failPid
  /-- the signal handler: control socket, events socket, pid file -/
  | term1
  | term2
  | term3
  | gone
  deriving DecidableEq, Repr

/-- A client in `maybe_launch_daemon`, daemonize.rs 52-88: before connecting; refused, about to remove the file; about to launch a
daemon; launched one (or connected); failed. -/
inductive Client where
  | idle
  | stale
  | launching
  | ready
  | failed
  deriving DecidableEq, Repr

/-- `sock` and `ev`: which daemon bound the file that is there.  `pid`: the number of the file at the pid path (a removed and
re-created file gets a new number).  `lock`: which daemon holds the lock of a pid file. -/
structure St where
  dae : Nat → Phase
  auto : Nat → Bool
  cli : Nat → Client
  sock : Option Nat
  ev : Option Nat
  pid : Option Nat
  nextPid : Nat
  lock : Nat → Option Nat

def upd {α : Type} (f : Nat → α) (i : Nat) (x : α) : Nat → α := fun j => if j = i then x else f j

def init : St := ⟨fun _ => .idle, fun _ => false, fun _ => .idle, none, none, none, 0, fun _ => none⟩

/-- The process has the control socket open and listens. -/
def Phase.listens : Phase → Bool
  | .serving | .term1 | .term2 | .term3 => true
  | _ => false

/-- The process listens on the events socket it bound. -/
def Phase.publishes : Phase → Bool
  | .check | .removing | .binding | .serving | .failEv | .term1 | .term2 | .term3 => true
  | _ => false

inductive Conn where
  | notFound
  | refused
  | ok
  deriving DecidableEq, Repr

/-- What connecting to the control socket's path gives. -/
def connect (s : St) : Conn :=
  match s.sock with
  | none => .notFound
  | some d => if (s.dae d).listens then .ok else .refused

def setDae (s : St) (d : Nat) (p : Phase) : St := { s with dae := upd s.dae d p }
def setCli (s : St) (c : Nat) (p : Client) : St := { s with cli := upd s.cli c p }

inductive Label where
  | client (c : Nat)
  /-- a daemon process is started; `auto`: by a client, with the variable that makes it daemonize -/
  | start (d : Nat) (auto : Bool)
  /-- the daemon's next step -/
  | go (d : Nat)
  /-- a termination signal reaches a serving daemon -/
  | term (d : Nat)
  /-- the daemon is killed or crashes -/
  | crash (d : Nat)
  deriving DecidableEq, Repr

/-- A client's next step, daemonize.rs 52-88 (launching a daemon is a separate `start`). -/
def clientStep (s : St) (c : Nat) : Option St :=
  match s.cli c with
  | .idle =>
    match connect s with
    | .ok => some (setCli s c .ready)
    | .refused => some (setCli s c .stale)
    | .notFound => some (setCli s c .launching)
  | .stale =>
    match s.sock with
    | none => some (setCli s c .failed)
    | some _ => some { setCli s c .launching with sock := none }
  | .launching => some (setCli s c .ready)
  | .ready | .failed => none

/-- A daemon's next step. -/
def daemonStep (s : St) (d : Nat) : Option St :=
  match s.dae d with
  -- daemon/mod.rs 47-67, daemonize.rs 170-176
  | .starting =>
    if s.auto d then
      match s.pid with
      | some i => some (setDae s d (.opened i))
      | none => some { setDae s d (.opened s.nextPid) with pid := some s.nextPid, nextPid := s.nextPid + 1 }
    else some (setDae s d .evCheck)
  -- daemonize.rs 177-185: without the lock the process ends (there is no guard yet)
  | .opened i =>
    match s.lock i with
    | none => some { setDae s d (.locked i) with lock := upd s.lock i (some d) }
    | some _ => some (setDae s d .gone)
  -- daemonize.rs 189-202: leaving the function drops the locked file, which unlocks it
  | .locked i => some { setDae s d .evCheck with lock := upd s.lock i none }
  -- events.rs 86-91
  | .evCheck => some (setDae s d (if s.ev.isSome then .evRemove else .evBind))
  | .evRemove =>
    match s.ev with
    | none => some (setDae s d .failPid)
    | some _ => some { setDae s d .evBind with ev := none }
  | .evBind =>
    match s.ev with
    | some _ => some (setDae s d .failPid)
    | none => some { setDae s d .check with ev := some d }
  -- daemon/mod.rs 86-92
  | .check => some (setDae s d (if connect s = .refused then .removing else .binding))
  | .removing =>
    match s.sock with
    | none => some (setDae s d .failEv)
    | some _ => some { setDae s d .binding with sock := none }
  | .binding =>
    match s.sock with
    | some _ => some (setDae s d .failEv)
    | none => some { setDae s d .serving with sock := some d }
  -- `ListenerGuard::drop`, events.rs 205-214, then `PidFileGuard::drop`, daemonize.rs 136-142
  | .failEv => some { setDae s d .failPid with ev := none }
  | .failPid => some { setDae s d .gone with pid := if s.auto d then none else s.pid }
  -- signals.rs 60-71
  | .term1 => some { setDae s d .term2 with sock := none }
  | .term2 => some { setDae s d .term3 with ev := none }
  | .term3 => some { setDae s d .gone with pid := if s.auto d then none else s.pid }
  | .idle | .serving | .gone => none

def step (s : St) : Label → Option St
  | .client c => clientStep s c
  | .start d auto => if s.dae d = .idle then some { setDae s d .starting with auto := upd s.auto d auto } else none
  | .go d => daemonStep s d
  | .term d => if s.dae d = .serving then some (setDae s d .term1) else none
  -- the system releases the lock of a process that ends
  | .crash d =>
    if s.dae d = .idle ∨ s.dae d = .gone then none
    else some { setDae s d .gone with lock := fun i => if s.lock i = some d then none else s.lock i }

def Run (ls : List Label) (s : St) : Prop := runSteps step init ls = some s

/-! ## The names of the files -/

abbrev Str := List Char

/-- A path: the components of the directory and the file name. -/
structure Path where
  dir : List Str
  name : Str
  deriving DecidableEq, Repr

/-- `Path::with_file_name`. -/
def Path.withName (p : Path) (n : Str) : Path := { p with name := n }

/-- `events::socket_path`, events.rs 192-196. -/
def eventsPath (sock : Path) : Path := sock.withName "events.socket".toList
/-- daemon/mod.rs 56. -/
def pidPath (sock : Path) : Path := sock.withName "daemonized-shpool.pid".toList
/-- daemonize.rs 73. -/
def logPath (sock : Path) : Path := sock.withName "daemonized-shpool.log".toList
/-- The directory for the sessions' files, lib.rs 416-440; `base` is the default runtime directory, `hash` the printed hash of the
argument of `--socket`. -/
def runtimeDir (base : List Str) (hash : Path → Str) (sock : Path) : List Str := base ++ [hash sock]

/-- The files an instance on the given socket makes next to it. -/
def files (sock : Path) : List Path := [sock, eventsPath sock, pidPath sock, logPath sock]

end Shpool.Startup
