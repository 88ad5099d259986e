import Verif.Util.Lts
/-!
# Model of who can read what: umask, permission bits of the daemon's files

Sources: `/repo/libshpool/src/daemonize.rs` 149-151 and 170-176 (umask, pid file), `/repo/libshpool/src/daemon/mod.rs` 47-93,
`/repo/libshpool/src/daemon/events.rs` 90-92 (sockets), `/repo/libshpool/src/lib.rs` 416-440 (runtime directory),
`/repo/libshpool/src/daemon/server.rs` 284-285 and 574-622 (directories and files of sessions), 1011 (fork).

A mode is the nine permission bits.  All files belong to the daemon's user and one group.  What the operating system does with modes
(open(2), mkdir(2), bind(2), path_resolution(7)) is part of the model: a new file has the bits asked for that are not in the umask,
and connecting to a socket needs write permission on it.  Access control lists and the superuser are not modelled.
Requests are served by concurrent threads, which can fail between any two steps.
-/

namespace Shpool.Perms

abbrev Mode := BitVec 9

/-- The mode of a file made with `req` under a umask: what open(2), mkdir(2) and bind(2) do at lib.rs 423, daemonize.rs 170-176,
events.rs 90, daemon/mod.rs 91, server.rs 581, 610 and 615. -/
def create (mask req : Mode) : Mode := req &&& ~~~mask

/-- The modes asked for by std's `create_dir_all` and `UnixListener::bind`, and by its `fs::write` and `OpenOptions` (the calls just listed). -/
def dirReq : Mode := 0o777#9
def fileReq : Mode := 0o666#9

/-- A user that is not the daemon's; in the daemon's group or not.  Not in the code: the kernel's permission check. -/
structure Other where
  inGroup : Bool

/-- Position of the `x` bit for such a user; `w` and `r` are the next two (kernel). -/
def Other.shift (u : Other) : Nat := if u.inGroup then 3 else 0

def mayUse (u : Other) (m : Mode) : Bool := m.getLsbD u.shift
def mayWrite (u : Other) (m : Mode) : Bool := m.getLsbD (u.shift + 1)
def mayRead (u : Other) (m : Mode) : Bool := m.getLsbD (u.shift + 2)

/-- How a daemon is started, daemon/mod.rs 47-67: launched by a client (and then made a daemon by `daemonize`), or not (by hand or by
systemd). -/
inductive Start where
  | auto
  | plain
  deriving DecidableEq

/-- The umask of the daemon, daemonize.rs 150: cleared by `daemonize`, and never set again. -/
def daemonMask (how : Start) (mask : Mode) : Mode :=
  match how with
  | .auto => 0
  | .plain => mask

/-- The umask of a shell: inherited over fork and exec, server.rs 1011-1035. -/
def shellMask (how : Start) (mask : Mode) : Mode := daemonMask how mask

/-- The mode of the events socket, events.rs 90. -/
def eventsSocket (how : Start) (mask : Mode) : Mode := create (daemonMask how mask) dirReq

/-- Whether another user can subscribe: they can reach the socket in its directories and may write to it.  (The sink accepts every
connection, events.rs 218-262; the check of the peer, server.rs 209, is only made on the control socket.) -/
def canSubscribe (u : Other) (dirs : List Mode) (socket : Mode) : Bool := dirs.all (mayUse u) && mayWrite u socket

/-! ## The sessions' directories and environment files -/

/-- One step of serving an attach request. -/
inductive Op where
  | mkdirs (n : Nat)   -- `create_dir_all`, server.rs 581 and 610
  | lock               -- server.rs 585-595
  | write (n : Nat)    -- server.rs 615-619
  deriving DecidableEq

/-- The daemon's files: directories above the sessions directory, the sessions directory, one directory and environment file for each
session; and the remaining steps of each request.  Removing and making the link (server.rs 597-600) has no part in this. -/
structure St where
  mask : Mode
  outer : List Mode
  sessions : Option Mode
  dir : Nat → Option Mode
  env : Nat → Option Mode
  thr : Nat → List Op

def upd {α : Type} (f : Nat → α) (k : Nat) (v : α) : Nat → α := fun i => if i = k then v else f i

theorem upd_apply {α : Type} (f : Nat → α) (k : Nat) (v : α) (i : Nat) : upd f k v i = if i = k then v else f i := rfl

/-- server.rs 284-285 with 574-622: the steps of a request for session `n`, which sends SSH_AUTH_SOCK or not, with
`nosymlink_ssh_auth_sock` set or not. -/
def attachOps (n : Nat) (ssh nosymlink : Bool) : List Op :=
  (if !nosymlink && ssh then [.mkdirs n, .lock] else []) ++ [.mkdirs n, .write n]

/-- One step: directories that exist are left alone; the sessions directory is set to 0700; a file that exists keeps its mode. -/
def exec (s : St) : Op → St
  | .mkdirs n => { s with sessions := some (s.sessions.getD (create s.mask dirReq))
                          dir := upd s.dir n (some ((s.dir n).getD (create s.mask dirReq))) }
  | .lock => { s with sessions := s.sessions.map (fun _ => 0o700#9) }
  | .write n => { s with env := upd s.env n (some ((s.env n).getD (create s.mask fileReq))) }

/-- What can happen: a request comes in on a thread, a thread takes its next step, a thread fails (every `?` at server.rs 581-619)
(or its client is turned away before the first step). -/
inductive Label where
  | request (t n : Nat) (ssh nosymlink : Bool)
  | step (t : Nat)
  | fail (t : Nat)

/-- server.rs 242-285. -/
def step (s : St) : Label → Option St
  | .request t n ssh nosymlink => if s.thr t = [] then some { s with thr := upd s.thr t (attachOps n ssh nosymlink) } else none
  | .step t =>
    match s.thr t with
    | [] => none
    | op :: rest => some { exec s op with thr := upd s.thr t rest }
  | .fail t => some { s with thr := upd s.thr t [] }

/-- Whether another user can read the environment file of session `n` (kernel). -/
def canReadEnv (u : Other) (s : St) (n : Nat) : Bool :=
  match s.sessions, s.dir n, s.env n with
  | some a, some b, some c => s.outer.all (mayUse u) && mayUse u a && mayUse u b && mayRead u c
  | _, _, _ => false

end Shpool.Perms
