/-!
# Model of the signal settings a session starts with

Sources: `/repo/libshpool/src/daemon/signals.rs` 33-51 (`Handler::spawn`), `/repo/libshpool/src/daemonize.rs` 80-95 (the client starts the
daemon), 149-203 and 242-260 (`daemonize`, `become_child`), `/repo/libshpool/src/daemon/mod.rs` 49-107 (`run`),
`/repo/libshpool/src/daemon/server.rs` 1005-1019 (fork and exec of the shell) and 1043-1076 (`child_watcher`),
`/repo/libshpool/src/daemon/shell.rs` 128-152 (`kill`), `/repo/libshpool/src/attach.rs` 431-437 (the client's handler).

What a process does with each signal, and which signals it blocks, from whoever starts the daemon to the shell.  Of the system and of
Rust's library: `fork` copies the settings; `exec` turns handlers into the default and keeps what is ignored and the mask; a Rust program
ignores SIGPIPE from its start, and installs handlers for SIGSEGV and SIGBUS where the default is set; `Command::spawn` and
`Command::exec` set SIGPIPE to the default and empty the mask before the exec; if SIGCHLD is ignored, `waitpid` fails once the child has
ended.

Simplification: the steps of starting are taken as a list, one after the other; threads are left out (the mask of the thread that
forks is emptied by `Command::exec` whatever it was).
-/

namespace Shpool.Disp

/-- The signals; the others by number. -/
inductive Sig where
  | hup | int | quit | term | pipe | chld | segv | bus | winch | kill | stop
  | other (n : Nat)
  deriving DecidableEq, Repr

/-- What is done with a signal. -/
inductive Act where
  | default
  | ignored
  | handled
  deriving DecidableEq, Repr

/-- The settings of a process. -/
structure Proc where
  act : Sig → Act
  blocked : Sig → Bool

/-- SIGKILL and SIGSTOP can be neither ignored, handled nor blocked. -/
def Proc.possible (p : Proc) : Prop :=
  p.act .kill = .default ∧ p.act .stop = .default ∧ p.blocked .kill = false ∧ p.blocked .stop = false

/-- One signal's setting changed. -/
def set (p : Proc) (g : Sig) (a : Act) : Proc := { p with act := fun x => if x = g then a else p.act x }

/-- What a program does with its settings on the way to the shell. -/
inductive Op where
  /-- `fork`: nothing changes (daemonize.rs 246, server.rs 1007) -/
  | fork
  /-- `exec` by whoever starts it: another program, whose settings are what was ignored -/
  | exec
  /-- Rust's start of a program -/
  | rust
  /-- the client's handler (attach.rs 437), if it gets that far -/
  | winch
  /-- the daemon's handlers (signals.rs 40-51) -/
  | term
  /-- what `Command::spawn` and `Command::exec` do before the exec -/
  | command
  deriving DecidableEq, Repr

/-- `TERM_SIGNALS` of the crate `signal_hook` -/
def termSignals : List Sig := [.term, .quit, .int]

/-- What it makes of them. -/
def apply (p : Proc) : Op → Proc
  | .fork => p
  | .exec => { p with act := fun x => if p.act x = .ignored then .ignored else .default }
  | .rust =>
    let q := set p .pipe .ignored
    { q with act := fun x => if (x = .segv ∨ x = .bus) ∧ q.act x = .default then .handled else q.act x }
  | .winch => set p .winch .handled
  | .term => termSignals.foldl (fun p g => set p g .handled) p
  | .command => { set p .pipe .default with blocked := fun _ => false }

/-- One after the other. -/
def applyAll (p : Proc) (ops : List Op) : Proc := ops.foldl apply p

/-- The daemon becomes one that serves: Rust's start, the two forks if it was started by a client, the handlers (mod.rs 49-107). -/
def daemonOps (auto : Bool) : List Op := .exec :: .rust :: (if auto then [.fork, .fork] else []) ++ [.term]

/-- A session is started (server.rs 1007-1019). -/
def shellOps : List Op := [.fork, .command, .exec]

/-- From whoever runs `shpool daemon` to the daemon. -/
def direct : List Op := .fork :: daemonOps false

/-- From whoever runs the client to the daemon it starts (daemonize.rs 80-95). -/
def byClient : List Op := [.fork, .exec, .rust, .fork, .command] ++ daemonOps true

/-- The settings of a daemon started from `p`. -/
def daemon (p : Proc) (auto : Bool) : Proc := applyAll p (if auto then byClient else direct)

/-- The settings a session started by it begins with. -/
def shell (p : Proc) (auto : Bool) : Proc := applyAll (daemon p auto) shellOps

/-- How a program ends. -/
inductive Exit where
  | code (n : Nat)
  | signal (g : Sig)
  deriving DecidableEq, Repr

/-- What `child_watcher` announces of a child that ended so (server.rs 1043-1076): the wait fails if SIGCHLD is ignored. -/
def announced (p : Proc) : Exit → Nat
  | .code n => if p.act .chld = .ignored then 1 else n
  | .signal _ => 1

/-- Whether a program that leaves its settings as they are is ended by a hangup. -/
def endsOnHup (p : Proc) : Bool := p.act .hup = .default ∧ p.blocked .hup = false

/-- The signals `kill` sends to such a program (shell.rs 128-152). -/
def killSends (p : Proc) : List Sig := if endsOnHup p then [.hup] else [.hup, .kill]

end Shpool.Disp
