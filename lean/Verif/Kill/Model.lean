/-!
# Model of killing a session's shell

Source: `/repo/libshpool/src/daemon/shell.rs` 124-151 (`Session::kill`), with the pager's variant
`/repo/libshpool/src/daemon/pager.rs` 352-387 (`PagerProcGuard`).

Processes: the kernel's table maps a process number to the process that has it now (`none`: free).  A shell that exits stays
in the table (a zombie, signals to it succeed without effect) until the daemon's `waitpid` thread reaps it; then its number is
free and may be given to an unrelated process.  Process numbers are never zero or negative here.
-/

namespace Shpool.Kill

inductive Signal where
  | hup
  | term
  | kill
  deriving DecidableEq, Repr

/-- What `kill(2)` returned. -/
inductive Sent where
  | ok
  | esrch
  | failed (errno : Nat)
  deriving DecidableEq, Repr

/-- How `kill` ends. -/
inductive Res where
  | ok
  /-- an error: the signal that could not be sent, with the error number -/
  | err (s : Signal) (errno : Nat)
  deriving DecidableEq, Repr

/-- What the operating system does during one call. -/
structure Env where
  /-- the answer to the hangup -/
  hup : Sent
  /-- whether the exit was noticed within the grace period (`ExitNotifier::wait(Some(SHELL_KILL_TIMEOUT))`) -/
  exited : Bool
  /-- the answer to the kill signal -/
  kill : Sent

/-- `Session::kill`, shell.rs 128-151: the signals sent, whether it waited for the grace period, and the result. -/
def sessionKill (e : Env) : List Signal × Bool × Res :=
  match e.hup with
  | .esrch => ([.hup], false, .ok)
  | .failed n => ([.hup], false, .err .hup n)
  | .ok =>
    if e.exited then ([.hup], true, .ok)
    else
      match e.kill with
      | .esrch => ([.hup, .kill], true, .ok)
      | .failed n => ([.hup, .kill], true, .err .kill n)
      | .ok => ([.hup, .kill], true, .ok)

/-- `PagerProcGuard::drop` and `kill`, pager.rs 340-387.  `exitedAt k`: whether the exit has been noticed at the k-th look;
`drop` looks once before (`k = 0`), the loop seven times.  Result: signals sent and milliseconds slept. -/
def pagerLoop (exitedAt : Nat → Bool) : Nat → Nat → Nat → Option Nat × Nat
  | 0, _, _ => (none, 0)
  | n + 1, k, ms =>
    if exitedAt k then (some k, 0)
    else
      let r := pagerLoop exitedAt n (k + 1) (ms * 2)
      (r.1, ms + r.2)

def pagerDrop (exitedAt : Nat → Bool) (termOk : Bool) : List Signal × Nat :=
  if exitedAt 0 then ([], 0)
  else if termOk = false then ([.term], 0)
  else
    match pagerLoop exitedAt 7 1 10 with
    | (some _, t) => ([.term], t)
    | (none, t) => ([.term, .kill], t)

/-! ## Whose process is signalled -/

/-- The owner of a process. -/
inductive Proc where
  /-- the shell of session `n`, running or a zombie -/
  | shell (n : Nat) (alive : Bool)
  /-- any other process -/
  | other (alive : Bool)
  deriving DecidableEq, Repr

/-- The table of processes, the sessions (session number, process number of its shell), and the processes signalled so far
with the session on whose behalf it was done. -/
structure World where
  procs : Nat → Option Proc
  sessions : List (Nat × Nat)
  signalled : List (Nat × Proc)

inductive Label where
  /-- a session is created: its shell gets a free process number -/
  | create (n pid : Nat)
  | shellExits (pid : Nat)
  /-- the `waitpid` thread, server.rs 1024-1070 -/
  | reap (pid : Nat)
  /-- some other program starts a process -/
  | otherStarts (pid : Nat)
  /-- `shpool kill` or the ttl: the first signal of `Session::kill`, which is sent without looking at
  the exit notifier first -/
  | kill (n : Nat)
  /-- the session leaves the table -/
  | remove (n : Nat)

def setProc (w : World) (pid : Nat) (p : Option Proc) : World :=
  { w with procs := fun q => if q = pid then p else w.procs q }

/-- One step. -/
def step (w : World) : Label → Option World
  | .create n pid =>
    if w.procs pid = none ∧ n ∉ w.sessions.map Prod.fst then
      some { setProc w pid (some (.shell n true)) with sessions := w.sessions ++ [(n, pid)] }
    else none
  | .shellExits pid =>
    match w.procs pid with
    | some (.shell n true) => some (setProc w pid (some (.shell n false)))
    | _ => none
  | .reap pid =>
    match w.procs pid with
    | some (.shell _ false) => some (setProc w pid none)
    | _ => none
  | .otherStarts pid => if w.procs pid = none then some (setProc w pid (some (.other true))) else none
  | .kill n =>
    match w.sessions.lookup n with
    | none => none
    | some pid =>
      match w.procs pid with
      | none => some w
      | some p => some { w with signalled := w.signalled ++ [(n, p)] }
  | .remove n => some { w with sessions := w.sessions.filter (·.1 ≠ n) }

def init : World := { procs := fun _ => none, sessions := [], signalled := [] }

end Shpool.Kill
