import Verif.Util.Lts
import Verif.Fds.Model
/-!
# Model of who has the terminals of sessions open

Sources: `/repo/libshpool/src/daemon/server.rs` 1011-1021 (a shell is started: fork, the loop that closes descriptors, exec), 357-364 and 752-763
(a session is removed from the table and dropped, which closes its terminal), `ttl_reaper.rs` 120, `/repo/libshpool/src/daemon/pager.rs` 138-149 (a pager is started
the same way, at a terminal of its own), `/repo/libshpool/src/daemon/signals.rs` 71 (the daemon ends, which closes everything it has).

A terminal has two sides.  The daemon has the master side, the shell and what is run from it the other side.  When nobody has the master
side any more the system hangs the terminal up: what runs at it is sent SIGHUP and ends unless it ignores that.  A process that is forked
has what its parent has, and exec keeps what is not marked close-on-exec.  Which descriptors a new shell gets is taken from the model of the loop
(`Verif/Fds`).

Simplifications: of the daemon's descriptors only the master sides are here.  Whether the crate `shpool_pty` (not in the repository) opens them
close-on-exec is a parameter; in the child it closes the new terminal's own master side.  Terminals are numbered in the order they are made;
pagers' terminals and sessions' terminals are not told apart.  A hang-up reaches all that runs at the terminal (the shell passes it on to its jobs).
-/

namespace Shpool.Hangup

/-- `cloexec`: master sides are opened close-on-exec; `bound`: where the loop stops that closes descriptors in the child. -/
structure Params where
  cloexec : Bool
  bound : Nat

/-- The program (server.rs 1016). -/
def program (cloexec : Bool) : Params := ⟨cloexec, Fds.scOpenMax⟩

/-- The master side of a terminal, open in the daemon under a number. -/
structure Master where
  term : Nat
  num : Nat
  deriving DecidableEq, Repr

/-- A process: the terminal it runs at, the terminals whose master side it has, whether it ignores hang-ups. -/
structure Proc where
  term : Option Nat
  has : List Nat
  ignores : Bool
  deriving DecidableEq, Repr

/-- The daemon, what it has open, the other processes, the terminals hung up so far. -/
structure St where
  daemon : Bool
  next : Nat
  masters : List Master
  procs : List Proc
  told : List Nat
  deriving DecidableEq, Repr

/-- A daemon that has just started. -/
def init : St := ⟨true, 0, [], [], []⟩

/-- The terminals whose master side a program has that the daemon starts: those whose descriptors are inherited (server.rs 1011-1019). -/
def passedOn (P : Params) (ms : List Master) : List Nat :=
  (ms.filter fun m => !(Fds.inherited P.bound [⟨m.num, P.cloexec⟩]).isEmpty).map (·.term)

/-- What happens. -/
inductive Label where
  /-- a session (or a pager) is started; the master side gets the number `n` -/
  | start (n : Nat)
  /-- the daemon closes the terminal: the session is gone -/
  | drop (x : Nat)
  /-- the daemon ends, for whatever reason -/
  | ends
  /-- a process starts another one -/
  | fork (i : Nat)
  /-- a process lets go of its terminal (as services do) -/
  | leave (i : Nat)
  /-- a process comes to ignore hang-ups (as under `nohup`) -/
  | ignore (i : Nat)
  /-- a process ends -/
  | exit (i : Nat)
  /-- the system hangs up a terminal -/
  | hangup (x : Nat)
  deriving DecidableEq, Repr

/-- One step. -/
def step (P : Params) (s : St) : Label → Option St
  | .start n =>
    if s.daemon = true ∧ 3 ≤ n ∧ n ∉ s.masters.map (·.num) then
      some { s with next := s.next + 1, masters := s.masters ++ [⟨s.next, n⟩], procs := s.procs ++ [⟨some s.next, passedOn P s.masters, false⟩] }
    else none
  | .drop x => if s.daemon = true ∧ x ∈ s.masters.map (·.term) then some { s with masters := s.masters.filter fun m => m.term ≠ x } else none
  | .ends => if s.daemon = true then some { s with daemon := false, masters := [] } else none
  | .fork i =>
    match s.procs[i]? with
    | some p => some { s with procs := s.procs ++ [p] }
    | none => none
  | .leave i =>
    match s.procs[i]? with
    | some p => some { s with procs := s.procs.set i { p with term := none } }
    | none => none
  | .ignore i =>
    match s.procs[i]? with
    | some p => some { s with procs := s.procs.set i { p with ignores := true } }
    | none => none
  | .exit i => if i < s.procs.length then some { s with procs := s.procs.eraseIdx i } else none
  | .hangup x =>
    if x < s.next ∧ x ∉ s.told ∧ x ∉ s.masters.map (·.term) ∧ (∀ p ∈ s.procs, x ∉ p.has) then
      some { s with told := s.told ++ [x], procs := s.procs.filter fun p => p.ignores || decide (p.term ≠ some x) }
    else none

/-- The runs. -/
def Run (P : Params) (ls : List Label) (s : St) : Prop := runSteps (step P) init ls = some s

end Shpool.Hangup
