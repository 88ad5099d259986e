import Verif.Util.Lts
import Verif.Util.FdTable
/-!
# Model of the descriptor of a message pager's terminal

Sources: `/repo/libshpool/src/daemon/pager.rs` 141-175 (the terminal, the thread `pager_exit_monitor`), 213-311 (the loop of `display`), 342-388
(`PagerProcGuard`).

A transition system for one call of `display` from starting the pager on: the thread of the attach request, the thread that waits for the pager to exit, and the daemon's
table of file descriptors, in which all other threads open and close things.  `Verif/PagerRun` has what is relayed, under the assumption that the number of the terminal stands for the terminal;
`Verif/PagerSize` has the thread that sets new sizes.  Here it is the number that matters.

`display` works with bare copies of the number (`pty_master`, `watchable_master`, 175 and 215; they own nothing).  Two `Fork` values have it: `fork` (141) and its clone
`waitable_child` (155), which is moved into the thread that waits.  The comment in server.rs 1028-1037 says what the destructor of a clone does: it closes the
descriptor, so that others that use the number "read the wrong file"; for shells it is avoided there by giving the waiting thread the process number only.  The destructor
is in the crate `shpool_pty`, which is not part of the repository.

Simplified: what is read and written is not modelled, only from what and to what; an error or end of file when reading or writing is `leave` (chosen by the environment at any point of the loop),
and always comes if the number stands for nothing.  Heartbeats are left out.  The flag `pager_exited` is taken to be seen at once by the other thread (it is stored with
relaxed ordering).  That a read or write of something else than the terminal may block is left out.
-/

namespace Shpool.PagerFd

open Shpool.FdTable

/-- The thread that waits for the pager, pager.rs 156-173: in `wait_for_exit`; about to set the flag; about to end, which drops its clone; ended. -/
inductive Mon where
  | waits
  | woken
  | flagged
  | gone
  deriving DecidableEq, Repr

/-- The thread of the request: in `poll`, 224; about to look at the flag, 225; about to read the terminal, 264 (then the client, if it was ready too); about to read from the client, 286; about to
write to the terminal, 295; in the guard, 342-388; about to drop `fork`; `display` has returned. -/
inductive Main where
  | poll
  | polled (p c : Bool)
  | read (c : Bool)
  | client
  | feed
  | guard
  | drop
  | over
  deriving DecidableEq, Repr

structure St where
  /-- the descriptors of the daemon, by number: what they are open on -/
  fds : List (Option Nat)
  /-- the terminal of the pager, and the number of its descriptor -/
  term : Nat
  fd : Nat
  exited : Bool
  mon : Mon
  /-- `pager_exited` -/
  flag : Bool
  main : Main
  /-- for the record: what was read and sent to the client; what the client's input was written to; what was closed -/
  reads : List Nat
  writes : List Nat
  closes : List (Option Nat)

inductive Label where
  | exit
  | seen
  | setFlag
  | monDrop
  | wake (p c : Bool)
  | look
  | leave
  | read
  | input
  | feed
  | guardDone
  | dropFork
  /-- any other thread opens something or closes what is not the pager's -/
  | openOn (t : Nat)
  | closeOther (d : Nat)
  deriving DecidableEq, Repr

/-- What comes after the terminal was read, 283-285. -/
def next (c : Bool) : Main := if c then .client else .poll

/-- `repaired` is not the code: the thread that waits for the pager has only its process number, as in server.rs 1038. -/
def stepOf (repaired : Bool) (s : St) : Label → Option St
  | .exit => if s.exited then none else some { s with exited := true }
  -- pager.rs 158
  | .seen => match s.mon with
    | .waits => if s.exited then some { s with mon := .woken } else none
    | _ => none
  -- pager.rs 161, 165, 169
  | .setFlag => match s.mon with
    | .woken => some { s with mon := .flagged, flag := true }
    | _ => none
  -- pager.rs 173
  | .monDrop => match s.mon with
    | .flagged =>
      if repaired then some { s with mon := .gone }
      else some { s with mon := .gone, fds := s.fds.set s.fd none, closes := s.closes ++ [on s.fds s.fd] }
    | _ => none
  -- pager.rs 220-224
  | .wake p c => match s.main with
    | .poll => some { s with main := .polled p c }
    | _ => none
  -- pager.rs 225-262, 285
  | .look => match s.main with
    | .polled p c => some { s with main := if s.flag then .guard else if p then .read c else next c }
    | _ => none
  -- errors and hangups: 224, 246-253, 264-270, 275-281, 286-291, 295-308
  | .leave => match s.main with
    | .poll | .read _ | .client | .feed => some { s with main := .guard }
    | _ => none
  -- pager.rs 264-283
  | .read => match s.main with
    | .read c => match on s.fds s.fd with
      | some x => some { s with main := next c, reads := s.reads ++ [x] }
      | none => some { s with main := .guard }
    | _ => none
  -- pager.rs 286-293
  | .input => match s.main with
    | .client => some { s with main := .feed }
    | _ => none
  -- pager.rs 295-308
  | .feed => match s.main with
    | .feed => match on s.fds s.fd with
      | some x => some { s with main := .poll, writes := s.writes ++ [x] }
      | none => some { s with main := .guard }
    | _ => none
  -- pager.rs 342-388
  | .guardDone => match s.main with
    | .guard => some { s with main := .drop }
    | _ => none
  -- the end of `display`: `fork`, 141
  | .dropFork => match s.main with
    | .drop => some { s with main := .over, fds := s.fds.set s.fd none, closes := s.closes ++ [on s.fds s.fd] }
    | _ => none
  | .openOn t => some { s with fds := lowest s.fds t }
  | .closeOther d => if d = s.fd ∧ s.closes = [] then none else some { s with fds := s.fds.set d none }

/-- The code. -/
abbrev step : St → Label → Option St := stepOf false

/-- The pager has been started; `fds` is the table of descriptors, with the pager's terminal `t` under the number `d`. -/
def start (fds : List (Option Nat)) (t d : Nat) : St :=
  { fds := fds, term := t, fd := d, exited := false, mon := .waits, flag := false, main := .poll, reads := [], writes := [], closes := [] }

def RunOf (repaired : Bool) (s0 : St) (ls : List Label) (s : St) : Prop :=
  (∃ fds t d, on fds d = some t ∧ s0 = start fds t d) ∧ runSteps (stepOf repaired) s0 ls = some s

def Run : St → List Label → St → Prop := RunOf false

end Shpool.PagerFd
