import Verif.Util.Lts
import Verif.Util.FdTable
/-!
# Model of new window sizes while a message pager is shown

Sources: `/repo/libshpool/src/daemon/pager.rs` 110-125, 179-212 (the slot and the thread that listens for new sizes), 225-227 and
the other returns of `display`, 315-332 (`PagerCltGuard`); `/repo/libshpool/src/daemon/server.rs` 828-849 (a resize request).

A transition system for one message pager: the call of `display` that shows it, its size listener, any number of resize requests, and the
daemon's table of file descriptors, in which all other threads open and close things.  `Verif/Pager` has the slot and which size the session
begins with, with a resize request as one step; here the messages, the time limits and the descriptor are the point.

The listener has the bare number of the descriptor of the pager's terminal (pager.rs 180), not a handle that keeps it open.  Two `Fork` values have it: `fork` of
`display` (pager.rs 141) and a clone of it in the thread that waits for the pager to exit (155-173).  The comment in server.rs 1028-1037 says what the destructor of each of
them does: it closes the descriptor, also that of a clone (the destructor is in the crate `shpool_pty`, which is not part of the repository).  So the number is closed
when the thread that waits for the pager has seen it exit and ends, whether `display` has noticed or not, and again when `display` returns.  Then its variables are dropped in
the reverse order of their declaration: `fork`, declared in line 141, before `_ctl_guard`, declared in line 127.

Both channels have no capacity: a message is given to somebody who takes it.  Time is not modelled: a time limit may pass whenever a request waits.
What can have a descriptor is a number; that setting the size of something that is no terminal fails is left out (it is logged).
-/

namespace Shpool.PagerSize

open Shpool.FdTable

/-- A resize request that has locked the slot: sending size `z`, server.rs 842-845; waiting for the acknowledgement, 846-849. -/
inductive Req where
  | sending (n z : Nat)
  | waiting (n z : Nat)
  deriving DecidableEq, Repr

/-- The listener, pager.rs 193-212: in `recv`; has the size `z` of request `n`, about to set it; about to note it for `display`; about
to acknowledge; ended. -/
inductive Lis where
  | recv
  | got (n z : Nat)
  | noting (n z : Nat)
  | acking (n z : Nat)
  | ended
  deriving DecidableEq, Repr

/-- `display`: in its loop; returning, with the size it has taken (226-227); the slot is free again. -/
inductive Disp where
  | shows
  | leaving (z : Nat)
  | over (z : Nat)
  deriving DecidableEq, Repr

/-- How a resize request ended: acknowledged, for the request of that number (only remembered for stating properties); an error. -/
inductive Outcome where
  | ok (of : Nat)
  | failed
  deriving DecidableEq, Repr

structure St where
  /-- the descriptors of the daemon, by number: what they are open on -/
  fds : List (Option Nat)
  /-- the terminal of the pager, and the number of its descriptor -/
  term : Nat
  fd : Nat
  /-- the pager has exited -/
  exited : Bool
  /-- the thread that waits for the pager has ended, and with it its clone of `fork` -/
  monGone : Bool
  /-- `fork` of `display` is dropped -/
  forkGone : Bool
  disp : Disp
  req : Option Req
  lis : Lis
  /-- `tty_size`, 184 -/
  noted : Nat
  size : Nat → Nat
  next : Nat
  /-- what each new size was set on, if on anything (only remembered for stating properties) -/
  hits : List (Option Nat)
  log : List (Nat × Outcome)

inductive Label where
  | ask (z : Nat)
  | send
  | sendTimeout
  | setSize
  | note
  | ack
  | ackTimeout
  /-- the listener finds that the other side of its channels is gone -/
  | quit
  | finish
  | exit
  /-- the destructor of one of the two handles: of that of the thread that waits for the pager to exit, or of that of `display` -/
  | close (mon : Bool)
  /-- `_ctl_guard` is dropped -/
  | clear
  /-- any other thread opens something or closes what is not the pager's -/
  | openOn (t : Nat)
  | closeOther (d : Nat)
  deriving DecidableEq, Repr

/-- One of the handles has been dropped. -/
def St.closed (s : St) : Bool := s.monGone || s.forkGone

def upd (f : Nat → Nat) (i x : Nat) : Nat → Nat := fun j => if j = i then x else f j

/-- `repaired` is not the code but what C155_order asks for: the thread that waits for the pager has only its process number (as in server.rs 1038), and the guard of
the slot is declared after the terminal. -/
def stepOf (repaired : Bool) (s : St) : Label → Option St
  -- server.rs 837-840: the slot is locked until the request is over; it is there until `display` has cleared it
  | .ask z => match s.req, s.disp with
    | none, .shows | none, .leaving _ => some { s with req := some (.sending s.next z), next := s.next + 1 }
    | _, _ => none
  -- server.rs 842-845 and pager.rs 193
  | .send => match s.req, s.lis with
    | some (.sending n z), .recv => some { s with req := some (.waiting n z), lis := .got n z }
    | _, _ => none
  | .sendTimeout => match s.req with
    | some (.sending n _) => some { s with req := none, log := s.log ++ [(n, .failed)] }
    | _ => none
  -- pager.rs 195-197
  | .setSize => match s.lis with
    | .got n z =>
      some { s with
        lis := .noting n z
        hits := s.hits ++ [on s.fds s.fd]
        size := match on s.fds s.fd with
          | some t => upd s.size t z
          | none => s.size }
    | _ => none
  -- pager.rs 199-203
  | .note => match s.lis with
    | .noting n z => some { s with lis := .acking n z, noted := z }
    | _ => none
  -- pager.rs 205 and server.rs 846-849
  | .ack => match s.req, s.lis with
    | some (.waiting m _), .acking n _ => some { s with req := none, lis := .recv, log := s.log ++ [(m, .ok n)] }
    | _, _ => none
  | .ackTimeout => match s.req with
    | some (.waiting n _) => some { s with req := none, log := s.log ++ [(n, .failed)] }
    | _ => none
  -- pager.rs 193, 205-208, 326-328
  | .quit => match s.disp, s.lis with
    | .over _, .recv | .over _, .acking _ _ => some { s with lis := .ended }
    | _, _ => none
  -- pager.rs 225-227, 265-270, 286-307
  | .finish => match s.disp with
    | .shows => some { s with disp := .leaving s.noted }
    | _ => none
  | .exit => if s.exited then none else some { s with exited := true }
  -- pager.rs 155-173: the thread ends when it has seen the pager exit
  | .close true => if repaired = false ∧ s.exited = true ∧ s.monGone = false then some { s with monGone := true, fds := s.fds.set s.fd none } else none
  -- pager.rs 141
  | .close false => match s.disp with
    | .shows => none
    | .leaving _ => if repaired = false ∧ s.forkGone = false then some { s with forkGone := true, fds := s.fds.set s.fd none } else none
    | .over _ => if s.forkGone = false then some { s with forkGone := true, fds := s.fds.set s.fd none } else none
  -- pager.rs 321-330: needs the lock of the slot; `fork` has been dropped before
  | .clear => match s.disp, s.req with
    | .leaving z, none => if repaired = true ∨ s.forkGone = true then some { s with disp := .over z } else none
    | _, _ => none
  | .openOn t => some { s with fds := lowest s.fds t }
  | .closeOther d => if d = s.fd ∧ s.closed = false then none else some { s with fds := s.fds.set d none }

/-- The code. -/
abbrev step : St → Label → Option St := stepOf false

/-- The pager with the terminal `t` has been started by an attach with the size `z` (pager.rs 181-186); `fds` is the table of descriptors, with the pager's terminal
under the number `d`. -/
def start (fds : List (Option Nat)) (t d z : Nat) (size : Nat → Nat) : St :=
  { fds := fds, term := t, fd := d, exited := false, monGone := false, forkGone := false, disp := .shows, req := none, lis := .recv, noted := z, size := upd size t z, next := 0,
    hits := [], log := [] }

def RunOf (repaired : Bool) (s0 : St) (ls : List Label) (s : St) : Prop :=
  (∃ fds t d z size, on fds d = some t ∧ s0 = start fds t d z size) ∧ runSteps (stepOf repaired) s0 ls = some s

def Run : St → List Label → St → Prop := RunOf false

end Shpool.PagerSize
