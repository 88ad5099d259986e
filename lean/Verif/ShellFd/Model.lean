import Verif.Util.Lts
import Verif.Util.FdTable
/-!
# Model of the descriptor of a session's terminal when the session is dropped

Sources: `/repo/libshpool/src/daemon/shell.rs` 105-123 and 156-174 (what a session holds), 283-286 and 301-600 (the thread that reads the terminal);
`/repo/libshpool/src/daemon/server.rs` 361, 545, 758 and `/repo/libshpool/src/daemon/ttl_reaper.rs` 120 (where sessions are dropped), 719-731, 851-872, 876-897
(requests that keep the control channels of a session for themselves).

A transition system for one session's shell-to-client thread, for dropping the session, for requests that have a reference to its control channels, and for the daemon's table of file
descriptors, in which all other threads open and close things.

The terminal belongs to `SessionInner.pty_master`, a `Fork` whose destructor closes the descriptor (see the comment in server.rs 1028-1037 and `Verif/PagerFd`).
The thread has bare copies of the number (283-284).  Nobody waits for the thread when a session is dropped: it is meant to notice that the senders of its
channels are gone ("SessionInner getting dropped, so this thread should go away", 391-395).  It looks at the channels once per turn and not while it polls and reads; and the senders
are gone only when no request has a reference to them any more.  Fields are dropped in the order of declaration, so that the session's references to the channels go
before the terminal.

Simplified: what is read is not modelled, only from what; a turn that cannot go on because the client does not take its output is a step that is not performed.  Errors are steps chosen by the environment.
`Master::read` returning 0 for an error (crate `shpool_pty`) or an error are both allowed.
-/

namespace Shpool.ShellFd

open Shpool.FdTable

/-- The session: it is there (in the table, or an attach has it locked); its references to the control channels are dropped; its terminal is closed. -/
inductive Phase where
  | here
  | going
  | gone
  deriving DecidableEq, Repr

/-- The thread: waits for the first client, 306; at `select!`, 320; about to see whether a resize is due, 487; in `poll`, 534; about to read, 567; ended. -/
inductive Pos where
  | first
  | sel
  | turn
  | poll
  | ready
  | ended
  deriving DecidableEq, Repr

structure St where
  /-- the descriptors of the daemon, by number: what they are open on -/
  fds : List (Option Nat)
  /-- the session's terminal, and the number of its descriptor -/
  term : Nat
  fd : Nat
  phase : Phase
  /-- how many requests have a reference to the control channels -/
  holders : Nat
  pos : Pos
  /-- `resize_cmd` -/
  due : Bool
  /-- for the record: what was read; what sizes were set on -/
  reads : List Nat
  sizes : List (Option Nat)

inductive Label where
  | borrow
  | giveBack
  | letGo
  | closeFd
  -- the thread, first turn
  | first
  | firstEnds
  -- `select!` with senders: a new client, a new size, the end (`DisconnectExit`, errors), anything else, a switch message that is dropped
  | newConn
  | newSize
  | finish
  | other
  | skip
  -- `select!` without: a closed channel is ready; that of the switch messages only starts the next turn
  | noticed
  | missed
  | resize
  | noResize
  | timeout
  | readable
  | hangup
  | read
  | readEnds
  | openOn (t : Nat)
  | closeOther (d : Nat)
  deriving DecidableEq, Repr

/-- There are senders for the channels. -/
def St.live (s : St) : Bool := s.phase = .here || s.holders > 0

def step (s : St) : Label → Option St
  -- server.rs 719-731, 855, 880: with the session found in the table
  | .borrow => if s.phase = .here then some { s with holders := s.holders + 1 } else none
  | .giveBack => if s.holders > 0 then some { s with holders := s.holders - 1 } else none
  -- shell.rs 116, 122, 159
  | .letGo => if s.phase = .here then some { s with phase := .going } else none
  -- shell.rs 160
  | .closeFd => if s.phase = .going then some { s with phase := .gone, fds := s.fds.set s.fd none } else none
  -- shell.rs 305-317: only an attach sends the first client
  | .first => if s.pos = .first ∧ s.phase = .here then some { s with pos := .sel, due := true } else none
  | .firstEnds => if s.pos = .first ∧ s.live = false then some { s with pos := .ended } else none
  -- shell.rs 323-357: only an attach sends a new client; the terminal is first made a little larger, 344
  | .newConn => if s.pos = .sel ∧ s.phase = .here then some { s with pos := .turn, due := true, sizes := s.sizes ++ [on s.fds s.fd] } else none
  -- shell.rs 400-415
  | .newSize => if s.pos = .sel ∧ s.live = true then some { s with pos := .turn, due := true } else none
  -- shell.rs 372-389, and errors
  | .finish => if s.pos = .sel ∧ s.live = true then some { s with pos := .ended } else none
  -- shell.rs 358-371, 422-445, 447-480, 484
  | .other => if s.pos = .sel ∧ s.live = true then some { s with pos := .turn } else none
  -- shell.rs 455-466
  | .skip => if s.pos = .sel ∧ s.live = true then some s else none
  -- shell.rs 391-395, 416-419, 443-444
  | .noticed => if s.pos = .sel ∧ s.live = false then some { s with pos := .ended } else none
  -- shell.rs 447-453
  | .missed => if s.pos = .sel ∧ s.live = false then some s else none
  -- shell.rs 487-505
  | .resize => if s.pos = .turn ∧ s.due = true then some { s with pos := .poll, due := false, sizes := s.sizes ++ [on s.fds s.fd] } else none
  | .noResize => if s.pos = .turn then some { s with pos := .poll } else none
  -- shell.rs 534-547
  | .timeout => if s.pos = .poll then some { s with pos := .sel } else none
  | .readable => if s.pos = .poll then some { s with pos := .ready } else none
  -- shell.rs 536-539, 548-566
  | .hangup => if s.pos = .poll then some { s with pos := .ended } else none
  -- shell.rs 567-576 and the rest of the turn
  | .read => if s.pos = .ready then
      match on s.fds s.fd with
      | some x => some { s with pos := .sel, reads := s.reads ++ [x] }
      | none => some { s with pos := .sel }
    else none
  | .readEnds => if s.pos = .ready then some { s with pos := .ended } else none
  | .openOn t => some { s with fds := lowest s.fds t }
  | .closeOther d => if d = s.fd ∧ s.phase ≠ .gone then none else some { s with fds := s.fds.set d none }

/-- The session has been created; `fds` is the table of descriptors, with the session's terminal `t` under the number `d`. -/
def start (fds : List (Option Nat)) (t d : Nat) : St :=
  { fds := fds, term := t, fd := d, phase := .here, holders := 0, pos := .first, due := false, reads := [], sizes := [] }

def Run (s0 : St) (ls : List Label) (s : St) : Prop :=
  (∃ fds t d, on fds d = some t ∧ s0 = start fds t d) ∧ runSteps step s0 ls = some s

/-- The steps of the thread, without the turn that only starts the next one. -/
def threadStep : Label → Bool
  | .first | .firstEnds | .newConn | .newSize | .finish | .other | .noticed | .resize | .noResize | .timeout | .readable | .hangup | .read | .readEnds => true
  | _ => false

end Shpool.ShellFd
