import Verif.Util.Lts
/-!
# Model of attaching from inside sessions

Sources: `/repo/libshpool/src/attach.rs` 101-239 (`Attach::run` and `attach_resolved`: nothing is asked about where the client runs),
`/repo/libshpool/src/daemon/server.rs` 400-520 (a session with a client is busy), `/repo/libshpool/src/daemon/shell.rs` 535-626 (what comes
from a session's terminal goes to its client), `/repo/libshpool/src/protocol.rs` 310-391 (the client writes it to its own terminal).

A client runs somewhere: at a terminal outside, or at the terminal of a session.  The model keeps for each session where its client
runs, and the output on its way.

Simplifications: sessions are numbers and a name is not used again; the threads, sockets and buffers between a session's terminal and
its client are one queue per session, relayed byte by byte; a forced attach (attach.rs 163-203) succeeds in one step.  What a session
without a client prints is only kept for a later restore.  The terminals add nothing to what is written to them (the client's is in
raw mode, tty.rs 103-122).
-/

namespace Shpool.Nest

/-- Where a client runs: the terminal of its standard input and output (protocol.rs 250-391). -/
inductive Place where
  | outside (n : Nat)
  | inside (a : Nat)
  deriving DecidableEq, Repr

/-- The sessions (server.rs 66-88 `shells`), where their clients run, and the output between them. -/
structure St where
  /-- the sessions there are -/
  live : Nat → Bool
  /-- where the client of a session runs -/
  client : Nat → Option Place
  /-- output of the session's terminal that has not been relayed -/
  queue : Nat → List UInt8
  /-- what was shown on terminals outside -/
  shown : List (Nat × UInt8)

/-- No session yet (server.rs 90-138). -/
def init : St := ⟨fun _ => false, fun _ => none, fun _ => [], []⟩

/-- What happens: an attach (attach.rs 101-239), a client that leaves (shell.rs 806-954), a shell that ends, output (shell.rs 535-626). -/
inductive Label where
  /-- `shpool attach b`, run at `p`; `force`: with `-f` -/
  | attach (p : Place) (b : Nat) (force : Bool)
  /-- the client of session `b` leaves (detaches, is killed) -/
  | leave (b : Nat)
  /-- session `a` ends, and with it what runs at its terminal -/
  | ended (a : Nat)
  /-- something running in session `a` prints -/
  | print (a : Nat) (x : List UInt8)
  /-- one byte goes to the client of session `a` -/
  | relay (a : Nat)
  deriving DecidableEq, Repr

/-- A table with one entry changed. -/
def upd {α : Type} (f : Nat → α) (i : Nat) (x : α) : Nat → α := fun j => if j = i then x else f j

/-- What is checked of an attach, apart from the session being busy.  The program checks nothing; the others are what it could check. -/
inductive Check where
  | nothing
  /-- not to the session it runs in, whose name is in SHPOOL_SESSION_NAME -/
  | own
  /-- the daemon follows the clients: `k` of them -/
  | follow (k : Nat)
  deriving DecidableEq, Repr

/-- Whether session `b` is found when the clients are followed outward from `p`, `k` times. -/
def finds (client : Nat → Option Place) (b : Nat) : Nat → Place → Bool
  | _, .outside _ => false
  | 0, .inside _ => true
  | k + 1, .inside a =>
    if a = b then true
    else match client a with
      | none => false
      | some p => finds client b k p

/-- Whether the check refuses the attach; not in the program, which makes none (attach.rs 101-239, server.rs 400-520). -/
def refused (c : Check) (s : St) (p : Place) (b : Nat) : Bool :=
  match c with
  | .nothing => false
  | .own => p = .inside b
  | .follow k => finds s.client b k p

/-- Something can run at this place: the terminal of a session is gone when it has ended. -/
def placeLive (s : St) : Place → Bool
  | .outside _ => true
  | .inside a => s.live a

/-- One step.  `attach`: attach.rs 140-239 and server.rs 425-520; `relay`: shell.rs 535-626 and protocol.rs 348-366; what a session without a
client prints is read all the same (shell.rs 535-626). -/
def stepOf (c : Check) (s : St) : Label → Option St
  | .attach p b force =>
    if placeLive s p = true ∧ refused c s p b = false ∧ (s.client b = none ∨ force = true) then
      some { s with live := upd s.live b true, client := upd s.client b (some p) }
    else none
  | .leave b =>
    match s.client b with
    | none => none
    | some _ => some { s with client := upd s.client b none }
  | .ended a =>
    if s.live a = true then
      some { s with live := upd s.live a false, queue := upd s.queue a [],
                    client := fun y => if y = a ∨ s.client y = some (.inside a) then none else s.client y }
    else none
  | .print a x => if s.live a = true then some { s with queue := upd s.queue a (s.queue a ++ x) } else none
  | .relay a =>
    match s.queue a with
    | [] => none
    | x :: q =>
      match s.client a with
      | none => some { s with queue := upd s.queue a q }
      | some (.outside n) => some { s with queue := upd s.queue a q, shown := s.shown ++ [(n, x)] }
      | some (.inside b) => some { s with queue := upd (upd s.queue a q) b (upd s.queue a q b ++ [x]) }

/-- The program. -/
abbrev step : St → Label → Option St := stepOf .nothing

/-- The runs, from no session. -/
def RunOf (c : Check) (ls : List Label) (s : St) : Prop := runSteps (stepOf c) init ls = some s

/-- The runs of the program. -/
abbrev Run : List Label → St → Prop := RunOf .nothing

end Shpool.Nest
