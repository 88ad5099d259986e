import Verif.Util.Lts
/-!
# Model of the rendezvous between requesters and the shell-to-client thread

Source: `/repo/libshpool/src/daemon/server.rs` 1108-1118 (all six channels are `bounded(0)`: a send succeeds only by meeting a
receive), `/repo/libshpool/src/daemon/shell.rs` 302-305, 316-444 (the thread's side: receive a message, work, send the
acknowledgement, blocking, without a timeout) and the requesters:

* `bidi_stream` (shell.rs 680-698, 749-769), `action_detach` (1071-1084), `spawn_heartbeat` (977-1018), the resize and
  detach session messages (server.rs 855-871, 886-896): the message is sent with a timeout of 300ms and then the
  acknowledgement is awaited with a timeout of 300ms;
* `handle_detach` (server.rs 633-642): both without a timeout.

All of them hold the mutex around `ShellToClientCtl` from before the send until after the acknowledgement, so there is at
most one requester at a time (`req`).

Requests are numbered in the order in which they take the mutex; the acknowledgement carries the number of the message it
answers (ghost information, used by the specification).  Time is not modelled: a timeout may happen whenever a requester
with a timeout waits.  What the thread does with a message, and how long it takes, is `Verif/S2C` and the label `work`.
-/

namespace Shpool.Handshake

/-- The three pairs of channels, server.rs 1108-1114. -/
inductive Chan where
  | conn
  | size
  | heartbeat
  deriving DecidableEq, Repr

/-- The shell-to-client thread: at its `select!` (or, at the start, its first `recv`), at work on message `n`, in the
`send` of the acknowledgement for message `n`, gone (its ends of the channels are dropped). -/
inductive Thread where
  | ready
  | working (c : Chan) (n : Nat)
  | acking (c : Chan) (n : Nat)
  | gone
  deriving DecidableEq, Repr

/-- The requester holding the mutex: in `send`/`send_timeout`, in `recv`/`recv_timeout` of the acknowledgement. -/
inductive Req where
  | sending (c : Chan) (timed : Bool) (n : Nat)
  | awaiting (c : Chan) (timed : Bool) (n : Nat)
  deriving DecidableEq, Repr

/-- How a request ended. -/
inductive Outcome where
  /-- acknowledged, with the number of the message the acknowledgement was made for -/
  | acked (ofMsg : Nat)
  | sendTimeout
  | ackTimeout
  | disconnected
  deriving DecidableEq, Repr

structure St where
  thread : Thread
  /-- the holder of the mutex, if any -/
  req : Option Req
  /-- number of the next request -/
  next : Nat
  /-- finished requests -/
  log : List (Nat × Outcome)
  deriving DecidableEq, Repr

def init : St where
  thread := .ready
  req := none
  next := 0
  log := []

inductive Label where
  /-- a requester takes the mutex and starts to send -/
  | begin (c : Chan) (timed : Bool)
  /-- the send meets the thread's receive -/
  | meet
  /-- the thread has done the work for the message -/
  | work
  /-- the thread's `send` of the acknowledgement meets the requester's receive -/
  | ack
  | sendTimeout
  | ackTimeout
  /-- the thread ends (shell gone, write error, end of its `select!` loop) -/
  | threadEnds
  /-- a requester notices that the thread is gone -/
  | disconnected
  deriving DecidableEq, Repr

def Req.num : Req → Nat
  | .sending _ _ n => n
  | .awaiting _ _ n => n

/-- One step. -/
def step (s : St) : Label → Option St
  | .begin c timed =>
    match s.req with
    | none => some { s with req := some (.sending c timed s.next), next := s.next + 1 }
    | some _ => none
  | .meet =>
    match s.req, s.thread with
    | some (.sending c timed n), .ready => some { s with req := some (.awaiting c timed n), thread := .working c n }
    | _, _ => none
  | .work =>
    match s.thread with
    | .working c n => some { s with thread := .acking c n }
    | _ => none
  | .ack =>
    match s.req, s.thread with
    | some (.awaiting c _ n), .acking c' m =>
      if c = c' then some { s with req := none, thread := .ready, log := s.log ++ [(n, .acked m)] } else none
    | _, _ => none
  | .sendTimeout =>
    match s.req with
    | some (.sending _ true n) => some { s with req := none, log := s.log ++ [(n, .sendTimeout)] }
    | _ => none
  | .ackTimeout =>
    match s.req with
    | some (.awaiting _ true n) => some { s with req := none, log := s.log ++ [(n, .ackTimeout)] }
    | _ => none
  | .threadEnds =>
    match s.thread with
    | .ready => some { s with thread := .gone }
    | .working _ _ => some { s with thread := .gone }
    | _ => none
  | .disconnected =>
    match s.req, s.thread with
    | some r, .gone => some { s with req := none, log := s.log ++ [(r.num, .disconnected)] }
    | _, _ => none

/-- `s` is reachable by the steps `ls`. -/
def Run (ls : List Label) (s : St) : Prop := runSteps step init ls = some s

end Shpool.Handshake
