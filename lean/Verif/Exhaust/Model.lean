import Verif.Util.Lts
/-!
# Model of the two accept loops when descriptors run out

Sources: `/repo/libshpool/src/daemon/server.rs` 140-165 (`Server::serve`); `/repo/libshpool/src/daemon/events.rs` 250-275 and 294-382
(the loop of the sink: `poll`, the accept loop, emptying the wake pipe).

The process can have `limit` descriptors open at a time.  `accept(2)` first takes a free number and only then looks for a connection
(Linux, `__sys_accept4_file`), so it fails at once with EMFILE if there is none, whether or not a connection waits, and it keeps the number
while it waits for one.  Neither loop does anything about the error but write a line to the log.

Simplifications: descriptors are only counted.  What else the daemon does with descriptors (terminals, clones of connections, files, the
threads of connections closing them) are steps of the outside.  Subscribers that are slow to read (which also wake the sink) are left out,
as are the other errors of `accept`, and the limit of threads (Verif/Slow, C131).
-/

namespace Shpool.Exhaust

/-- Where the thread of `serve` is: about to call `accept` (server.rs 143), or waiting in it for a connection, with a number taken. -/
inductive Main where
  | calling
  | waiting
  deriving DecidableEq, Repr

/-- Where the sink is: about to call or in `poll` (events.rs 267), in the accept loop (303-315), after it (323-382); `woken`: `poll` has
reported the wake pipe. -/
inductive Sink where
  | polling
  | accepting (woken : Bool)
  | rest (woken : Bool)
  deriving DecidableEq, Repr

/-- `used`: numbers in use, that of a waiting `accept` included; `qm`, `qs`: connections that wait at the control socket and at the events
socket; `gotM`, `gotS`: those accepted; `wake`: there is something in the wake pipe; `log`: lines written to the log about failed accepts
(server.rs 160, events.rs 311). -/
structure St where
  used : Nat
  main : Main
  sink : Sink
  qm : List Nat
  qs : List Nat
  gotM : List Nat
  gotS : List Nat
  wake : Bool
  log : Nat
  deriving DecidableEq, Repr

/-- The daemon is up, with `k` descriptors of its own. -/
def init (k : Nat) : St := ⟨k, .calling, .polling, [], [], [], [], false, 0⟩

inductive Label where
  /-- a client or subscriber connects -/
  | connect (c : Nat)
  | subscribe (c : Nat)
  /-- something else in the daemon opens or closes a descriptor -/
  | opens
  | closes
  /-- an event is published, events.rs 143 -/
  | publish
  /-- the thread of `serve` calls `accept` -/
  | mainCall
  /-- its `accept` returns a connection -/
  | mainTake
  /-- `poll` returns -/
  | sinkPoll
  /-- one turn of the accept loop of the sink -/
  | sinkAccept
  /-- the rest of the turn: the wake pipe is emptied, and the loop goes on -/
  | sinkRest
  deriving DecidableEq, Repr

/-- Steps that are not taken by one of the two threads. -/
def Label.outside : Label → Bool
  | .connect _ | .subscribe _ | .opens | .closes | .publish => true
  | _ => false

/-- A step.  `closes` needs a number that is not the one of a waiting `accept`. -/
def step (limit : Nat) (s : St) : Label → Option St
  | .connect c => some { s with qm := s.qm ++ [c] }
  | .subscribe c => some { s with qs := s.qs ++ [c] }
  | .opens => if s.used < limit then some { s with used := s.used + 1 } else none
  | .closes => if (match s.main with | .calling => 0 | .waiting => 1) < s.used then some { s with used := s.used - 1 } else none
  | .publish => some { s with wake := true }
  | .mainCall =>
    match s.main with
    | .calling =>
      if s.used < limit then some { s with used := s.used + 1, main := .waiting }
      -- server.rs 159-161
      else some { s with log := s.log + 1 }
    | .waiting => none
  | .mainTake =>
    match s.main, s.qm with
    -- server.rs 146-158: the number is now that of the connection
    | .waiting, c :: q => some { s with main := .calling, qm := q, gotM := s.gotM ++ [c] }
    | _, _ => none
  | .sinkPoll =>
    match s.sink with
    | .polling => if s.qs ≠ [] ∨ s.wake = true then some { s with sink := .accepting s.wake } else none
    | _ => none
  | .sinkAccept =>
    match s.sink with
    | .accepting w =>
      -- events.rs 310-313
      if limit ≤ s.used then some { s with sink := .rest w, log := s.log + 1 }
      else match s.qs with
        -- events.rs 309: WouldBlock, the number is given back
        | [] => some { s with sink := .rest w }
        -- events.rs 305-308
        | c :: q => some { s with used := s.used + 1, qs := q, gotS := s.gotS ++ [c] }
    | _ => none
  | .sinkRest =>
    match s.sink with
    -- events.rs 323-360
    | .rest w => some { s with sink := .polling, wake := if w then false else s.wake }
    | _ => none

/-- A run of a daemon that has opened `k` descriptors itself. -/
def Run (limit k : Nat) (ls : List Label) (s : St) : Prop := runSteps (step limit) (init k) ls = some s

end Shpool.Exhaust
