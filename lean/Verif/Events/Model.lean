import Verif.Util.Lts
/-!
# Model of the event bus

Source: `/repo/libshpool/src/daemon/events.rs`.

A labelled transition system: publishers, connecting subscribers and the sink thread take steps in any order.  The
behaviour of each subscriber's socket (short writes, would-block, errors, hang-ups) is given by the step labels, so it is
arbitrary.  The channel is a FIFO list; the wake pipe is the number of unread bytes in it.
-/

namespace Shpool.Events

/-- `Event`, events.rs 55-66. -/
inductive Event where
  | created | attached | detached | removed
  deriving DecidableEq, Repr

/-- The value of the `type` tag, events.rs 58-65. -/
def Event.name : Event → List Char
  | .created => "session.created".toList
  | .attached => "session.attached".toList
  | .detached => "session.detached".toList
  | .removed => "session.removed".toList

/-- `serialize_line`, events.rs 479-494: serde's internally tagged JSON object, then a newline.  (Serde's output format is
taken from the test `events_serialize_with_only_type`, events.rs 604-616.) -/
def Event.line (e : Event) : List Char := "{\"type\":\"".toList ++ e.name ++ "\"}".toList ++ ['\n']

/-- `SUBSCRIBER_QUEUE_DEPTH`, events.rs 48. -/
def queueDepth : Nat := 64
/-- `EVENT_CHANNEL_CAP`, events.rs 52. -/
def channelCap : Nat := 4096

/-- What one `write(2)` on the subscriber's socket does. -/
inductive WriteRes where
  /-- up to `n` bytes are taken (never more than offered) -/
  | wrote (n : Nat)
  | wouldBlock
  | interrupted
  | err
  deriving DecidableEq, Repr

/-- `SubscriberWriter`, events.rs 388-399.  `start` and `given` are ghosts: how many events had been broadcast when the
subscriber was accepted, and the events queued for it since.  `recv` is what has been written to its socket. -/
structure Sub where
  id : Nat
  recv : List Char
  pending : List Event
  off : Nat
  dropped : Bool
  start : Nat
  given : List Event
  deriving DecidableEq, Repr

/-- `drive_pending`, events.rs 443-472, driven by the outcomes of the successive writes (an exhausted list means
would-block).  The flag is false for an `Err` return. -/
def drivePending : List WriteRes → List Event → Nat → List Char → List Event × Nat × List Char × Bool
  | _, [], off, recv => ([], off, recv, true)
  | [], e :: ps, off, recv => (e :: ps, off, recv, true)
  | w :: ws, e :: ps, off, recv =>
    match w with
    | .wrote n =>
      let bytes := e.line.drop off
      let n := min n bytes.length
      if n = 0 then (e :: ps, off, recv, false)
      else if off + n ≥ e.line.length then drivePending ws ps 0 (recv ++ bytes.take n)
      else drivePending ws (e :: ps) (off + n) (recv ++ bytes.take n)
    | .wouldBlock => (e :: ps, off, recv, true)
    | .interrupted => drivePending ws (e :: ps) off recv
    | .err => (e :: ps, off, recv, false)

/-- `sub.drive()` with the error handling of its callers, events.rs 352-357 and 374-379. -/
def Sub.drive (ws : List WriteRes) (s : Sub) : Sub :=
  let r := drivePending ws s.pending s.off s.recv
  { s with pending := r.1, off := r.2.1, recv := r.2.2.1, dropped := s.dropped || !r.2.2.2 }

/-- One subscriber's part of the broadcast loop, events.rs 341-358 with `enqueue` 415-421. -/
def Sub.offer (e : Event) (ws : List WriteRes) (s : Sub) : Sub :=
  if s.dropped then s
  else
    let wasEmpty := s.pending.isEmpty
    if s.pending.length ≥ queueDepth then { s with dropped := true }
    else
      let s := { s with pending := s.pending ++ [e], given := s.given ++ [e] }
      if wasEmpty then s.drive ws else s

/-- What `poll` reported for a subscriber. -/
inductive PollEv where
  | quiet
  | hangup
  | ready (ws : List WriteRes)
  deriving DecidableEq, Repr

/-- One subscriber's part of the drive loop, events.rs 363-381. -/
def Sub.service (ev : PollEv) (s : Sub) : Sub :=
  if s.dropped then s
  else match ev with
    | .quiet => s
    | .hangup => { s with dropped := true }
    | .ready ws => s.drive ws

/-- Where the sink is in its loop, events.rs 250-382.  `polled` are the subscribers in the poll set. -/
inductive Phase where
  /-- blocked in (or about to call) `poll`, 267 -/
  | polling
  /-- `poll` has returned; `wake` is whether the wake pipe was reported; about to accept, 303 -/
  | accepting (wake : Bool) (polled : List Nat)
  /-- about to empty the wake pipe, 325 -/
  | draining (polled : List Nat)
  /-- in the `try_recv` loop, 341 -/
  | receiving (polled : List Nat)
  /-- about to drive and retain, 363-381 -/
  | finishing (polled : List Nat)
  /-- returned -/
  | stopped
  deriving DecidableEq, Repr

/-- The whole system.  `chan` is the channel, `wake` the number of unread wake bytes, `mid` the number of publishers between
`try_send` and the wake write, `backlog` the connections not yet accepted.  `done` (events taken from the channel so far) and
`gone` (subscribers removed by `retain`) are ghosts. -/
structure St where
  chan : List Event
  done : List Event
  wake : Nat
  mid : Nat
  backlog : List Nat
  subs : List Sub
  gone : List Sub
  phase : Phase
  deriving DecidableEq, Repr

/-- `EventBus::start`, events.rs 86-113. -/
def init : St := ⟨[], [], 0, 0, [], [], [], .polling⟩

/-- Events put into the channel so far, in order. -/
def St.published (s : St) : List Event := s.done ++ s.chan

/-- Steps. -/
inductive Label where
  /-- `try_send` of `publish`, events.rs 121-139 -/
  | send (e : Event)
  /-- the wake write of `publish`, events.rs 143-146 -/
  | wakeWrite
  /-- a subscriber's `connect(2)` -/
  | connect (id : Nat)
  /-- `poll` returns, events.rs 267-288 -/
  | poll
  /-- the accept loop, events.rs 303-315 -/
  | accept
  /-- the accept loop ends early, with an error of `accept(2)` (there are too many open files, say) after the connections `got`, events.rs
  309-312; the others stay in the backlog.  (In the code `got` are the earliest; here they can be any.) -/
  | acceptFails (got : Nat → Bool)
  /-- the wake pipe is read until EAGAIN, events.rs 325-333 -/
  | drain
  /-- one `try_recv` and, if it returns an event, its broadcast, events.rs 341-359; the outcomes of the writes to each
  subscriber -/
  | recv (ws : Nat → List WriteRes)
  /-- the drive loop and `retain`, events.rs 363-381 -/
  | finish (ev : Nat → PollEv)
  /-- the shutdown pipe was reported, events.rs 294-296 -/
  | shutdown

/-- `wakeCap` bytes fit into the wake pipe. -/
def step (wakeCap : Nat) (s : St) : Label → Option St
  | .send e =>
    -- Full: the event is dropped and publish returns without a wake (123-126)
    if s.chan.length ≥ channelCap then some s
    else some { s with chan := s.chan ++ [e], mid := s.mid + 1 }
  | .wakeWrite =>
    -- EAGAIN on a full pipe is ignored (144)
    if s.mid = 0 then none
    else some { s with mid := s.mid - 1, wake := if s.wake < wakeCap then s.wake + 1 else s.wake }
  | .connect id =>
    if id ∈ s.backlog ∨ id ∈ s.subs.map Sub.id ∨ id ∈ s.gone.map Sub.id then none
    else some { s with backlog := s.backlog ++ [id] }
  | .poll =>
    match s.phase with
    | .polling =>
      some { s with phase := .accepting (decide (s.wake > 0)) ((s.subs.filter (!·.pending.isEmpty)).map Sub.id) }
    | _ => none
  | .accept =>
    match s.phase with
    | .accepting w polled =>
      some { s with
        backlog := []
        subs := s.subs ++ s.backlog.map (fun id => ⟨id, [], [], 0, false, s.done.length, []⟩)
        phase := if w then .draining polled else .finishing polled }
    | _ => none
  | .acceptFails got =>
    match s.phase with
    | .accepting w polled =>
      some { s with
        backlog := s.backlog.filter (!got ·)
        subs := s.subs ++ (s.backlog.filter got).map (fun id => ⟨id, [], [], 0, false, s.done.length, []⟩)
        phase := if w then .draining polled else .finishing polled }
    | _ => none
  | .drain =>
    match s.phase with
    | .draining polled => some { s with wake := 0, phase := .receiving polled }
    | _ => none
  | .recv ws =>
    match s.phase with
    | .receiving polled =>
      match s.chan with
      | [] => some { s with phase := .finishing polled }
      | e :: rest =>
        some { s with chan := rest, done := s.done ++ [e], subs := s.subs.map (fun u => u.offer e (ws u.id)) }
    | _ => none
  | .finish ev =>
    match s.phase with
    | .finishing polled =>
      let subs := s.subs.map (fun u => if u.id ∈ polled then u.service (ev u.id) else u)
      some { s with
        subs := subs.filter (!·.dropped), gone := s.gone ++ subs.filter (·.dropped), phase := .polling }
    | _ => none
  | .shutdown =>
    match s.phase with
    | .polling => some { s with phase := .stopped }
    | _ => none

/-- A run of the system from its start. -/
def Run (wakeCap : Nat) (ls : List Label) (s : St) : Prop := runSteps (step wakeCap) init ls = some s

end Shpool.Events
