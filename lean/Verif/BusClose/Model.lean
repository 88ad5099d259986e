import Verif.Events.Props

/-!
# Model of closing the event bus

Source: `/repo/libshpool/src/daemon/events.rs` 75-113 (the bus and the handle that owns its thread), 120-147 (`publish`, with a thread that is
gone), 165-186 (dropping the handle), 199-214 (the guard of the socket file), 219-297 and 318-335 (how the thread returns);
`/repo/libshpool/src/daemon/mod.rs` 73-116 (whoever starts the bus drops the handle at the end, also when the start of the daemon fails
after it).

The loop of the thread is that of `Verif/Events` (`base`).  Added are: the shutdown pipe, the clones of the bus (when the last is gone
the wake pipe is at its end), panics, what happens after the thread's function has returned, and the owner, who writes to the shutdown
pipe and waits for the thread.

Simplifications:
* The iteration in which the thread finds the wake pipe at its end is one step (`eof`).
* After the socket file has been removed, the pipes, the channel and the listener are closed in one step (`exit`).
* A wake byte written when nobody reads it any more (EPIPE, which is only logged) is counted in `base` like any other.
* Another daemon that takes the socket file's place is not here (`Verif/Startup`).
-/

namespace Shpool.BusClose
open Events (Event Sub Phase)

/-- How far the thread is: in its loop, returned (its subscribers' connections are closed; locals are dropped in reverse order), with the
socket file dealt with (the guard is dropped next), and gone with its listener and channel (events.rs 229-230). -/
inductive Stage where
  | running
  | returned
  | unlinked
  | finished
  deriving DecidableEq, Repr

/-- The owner of the handle: has it, is in `drop` (in the `join`, events.rs 181), is through. -/
inductive Owner where
  | has
  | joining
  | through
  deriving DecidableEq, Repr

structure St where
  base : Events.St
  stage : Stage
  /-- there is an unread byte in the shutdown pipe -/
  nudged : Bool
  owner : Owner
  /-- the clones of the bus (`Arc<EventBus>`) -/
  clones : Nat
  /-- the socket file exists -/
  file : Bool
  /-- `sink_dead_logged`, events.rs 78 -/
  logged : Bool
  /-- how often the death of the thread was logged, events.rs 135 -/
  errors : Nat
  deriving DecidableEq, Repr

/-- `EventBus::start`, events.rs 86-113. -/
def init : St := ⟨Events.init, .running, false, .has, 1, true, false, 0⟩

inductive Label where
  /-- a step of a publisher, a subscriber or the thread in its loop -/
  | bus (l : Events.Label)
  /-- `Arc::clone` -/
  | clone
  /-- a clone of the bus is dropped -/
  | dropClone
  /-- the owner writes to the shutdown pipe, events.rs 178-181; `ok` is false for an error other than EPIPE -/
  | letGo (ok : Bool)
  /-- `join` returns, events.rs 183-185 -/
  | join
  /-- the thread sees that the shutdown pipe is readable, events.rs 294-296 -/
  | shutdown
  /-- the thread finds the wake pipe at its end, events.rs 328-329 -/
  | eof
  /-- the thread panics in `poll` or in reading the wake pipe, events.rs 270 and 333; its locals are dropped all the same -/
  | panic
  /-- the guard removes the socket file, events.rs 207-213; `ok` is false for an error other than that there is none -/
  | unlink (ok : Bool)
  /-- the thread is gone with its listener and its end of the channel -/
  | exit

/-- The thread waits in `poll`, or is about to read the wake pipe. -/
def atPipe : Phase → Bool
  | .polling | .draining _ => true
  | _ => false

/-- Steps. -/
def step (wakeCap : Nat) (s : St) : Label → Option St
  | .bus l =>
    match l with
    -- events.rs 121-139: to a receiver that is gone nothing can be sent
    | .send e =>
      if s.clones = 0 then none
      else if s.stage = .finished then some { s with logged := true, errors := if s.logged then s.errors else s.errors + 1 }
      else (Events.step wakeCap s.base (.send e)).map fun b => { s with base := b }
    | .wakeWrite => (Events.step wakeCap s.base .wakeWrite).map fun b => { s with base := b }
    -- connecting needs the file and the listener
    | .connect id =>
      if s.file = true ∧ s.stage ≠ .finished then (Events.step wakeCap s.base (.connect id)).map fun b => { s with base := b } else none
    -- nothing is reported for the shutdown pipe, and the wake pipe is not at its end
    | .poll =>
      if s.stage = .running ∧ s.nudged = false ∧ s.clones ≠ 0 then (Events.step wakeCap s.base .poll).map fun b => { s with base := b } else none
    -- the wake pipe is not at its end
    | .drain =>
      if s.stage = .running ∧ s.clones ≠ 0 then (Events.step wakeCap s.base .drain).map fun b => { s with base := b } else none
    | .accept => if s.stage = .running then (Events.step wakeCap s.base .accept).map fun b => { s with base := b } else none
    | .acceptFails got =>
      if s.stage = .running then (Events.step wakeCap s.base (.acceptFails got)).map fun b => { s with base := b } else none
    | .recv ws => if s.stage = .running then (Events.step wakeCap s.base (.recv ws)).map fun b => { s with base := b } else none
    | .finish ev => if s.stage = .running then (Events.step wakeCap s.base (.finish ev)).map fun b => { s with base := b } else none
    -- is `shutdown` below
    | .shutdown => none
  | .clone => if s.clones = 0 then none else some { s with clones := s.clones + 1 }
  -- who is in `publish` has a clone
  | .dropClone => if s.clones > 1 ∨ (s.clones = 1 ∧ s.base.mid = 0) then some { s with clones := s.clones - 1 } else none
  | .letGo ok =>
    if s.owner = .has then some { s with owner := .joining, nudged := s.nudged || (ok && decide (s.stage ≠ .finished)) } else none
  | .join => if s.owner = .joining ∧ s.stage = .finished then some { s with owner := .through } else none
  | .shutdown => if s.stage = .running ∧ s.base.phase = .polling ∧ s.nudged = true then some { s with stage := .returned } else none
  -- in `poll` the shutdown pipe would be looked at first
  | .eof =>
    if s.stage = .running ∧ s.clones = 0 ∧ atPipe s.base.phase = true ∧ (s.base.phase = .polling → s.nudged = false)
      then some { s with stage := .returned } else none
  | .panic => if s.stage = .running ∧ atPipe s.base.phase = true then some { s with stage := .returned } else none
  | .unlink ok => if s.stage = .returned then some { s with stage := .unlinked, file := s.file && !ok } else none
  | .exit => if s.stage = .unlinked then some { s with stage := .finished } else none

/-- A run from the start of the bus. -/
def Run (wakeCap : Nat) (ls : List Label) (s : St) : Prop := runSteps (step wakeCap) init ls = some s

end Shpool.BusClose
