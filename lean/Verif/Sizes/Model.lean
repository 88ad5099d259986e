import Verif.Util.Lts
/-!
# Model of several clients whose terminals are resized

Sources: `/repo/libshpool/src/attach.rs` 100-137 (`Attach::run`: the signal thread is started before the first attach request; the slot
with the session's name), 140-240 (`attach_resolved`: refused, tried again, over), 243-330 (`dial_attach`), 421-507 (`SignalHandler`);
`/repo/libshpool/src/daemon/server.rs` 422-571 (a session has at most one client), 818-871 (a resize request names a session; nothing is
asked about who sends it).

The model `Winch` has one client and takes what others do to sessions as given.  Here there are any number of clients, each with a main
thread, a signal thread and a terminal, and the daemon's sessions with their clients and sizes.  Sizes, names and clients are numbers.
That a session takes over the size it is given is shown in `S2C` and `Handshake`; here it is one step.  Background attaches have no
signal thread and are left out.  Pending SIGWINCH signals are merged, as by the kernel and `signal_hook`.
-/

namespace Shpool.Sizes

/-- The main thread of a client: no such process; about to read the size of the terminal; header for session `n` with size `z` on its way;
attached; told that the session is busy; told to switch to `n`, slot not yet updated; its connection has been closed, the process is about
to end. -/
inductive Main where
  | off
  | start (n : Nat)
  | sized (n z : Nat)
  | attached (n : Nat)
  | refused (n : Nat)
  | switching (n : Nat)
  | over
  deriving DecidableEq, Repr

/-- The signal thread: waiting; connected, about to read the size; about to send it. -/
inductive Hand where
  | idle
  | reading
  | sending (z : Nat)
  deriving DecidableEq, Repr

/-- A client.  `resized` is a ghost: its terminal has been resized since the process was started. -/
structure Client where
  main : Main
  hand : Hand
  slot : Nat
  pending : Bool
  term : Nat
  resized : Bool
  deriving DecidableEq, Repr

/-- `size n`: that of the session named `n`, `none` if there is none; `owner n`: the client attached to it. -/
structure St where
  cl : Nat → Client
  size : Nat → Option Nat
  owner : Nat → Option Nat

def upd {α : Type} (f : Nat → α) (i : Nat) (x : α) : Nat → α := fun j => if j = i then x else f j

/-- No client, no session; `term`: the sizes of the terminals. -/
def init (term : Nat → Nat) : St := ⟨fun c => ⟨.off, .idle, 0, false, term c, false⟩, fun _ => none, fun _ => none⟩

inductive Label where
  /-- a user runs `shpool attach` for session `n` in terminal `c`, which has no client -/
  | begin (c n : Nat)
  | readSize (c : Nat)
  /-- the attach request is answered -/
  | ask (c : Nat)
  /-- `--force`: the request is tried again -/
  | retry (c : Nat)
  | switchTo (c n : Nat)
  | setSlot (c : Nat)
  /-- a client whose connection was closed notices -/
  | notice (c : Nat)
  /-- the process ends -/
  | quit (c : Nat)
  /-- the daemon gives the session back: its client has gone or is detached -/
  | lose (n : Nat)
  /-- the session ends -/
  | remove (n : Nat)
  /-- the user resizes the terminal -/
  | resize (c z : Nat)
  | take (c : Nat)
  | read (c : Nat)
  | send (c : Nat)
  /-- a step of the signal thread fails: logged, the signal is lost -/
  | fail (c : Nat)
  deriving DecidableEq, Repr

def setCl (s : St) (c : Nat) (x : Client) : St := { s with cl := upd s.cl c x }

def step (s : St) : Label → Option St
  -- attach.rs 100-118
  | .begin c n =>
    if (s.cl c).main = .off then
      some (setCl s c { s.cl c with main := .start n, hand := .idle, slot := n, pending := false, resized := false })
    else none
  -- attach.rs 246
  | .readSize c => match (s.cl c).main with
    | .start n => some (setCl s c { s.cl c with main := .sized n (s.cl c).term })
    | _ => none
  -- attach.rs 270-293; server.rs 422-571
  | .ask c => match (s.cl c).main with
    | .sized n z => match s.owner n with
      | some _ => some (setCl s c { s.cl c with main := .refused n })
      | none => some { setCl s c { s.cl c with main := .attached n } with
          owner := upd s.owner n (some c), size := upd s.size n (some z) }
    | _ => none
  -- attach.rs 166-202
  | .retry c => match (s.cl c).main with
    | .refused n => some (setCl s c { s.cl c with main := .start n })
    | _ => none
  -- attach.rs 122-127
  | .switchTo c n => match (s.cl c).main with
    | .attached _ => some (setCl s c { s.cl c with main := .switching n })
    | _ => none
  -- attach.rs 129-135
  | .setSlot c => match (s.cl c).main with
    | .switching n => some (setCl s c { s.cl c with main := .start n, slot := n })
    | _ => none
  -- attach.rs 230-238
  | .notice c => match (s.cl c).main with
    | .attached n => if s.owner n = some c then none else some (setCl s c { s.cl c with main := .over })
    | _ => none
  | .quit c =>
    if (s.cl c).main = .off then none
    else some (setCl s c { s.cl c with main := .off, hand := .idle, pending := false })
  -- server.rs 339-389 and the end of `handle_attach`
  | .lose n => if (s.owner n).isSome then some { s with owner := upd s.owner n none } else none
  | .remove n =>
    if (s.size n).isSome then some { s with size := upd s.size n none, owner := upd s.owner n none } else none
  | .resize c z =>
    some (setCl s c { s.cl c with term := z, pending := !decide ((s.cl c).main = .off), resized := true })
  -- attach.rs 440, 459
  | .take c =>
    if (s.cl c).pending ∧ (s.cl c).hand = .idle then some (setCl s c { s.cl c with pending := false, hand := .reading })
    else none
  -- attach.rs 467
  | .read c =>
    if (s.cl c).hand = .reading then some (setCl s c { s.cl c with hand := .sending (s.cl c).term }) else none
  -- attach.rs 471-499; server.rs 818-871
  | .send c => match (s.cl c).hand with
    | .sending z => match s.size (s.cl c).slot with
      | none => some (setCl s c { s.cl c with hand := .idle })
      | some _ => some { setCl s c { s.cl c with hand := .idle } with size := upd s.size (s.cl c).slot (some z) }
    | _ => none
  -- attach.rs 448-450
  | .fail c => if (s.cl c).hand = .idle then none else some (setCl s c { s.cl c with hand := .idle })

def Run (term : Nat → Nat) (ls : List Label) (s : St) : Prop := runSteps step (init term) ls = some s

end Shpool.Sizes
