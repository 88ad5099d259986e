import Verif.Util.Lts
/-!
# Model of the window size following the client's terminal

Sources: `/repo/libshpool/src/attach.rs` 113-135 (the name slot), 243-293 (`dial_attach` reads the size and sends it), 421-507
(`SignalHandler`); `/repo/libshpool/src/daemon/server.rs` 810-903 (a resize request for a session that is not in the table is answered
`NotFound`), 409-530 (an attach puts the session into the table and gives it the size from the header).

A transition system of one client: its main thread, its signal thread, its terminal, and the daemon's sessions with their sizes.
Sizes and names are numbers.  That a session takes over a size it is given is shown in `Verif/S2C` and `Verif/Handshake`; here it is
one step.  Pending SIGWINCH signals are merged, as by the kernel and `signal_hook`.
-/

namespace Shpool.Winch

/-- The main thread: about to read the size; header for session `n` with size `z` on its way; attached; told to switch to `n`, slot
not yet updated. -/
inductive Main where
  | start (n : Nat)
  | sized (n z : Nat)
  | attached (n : Nat)
  | switching (n : Nat)
  deriving DecidableEq, Repr

/-- The signal thread: waiting; connected, about to read the size; about to send it. -/
inductive Hand where
  | idle
  | reading
  | sending (z : Nat)
  deriving DecidableEq, Repr

structure St where
  term : Nat
  pending : Bool
  hand : Hand
  slot : Nat
  main : Main
  sess : Nat → Option Nat
  /-- ghost: a resize request with another size than that of the header was served while the header was on its way -/
  overtaken : Bool

def upd (f : Nat → Option Nat) (i : Nat) (x : Option Nat) : Nat → Option Nat := fun j => if j = i then x else f j

/-- A client started for session `n` in a terminal of size `z`; `sess`: the sessions there are. -/
def init (n z : Nat) (sess : Nat → Option Nat) : St := ⟨z, false, .idle, n, .start n, sess, false⟩

inductive Label where
  | resize (z : Nat)
  | take
  | read
  | send
  /-- any step of the handler fails, attach.rs 448-450: logged, the signal is lost -/
  | fail
  | readSize
  | attach
  | switchTo (n : Nat)
  | setSlot
  /-- other clients and the daemon: a session this client is not attached to comes, goes or gets another size -/
  | other (n : Nat) (z : Option Nat)
  deriving DecidableEq, Repr

def step (s : St) : Label → Option St
  | .resize z => some { s with term := z, pending := true }
  -- attach.rs 440, 459
  | .take => if s.pending && s.hand = .idle then some { s with pending := false, hand := .reading } else none
  -- attach.rs 467
  | .read => if s.hand = .reading then some { s with hand := .sending s.term } else none
  -- attach.rs 471-499; server.rs 818-871
  | .send =>
    match s.hand with
    | .sending z =>
      let overtaken := match s.main with
        | .sized _ z' => s.overtaken || z != z'
        | _ => s.overtaken
      match s.sess s.slot with
      | none => some { s with hand := .idle, overtaken := overtaken }
      | some _ => some { s with hand := .idle, overtaken := overtaken, sess := upd s.sess s.slot (some z) }
    | _ => none
  | .fail => if s.hand = .idle then none else some { s with hand := .idle }
  -- attach.rs 246
  | .readSize => match s.main with
    | .start n => some { s with main := .sized n s.term }
    | _ => none
  -- attach.rs 274-293; server.rs 242-397
  | .attach => match s.main with
    | .sized n z => some { s with main := .attached n, sess := upd s.sess n (some z) }
    | _ => none
  -- attach.rs 124-129
  | .switchTo n => match s.main with
    | .attached _ => some { s with main := .switching n }
    | _ => none
  -- attach.rs 131-134
  | .setSlot => match s.main with
    | .switching n => some { s with main := .start n, slot := n }
    | _ => none
  | .other n z => if s.main = .attached n then none else some { s with sess := upd s.sess n z }

def Run (i : St) (ls : List Label) (s : St) : Prop := runSteps step i ls = some s

end Shpool.Winch
