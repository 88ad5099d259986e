import Verif.Util.Lts
/-!
# Model of the message pager's control slot

Sources: `/repo/libshpool/src/daemon/pager.rs` 97-340 (`Pager::display`, `PagerCltGuard`), `/repo/libshpool/src/daemon/server.rs`
300-345 (the attach that displays it) and 822-874 (resize requests).

A transition system for one session.  Any number of threads may call `display`.  A resize request holds the slot's lock from
looking at it to the acknowledgement (server.rs 838-849), so it is one step; a request that times out has no effect here (it is
not acknowledged; `Verif/PagerSize` has the messages and the time limits).  Data, heartbeats and the pager's process are in `Verif/PagerRun/Model.lean`; why `display` ends is a choice of the environment.
-/

namespace Shpool.Pager

abbrev Size := Nat × Nat

/-- A thread calling `display`: not yet; control handle registered, listener not yet running (pager.rs 114-200); listener
running, with the size it stores (200-); `display` has fixed its result (`none` is an error), the guards are not yet dropped;
returned, slot cleared; refused because the slot was taken; the session has been connected with the result. -/
inductive Phase where
  | idle
  | registered (init : Size)
  | running (init size : Size)
  | leaving (res : Option Size)
  | returned (res : Option Size)
  | refused
  | connected (size : Size)
  deriving DecidableEq, Repr

/-- `acked` is a history variable: the sizes acknowledged by the listener of each call, in order.  `size` is the session's
terminal size, `last` the last size acknowledged to the user. -/
structure St where
  thr : Nat → Phase
  slot : Option Nat
  acked : Nat → List Size
  size : Size
  last : Option Size

def upd {α : Type} (f : Nat → α) (i : Nat) (x : α) : Nat → α := fun j => if j = i then x else f j

def St.init : St := ⟨fun _ => .idle, none, fun _ => [], (0, 0), none⟩

inductive Label where
  | register (i : Nat) (init : Size)
  | listen (i : Nat)
  | resize (v : Size)
  | finish (i : Nat)
  | fail (i : Nat)
  | clear (i : Nat)
  | connect (i : Nat)
  deriving DecidableEq, Repr

def step (s : St) : Label → Option St
  -- pager.rs 113-124: under the slot's lock
  | .register i init =>
    if s.thr i = .idle then
      match s.slot with
      | some _ => some { s with thr := upd s.thr i .refused }
      | none => some { s with thr := upd s.thr i (.registered init), slot := some i }
    else none
  -- pager.rs 186-216: stored size and listener thread
  | .listen i => match s.thr i with
    | .registered init => some { s with thr := upd s.thr i (.running init init) }
    | _ => none
  -- server.rs 838-871 and pager.rs 195-214
  | .resize v => match s.slot with
    | some i => match s.thr i with
      | .running init _ =>
        some { s with thr := upd s.thr i (.running init v), acked := upd s.acked i (s.acked i ++ [v]), last := some v }
      | .leaving r => some { s with thr := upd s.thr i (.leaving r), acked := upd s.acked i (s.acked i ++ [v]), last := some v }
      | _ => none
    | none => some { s with size := v, last := some v }
  -- the `return Ok(tty_size.clone())`s, pager.rs 233-300
  | .finish i => match s.thr i with
    | .running _ v => some { s with thr := upd s.thr i (.leaving (some v)) }
    | _ => none
  -- the error returns after registration
  | .fail i => match s.thr i with
    | .registered _ => some { s with thr := upd s.thr i (.leaving none) }
    | .running _ _ => some { s with thr := upd s.thr i (.leaving none) }
    | _ => none
  -- `PagerCltGuard::drop`, pager.rs 316-326
  | .clear i => match s.thr i with
    | .leaving r => some { s with thr := upd s.thr i (.returned r), slot := none }
    | _ => none
  -- server.rs 316-345: the attach goes on with the size returned (the connection message carries it)
  | .connect i => match s.thr i with
    | .returned (some v) => some { s with thr := upd s.thr i (.connected v), size := v }
    | _ => none

def Run (ls : List Label) (s : St) : Prop := runSteps step St.init ls = some s

/-- The call occupies the session's terminal. -/
def Phase.active : Phase → Bool
  | .registered _ | .running _ _ | .leaving _ => true
  | _ => false

end Shpool.Pager
