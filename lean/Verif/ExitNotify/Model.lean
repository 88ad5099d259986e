import Verif.Util.Lts
/-!
# Model of the exit notifier

Source: `/repo/libshpool/src/daemon/exit_notify.rs` 19-62.  Each step happens while the mutex is held, except `expire`, which is
the timer of a parked thread.  `parking_lot`'s condition variable has no spurious wake-ups, and its timed wait reports
`timed_out` exactly when the thread was not woken by a notification; both are trusted.
-/

namespace Shpool.ExitNotify

/-- Where a thread is in `wait`. -/
inductive Phase where
  | idle
  /-- in `cond.wait_for` (timed) or `cond.wait` -/
  | parked (timed : Bool)
  /-- woken by `notify_all`, yet to take the mutex again -/
  | woken
  /-- timed out, yet to take the mutex again -/
  | expired
  /-- `wait` returned this -/
  | returned (r : Option Int)
  deriving DecidableEq, Repr

structure St where
  slot : Option Int
  phase : Nat → Phase

/-- `ExitNotifier::new`, exit_notify.rs 26-28. -/
def init : St := ⟨none, fun _ => .idle⟩

inductive Label where
  /-- `notify_exit`, exit_notify.rs 31-35 -/
  | notify (status : Int)
  /-- thread `w` calls `wait`, with a timeout or without, exit_notify.rs 39-46 -/
  | begin (w : Nat) (timed : Bool)
  /-- the timeout of thread `w` passes -/
  | expire (w : Nat)
  /-- thread `w` has the mutex again, exit_notify.rs 48-60 -/
  | resume (w : Nat)
  deriving DecidableEq, Repr

def setPhase (s : St) (w : Nat) (p : Phase) : St := { s with phase := fun v => if v = w then p else s.phase v }

def step (s : St) : Label → Option St
  | .notify st => some ⟨some st, fun v => match s.phase v with | .parked _ => .woken | p => p⟩
  | .begin w timed => match s.phase w with
    | .idle | .returned _ => if s.slot.isSome then some (setPhase s w (.returned s.slot)) else some (setPhase s w (.parked timed))
    | _ => none
  | .expire w => match s.phase w with
    | .parked true => some (setPhase s w .expired)
    | _ => none
  | .resume w => match s.phase w with
    | .woken => some (setPhase s w (.returned s.slot))
    | .expired => some (setPhase s w (.returned none))
    | _ => none

def Run (ls : List Label) (s : St) : Prop := runSteps step init ls = some s

end Shpool.ExitNotify
