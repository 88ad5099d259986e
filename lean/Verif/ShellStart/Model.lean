import Verif.Sentinel.Model
/-!
# Model of the wait for a new shell to start

Source: `/repo/libshpool/src/daemon/shell_inject.rs` 37-41 and 144-197 (`wait_for_startup`), called by `maybe_setup` (66) before the prompt is set up;
the attach request goes on whatever comes out of it (server.rs 1097-1104).

The loop with a clock in milliseconds: what happens in each round, and how long it takes, is given by the environment.  The marker command
that is written first (150-152) is in `Verif/Inject/Model.lean`; the scanner is that of `Verif/Sentinel/Model.lean`.
-/

namespace Shpool.ShellStart

open Sentinel (Scanner startupSentinel)

/-- `SENTINEL_POLL_MS`, shell_inject.rs 37 -/
def pollMs : Nat := 500

/-- `SENTINEL_POLL_TIMEOUT`, shell_inject.rs 41 -/
def timeoutMs : Nat := 90000

/-- What a round meets: `poll` returns because its time is over (174-177), with an error (168-173), or because there is something
(POLLIN, POLLHUP or POLLERR); then reading gives something, the end, or an error (182-186). -/
inductive Met where
  | nothing
  | pollFails
  | output (b : List UInt8)
  | eof
  | readFails
  deriving DecidableEq, Repr

/-- A round: how long `poll` takes, how long everything else takes, and what it meets. -/
structure Round where
  pause : Nat
  rest : Nat
  met : Met
  deriving DecidableEq, Repr

/-- `poll` takes no longer than it was asked to, and so long if there is nothing. -/
def Round.Ok (r : Round) : Prop := r.pause ≤ pollMs ∧ (r.met = .nothing → r.pause = pollMs)

instance (r : Round) : Decidable r.Ok := by unfold Round.Ok; infer_instance

inductive Res where
  /-- 196: the shell has run the marker command -/
  | started
  /-- 165 -/
  | timedOut
  /-- 184 -/
  | ended
  | failed
  /-- the rounds given are over, and the loop still goes on -/
  | waiting
  deriving DecidableEq, Repr

/-- Where the loop is: the time, and what has been read so far. -/
structure Out where
  res : Res
  now : Nat
  read : List UInt8
  deriving DecidableEq, Repr

/-- The scanner after a piece of output, `none` if it has seen the whole marker, 189-196. -/
def scanPiece : Scanner → List UInt8 → Option Scanner
  | sc, [] => some sc
  | sc, b :: bs => match sc.transition b with
    | (_, true) => none
    | (sc, false) => scanPiece sc bs

/-- The loop, 163-197: `deadline` is 162. -/
def loop (deadline : Nat) (now : Nat) (sc : Scanner) (acc : List UInt8) : List Round → Out
  | [] => if now > deadline then ⟨.timedOut, now, acc⟩ else ⟨.waiting, now, acc⟩
  | r :: rs =>
    if now > deadline then ⟨.timedOut, now, acc⟩
    else match r.met with
      | .nothing => loop deadline (now + r.pause + r.rest) sc acc rs
      | .pollFails => ⟨.failed, now + r.pause + r.rest, acc⟩
      | .readFails => ⟨.failed, now + r.pause + r.rest, acc⟩
      | .eof => ⟨.ended, now + r.pause + r.rest, acc⟩
      | .output b => match scanPiece sc b with
        | none => ⟨.started, now + r.pause + r.rest, acc ++ b⟩
        | some sc => loop deadline (now + r.pause + r.rest) sc (acc ++ b) rs

/-- `wait_for_startup`, beginning at the time `t`. -/
def waitForStartup (t : Nat) (rs : List Round) : Out := loop (t + timeoutMs) t (Scanner.new startupSentinel) [] rs

end Shpool.ShellStart
