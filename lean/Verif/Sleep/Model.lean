/-!
# Model of the interruptible sleep

Source: `/repo/libshpool/src/common.rs` 36-74 (`sleep_unless`).

Times are natural numbers (nanoseconds).  The environment is given per round: what the condition answers, how much later than
the end of the previous sleep the clock is read, and by how much the sleep overshoots (`thread::sleep` never returns early).
Simplifications: `deadline = now + total` does not overflow; the growth of the interval (`mul_f32`, a rounded multiplication)
is an arbitrary function.
-/

namespace Shpool.Sleep

/-- `PollStrategy`, common.rs 22-30. `grow` is `mul_f32(factor)`, `none` for a factor of at most 1. -/
inductive Strategy where
  | uniform (interval : Nat)
  | backoff (initial : Nat) (grow : Option (Nat → Nat)) (max : Nat)

/-- One millisecond. -/
def ms : Nat := 1000000

/-- The first interval, common.rs 45-53. -/
def firstInterval : Strategy → Nat
  | .uniform i => if i = 0 then ms else i
  | .backoff i _ _ => if i = 0 then ms else i

/-- The next interval, common.rs 68-72. -/
def nextInterval : Strategy → Nat → Nat
  | .backoff _ (some grow) max, i => min (grow i) max
  | _, i => i

/-- What the environment does in one round. -/
structure Round where
  stop : Bool
  /-- time between the start of the round and the reading of the clock -/
  late : Nat
  /-- time the sleep takes longer than asked for -/
  over : Nat

/-- What happened: the value returned (`none`: still sleeping when the given rounds are used up), the answers of the condition,
the times at which the sleeps started with the times asked for, and the time at the end. -/
structure Trace where
  result : Option Bool
  polls : List Bool
  sleeps : List (Nat × Nat)
  finish : Nat

/-- The loop, common.rs 55-73. -/
def loop (strat : Strategy) (deadline : Nat) : List Round → Nat → Nat → Trace
  | [], t, _ => ⟨none, [], [], t⟩
  | r :: rs, t, i =>
    if r.stop then ⟨some true, [true], [], t⟩
    else
      let now := t + r.late
      if now ≥ deadline then ⟨some false, [false], [], now⟩
      else
        let d := min (deadline - now) i
        let rest := loop strat deadline rs (now + d + r.over) (nextInterval strat i)
        ⟨rest.result, false :: rest.polls, (now, d) :: rest.sleeps, rest.finish⟩

/-- `sleep_unless(total, stop, strategy)` called at time `t0`. -/
def sleepUnless (total : Nat) (strat : Strategy) (env : List Round) (t0 : Nat) : Trace :=
  loop strat (t0 + total) env t0 (firstInterval strat)

end Shpool.Sleep
