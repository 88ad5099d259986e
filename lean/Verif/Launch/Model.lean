/-!
# Model of waiting for a freshly launched daemon

Source: `/repo/libshpool/src/daemonize.rs` 89-119 (`maybe_launch_daemon`).  The race of clients and daemons on the files is in
`Verif/Startup`.
-/

namespace Shpool.Launch

/-! ## Waiting for the daemon -/

/-- `for _ in 0..n { if connect().is_ok() { return Ok }; sleep(sleep_ms); sleep_ms *= 2 }`, daemonize.rs 108-119.  The
environment answers the k-th connection attempt, made when `t` milliseconds have been slept, with `up k t`.  Result: whether
it connected, and the sleeps made. Connecting takes no time in the model. -/
def waitLoop (up : Nat → Nat → Bool) : Nat → Nat → Nat → Nat → Bool × List Nat
  | 0, _, _, _ => (false, [])
  | n + 1, k, t, ms =>
    if up k t then (true, [])
    else
      let r := waitLoop up n (k + 1) (t + ms) (ms * 2)
      (r.1, ms :: r.2)

/-- With a timeout: nine attempts, starting with 10ms, daemonize.rs 106-119. -/
def waitTimeout (up : Nat → Nat → Bool) : Bool × List Nat := waitLoop up 9 0 0 10

/-- Without a timeout, daemonize.rs 89-105: the sleeps made before the first successful attempt, looking at the first `n`
attempts only (the loop itself is unbounded: `none` is "still waiting"). -/
def waitNoTimeout (up : Nat → Nat → Bool) : Nat → Nat → Nat → Nat → Option Unit × List Nat
  | 0, _, _, _ => (none, [])
  | n + 1, k, t, ms =>
    if up k t then (some (), [])
    else
      let next := if ms * 2 > 2000 then 2000 else ms * 2
      let r := waitNoTimeout up n (k + 1) (t + ms) next
      (r.1, ms :: r.2)

end Shpool.Launch
