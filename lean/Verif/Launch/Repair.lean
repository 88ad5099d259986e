import Verif.Launch.Props
/-!
# Waiting for a freshly launched daemon, repaired (C79)

Counterfactual: `/repo/libshpool/src/daemonize.rs` 108-119 with one more attempt to connect after the last sleep.
-/

namespace Shpool.Launch

/-- `waitLoop` (daemonize.rs 108-119) with one more attempt after the last sleep. -/
def waitLoopR (up : Nat → Nat → Bool) : Nat → Nat → Nat → Nat → Bool × List Nat
  | 0, k, t, _ => (up k t, [])
  | n + 1, k, t, ms =>
    if up k t then (true, [])
    else
      let r := waitLoopR up n (k + 1) (t + ms) (ms * 2)
      (r.1, ms :: r.2)

private theorem loopR_sum (up : Nat → Nat → Bool) (n k t ms : Nat) (h : (waitLoopR up n k t ms).1 = false) :
    (waitLoopR up n k t ms).2 = (waitLoop up n k t ms).2 ∧ up (k + n) (t + (waitLoopR up n k t ms).2.sum) = false := by
  induction n generalizing k t ms with
  | zero => exact ⟨rfl, by simpa [waitLoopR] using h⟩
  | succ n ih =>
    simp only [waitLoopR, waitLoop] at h ⊢
    split at h
    · cases h
    · rename_i hu
      have := ih (k + 1) (t + ms) (ms * 2) h
      simp only [hu, Bool.false_eq_true, if_false, this.1.symm, List.sum_cons, true_and]
      rw [← Nat.add_assoc t, show k + (n + 1) = k + 1 + n by omega]
      exact this.2

/-- **C79** (repaired).  With one more attempt after the last sleep a daemon that answers before the waiting time is over is found, and
only such a daemon; and who waits in vain waits no longer than now. -/
theorem C79_repaired : (∀ t0, (waitLoopR (upFrom t0) 9 0 0 10).1 = true ↔ t0 ≤ 5110) ∧
    ∀ up, (waitLoopR up 9 0 0 10).1 = false → (waitLoopR up 9 0 0 10).2 = (waitTimeout up).2 := by
  refine ⟨fun t0 => ?_, fun up h => (loopR_sum up 9 0 0 10 h).1⟩
  simp only [waitLoopR, upFrom, decide_eq_true_eq]
  repeat' split
  all_goals simp
  all_goals omega

/-- **C79** (repaired, in general).  Who gives up has seen the daemon not answering at the very end of the waiting time: this is so for any
number of attempts and any first sleep. -/
theorem C79_repaired_last (up : Nat → Nat → Bool) (n ms : Nat) (h : (waitLoopR up n 0 0 ms).1 = false) :
    up n (waitLoopR up n 0 0 ms).2.sum = false := by
  have := (loopR_sum up n 0 0 ms h).2
  simpa using this

example : (waitLoopR (upFrom 3000) 9 0 0 10) = (true, [10, 20, 40, 80, 160, 320, 640, 1280, 2560]) := by decide
example : (waitLoopR (upFrom 6000) 9 0 0 10).1 = false ∧ (waitLoopR (upFrom 6000) 9 0 0 10).2.sum = 5110 := by decide

end Shpool.Launch
