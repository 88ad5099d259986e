import Verif.Launch.Model
/-!
# Launching the daemon on demand (C63, C79)
-/

namespace Shpool.Launch

/-! ## Waiting -/

private theorem waitLoop_sum (up : Nat → Nat → Bool) : ∀ n k t ms, ms * 1 ≤ (waitLoop up n k t ms).2.sum + ms ∧
    (waitLoop up n k t ms).2.sum + ms ≤ ms * 2 ^ n ∧
    ((waitLoop up n k t ms).1 = false → (waitLoop up n k t ms).2.sum + ms = ms * 2 ^ n) := by
  intro n
  induction n with
  | zero => intro k t ms; simp [waitLoop]
  | succ n ih =>
    intro k t ms
    simp only [waitLoop]
    split
    · simp [Nat.pow_succ]
      exact Nat.le_mul_of_pos_right _ (Nat.mul_pos (Nat.two_pow_pos n) (by decide))
    · obtain ⟨h1, h2, h3⟩ := ih (k + 1) (t + ms) (ms * 2)
      have e : ms * 2 ^ (n + 1) = ms * 2 * 2 ^ n := by rw [Nat.pow_succ, Nat.mul_assoc, Nat.mul_comm 2]
      simp only [List.sum_cons]
      refine ⟨by omega, by omega, fun hf => ?_⟩
      have := h3 hf
      omega

/-- **C63**: whatever the connection attempts answer, the client waits at most 5110 milliseconds in total for a freshly
launched daemon, and exactly that long before it reports failure. -/
theorem C63_wait_bounded (up : Nat → Nat → Bool) :
    (waitTimeout up).2.sum ≤ 5110 ∧ ((waitTimeout up).1 = false → (waitTimeout up).2.sum = 5110) := by
  obtain ⟨_, h2, h3⟩ := waitLoop_sum up 9 0 0 10
  simp only [waitTimeout]
  refine ⟨by omega, fun hf => ?_⟩
  have := h3 hf
  omega

private theorem waitLoop_double (up : Nat → Nat → Bool) : ∀ n k t ms i x, (waitLoop up n k t ms).2[i]? = some x →
    x = ms * 2 ^ i := by
  intro n
  induction n with
  | zero => intro k t ms i x h; simp [waitLoop] at h
  | succ n ih =>
    intro k t ms i x h
    simp only [waitLoop] at h
    split at h
    · simp at h
    · cases i with
      | zero => simp at h; simp [h]
      | succ i =>
        simp at h
        rw [ih _ _ _ _ _ h, Nat.pow_succ, Nat.mul_assoc, Nat.mul_comm 2]

/-- **C63**: the delays double: the i-th is 10·2^i milliseconds. -/
theorem C63_delays_double (up : Nat → Nat → Bool) (i x : Nat) (h : (waitTimeout up).2[i]? = some x) : x = 10 * 2 ^ i :=
  waitLoop_double up _ _ _ _ i x h

private theorem waitNo_le (up : Nat → Nat → Bool) : ∀ n k t ms, ms ≤ 2000 → ∀ x ∈ (waitNoTimeout up n k t ms).2, x ≤ 2000 := by
  intro n
  induction n with
  | zero => intro k t ms _ x h; simp [waitNoTimeout] at h
  | succ n ih =>
    intro k t ms hms x h
    simp only [waitNoTimeout] at h
    split at h
    · simp at h
    · simp only [List.mem_cons] at h
      rcases h with rfl | h
      · exact hms
      · refine ih _ _ _ ?_ x h
        split <;> omega

/-- **C63**: without a timeout every delay is at most two seconds. -/
theorem C63_no_timeout_delays (up : Nat → Nat → Bool) (n : Nat) : ∀ x ∈ (waitNoTimeout up n 0 0 10).2, x ≤ 2000 :=
  waitNo_le up n 0 0 10 (by decide)

private theorem waitNo_stop (up : Nat → Nat → Bool) : ∀ n k t ms,
    (waitNoTimeout up n k t ms).1 = none ↔
      ∀ i, i < n → up (k + i) (t + ((waitNoTimeout up n k t ms).2.take i).sum) = false := by
  intro n
  induction n with
  | zero => intro k t ms; simp [waitNoTimeout]
  | succ n ih =>
    intro k t ms
    simp only [waitNoTimeout]
    by_cases hu : up k t = true
    · simp only [hu, if_true]
      refine ⟨(fun h => by cases h), fun h => ?_⟩
      have := h 0 (by omega)
      simp [hu] at this
    · have hu' : up k t = false := by simpa using hu
      simp only [hu', Bool.false_eq_true, if_false]
      rw [ih]
      constructor
      · intro h i hi
        cases i with
        | zero => simpa using hu'
        | succ i =>
          have := h i (by omega)
          simp only [List.take_succ_cons, List.sum_cons]
          rw [← this]; congr 1 <;> omega
      · intro h i hi
        have := h (i + 1) (by omega)
        simp only [List.take_succ_cons, List.sum_cons] at this
        rw [← this]; congr 1 <;> omega

/-- **C63**: without a timeout the client goes on waiting exactly until an attempt connects. -/
theorem C63_no_timeout_waits (up : Nat → Nat → Bool) (n : Nat) :
    (waitNoTimeout up n 0 0 10).1 = none ↔
      ∀ i, i < n → up i (((waitNoTimeout up n 0 0 10).2.take i).sum) = false := by
  simpa using waitNo_stop up n 0 0 10

/-! ## A daemon that comes up while the client waits -/

/-- The daemon answers from time `t0` on. -/
def upFrom (t0 : Nat) : Nat → Nat → Bool := fun _ t => decide (t0 ≤ t)

/-- The full property: a daemon that answers before the client's waiting time is over is found. -/
def C79_statement : Prop := ∀ t0, t0 ≤ 5110 → (waitTimeout (upFrom t0)).1 = true

/-- **C79 (defect)**: the last attempt is made before the last and longest sleep: a daemon that needs three seconds is reported
as never having come up, after more than five seconds. -/
theorem C79_false : ¬ C79_statement := by
  intro h
  exact absurd (h 3000 (by decide)) (by decide)

/-- **C79 (part)**: the client finds the daemon exactly when it answers within 2550 milliseconds. -/
theorem C79_found_partial (t0 : Nat) : (waitTimeout (upFrom t0)).1 = true ↔ t0 ≤ 2550 := by
  simp only [waitTimeout, waitLoop, upFrom, decide_eq_true_eq]
  repeat' split
  all_goals simp
  all_goals omega

/-- A daemon that is there at once, one that comes up after a while, and one that does not. -/
example : waitTimeout (upFrom 0) = (true, []) ∧ waitTimeout (upFrom 25) = (true, [10, 20]) ∧
    (waitTimeout fun _ _ => false) = (false, [10, 20, 40, 80, 160, 320, 640, 1280, 2560]) := by decide

/-- `C63_delays_double`: the third pause. -/
example : (waitTimeout (upFrom 100)).2[2]? = some 40 := by decide

/-- `C63_no_timeout_waits`: both kinds of outcome. -/
example : (waitNoTimeout (fun _ _ => false) 9 0 0 10) = (none, [10, 20, 40, 80, 160, 320, 640, 1280, 2000]) ∧
    (waitNoTimeout (upFrom 5000) 9 0 0 10).1 = none ∧ (waitNoTimeout (upFrom 50) 9 0 0 10).1 ≠ none := by decide

end Shpool.Launch
