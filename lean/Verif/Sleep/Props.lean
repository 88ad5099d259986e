import Verif.Sleep.Model
/-!
# The interruptible sleep (C70)
-/

namespace Shpool.Sleep

private theorem loop_true (strat : Strategy) (dl : Nat) : ∀ env t i,
    ((loop strat dl env t i).result = some true ↔ true ∈ (loop strat dl env t i).polls) := by
  intro env
  induction env with
  | nil => intro t i; simp [loop]
  | cons r rs ih =>
    intro t i
    simp only [loop]
    by_cases hs : r.stop = true
    · simp [hs]
    · simp only [hs, if_false, Bool.false_eq_true]
      split
      · simp
      · simp [ih]

/-- **C70**: the sleep reports "stopped" exactly when the condition held at one of the polls. -/
theorem C70_true_iff (total : Nat) (strat : Strategy) (env : List Round) (t0 : Nat) :
    (sleepUnless total strat env t0).result = some true ↔ true ∈ (sleepUnless total strat env t0).polls :=
  loop_true strat _ env t0 _

private theorem loop_false (strat : Strategy) (dl : Nat) : ∀ env t i, (loop strat dl env t i).result = some false →
    dl ≤ (loop strat dl env t i).finish := by
  intro env
  induction env with
  | nil => intro t i h; simp [loop] at h
  | cons r rs ih =>
    intro t i h
    simp only [loop] at h ⊢
    by_cases hs : r.stop = true
    · simp [hs] at h
    · simp only [hs, if_false, Bool.false_eq_true] at h ⊢
      split at h
      · rename_i hd; simp only [hd, if_true]
      · rename_i hd; simp only [hd, if_false]; exact ih _ _ h

/-- **C70**: when it reports "not stopped", at least the requested time has passed. -/
theorem C70_false_full_time (total : Nat) (strat : Strategy) (env : List Round) (t0 : Nat)
    (h : (sleepUnless total strat env t0).result = some false) : t0 + total ≤ (sleepUnless total strat env t0).finish :=
  loop_false strat _ env t0 _ h

private theorem loop_deadline (strat : Strategy) (dl : Nat) : ∀ env t i, ∀ p ∈ (loop strat dl env t i).sleeps, p.1 + p.2 ≤ dl := by
  intro env
  induction env with
  | nil => intro t i p h; simp [loop] at h
  | cons r rs ih =>
    intro t i p h
    simp only [loop] at h
    split at h
    · simp at h
    · split at h
      · simp at h
      · simp only [List.mem_cons] at h
        rcases h with rfl | h
        · simp only; omega
        · exact ih _ _ p h

/-- **C70**: no sleep is asked for that would go past the deadline. -/
theorem C70_no_overshoot (total : Nat) (strat : Strategy) (env : List Round) (t0 : Nat) :
    ∀ p ∈ (sleepUnless total strat env t0).sleeps, p.1 + p.2 ≤ t0 + total :=
  loop_deadline strat _ env t0 _

private theorem loop_exact (strat : Strategy) (dl : Nat) : ∀ env t i, t ≤ dl → (∀ r ∈ env, r.late = 0 ∧ r.over = 0) →
    (loop strat dl env t i).finish ≤ dl := by
  intro env
  induction env with
  | nil => intro t i h _; simpa [loop] using h
  | cons r rs ih =>
    intro t i ht he
    obtain ⟨h1, h2⟩ := he r (by simp)
    simp only [loop]
    split
    · exact ht
    · split
      · simp only; omega
      · exact ih _ _ (by omega) (fun x hx => he x (by simp [hx]))

/-- **C70**: on an ideal machine (the clock is read at once, sleeps last exactly as long as asked) it never ends after the
deadline. -/
theorem C70_ideal_deadline (total : Nat) (strat : Strategy) (env : List Round) (t0 : Nat)
    (h : ∀ r ∈ env, r.late = 0 ∧ r.over = 0) : (sleepUnless total strat env t0).finish ≤ t0 + total :=
  loop_exact strat _ env t0 _ (by omega) h

/-- **C70**: the condition is polled at least once, also with a zero time, and a condition that holds right away ends the call
without any sleep. -/
theorem C70_polls_first (total : Nat) (strat : Strategy) (r : Round) (env : List Round) (t0 : Nat) :
    (sleepUnless total strat (r :: env) t0).polls.head? = some r.stop ∧
      (r.stop = true → (sleepUnless total strat (r :: env) t0).result = some true ∧
        (sleepUnless total strat (r :: env) t0).sleeps = []) := by
  simp only [sleepUnless, loop]
  by_cases hs : r.stop = true
  · simp [hs]
  · simp only [hs, if_false, Bool.false_eq_true]
    split <;> simp

/-- The intervals of a strategy never fall below `m`. -/
def AtLeast (strat : Strategy) (m : Nat) : Prop :=
  m ≤ firstInterval strat ∧ ∀ i, m ≤ i → m ≤ nextInterval strat i

private theorem loop_ends (strat : Strategy) (dl m : Nat) (hm : ∀ i, m ≤ i → m ≤ nextInterval strat i) :
    ∀ rs r t i, m ≤ i → dl ≤ t + m * rs.length → (loop strat dl (r :: rs) t i).result.isSome := by
  intro rs
  induction rs with
  | nil =>
    intro r t i _ h
    simp only [List.length_nil, Nat.mul_zero] at h
    simp only [loop]
    split
    · rfl
    · rw [if_pos (by omega)]; rfl
  | cons r' rs ih =>
    intro r t i hi h
    rw [loop]
    split
    · rfl
    · dsimp only
      split
      · rfl
      · simp only
        simp only [List.length_cons, Nat.mul_succ] at h
        exact ih _ _ _ (hm i hi) (by omega)

/-- **C70**: the sleep ends: if the intervals never fall below `m`, then after `total / m + 2` rounds it has returned, whatever
the condition and the clock do. -/
theorem C70_terminates (total m : Nat) (strat : Strategy) (env : List Round) (t0 : Nat) (hpos : 0 < m)
    (hm : AtLeast strat m) (hlen : total / m + 2 ≤ env.length) : (sleepUnless total strat env t0).result.isSome := by
  cases env with
  | nil => simp at hlen
  | cons r rs =>
    refine loop_ends strat (t0 + total) m hm.2 rs r t0 _ hm.1 ?_
    simp only [List.length_cons] at hlen
    have h1 : m * (total / m + 1) ≤ m * rs.length := Nat.mul_le_mul_left m (by omega)
    have h2 := Nat.div_add_mod total m
    have h3 := Nat.mod_lt total hpos
    rw [Nat.mul_add] at h1
    omega

/-- Uniform polling never falls below its interval (one millisecond when zero is configured). -/
theorem C70_uniform_interval (i : Nat) : AtLeast (.uniform i) (if i = 0 then ms else i) :=
  ⟨Nat.le_refl _, fun _ h => h⟩

/-- The full property about the guard against a tight loop (common.rs 50-53): no strategy polls without sleeping. -/
def C70_no_spin_statement : Prop := ∀ strat, ∃ m, 0 < m ∧ AtLeast strat m

/-- **C70 (defect)**: the guard covers the first interval only: a back-off with a maximal interval of zero polls without
sleeping from the second round on. -/
theorem C70_false_spin : ¬ C70_no_spin_statement := by
  intro h
  obtain ⟨m, hp, _, h2⟩ := h (.backoff ms (some (· * 2)) 0)
  have := h2 m (Nat.le_refl m)
  simp [nextInterval] at this
  omega

/-- **C70 (part)**: a back-off that grows (or at least does not shrink) with a positive maximal interval never polls without
sleeping. -/
theorem C70_no_spin_partial (i mx : Nat) (grow : Nat → Nat) (hg : ∀ x, x ≤ grow x) (hmx : 0 < mx) :
    ∃ m, 0 < m ∧ AtLeast (.backoff i (some grow) mx) m := by
  refine ⟨min (if i = 0 then ms else i) mx, ?_, by simp only [firstInterval]; omega, fun x hx => ?_⟩
  · split
    · simp only [ms]; omega
    · omega
  · have := hg x
    simp only [nextInterval]
    omega

/-- **C70** (exactly).  A strategy whose back-off, if it has one, does not shrink polls without sleeping only if its maximal interval is zero. -/
theorem C70_exact (strat : Strategy) (hg : ∀ i grow mx, strat = .backoff i (some grow) mx → ∀ x, x ≤ grow x) :
    (∃ m, 0 < m ∧ AtLeast strat m) ↔ ∀ i grow, strat ≠ .backoff i (some grow) 0 := by
  constructor
  · rintro ⟨m, hp, _, h2⟩ i grow rfl
    have := h2 m (Nat.le_refl m)
    simp only [nextInterval] at this
    omega
  · intro hn
    cases strat with
    | uniform i => exact ⟨_, by split <;> first | (simp [ms]; done) | omega, C70_uniform_interval i⟩
    | backoff i g mx =>
      cases g with
      | none => exact ⟨if i = 0 then ms else i, by split <;> first | (simp [ms]; done) | omega, Nat.le_refl _, fun _ h => h⟩
      | some grow => exact C70_no_spin_partial i mx grow (hg i grow mx rfl) (Nat.pos_of_ne_zero fun e => hn i grow (by rw [e]))

private theorem loop_spins (i : Nat) (grow : Nat → Nat) (dl n : Nat) : ∀ t, t < dl →
    (loop (.backoff i (some grow) 0) dl (List.replicate n ⟨false, 0, 0⟩) t 0).result = none ∧
    (loop (.backoff i (some grow) 0) dl (List.replicate n ⟨false, 0, 0⟩) t 0).sleeps = List.replicate n (t, 0) := by
  induction n with
  | zero => intro t _; exact ⟨rfl, rfl⟩
  | succ n ih =>
    intro t ht
    have := ih t ht
    simp [loop, List.replicate_succ, nextInterval, Nat.not_le.mpr ht, this]

/-- **C70** (what that is like).  With a maximal interval of zero, after the first sleep no time passes but that the machine takes: if it takes none,
the condition is polled any number of times at one and the same moment. -/
theorem C70_spins (i : Nat) (grow : Nat → Nat) (total t0 n : Nat) (h : firstInterval (.backoff i (some grow) 0) < total) :
    let r := sleepUnless total (.backoff i (some grow) 0) (List.replicate (n + 1) ⟨false, 0, 0⟩) t0
    r.result = none ∧ r.sleeps = (t0, firstInterval (.backoff i (some grow) 0)) ::
      List.replicate n (t0 + firstInterval (.backoff i (some grow) 0), 0) := by
  generalize hf : firstInterval (.backoff i (some grow) 0) = d at h
  have := loop_spins i grow (t0 + total) n (t0 + d) (by omega)
  have e1 : ¬ t0 + total ≤ t0 := by omega
  have e2 : min total d = d := by omega
  simp [sleepUnless, hf, loop, List.replicate_succ, nextInterval, this, e1, e2]

example : (sleepUnless (300 * ms) (.backoff ms (some (· * 2)) 0) (List.replicate 3 ⟨false, 0, 0⟩) 0).sleeps = [(0, ms), (ms, 0), (ms, 0)] := rfl

/-- The back-off of the attach client: 1, 2, 4 ... at most 25 ms for 300 ms; the condition comes true at the third poll. -/
example : (sleepUnless (300 * ms) (.backoff ms (some (· * 2)) (25 * ms)) [⟨false, 0, 0⟩, ⟨false, 5, 7⟩, ⟨true, 0, 0⟩] 100).result
    = some true ∧
  (sleepUnless (300 * ms) (.backoff ms (some (· * 2)) (25 * ms)) [⟨false, 0, 0⟩, ⟨false, 5, 7⟩, ⟨true, 0, 0⟩] 100).sleeps
    = [(100, ms), (100 + ms + 5, 2 * ms)] := by decide

example : (sleepUnless 10 (.uniform 7) [⟨false, 0, 0⟩, ⟨false, 0, 0⟩, ⟨false, 0, 0⟩] 100).result = some false ∧
  (sleepUnless 10 (.uniform 7) [⟨false, 0, 0⟩, ⟨false, 0, 0⟩, ⟨false, 0, 0⟩] 100).sleeps = [(100, 7), (107, 3)] ∧
  (sleepUnless 10 (.uniform 7) [⟨false, 0, 0⟩, ⟨false, 0, 0⟩, ⟨false, 0, 0⟩] 100).finish = 110 := by decide

end Shpool.Sleep
