import Verif.Util.Lts

/-!
# Executions that go on for ever

An execution is an infinite sequence of states; at each instant one step is performed or nothing happens (so executions that come to a
rest are included).  An execution is *weakly fair* to a set of steps if, when from some instant on one of them is possible at every
instant, one is performed again and again; *strongly fair* if that is so already when one is possible again and again.
-/

namespace Shpool

variable {S L : Type}

/-- An execution: `lab i` is what is performed at the instant `i`, `none` if nothing. -/
def Exec (step : S → L → Option S) (σ : Nat → S) (lab : Nat → Option L) : Prop :=
  ∀ i, (lab i = none ∧ σ (i + 1) = σ i) ∨ ∃ l, lab i = some l ∧ step (σ i) l = some (σ (i + 1))

/-- A step of the set `A` is possible. -/
def Can (step : S → L → Option S) (A : L → Bool) (s : S) : Prop := ∃ l, A l = true ∧ (step s l).isSome = true

/-- Steps of the set `A` are performed again and again. -/
def Often (lab : Nat → Option L) (A : L → Bool) : Prop := ∀ n, ∃ i l, n ≤ i ∧ lab i = some l ∧ A l = true

def WeakFair (step : S → L → Option S) (σ : Nat → S) (lab : Nat → Option L) (A : L → Bool) : Prop :=
  (∃ n, ∀ i, n ≤ i → Can step A (σ i)) → Often lab A

def StrongFair (step : S → L → Option S) (σ : Nat → S) (lab : Nat → Option L) (A : L → Bool) : Prop :=
  (∀ n, ∃ i, n ≤ i ∧ Can step A (σ i)) → Often lab A

/-- The steps performed in the first `n` instants. -/
def performed (lab : Nat → Option L) : Nat → List L
  | 0 => []
  | n + 1 => performed lab n ++ (lab n).toList

/-- The state at an instant is reached by the steps performed before. -/
theorem exec_run {step : S → L → Option S} {σ : Nat → S} {lab : Nat → Option L} (h : Exec step σ lab) (n : Nat) :
    runSteps step (σ 0) (performed lab n) = some (σ n) := by
  induction n with
  | zero => rfl
  | succ n ih =>
    simp only [performed, run_append, ih, Option.bind_some]
    rcases h n with ⟨h1, h2⟩ | ⟨l, h1, h2⟩
    · rw [h1, h2]; rfl
    · simp [h1, runSteps, h2]

/-- The state at a later instant is reached from the state at an earlier one by the steps performed in between. -/
theorem exec_between {step : S → L → Option S} {σ : Nat → S} {lab : Nat → Option L} (h : Exec step σ lab) {j i : Nat} (hi : j ≤ i) :
    ∃ ls, performed lab i = performed lab j ++ ls ∧ runSteps step (σ j) ls = some (σ i) := by
  induction i with
  | zero =>
    have : j = 0 := by omega
    subst this
    exact ⟨[], by simp, rfl⟩
  | succ n ih =>
    by_cases hn : j ≤ n
    · obtain ⟨ls, h1, h2⟩ := ih hn
      refine ⟨ls ++ (lab n).toList, by simp [performed, h1], ?_⟩
      rw [run_append, h2, Option.bind_some]
      rcases h n with ⟨h3, h4⟩ | ⟨l, h3, h4⟩
      · rw [h3, h4]; rfl
      · simp [h3, runSteps, h4]
    · have : j = n + 1 := by omega
      subst this
      exact ⟨[], by simp, rfl⟩

theorem mem_performed {lab : Nat → Option L} {l : L} {n : Nat} (h : l ∈ performed lab n) : ∃ i, i < n ∧ lab i = some l := by
  induction n with
  | zero => cases h
  | succ n ih =>
    rcases List.mem_append.mp h with h | h
    · obtain ⟨i, hi, hl⟩ := ih h; exact ⟨i, by omega, hl⟩
    · exact ⟨n, by omega, by simpa [Option.mem_toList] using h⟩

/-- What every step keeps is kept for ever. -/
theorem exec_stays {step : S → L → Option S} {σ : Nat → S} {lab : Nat → Option L} (h : Exec step σ lab) {p : S → Prop} {m : Nat}
    (hstep : ∀ i l, m ≤ i → lab i = some l → p (σ i) → step (σ i) l = some (σ (i + 1)) → p (σ (i + 1))) (h0 : p (σ m)) :
    ∀ i, m ≤ i → p (σ i) := by
  intro i hi
  induction i with
  | zero =>
    have : m = 0 := by omega
    exact this ▸ h0
  | succ n ih =>
    by_cases hn : m ≤ n
    · rcases h n with ⟨-, h2⟩ | ⟨l, h1, h2⟩
      · rw [h2]; exact ih hn
      · exact hstep n l hn h1 (ih hn) h2
    · have : m = n + 1 := by omega
      exact this ▸ h0

/-- A number that never grows comes to a rest. -/
theorem comes_to_rest {f : Nat → Nat} {m : Nat} (h : ∀ i, m ≤ i → f (i + 1) ≤ f i) : ∃ n, m ≤ n ∧ ∀ i, n ≤ i → f i = f n := by
  have mono : ∀ d i, m ≤ i → f (i + d) ≤ f i := by
    intro d
    induction d with
    | zero => intro i _; exact Nat.le_refl _
    | succ d ih => intro i hi; exact Nat.le_trans (h (i + d) (by omega)) (ih i hi)
  have : ∀ k n, m ≤ n → f n ≤ k → ∃ n', m ≤ n' ∧ ∀ i, n' ≤ i → f i = f n' := by
    intro k
    induction k with
    | zero =>
      intro n hn hk
      refine ⟨n, hn, fun i hi => ?_⟩
      have := mono (i - n) n hn
      rw [show n + (i - n) = i by omega] at this
      omega
    | succ k ih =>
      intro n hn hk
      by_cases hc : ∀ i, n ≤ i → f i = f n
      · exact ⟨n, hn, hc⟩
      · simp only [Classical.not_forall] at hc
        obtain ⟨i, hi, hne⟩ := hc
        have := mono (i - n) n hn
        rw [show n + (i - n) = i by omega] at this
        exact ih i (by omega) (by omega)
  exact this (f m) m (Nat.le_refl _) (Nat.le_refl _)

/-- If a rank never grows before the goal is reached, and cannot stay the same for ever before it, the goal is reached. -/
theorem reaches {σ : Nat → S} {Goal : S → Prop} (M : S → Nat) {m : Nat}
    (hmono : ∀ i, m ≤ i → ¬ Goal (σ i) → M (σ (i + 1)) ≤ M (σ i))
    (hrest : ∀ n, m ≤ n → (∀ i, n ≤ i → ¬ Goal (σ i) ∧ M (σ i) = M (σ n)) → False) : ∃ i, m ≤ i ∧ Goal (σ i) := by
  refine Classical.byContradiction fun hno => ?_
  have hng : ∀ i, m ≤ i → ¬ Goal (σ i) := fun i hi hg => hno ⟨i, hi, hg⟩
  obtain ⟨n, hn, hr⟩ := comes_to_rest (f := fun i => M (σ i)) (fun i hi => hmono i hi (hng i hi))
  exact hrest n hn (fun i hi => ⟨hng i (by omega), hr i hi⟩)

theorem exec_at {step : S → L → Option S} {σ : Nat → S} {lab : Nat → Option L} (h : Exec step σ lab) {i : Nat} {l : L} (hl : lab i = some l) :
    step (σ i) l = some (σ (i + 1)) := by
  rcases h i with ⟨h1, _⟩ | ⟨l', h1, h2⟩
  · rw [h1] at hl; cases hl
  · rw [hl] at h1; cases h1; exact h2

/-- While `B` holds a step of `A` is possible; no step makes the rank grow, and those of `A` make it smaller, as long as the goal is not reached:
then it is reached in every execution weakly fair to `A`. -/
theorem fair_reaches {step : S → L → Option S} {σ : Nat → S} {lab : Nat → Option L} {A : L → Bool} (hx : Exec step σ lab)
    (hf : WeakFair step σ lab A) {B G : S → Prop} (rank : S → Nat) {m : Nat} (hb : B (σ m)) (hcan : ∀ i, m ≤ i → B (σ i) → Can step A (σ i))
    (hstep : ∀ i l, m ≤ i → lab i = some l → B (σ i) → step (σ i) l = some (σ (i + 1)) → G (σ (i + 1)) ∨
      (B (σ (i + 1)) ∧ rank (σ (i + 1)) ≤ rank (σ i) ∧ (A l = true → rank (σ (i + 1)) < rank (σ i)))) : ∃ i, m ≤ i ∧ G (σ i) := by
  refine Classical.byContradiction fun hno => ?_
  have hng : ∀ i, m ≤ i → ¬ G (σ i) := fun i hi hg => hno ⟨i, hi, hg⟩
  have hB : ∀ i, m ≤ i → B (σ i) := exec_stays hx (fun i l hi hl hbi h => ((hstep i l hi hl hbi h).resolve_left (hng _ (by omega))).1) hb
  have hs : ∀ i l, m ≤ i → lab i = some l → rank (σ (i + 1)) ≤ rank (σ i) ∧ (A l = true → rank (σ (i + 1)) < rank (σ i)) :=
    fun i l hi hl => ((hstep i l hi hl (hB i hi) (exec_at hx hl)).resolve_left (hng _ (by omega))).2
  obtain ⟨_, _, h⟩ := reaches (σ := σ) (Goal := fun _ => False) rank (m := m) (fun i hi _ => by
    rcases hx i with ⟨_, h3⟩ | ⟨l, hli, h3⟩
    · rw [h3]; exact Nat.le_refl _
    · exact (hs i l hi hli).1) (fun k hk hrest => by
    obtain ⟨i, l, hi, hli, ha⟩ := hf ⟨k, fun i hi => hcan i (by omega) (hB i (by omega))⟩ k
    have h1 := (hs i l (by omega) hli).2 ha
    have h2 := (hrest i hi).2
    have h3 := (hrest (i + 1) (by omega)).2
    omega)
  exact h

/-- The execution that performs the steps `ls` and then rests. -/
def thenRests (step : S → L → Option S) (s : S) (ls : List L) (i : Nat) : S := (runSteps step s (ls.take i)).getD s

theorem thenRests_exec {step : S → L → Option S} {s s' : S} {ls : List L} (h : runSteps step s ls = some s') :
    Exec step (thenRests step s ls) (fun i => ls[i]?) ∧ ∀ i, ls.length ≤ i → thenRests step s ls i = s' := by
  refine ⟨fun i => ?_, fun i hi => by simp [thenRests, List.take_of_length_le hi, h]⟩
  by_cases hi : i < ls.length
  · refine .inr ⟨ls[i], by simp [hi], ?_⟩
    have e : ls.take (i + 1) = ls.take i ++ [ls[i]] := by rw [List.take_succ_eq_append_getElem hi]
    have h1 : ∃ s1, runSteps step s (ls.take (i + 1)) = some s1 := by
      rw [← List.take_append_drop (i + 1) ls] at h
      obtain ⟨s1, h1, _⟩ := run_append_some h
      exact ⟨s1, h1⟩
    obtain ⟨s1, h1⟩ := h1
    have h2 := h1
    rw [e] at h2
    obtain ⟨s0, h3, h4⟩ := run_append_some h2
    obtain ⟨s2, h5, h6⟩ := run_cons_some h4
    cases h6
    simp only [thenRests, h1, h3, Option.getD_some]
    exact h5
  · refine .inl ⟨by simp; omega, ?_⟩
    simp only [thenRests, List.take_of_length_le (show ls.length ≤ i by omega), List.take_of_length_le (show ls.length ≤ i + 1 by omega)]

/-- The states passed when the steps `lab` are performed. -/
def follow (step : S → L → Option S) (s : S) (lab : Nat → L) : Nat → S
  | 0 => s
  | i + 1 => (step (follow step s lab i) (lab i)).getD (follow step s lab i)

theorem follow_exec {step : S → L → Option S} {s : S} {lab : Nat → L} (h : ∀ i, (step (follow step s lab i) (lab i)).isSome = true) :
    Exec step (follow step s lab) (fun i => some (lab i)) := by
  intro i
  refine .inr ⟨lab i, rfl, ?_⟩
  obtain ⟨s', hs'⟩ := Option.isSome_iff_exists.mp (h i)
  simp only [follow, hs', Option.getD_some]

/-- An execution that rests where no step of a set is possible is fair to it. -/
theorem fair_at_rest {step : S → L → Option S} {σ : Nat → S} {lab : Nat → Option L} {A : L → Bool} {s : S} {n : Nat}
    (h : ∀ i, n ≤ i → σ i = s) (hno : ∀ l, A l = true → step s l = none) : WeakFair step σ lab A ∧ StrongFair step σ lab A := by
  have no : ∀ i, n ≤ i → ¬ Can step A (σ i) := by
    rintro i hi ⟨l, hl, hs⟩
    rw [h i hi, hno l hl] at hs
    cases hs
  refine ⟨fun ⟨k, hk⟩ => absurd (hk (max n k) (by omega)) (no _ (by omega)), fun hof => ?_⟩
  obtain ⟨i, hi, hc⟩ := hof n
  exact absurd hc (no i hi)

end Shpool
