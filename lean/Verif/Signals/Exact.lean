import Verif.Signals.Props
/-!
# Exactly which signal is lost (C115)
-/

namespace Shpool.Signals

/-- The place of a signal in the order in which they are handled: SIGTERM, SIGQUIT, SIGINT. -/
def Sig.place : Sig → Nat
  | .term => 0
  | .quit => 1
  | .int => 2

/-- What is registered for a signal after `k` steps of installing the handlers. -/
def registered (k : Nat) (x : Sig) : List Action :=
  (if 2 * x.place < k then [.shutdown] else []) ++ (if 2 * x.place + 1 < k then [.arm] else []) ++ (if 6 + x.place < k then [.note] else [])

private theorem spawn_step : ∀ k < 10, ∃ t, spawn.drop k = t :: spawn.drop (k + 1) ∧
    (k = 9 → t = .thread) ∧ (k ≠ 9 → ∃ x a, t = .reg x a ∧ ∀ y, registered (k + 1) y = if y = x then registered k x ++ [a] else registered k y) := by
  intro k hk
  have h : k = 0 ∨ k = 1 ∨ k = 2 ∨ k = 3 ∨ k = 4 ∨ k = 5 ∨ k = 6 ∨ k = 7 ∨ k = 8 ∨ k = 9 := by omega
  rcases h with rfl | rfl | rfl | rfl | rfl | rfl | rfl | rfl | rfl | rfl <;> refine ⟨_, rfl, ?_, ?_⟩ <;> intro h <;>
    first | rfl | (exact absurd h (by decide)) | (exact absurd rfl h) | (refine ⟨_, _, rfl, ?_⟩; intro y; cases y <;> decide)

/-- How many steps of installing the handlers are done. -/
def progress (ls : List Label) : Nat := ls.countP (· = .next)

structure Quiet (socks : List Nat) (k : Nat) (s : St) : Prop where
  le : k ≤ 10
  todo : s.todo = spawn.drop k
  acts : ∀ x, s.acts x = registered k x
  armed : s.armed = false
  pending : s.pending = false
  thr : s.thr = if k = 10 then .waiting else .off
  socks : s.socks = socks
  ended : s.ended = none

theorem quiet_run {socks : List Nat} {ls : List Label} {s : St} (h : Run socks ls s) (hl : ∀ l ∈ ls, l.isSignal = false) :
    Quiet socks (progress ls) s := by
  refine run_hist (I := fun ls s => (∀ l ∈ ls, l.isSignal = false) → Quiet socks (progress ls) s) ?_ ?_ h hl
  · intro ls s l s' hI hs hl
    have q := hI (fun l hm => hl l (by simp [hm]))
    have hsig := hl l (by simp)
    have hk : progress (ls ++ [l]) = progress ls + if l = .next then 1 else 0 := by
      simp [progress, List.countP_append, List.countP_cons]
    rw [hk]
    obtain ⟨q1, q2, q3, q4, q5, q6, q7, q8⟩ := q
    generalize progress ls = k at *
    have hnr : ∀ fs, s.thr ≠ .removing fs := by
      intro fs; rw [q6]; split <;> simp
    unfold step at hs
    have hal : s.ended.isSome = false := by rw [q8]; rfl
    rw [hal] at hs
    simp only [Bool.false_eq_true, if_false] at hs
    cases l with
    | next =>
      simp only [if_true]
      by_cases h10 : k = 10
      · subst h10
        have : s.todo = [] := q2
        rw [this] at hs
        cases hs
      · obtain ⟨t, h1, h2, h3⟩ := spawn_step k (by omega)
        rw [q2, h1] at hs
        by_cases h9 : k = 9
        · subst h9
          rw [h2 rfl] at hs
          simp only [Option.some.injEq] at hs
          subst hs
          refine ⟨by omega, rfl, fun x => ?_, q4, q5, rfl, q7, q8⟩
          show s.acts x = _
          rw [q3]
          cases x <;> decide
        · obtain ⟨x, a, rfl, h4⟩ := h3 h9
          simp only [Option.some.injEq] at hs
          subst hs
          refine ⟨by omega, rfl, fun y => ?_, q4, q5, ?_, q7, q8⟩
          · show (if y = x then s.acts x ++ [a] else s.acts y) = _
            rw [h4, q3, q3]
          · show s.thr = _
            rw [q6, if_neg (by omega), if_neg (by omega)]
    | signal x => cases hsig
    | wake => rw [q5] at hs; simp at hs
    | remove ok =>
      dsimp only at hs
      split at hs
      · rename_i h; exact absurd h (hnr _)
      · cases hs
    | leave => rw [if_neg (hnr [])] at hs; cases hs
  · intro _
    exact ⟨by decide, rfl, fun x => by cases x <;> rfl, rfl, rfl, rfl, rfl, rfl⟩

/-- Removing files until none is left to do, then leaving. -/
theorem removes_all (fs : List Nat) : ∀ s : St, s.ended = none → s.thr = .removing fs →
    ∃ ls s', runSteps step s ls = some s' ∧ (∀ l ∈ ls, l.isSignal = false) ∧ s'.ended.isSome = true := by
  induction fs with
  | nil =>
    intro s he ht
    refine ⟨[.leave], { s with ended := some (.exit 0) }, ?_, by simp [Label.isSignal], rfl⟩
    simp [runSteps, step, he, ht]
  | cons f fs ih =>
    intro s he ht
    obtain ⟨ls, s', h1, h2, h3⟩ := ih { s with thr := .removing fs, files := s.files.filter (· ≠ f) } he rfl
    refine ⟨.remove true :: ls, s', ?_, ?_, h3⟩
    · have hal : s.ended.isSome = false := by rw [he]; rfl
      simp only [runSteps, step, hal, ht, Bool.false_eq_true, if_false, if_true]
      exact h1
    · intro l hl
      rcases List.mem_cons.mp hl with rfl | hl
      · rfl
      · exact h2 l hl

/-- A daemon that has noted a signal and has its handlers installed in the end ends. -/
theorem noted_ends (k : Nat) : ∀ s : St, k ≤ 10 → s.todo = spawn.drop k → s.pending = true → s.ended = none →
    s.thr = (if k = 10 then .waiting else .off) →
    ∃ ls s', runSteps step s ls = some s' ∧ (∀ l ∈ ls, l.isSignal = false) ∧ s'.ended.isSome = true := by
  have main : ∀ n k, k + n = 10 → ∀ s : St, s.todo = spawn.drop k → s.pending = true → s.ended = none →
      s.thr = (if k = 10 then .waiting else .off) →
      ∃ ls s', runSteps step s ls = some s' ∧ (∀ l ∈ ls, l.isSignal = false) ∧ s'.ended.isSome = true := by
    intro n
    induction n with
    | zero =>
      intro k hk s _ hp he ht
      rw [if_pos (by omega)] at ht
      obtain ⟨ls, s', h1, h2, h3⟩ := removes_all s.socks { s with thr := .removing s.socks, pending := false } he rfl
      refine ⟨.wake :: ls, s', ?_, ?_, h3⟩
      · have hal : s.ended.isSome = false := by rw [he]; rfl
        simp only [runSteps, step, hal, ht, hp, Bool.false_eq_true, if_false, and_self, if_true]
        exact h1
      · intro l hl
        rcases List.mem_cons.mp hl with rfl | hl
        · rfl
        · exact h2 l hl
    | succ n ih =>
      intro k hk s htd hp he ht
      obtain ⟨t, h1, h2, h3⟩ := spawn_step k (by omega)
      have : ∃ s1, step s .next = some s1 ∧ s1.todo = spawn.drop (k + 1) ∧ s1.pending = true ∧ s1.ended = none ∧
          s1.thr = (if k + 1 = 10 then .waiting else .off) := by
        by_cases h9 : k = 9
        · have ht9 := h2 h9
          refine ⟨{ s with todo := spawn.drop (k + 1), thr := .waiting }, ?_, rfl, hp, he, ?_⟩
          · simp [step, he, htd, h1, ht9]
          · rw [if_pos (by omega)]
        · obtain ⟨x, a, rfl, _⟩ := h3 h9
          refine ⟨{ s with todo := spawn.drop (k + 1), acts := fun y => if y = x then s.acts x ++ [a] else s.acts y }, ?_, rfl, hp, he, ?_⟩
          · simp [step, he, htd, h1]
          · show s.thr = _
            rw [ht, if_neg (by omega), if_neg (by omega)]
      obtain ⟨s1, e1, e2, e3, e4, e5⟩ := this
      obtain ⟨ls, s', f1, f2, f3⟩ := ih (k + 1) (by omega) s1 e2 e3 e4 e5
      refine ⟨.next :: ls, s', ?_, ?_, f3⟩
      · simp only [runSteps, e1]; exact f1
      · intro l hl
        rcases List.mem_cons.mp hl with rfl | hl
        · rfl
        · exact f2 l hl
  intro s hk
  exact main (10 - k) k (by omega) s

/-- **C115, exactly**: of ten steps in which the handlers are installed, let `progress ls` be done when the first signal arrives.  The daemon ends
without being sent another signal if and only if nothing had been registered for the signal yet (then it is killed at once, its files stay) or
all had: the signals that are lost are those in between. -/
theorem C115_exact {socks : List Nat} {ls : List Label} {x : Sig} {s : St} (hl : ∀ l ∈ ls, l.isSignal = false)
    (h : Run socks (ls ++ [.signal x]) s) :
    (∃ ls' s', runSteps step s ls' = some s' ∧ (∀ l ∈ ls', l.isSignal = false) ∧ s'.ended.isSome = true) ↔
      progress ls ≤ 2 * x.place ∨ 6 + x.place < progress ls := by
  obtain ⟨s0, h0, h1⟩ := run_append_some h
  obtain ⟨s1, h1, h2⟩ := run_cons_some h1
  cases h2
  have q := quiet_run h0 hl
  obtain ⟨q1, q2, q3, q4, q5, q6, q7, q8⟩ := q
  generalize progress ls = k at *
  unfold step at h1
  have hal : s0.ended.isSome = false := by rw [q8]; rfl
  rw [hal] at h1
  simp only [Bool.false_eq_true, if_false, q3, registered] at h1
  by_cases ha : k ≤ 2 * x.place
  · rw [if_neg (by omega), if_neg (by omega), if_neg (by omega)] at h1
    simp only [List.append_nil, Option.some.injEq] at h1
    subst h1
    exact ⟨fun _ => .inl ha, fun _ => ⟨[], _, rfl, by simp, rfl⟩⟩
  · by_cases hb : 6 + x.place < k
    · rw [if_pos (by omega), if_pos (by cases x <;> simp only [Sig.place] at hb ⊢ <;> omega), if_pos hb] at h1
      simp only [List.cons_append, List.nil_append, runActs, q4, Bool.false_eq_true, if_false, Option.some.injEq] at h1
      subst h1
      refine ⟨fun _ => .inr hb, fun _ => ?_⟩
      exact noted_ends k _ q1 q2 rfl q8 q6
    · rw [if_pos (by omega), if_neg (c := 6 + x.place < k) hb] at h1
      refine ⟨?_, fun h => absurd h (by omega)⟩
      rintro ⟨ls', s', r1, r2, r3⟩
      exfalso
      have hd : Deaf s := by
        have hthr : ∀ fs, s0.thr ≠ .removing fs := by
          intro fs; rw [q6]; split <;> simp
        split at h1
        · rename_i h; simp at h
        · split at h1
          all_goals
            simp only [List.append_nil, List.cons_append, List.nil_append, runActs, q4, Bool.false_eq_true, if_false, Option.some.injEq] at h1
            subst h1
            exact ⟨q8, q5, hthr⟩
      have := (deaf_run hd r2 r1).1
      rw [this] at r3
      cases r3

/-- All three cases occur for SIGINT: killed, lost, obeyed. -/
example : (∃ s, Run [1] (List.replicate 4 .next ++ [.signal .int]) s ∧ s.ended = some .killed) ∧
    (∃ s, Run [1] (List.replicate 5 .next ++ [.signal .int]) s ∧ s.ended = none ∧ s.pending = false) ∧
    (∃ s, Run [1] (List.replicate 9 .next ++ [.signal .int, .next, .wake, .remove true, .leave]) s ∧ s.ended = some (.exit 0)) :=
  ⟨⟨_, rfl, rfl⟩, ⟨_, rfl, rfl, rfl⟩, ⟨_, rfl, rfl⟩⟩

end Shpool.Signals
