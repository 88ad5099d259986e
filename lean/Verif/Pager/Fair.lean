import Verif.Pager.Props
import Verif.Util.Fair
/-! # C64 over time: a pager that has ended leaves the session to its client -/

namespace Shpool.Pager
open Shpool

/-- The steps of call `i` after the pager has ended. -/
def goesOn (i : Nat) : Label → Bool
  | .clear j | .connect j => j == i
  | _ => false

private def rank (i : Nat) (s : St) : Nat :=
  match s.thr i with
  | .leaving _ => 1
  | _ => 0

/-- **C64** (over time): once a pager has ended with a size, the session is connected with that size, whatever other calls and resize requests there are, in every
execution weakly fair to that call. -/
theorem C64_fair {σ : Nat → St} {lab : Nat → Option Label} {i m : Nat} {v : Size} (hx : Exec step σ lab) (hf : WeakFair step σ lab (goesOn i))
    (hm : (σ m).thr i = .leaving (some v)) : ∃ n, m ≤ n ∧ (σ n).thr i = .connected v := by
  refine fair_reaches hx hf (B := fun s => s.thr i = .leaving (some v) ∨ s.thr i = .returned (some v)) (G := fun s => s.thr i = .connected v)
    (rank i) (.inl hm) (fun n _ hB => ?_) (fun n l _ _ hB hs => ?_)
  · rcases hB with h | h
    · exact ⟨.clear i, by simp [goesOn], by simp [step, h]⟩
    · exact ⟨.connect i, by simp [goesOn], by simp [step, h]⟩
  · generalize σ n = s at hB hs
    generalize σ (n + 1) = s' at hs ⊢
    have same : s'.thr i = s.thr i → goesOn i l = false → s'.thr i = .connected v ∨
        ((s'.thr i = .leaving (some v) ∨ s'.thr i = .returned (some v)) ∧ rank i s' ≤ rank i s ∧ (goesOn i l = true → rank i s' < rank i s)) := by
      intro h1 h2
      refine .inr ⟨by rw [h1]; exact hB, by simp only [rank, h1]; exact Nat.le_refl _, by simp [h2]⟩
    cases l with
    | register j z =>
      simp only [step] at hs
      split at hs
      · next hj =>
        have hne : i ≠ j := fun e => by subst e; rcases hB with h | h <;> (rw [hj] at h; cases h)
        split at hs <;> cases hs <;> exact same (by simp [upd, hne]) rfl
      · cases hs
    | listen j =>
      simp only [step] at hs
      split at hs <;> cases hs
      next z hj =>
      have hne : i ≠ j := fun e => by subst e; rcases hB with h | h <;> (rw [hj] at h; cases h)
      exact same (by simp [upd, hne]) rfl
    | resize z =>
      simp only [step] at hs
      split at hs
      · next j _ =>
        split at hs <;> cases hs
        · next a b hj =>
          have hne : i ≠ j := fun e => by subst e; rcases hB with h | h <;> (rw [hj] at h; cases h)
          exact same (by simp [upd, hne]) rfl
        · next r hj =>
          refine same ?_ rfl
          by_cases e : i = j
          · subst e; simp [upd, hj]
          · simp [upd, e]
      · cases hs; exact same rfl rfl
    | finish j =>
      simp only [step] at hs
      split at hs <;> cases hs
      next a b hj =>
      have hne : i ≠ j := fun e => by subst e; rcases hB with h | h <;> (rw [hj] at h; cases h)
      exact same (by simp [upd, hne]) rfl
    | fail j =>
      simp only [step] at hs
      split at hs <;> cases hs
      · next a hj =>
        have hne : i ≠ j := fun e => by subst e; rcases hB with h | h <;> (rw [hj] at h; cases h)
        exact same (by simp [upd, hne]) rfl
      · next a b hj =>
        have hne : i ≠ j := fun e => by subst e; rcases hB with h | h <;> (rw [hj] at h; cases h)
        exact same (by simp [upd, hne]) rfl
    | clear j =>
      simp only [step] at hs
      split at hs <;> cases hs
      next r hj =>
      by_cases e : i = j
      · subst e
        have hr : r = some v := by
          rcases hB with h | h
          · rw [hj] at h; cases h; rfl
          · rw [hj] at h; cases h
        exact .inr ⟨.inr (by simp [upd, hr]), by simp [rank, upd], fun _ => by simp [rank, upd, hj]⟩
      · exact same (by simp [upd, e]) (by simp [goesOn, Ne.symm e])
    | connect j =>
      simp only [step] at hs
      split at hs <;> cases hs
      next w hj =>
      by_cases e : i = j
      · subst e
        have hr : w = v := by
          rcases hB with h | h
          · rw [hj] at h; cases h
          · rw [hj] at h; cases h; rfl
        exact .inl (by simp [upd, hr])
      · exact same (by simp [upd, e]) (by simp [goesOn, Ne.symm e])

/-- A pager that ends while another call is refused and the terminal is resized. -/
example : ∃ σ lab, Exec step σ lab ∧ WeakFair step σ lab (goesOn 0) ∧ (σ 4).thr 0 = .leaving (some (24, 80)) := by
  have h := thenRests_exec (step := step) (s := St.init)
    (ls := [.register 0 (24, 80), .listen 0, .register 1 (1, 1), .finish 0, .resize (30, 90), .clear 0, .connect 0]) (s' := _) rfl
  refine ⟨_, _, h.1, (fair_at_rest h.2 (fun l hl => ?_)).1, rfl⟩
  cases l <;> simp [goesOn] at hl <;> subst hl <;> rfl

end Shpool.Pager
