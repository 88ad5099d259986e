import Verif.ExitNotify.Props
import Verif.Util.Fair

/-! # In every fair execution a waiting thread obtains the exit status -/

namespace Shpool.ExitNotify

def isResume (w : Nat) : Label → Bool
  | .resume v => v == w
  | _ => false

def isExpire (w : Nat) : Label → Bool
  | .expire v => v == w
  | _ => false

theorem woken_step {s s' : St} {l : Label} {w : Nat} (hs : step s l = some s') (hw : s.phase w = .woken) (hsl : s.slot.isSome = true) :
    (∃ st, s'.phase w = .returned (some st)) ∨ (s'.phase w = .woken ∧ s'.slot.isSome = true ∧ isResume w l = false) := by
  cases l with
  | notify st => cases hs; exact .inr ⟨by simp [hw], rfl, rfl⟩
  | begin v timed =>
    have hne : v ≠ w := by
      rintro rfl
      simp only [step, hw] at hs; cases hs
    simp only [step] at hs
    split at hs
    · split at hs <;> cases hs <;> exact .inr ⟨by simp [setPhase, Ne.symm hne, hw], hsl, rfl⟩
    · split at hs <;> cases hs <;> exact .inr ⟨by simp [setPhase, Ne.symm hne, hw], hsl, rfl⟩
    · cases hs
  | expire v =>
    have hne : v ≠ w := by
      rintro rfl
      simp only [step, hw] at hs; cases hs
    simp only [step] at hs
    split at hs <;> cases hs
    exact .inr ⟨by simp [setPhase, Ne.symm hne, hw], hsl, rfl⟩
  | resume v =>
    by_cases hv : v = w
    · subst hv
      simp only [step, hw] at hs
      cases hs
      obtain ⟨st, hst⟩ := Option.isSome_iff_exists.mp hsl
      exact .inl ⟨st, by simp [setPhase, hst]⟩
    · simp only [step] at hs
      split at hs <;> cases hs <;> exact .inr ⟨by simp [setPhase, Ne.symm hv, hw], hsl, by simp [isResume, hv]⟩

/-- C58 over time: in every execution that does not put the thread off for ever, a thread that waits when the exit is announced, with a
timeout or without, obtains a status that was announced. -/
theorem C58_fair {σ : Nat → St} {lab : Nat → Option Label} (hx : Exec step σ lab) (h0 : σ 0 = init) {w j : Nat} {timed : Bool} {st : Int}
    (hf : WeakFair step σ lab (isResume w)) (hp : (σ j).phase w = .parked timed) (hl : lab j = some (.notify st)) :
    ∃ i st', j < i ∧ (σ i).phase w = .returned (some st') ∧ st' ∈ announced (performed lab i) := by
  have hs := exec_at hx hl
  have hw : (σ (j + 1)).phase w = .woken ∧ (σ (j + 1)).slot.isSome = true := by
    generalize σ (j + 1) = s' at hs
    cases hs
    exact ⟨by simp [hp], rfl⟩
  obtain ⟨i, hi, st', h⟩ := fair_reaches hx hf (B := fun s => s.phase w = .woken ∧ s.slot.isSome = true)
    (G := fun s => ∃ st, s.phase w = .returned (some st)) (fun _ => 0) (m := j + 1) hw
    (fun i _ hb => ⟨.resume w, by simp [isResume], by simp [step, hb.1]⟩)
    (fun i l _ _ hb h => (woken_step h hb.1 hb.2).imp id fun ⟨h1, h2, h3⟩ => ⟨⟨h1, h2⟩, Nat.le_refl _, by simp [h3]⟩)
  refine ⟨i, st', by omega, h, ?_⟩
  have hr := exec_run hx i
  rw [h0] at hr
  exact C58_only_announced _ _ hr w st' h

theorem parked_step {s s' : St} {l : Label} {w : Nat} (hs : step s l = some s') (hw : s.phase w = .parked true) :
    (s'.phase w = .woken ∨ s'.phase w = .expired) ∨ (s'.phase w = .parked true ∧ isExpire w l = false) := by
  cases l with
  | notify st => cases hs; exact .inl (.inl (by simp [hw]))
  | begin v timed =>
    have hne : v ≠ w := by
      rintro rfl
      simp only [step, hw] at hs; cases hs
    simp only [step] at hs
    split at hs
    · split at hs <;> cases hs <;> exact .inr ⟨by simp [setPhase, Ne.symm hne, hw], rfl⟩
    · split at hs <;> cases hs <;> exact .inr ⟨by simp [setPhase, Ne.symm hne, hw], rfl⟩
    · cases hs
  | expire v =>
    by_cases hv : v = w
    · subst hv
      simp only [step, hw] at hs
      cases hs
      exact .inl (.inr (by simp [setPhase]))
    · simp only [step] at hs
      split at hs <;> cases hs
      exact .inr ⟨by simp [setPhase, Ne.symm hv, hw], by simp [isExpire, hv]⟩
  | resume v =>
    have hne : v ≠ w := by
      rintro rfl
      simp only [step, hw] at hs; cases hs
    simp only [step] at hs
    split at hs <;> cases hs <;> exact .inr ⟨by simp [setPhase, Ne.symm hne, hw], rfl⟩

theorem back_step {s s' : St} {l : Label} {w : Nat} (hs : step s l = some s') (hw : s.phase w = .woken ∨ s.phase w = .expired) :
    (∃ r, s'.phase w = .returned r) ∨ ((s'.phase w = .woken ∨ s'.phase w = .expired) ∧ isResume w l = false) := by
  cases l with
  | notify st => cases hs; exact .inr ⟨by rcases hw with hw | hw <;> simp [hw], rfl⟩
  | begin v timed =>
    have hne : v ≠ w := by
      rintro rfl
      rcases hw with hw | hw <;> (simp only [step, hw] at hs; cases hs)
    simp only [step] at hs
    split at hs
    · split at hs <;> cases hs <;> exact .inr ⟨by simpa [setPhase, Ne.symm hne] using hw, rfl⟩
    · split at hs <;> cases hs <;> exact .inr ⟨by simpa [setPhase, Ne.symm hne] using hw, rfl⟩
    · cases hs
  | expire v =>
    have hne : v ≠ w := by
      rintro rfl
      rcases hw with hw | hw <;> (simp only [step, hw] at hs; cases hs)
    simp only [step] at hs
    split at hs <;> cases hs
    exact .inr ⟨by simpa [setPhase, Ne.symm hne] using hw, rfl⟩
  | resume v =>
    by_cases hv : v = w
    · subst hv
      rcases hw with hw | hw <;> (simp only [step, hw] at hs; cases hs; exact .inl ⟨_, by simp [setPhase]; rfl⟩)
    · simp only [step] at hs
      split at hs <;> cases hs <;> exact .inr ⟨by simpa [setPhase, Ne.symm hv] using hw, by simp [isResume, hv]⟩

/-- C58 over time: a wait with a timeout comes back, whether or not the exit is announced. -/
theorem C58_fair_timed {σ : Nat → St} {lab : Nat → Option Label} (hx : Exec step σ lab) {w j : Nat}
    (hr : WeakFair step σ lab (isResume w)) (he : WeakFair step σ lab (isExpire w)) (hp : (σ j).phase w = .parked true) :
    ∃ i r, j < i ∧ (σ i).phase w = .returned r := by
  obtain ⟨k, hk, h⟩ := fair_reaches hx he (B := fun s => s.phase w = .parked true)
    (G := fun s => s.phase w = .woken ∨ s.phase w = .expired) (fun _ => 0) (m := j) hp
    (fun i _ hb => ⟨.expire w, by simp [isExpire], by simp [step, hb]⟩)
    (fun i l _ _ hb h => (parked_step h hb).imp id fun ⟨h1, h3⟩ => ⟨h1, Nat.le_refl _, by simp [h3]⟩)
  obtain ⟨i, hi, r, h'⟩ := fair_reaches hx hr (B := fun s => s.phase w = .woken ∨ s.phase w = .expired)
    (G := fun s => ∃ r, s.phase w = .returned r) (fun _ => 0) (m := k) h
    (fun i _ hb => ⟨.resume w, by simp [isResume], by rcases hb with hb | hb <;> simp [step, hb]⟩)
    (fun i l _ _ hb h => (back_step h hb).imp id fun ⟨h1, h3⟩ => ⟨h1, Nat.le_refl _, by simp [h3]⟩)
  refine ⟨i, r, ?_, h'⟩
  refine Nat.lt_of_le_of_ne (by omega) fun e => ?_
  rw [← e, hp] at h'
  cases h'

/-- Two threads wait, the exit is announced, both come back. -/
def twoWait : List Label := [.begin 0 false, .begin 1 true, .notify 7, .resume 1, .resume 0]

example : ∃ σ lab, Exec step σ lab ∧ σ 0 = init ∧ (∀ w, WeakFair step σ lab (isResume w) ∧ WeakFair step σ lab (isExpire w)) ∧
    (σ 2).phase 0 = .parked false ∧ (σ 2).phase 1 = .parked true ∧ lab 2 = some (.notify 7) := by
  obtain ⟨s, hs⟩ : ∃ s, runSteps step init twoWait = some s := ⟨_, rfl⟩
  obtain ⟨h1, h2⟩ := thenRests_exec hs
  have hph : ∀ w, s.phase w = .idle ∨ s.phase w = .returned (some 7) := by
    intro w
    cases hs
    simp only [setPhase, init]
    by_cases h0 : w = 0
    · subst h0; exact .inr rfl
    · by_cases h1 : w = 1
      · subst h1; exact .inr rfl
      · simp [h0, h1]
  refine ⟨_, _, h1, rfl, fun w => ⟨(fair_at_rest h2 fun l hl => ?_).1, (fair_at_rest h2 fun l hl => ?_).1⟩, rfl, rfl, rfl⟩
  · cases l with
    | resume v => rcases hph v with h | h <;> simp [step, h]
    | _ => simp [isResume] at hl
  · cases l with
    | expire v => rcases hph v with h | h <;> simp [step, h]
    | _ => simp [isExpire] at hl

end Shpool.ExitNotify
