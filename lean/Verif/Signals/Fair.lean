import Verif.Signals.Props
import Verif.Util.Fair

/-! # In every fair execution a signal ends the daemon -/

namespace Shpool.Signals

/-- A step of the thread that handles signals. -/
def ofThread : Label → Bool
  | .wake => true
  | .remove _ => true
  | .leave => true
  | _ => false

/-- The thread has a signal to deal with, or is dealing with one. -/
def Busy (s : St) : Prop := s.ended = none ∧ s.todo = [] ∧ ((s.thr = .waiting ∧ s.pending = true) ∨ ∃ fs, s.thr = .removing fs)

/-- How much is left to do. -/
def left (s : St) : Nat :=
  match s.thr with
  | .removing fs => fs.length
  | _ => s.socks.length + 1

theorem busy_can {s : St} (h : Busy s) : Can step ofThread s := by
  obtain ⟨h1, _, ⟨h2, h3⟩ | ⟨fs, h2⟩⟩ := h
  · exact ⟨.wake, rfl, by simp [step, h1, h2, h3]⟩
  · cases fs with
    | nil => exact ⟨.leave, rfl, by simp [step, h1, h2]⟩
    | cons f fs => exact ⟨.remove true, rfl, by simp [step, h1, h2]⟩

theorem busy_step {s s' : St} {l : Label} (hi : Inv s) (hb : Busy s) (h : step s l = some s') :
    (s'.ended = some (.exit 0) ∧ l = .leave) ∨ (s'.ended = some (.exit 1) ∧ l.isSignal = true) ∨
    (Busy s' ∧ left s' ≤ left s ∧ (ofThread l = true → left s' < left s)) := by
  obtain ⟨h1, h2, h3⟩ := hb
  have hr := (hi.ready h2).2
  unfold step at h
  simp only [h1, Option.isSome_none, Bool.false_eq_true, if_false] at h
  cases l with
  | next => simp [h2] at h
  | signal x =>
    simp only [hr x, runActs] at h
    split at h <;> cases h
    · exact .inr (.inl ⟨rfl, rfl⟩)
    · refine .inr (.inr ⟨⟨h1, h2, ?_⟩, Nat.le_refl _, nofun⟩)
      rcases h3 with ⟨h3, _⟩ | h3
      · exact .inl ⟨h3, rfl⟩
      · exact .inr h3
  | wake =>
    simp only at h
    split at h <;> cases h
    rename_i hc
    exact .inr (.inr ⟨⟨rfl, h2, .inr ⟨_, rfl⟩⟩, by simp [left, hc.1], by simp [left, hc.1]⟩)
  | remove ok =>
    simp only at h
    split at h
    · rename_i f fs hf
      split at h <;> cases h
      · exact .inr (.inr ⟨⟨rfl, h2, .inr ⟨_, rfl⟩⟩, by simp [left, hf], by simp [left, hf]⟩)
      · exact .inr (.inr ⟨⟨rfl, h2, .inr ⟨_, rfl⟩⟩, by simp [left, hf], by simp [left, hf]⟩)
    · cases h
  | leave =>
    simp only at h
    split at h <;> cases h
    exact .inl ⟨rfl, rfl⟩

/-- C115, over time: in every execution in which the thread handling signals is not put off for ever, a signal that arrives after the handlers
are installed, which is before the daemon serves anybody, ends the daemon; if it is the only one, with status 0, and all files are gone then
whose removal has not failed.  Missing: signals that arrive earlier (see `C115_false`). -/
theorem C115_fair_partial {socks : List Nat} {σ : Nat → St} {lab : Nat → Option Label} (hx : Exec step σ lab) (h0 : σ 0 = init socks)
    (hf : WeakFair step σ lab ofThread) {m : Nat} {x : Sig} (ht : (σ m).todo = []) (hl : lab m = some (.signal x)) :
    ∃ i, m < i ∧ ((σ i).ended = some (.exit 0) ∨ (σ i).ended = some (.exit 1)) ∧
      ((∀ j y, j ≠ m → lab j ≠ some (.signal y)) → (σ i).ended = some (.exit 0) ∧ ∀ f ∈ (σ i).files, f ∈ (σ i).failed) := by
  have hrun : ∀ i, Run socks (performed lab i) (σ i) := fun i => by
    have h := exec_run hx i
    rw [h0] at h
    exact h
  have hI : ∀ i, Inv (σ i) := fun i => (inv_run (hrun i)).2
  have hat : ∀ {i l}, lab i = some l → step (σ i) l = some (σ (i + 1)) := fun {i l} hl => by
    rcases hx i with ⟨h1, _⟩ | ⟨l', h1, h2⟩
    · rw [h1] at hl; cases hl
    · rw [hl] at h1; cases h1; exact h2
  have hfirst : ∀ l ∈ performed lab m, (∀ j y, j ≠ m → lab j ≠ some (.signal y)) → l.isSignal = false := by
    intro l hm hone
    obtain ⟨j, hj, hlj⟩ := mem_performed hm
    cases l with
    | signal y => exact absurd hlj (hone j y (by omega))
    | _ => rfl
  -- how it ends, if it does
  have hend : ∀ i, m < i → ((σ i).ended = some (.exit 0) ∨ ((σ i).ended = some (.exit 1) ∧ ∃ j y, j ≠ m ∧ lab j = some (.signal y))) →
      ((σ i).ended = some (.exit 0) ∨ (σ i).ended = some (.exit 1)) ∧
      ((∀ j y, j ≠ m → lab j ≠ some (.signal y)) → (σ i).ended = some (.exit 0) ∧ ∀ f ∈ (σ i).files, f ∈ (σ i).failed) := by
    rintro i _ (h | ⟨h, j, y, hj, hlj⟩)
    · exact ⟨.inl h, fun _ => ⟨h, C115_clean (hrun i) h⟩⟩
    · exact ⟨.inr h, fun hone => absurd hlj (hone j y hj)⟩
  -- right after the signal the daemon has ended, or the thread is busy
  have hstart : ((σ (m + 1)).ended = some (.exit 1) ∧ ∃ j y, j ≠ m ∧ lab j = some (.signal y)) ∨ Busy (σ (m + 1)) := by
    have hs := hat hl
    have hr := (hI m).ready ht
    generalize hs' : σ (m + 1) = s' at hs ⊢
    unfold step at hs
    split at hs
    · cases hs
    rename_i hne
    simp only [hr.2 x, runActs] at hs
    split at hs <;> cases hs
    · rename_i harm
      refine .inl ⟨rfl, Classical.byContradiction fun hno => ?_⟩
      have := armed_run (hrun m) (fun l hm => hfirst l hm (fun j y hj hlj => hno ⟨j, y, hj, hlj⟩))
      rw [harm] at this; cases this
    · refine .inr ⟨by simpa using hne, ht, ?_⟩
      cases hthr : (σ m).thr with
      | off => exact absurd hthr hr.1
      | waiting => exact .inl ⟨rfl, rfl⟩
      | removing fs => exact .inr ⟨fs, rfl⟩
  rcases hstart with h | hb
  · exact ⟨m + 1, by omega, hend _ (by omega) (.inr h)⟩
  refine Classical.byContradiction fun hno => ?_
  have hne : ∀ i, m < i → ¬ ((σ i).ended = some (.exit 0) ∨ ((σ i).ended = some (.exit 1) ∧ ∃ j y, j ≠ m ∧ lab j = some (.signal y))) :=
    fun i hi h => hno ⟨i, hi, hend i hi h⟩
  have hstep : ∀ i l, m < i → lab i = some l → Busy (σ i) → Busy (σ (i + 1)) ∧ left (σ (i + 1)) ≤ left (σ i) ∧
      (ofThread l = true → left (σ (i + 1)) < left (σ i)) := by
    intro i l hi hli hbi
    rcases busy_step (hI i) hbi (hat hli) with ⟨h, _⟩ | ⟨h, h'⟩ | h
    · exact absurd (.inl h) (hne (i + 1) (by omega))
    · refine absurd (.inr ⟨h, i, ?_⟩) (hne (i + 1) (by omega))
      cases l <;> simp only [Label.isSignal, Bool.false_eq_true] at h'
      exact ⟨_, by omega, hli⟩
    · exact h
  have hbusy : ∀ i, m + 1 ≤ i → Busy (σ i) := exec_stays hx (fun i l hi hli hbi _ => (hstep i l (by omega) hli hbi).1) hb
  obtain ⟨_, _, h⟩ := reaches (σ := σ) (Goal := fun _ => False) left (m := m + 1) (fun i hi _ => by
    rcases hx i with ⟨_, h3⟩ | ⟨l, hli, h3⟩
    · rw [h3]; exact Nat.le_refl _
    · exact (hstep i l (by omega) hli (hbusy i hi)).2.1) (fun k hk hrest => by
    obtain ⟨i, l, hi, hli, ha⟩ := hf ⟨k, fun i hi => busy_can (hbusy i (by omega))⟩ k
    have h1 := (hstep i l (by omega) hli (hbusy i (by omega))).2.2 ha
    have h2 := (hrest i hi).2
    have h3 := (hrest (i + 1) (by omega)).2
    omega)
  exact h

/-- The handlers are installed, a signal arrives, and the files are removed. -/
def oneSignal : List Label := installed ++ [.signal .int, .wake, .remove true, .remove true, .leave]

example : Exec step (thenRests step (init [1, 2]) oneSignal) (fun i => oneSignal[i]?) ∧
    WeakFair step (thenRests step (init [1, 2]) oneSignal) (fun i => oneSignal[i]?) ofThread ∧
    (thenRests step (init [1, 2]) oneSignal 10).todo = [] ∧ oneSignal[10]? = some (.signal .int) := by
  have hrun : ∃ s', runSteps step (init [1, 2]) oneSignal = some s' ∧ s'.ended = some (.exit 0) := ⟨_, rfl, rfl⟩
  obtain ⟨s', hr, he⟩ := hrun
  obtain ⟨h1, h2⟩ := thenRests_exec hr
  exact ⟨h1, (fair_at_rest h2 (fun l _ => by simp [step, he])).1, rfl, rfl⟩

end Shpool.Signals
