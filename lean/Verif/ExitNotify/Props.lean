import Verif.ExitNotify.Model
import Verif.Util.List
/-!
# Property C58: the exit notification is a latch
-/

namespace Shpool.ExitNotify

/-- The statuses announced in a history. -/
def announced : List Label → List Int
  | [] => []
  | .notify st :: ls => st :: announced ls
  | _ :: ls => announced ls

theorem announced_append (a b : List Label) : announced (a ++ b) = announced a ++ announced b := by
  induction a with
  | nil => rfl
  | cons l ls ih => cases l <;> simp [announced, ih]

structure Inv (ls : List Label) (s : St) : Prop where
  slot : s.slot = (announced ls).getLast?
  parked : ∀ w t, s.phase w = .parked t → s.slot = none
  woken : ∀ w, s.phase w = .woken → s.slot.isSome
  returned : ∀ w x, s.phase w = .returned (some x) → x ∈ announced ls

theorem inv_run {ls : List Label} {s : St} (h : Run ls s) : Inv ls s := by
  induction ls using snocInd generalizing s with
  | nil =>
    cases h
    exact ⟨rfl, fun _ _ _ => rfl, fun _ h => (by cases h), fun _ _ h => (by cases h)⟩
  | snoc ls l ih =>
    obtain ⟨s1, h1, h2⟩ := Shpool.run_append_some h
    have hi := ih h1
    have hs : step s1 l = some s := by
      simp only [runSteps] at h2
      cases hl : step s1 l with
      | none => rw [hl] at h2; cases h2
      | some x => rw [hl] at h2; exact h2
    cases l with
    | notify st =>
      cases hs
      refine ⟨by simp [announced_append, announced], ?_, fun _ _ => rfl, ?_⟩
      · intro w t hw
        dsimp only at hw
        cases hp : s1.phase w <;> rw [hp] at hw <;> cases hw
      · intro w x hw
        dsimp only at hw
        cases hp : s1.phase w with
        | returned r =>
          rw [hp] at hw; cases hw
          rw [announced_append]
          exact List.mem_append_left _ (hi.returned w x hp)
        | _ => rw [hp] at hw; cases hw
    | begin w timed =>
      have han : announced (ls ++ [.begin w timed]) = announced ls := by simp [announced_append, announced]
      have main : (s1.slot.isSome ∧ s = setPhase s1 w (.returned s1.slot)) ∨
          (s1.slot = none ∧ s = setPhase s1 w (.parked timed)) := by
        simp only [step] at hs
        cases hsl : s1.slot with
        | none =>
          right
          rw [hsl] at hs
          cases hp : s1.phase w <;> rw [hp] at hs <;> simp at hs <;> exact ⟨rfl, hs.symm⟩
        | some v =>
          left
          rw [hsl] at hs
          cases hp : s1.phase w <;> rw [hp] at hs <;> simp at hs <;> exact ⟨rfl, hs.symm⟩
      rcases main with ⟨hslot, rfl⟩ | ⟨hslot, rfl⟩
      · refine ⟨by rw [han]; exact hi.slot, ?_, ?_, ?_⟩
        · intro v t hv
          simp only [setPhase] at hv
          split at hv
          · cases hv
          · exact hi.parked v t hv
        · intro v hv
          simp only [setPhase] at hv
          split at hv
          · cases hv
          · exact hi.woken v hv
        · intro v x hv
          rw [han]
          simp only [setPhase] at hv
          split at hv
          · simp only [Phase.returned.injEq] at hv
            rw [hi.slot] at hv
            exact List.mem_of_getLast? hv
          · exact hi.returned v x hv
      · refine ⟨by rw [han]; exact hi.slot, ?_, ?_, ?_⟩
        · intro v t hv
          exact hslot
        · intro v hv
          simp only [setPhase] at hv
          split at hv
          · cases hv
          · exact hi.woken v hv
        · intro v x hv
          rw [han]
          simp only [setPhase] at hv
          split at hv
          · cases hv
          · exact hi.returned v x hv
    | expire w =>
      have han : announced (ls ++ [.expire w]) = announced ls := by simp [announced_append, announced]
      simp only [step] at hs
      split at hs
      · cases hs
        refine ⟨by rw [han]; exact hi.slot, ?_, ?_, ?_⟩
        · intro v t hv
          simp only [setPhase] at hv
          split at hv
          · cases hv
          · exact hi.parked v t hv
        · intro v hv
          simp only [setPhase] at hv
          split at hv
          · cases hv
          · exact hi.woken v hv
        · intro v x hv
          rw [han]
          simp only [setPhase] at hv
          split at hv
          · cases hv
          · exact hi.returned v x hv
      · cases hs
    | resume w =>
      have han : announced (ls ++ [.resume w]) = announced ls := by simp [announced_append, announced]
      have main : ∃ r, (r = none ∨ r = s1.slot) ∧ s = setPhase s1 w (.returned r) := by
        simp only [step] at hs
        cases hp : s1.phase w <;> rw [hp] at hs <;> simp at hs
        · exact ⟨_, .inr rfl, hs.symm⟩
        · exact ⟨_, .inl rfl, hs.symm⟩
      obtain ⟨r, hr, rfl⟩ := main
      refine ⟨by rw [han]; exact hi.slot, ?_, ?_, ?_⟩
      · intro v t hv
        simp only [setPhase] at hv
        split at hv
        · cases hv
        · exact hi.parked v t hv
      · intro v hv
        simp only [setPhase] at hv
        split at hv
        · cases hv
        · exact hi.woken v hv
      · intro v x hv
        rw [han]
        simp only [setPhase] at hv
        split at hv
        · simp only [Phase.returned.injEq] at hv
          rcases hr with hr | hr
          · rw [hr] at hv; cases hv
          · rw [hr, hi.slot] at hv; exact List.mem_of_getLast? hv
        · exact hi.returned v x hv

/-- C58, future waiters: after an announcement every call to `wait` returns at once with the status. -/
theorem C58_future_waiters (ls : List Label) (st : Int) (hst : (announced ls).getLast? = some st) (s : St) (h : Run ls s)
    (w : Nat) (timed : Bool) (s' : St) (hs : step s (.begin w timed) = some s') : s'.phase w = .returned (some st) := by
  have hi := inv_run h
  have hslot := hi.slot
  rw [hst] at hslot
  simp only [step, hslot] at hs
  cases hp : s.phase w <;> rw [hp] at hs <;> simp at hs <;> subst hs <;> simp [setPhase]

/-- C58, present waiters: after an announcement nobody sleeps any more, and every thread woken by it obtains the status. -/
theorem C58_present_waiters_partial (ls : List Label) (st : Int) (hst : (announced ls).getLast? = some st) (s : St) (h : Run ls s)
    (w : Nat) : (∀ timed, s.phase w ≠ .parked timed) ∧
      (s.phase w = .woken → ∃ s', step s (.resume w) = some s' ∧ s'.phase w = .returned (some st)) := by
  have hi := inv_run h
  have hslot := hi.slot
  rw [hst] at hslot
  constructor
  · intro t ht
    have := hi.parked w t ht
    rw [hslot] at this; cases this
  · intro hw
    refine ⟨setPhase s w (.returned s.slot), ?_, ?_⟩
    · simp only [step, hw]
    · simp [setPhase, hslot]

/-- C58, no false report: a status is returned only if it was announced before; until then a wait returns nothing, and a wait
without timeout does not return. -/
theorem C58_nothing_before (ls : List Label) (hst : announced ls = []) (s : St) (h : Run ls s) (w : Nat) (l : Label)
    (s' : St) (hs : step s l = some s') (hl : ∀ st, l ≠ .notify st) :
    (∀ r, s'.phase w = .returned r → r = none) ∧ (s.phase w = .parked false → s'.phase w = .parked false) := by
  have hrun : Run (ls ++ [l]) s' := by
    show runSteps _ _ _ = _
    rw [Shpool.run_append, show runSteps step init ls = some s from h]
    simp only [Option.bind_some, runSteps, hs]
  have han : announced (ls ++ [l]) = [] := by
    rw [announced_append, hst]
    cases l with
    | notify st => exact absurd rfl (hl st)
    | _ => rfl
  have hi := inv_run hrun
  refine ⟨?_, ?_⟩
  · intro r hr
    cases r with
    | none => rfl
    | some x => have := hi.returned w x hr; rw [han] at this; cases this
  · intro hp
    cases l with
    | notify st => exact absurd rfl (hl st)
    | begin v t =>
      have hne : w ≠ v := by
        intro e; subst e; simp only [step, hp] at hs; cases hs
      simp only [step] at hs
      cases hq : s.phase v <;> rw [hq] at hs <;> dsimp only at hs <;> (try cases hs) <;>
        (split at hs <;> cases hs <;> simp [setPhase, hne, hp])
    | expire v =>
      have hne : w ≠ v := by
        intro e; subst e; simp only [step, hp] at hs; cases hs
      simp only [step] at hs
      split at hs
      · cases hs; simp [setPhase, hne, hp]
      · cases hs
    | resume v =>
      have hne : w ≠ v := by
        intro e; subst e; simp only [step, hp] at hs; cases hs
      simp only [step] at hs
      split at hs
      · cases hs; simp [setPhase, hne, hp]
      · cases hs; simp [setPhase, hne, hp]
      · cases hs

theorem C58_only_announced (ls : List Label) (s : St) (h : Run ls s) (w : Nat) (st : Int)
    (hw : s.phase w = .returned (some st)) : st ∈ announced ls := (inv_run h).returned w st hw

/-- "Every present waiter obtains the status" is false: a wait that timed out just before the announcement reports "still running" after it: the result of a wait may be stale by the
time it is returned.  (The next wait obtains the status, `C58_future_waiters`.) -/
theorem C58_false : ∃ s, Run [.begin 0 true, .expire 0, .notify 7, .resume 0] s ∧ s.slot = some 7 ∧
    s.phase 0 = .returned none := ⟨_, rfl, rfl, rfl⟩

example : ∃ s, Run [.begin 0 true, .begin 1 false, .notify 7, .resume 0, .begin 2 true] s ∧
    s.phase 0 = .returned (some 7) ∧ s.phase 1 = .woken ∧ s.phase 2 = .returned (some 7) := ⟨_, rfl, rfl, rfl, rfl⟩
example : ∃ s, Run [.begin 0 true, .begin 1 false, .expire 0, .resume 0] s ∧ s.phase 0 = .returned none ∧
    s.phase 1 = .parked false := ⟨_, rfl, rfl, rfl⟩

end Shpool.ExitNotify
