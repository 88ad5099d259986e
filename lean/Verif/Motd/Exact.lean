import Verif.Motd.Props
/-! # Exactly with which intervals the daemon starts (C65), and exactly when a decision fails (C80) -/

namespace Shpool.Motd

/-- **C65** (exactly which): a daemon started at a time the clock can hold starts, and shows the message to the first client at once, exactly if twice the
interval before now is a time the clock can hold. -/
theorem C65_exact (now : Int) (dur : Nat) (a b : Int) (ha : now ≤ a) (hnow : now < 2 ^ 63 * sec) :
    (∃ d, Debouncer.new now dur = some d ∧ ∃ d', d.shouldFire a b = .ok (true, d')) ↔ -(2 ^ 63 : Int) * sec ≤ now - 2 * dur := by
  simp only [Debouncer.new]
  constructor
  · rintro ⟨d, h, _⟩
    split at h
    · next hc => omega
    · cases h
  · intro h
    refine ⟨⟨now - dur * 2, dur⟩, ?_, ?_⟩
    · rw [if_pos]
      simp only [sec] at *
      omega
    · exact ⟨⟨b, dur⟩, by simp only [Debouncer.shouldFire]; rw [if_pos (by omega), if_pos (by omega)]⟩

example : -(2 ^ 63 : Int) * sec ≤ 1700000000 * sec - 2 * ((86400 * sec : Nat) : Int) := by decide

theorem after_last (d : Debouncer) (pre : List (Int × Int)) : (pre.foldl Debouncer.after d).last = ((fires d pre).map (·.2)).getLastD d.last := by
  induction pre generalizing d with
  | nil => rfl
  | cons c pre ih =>
    rw [List.foldl_cons, ih]
    simp only [Debouncer.after, fires]
    by_cases h1 : d.last ≤ c.1
    · by_cases h2 : (d.dur : Int) ≤ c.1 - d.last
      · simp only [Debouncer.shouldFire, h1, h2, if_true, List.map_cons, List.getLastD_cons]
      · simp [Debouncer.shouldFire, h1, h2]
    · simp [Debouncer.shouldFire, h1]

/-- **C80** (exactly when): the decision fails exactly if the clock shows an earlier time than it did when the message was last displayed (at the start: than
twice the interval before the start). -/
theorem C80_exact (d : Debouncer) (pre : List (Int × Int)) (c : Int × Int) :
    (pre.foldl Debouncer.after d).shouldFire c.1 c.2 = .error () ↔ c.1 < ((fires d pre).map (·.2)).getLastD d.last := by
  rw [← after_last]
  simp only [Debouncer.shouldFire]
  split
  · split <;> simp <;> omega
  · simp; omega

example : fires ⟨0, 10⟩ [(5, 5), (20, 21), (22, 22)] = [(20, 21)] := by decide

end Shpool.Motd
