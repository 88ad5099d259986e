import Verif.Fds.Model
/-!
# File descriptors given to a new process (C83)
-/

namespace Shpool.Fds

/-- The full property: whatever the daemon has open, a new shell or pager starts with no descriptor but the standard ones. -/
def C83_statement : Prop := ∀ open_ : List Fd, ∀ f ∈ inherited scOpenMax open_, f.num ≤ 2

/-- **C83 (defect)**: only descriptor 3 is closed; another one without the close-on-exec flag (here 11) is inherited. -/
theorem C83_false : ¬ C83_statement := by
  intro h
  exact absurd (h [⟨0, false⟩, ⟨1, false⟩, ⟨2, false⟩, ⟨11, false⟩] ⟨11, false⟩ (by decide)) (by decide)

/-- **C83 (part)**: exactly the descriptors without the flag and other than 3 are inherited. -/
theorem C83_inherited_partial (open_ : List Fd) (f : Fd) :
    f ∈ inherited scOpenMax open_ ↔ f ∈ open_ ∧ f.cloexec = false ∧ f.num ≠ 3 := by
  simp only [inherited, exec, closeLoop, scOpenMax, List.mem_filter]
  constructor
  · rintro ⟨⟨h1, h2⟩, h3⟩
    refine ⟨h1, by simpa using h3, ?_⟩
    intro e
    simp [e] at h2
  · rintro ⟨h1, h2, h3⟩
    refine ⟨⟨h1, ?_⟩, by simp [h2]⟩
    have : ¬ (3 ≤ f.num ∧ f.num < 4) := by omega
    rw [Bool.not_eq_true', ← Bool.not_eq_true]
    intro hb
    rw [Bool.and_eq_true] at hb
    exact this ⟨of_decide_eq_true hb.1, of_decide_eq_true hb.2⟩

/-- **C83 (part)**: if everything the daemon opens above the standard descriptors has the flag, nothing else is inherited; and
the standard descriptors always are. -/
theorem C83_cloexec_partial (open_ : List Fd) (h : ∀ f ∈ open_, 2 < f.num → f.cloexec = true ∨ f.num = 3) :
    (∀ f ∈ inherited scOpenMax open_, f.num ≤ 2) ∧
    (∀ f ∈ open_, f.num ≤ 2 → f.cloexec = false → f ∈ inherited scOpenMax open_) := by
  refine ⟨?_, ?_⟩
  · intro f hf
    obtain ⟨h1, h2, h3⟩ := (C83_inherited_partial open_ f).1 hf
    apply Classical.byContradiction
    intro hn
    rcases h f h1 (by omega) with h' | h'
    · rw [h2] at h'; cases h'
    · exact h3 h'
  · intro f hf h2 hc
    exact (C83_inherited_partial open_ f).2 ⟨hf, hc, by omega⟩

example : inherited scOpenMax [⟨0, false⟩, ⟨1, false⟩, ⟨2, false⟩, ⟨3, false⟩, ⟨5, true⟩] = [⟨0, false⟩, ⟨1, false⟩, ⟨2, false⟩] := by
  decide

/-- `C83_cloexec_partial`: everything above the standard ones is closed by `exec`, but for number 3. -/
example : ∀ f ∈ [(⟨0, false⟩ : Fd), ⟨1, false⟩, ⟨2, false⟩, ⟨3, false⟩, ⟨5, true⟩], 2 < f.num → f.cloexec = true ∨ f.num = 3 := by decide

/-- **C83** (exactly).  Closing up to a bound leaves a new program with the standard descriptors only, whatever the daemon has open below the limit
`lim` of descriptors, if and only if the bound is the limit or more (or there is nothing above the standard ones). -/
theorem C83_exact (bound lim : Nat) :
    (∀ open_ : List Fd, (∀ f ∈ open_, f.num < lim) → ∀ f ∈ inherited bound open_, f.num ≤ 2) ↔ lim ≤ bound ∨ lim ≤ 3 := by
  constructor
  · intro h
    refine Classical.byContradiction fun hc => ?_
    have := h [⟨lim - 1, false⟩] (by simp; omega) ⟨lim - 1, false⟩ (by simp [inherited, exec, closeLoop]; omega)
    simp only at this
    omega
  · intro h open_ ho f hf
    simp only [inherited, exec, closeLoop, List.mem_filter, Bool.not_eq_true', Bool.and_eq_false_iff, decide_eq_false_iff_not] at hf
    have := ho f hf.1.1
    omega

/-- The limit on most systems is 1024: the number of the enumerator is not enough, the limit is. -/
example : ¬ (1024 ≤ scOpenMax ∨ 1024 ≤ 3) ∧ (1024 ≤ 1024 ∨ 1024 ≤ 3) := by decide

end Shpool.Fds
