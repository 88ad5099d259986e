/-!
# Runs of a labelled transition system given by a partial step function
-/

namespace Shpool

variable {S L : Type}

/-- Performing a list of steps; `none` if one of them is not enabled. -/
def runSteps (step : S → L → Option S) : S → List L → Option S
  | s, [] => some s
  | s, l :: ls => match step s l with
    | none => none
    | some s' => runSteps step s' ls

/-- A property kept by every step holds along every run. -/
theorem run_inv {step : S → L → Option S} {I : S → Prop} (hstep : ∀ s l s', I s → step s l = some s' → I s')
    {s s' : S} {ls : List L} (h0 : I s) (h : runSteps step s ls = some s') : I s' := by
  induction ls generalizing s with
  | nil => cases h; exact h0
  | cons l ls ih =>
    unfold runSteps at h
    cases hl : step s l with
    | none => rw [hl] at h; cases h
    | some s1 => rw [hl] at h; exact ih (hstep s l s1 h0 hl) h

theorem run_append {step : S → L → Option S} {s : S} {a b : List L} :
    runSteps step s (a ++ b) = (runSteps step s a).bind (fun s1 => runSteps step s1 b) := by
  induction a generalizing s with
  | nil => rfl
  | cons l ls ih =>
    simp only [List.cons_append, runSteps]
    cases step s l with
    | none => rfl
    | some s1 => exact ih

theorem run_append_some {step : S → L → Option S} {s s2 : S} {a b : List L} (h : runSteps step s (a ++ b) = some s2) :
    ∃ s1, runSteps step s a = some s1 ∧ runSteps step s1 b = some s2 := by
  rw [run_append] at h
  cases h1 : runSteps step s a with
  | none => rw [h1] at h; cases h
  | some s1 => rw [h1] at h; exact ⟨s1, rfl, h⟩

/-- A property of the labels performed so far and the state, kept by every step, holds at the end of every run. -/
theorem run_hist {step : S → L → Option S} {I : List L → S → Prop}
    (hstep : ∀ ls s l s', I ls s → step s l = some s' → I (ls ++ [l]) s') {s s' : S} {ls : List L} (h0 : I [] s)
    (h : runSteps step s ls = some s') : I ls s' := by
  have : ∀ (ls pre : List L) (s : S), I pre s → runSteps step s ls = some s' → I (pre ++ ls) s' := by
    intro ls
    induction ls with
    | nil => intro pre s hI h; cases h; simpa using hI
    | cons l ls ih =>
      intro pre s hI h
      unfold runSteps at h
      cases hl : step s l with
      | none => rw [hl] at h; cases h
      | some s1 =>
        rw [hl] at h
        have := ih (pre ++ [l]) s1 (hstep pre s l s1 hI hl) h
        simpa using this
  simpa using this ls [] s h0 h

theorem run_cons_some {step : S → L → Option S} {s s2 : S} {l : L} {ls : List L} (h : runSteps step s (l :: ls) = some s2) :
    ∃ s1, step s l = some s1 ∧ runSteps step s1 ls = some s2 := by
  unfold runSteps at h
  cases hl : step s l with
  | none => rw [hl] at h; cases h
  | some s1 => rw [hl] at h; exact ⟨s1, rfl, h⟩

end Shpool
