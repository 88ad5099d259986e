import Verif.PagerRun.Props
/-!
# A message pager while it runs, repaired (C139, output)

Counterfactual: the loop of `/repo/libshpool/src/daemon/pager.rs` 219-303 ends at the end of the pager's terminal, and not when the other
thread says that the pager has exited (226-228) or a write to the pager's terminal fails (290-303).
-/

namespace Shpool.PagerRun

/-- As `step` (pager.rs 219-303), but the flag is not looked at after `poll`, and a write to the terminal that fails because the pager is gone
does not end the loop.  Simplified: what could not be written is left in `input`, from where nobody reads it any more. -/
def stepR (s : St) : Label → Option St
  | .wake beat => (step { s with flag := false } (.wake beat)).map fun s' => { s' with flag := s.flag }
  | .feedFails _ => if s.proc = .running then none else step s .feedDone
  | l => step s l

private theorem closed_kept {s s' : St} {l : Label} (h : step s l = some s') (hc : s.closed = true) : s'.closed = true := by
  cases l with
  | guard | look =>
    simp only [step] at h
    repeat' split at h
    all_goals first | (cases h; done) | skip
    all_goals first | (cases h; exact hc) | skip
    all_goals
      rename_i hs
      cases h
      obtain ⟨p, sg, rfl, _⟩ := signal_eq hs
      exact hc
  | _ =>
    simp only [step] at h
    repeat' split at h
    all_goals first | (cases h; done) | (cases h; exact hc) | (cases h; rfl)

private theorem ok_step {s s' : St} {l : Label} (he : s.main.ended = false) (hw : ∀ b, l = .wake b → s.flag = false)
    (hf : ∀ n, l ≠ .feedFails n) (h : step s l = some s') (hr : s'.main.res = some .ok) :
    s'.closed = true ∨ (s'.pty = [] ∧ s'.proc ≠ .running) := by
  cases l with
  | feedFails n => exact absurd rfl (hf n)
  | guard | look =>
    simp only [step] at h
    split at h
    all_goals first | (cases h; done) | (rename_i hm; rw [hm] at he; cases he)
  | wake b =>
    simp only [step, hw b rfl] at h
    repeat' split at h
    all_goals first | (cases h; done) | skip
    all_goals cases h
    all_goals simp_all [Main.res]
  | print | press | exit | reap | setFlag | reuse | type | close =>
    simp only [step] at h
    split at h
    all_goals cases h
    revert hr
    cases hm : s.main <;> simp_all [Main.res, Main.ended]
  | _ =>
    simp only [step] at h
    repeat' split at h
    all_goals first | (cases h; done) | skip
    all_goals cases h
    all_goals simp_all [Main.res]

private def Good (s : St) : Prop := Inv s ∧ (s.main.res = some .ok → s.closed = true ∨ (s.pty = [] ∧ s.proc ≠ .running))

private theorem good_step (s : St) (l : Label) (s' : St) (hI : Good s) (h : stepR s l = some s') : Good s' := by
  obtain ⟨hI, hK⟩ := hI
  -- every repaired step is a step as it is, up to the flag
  have key : ∃ l0 t t', (∀ n, l0 ≠ .feedFails n) ∧ (∀ b, l0 = .wake b → t.flag = false) ∧ step t l0 = some t' ∧ Inv t ∧
      t = { s with flag := t.flag } ∧ s' = { t' with flag := s'.flag } := by
    cases hl : l with
    | wake b =>
      subst hl
      simp only [stepR, Option.map_eq_some_iff] at h
      obtain ⟨t', ht, rfl⟩ := h
      exact ⟨.wake b, _, t', nofun, fun _ _ => rfl, ht, ⟨hI.out, hI.inp, hI.lostOut, hI.lostIn, hI.hang⟩, rfl, rfl⟩
    | feedFails n =>
      subst hl
      simp only [stepR] at h
      split at h
      · cases h
      · exact ⟨.feedDone, s, s', nofun, nofun, h, hI, rfl, rfl⟩
    | _ =>
      have hs : step s l = some s' := by subst hl; exact h
      exact ⟨l, s, s', by rw [hl]; exact nofun, by rw [hl]; exact nofun, hs, hI, rfl, rfl⟩
  obtain ⟨l0, t, t', hf, hw, ht, hIt, e, e'⟩ := key
  have hI' := inv_step t l0 t' hIt ht
  have hKt : t.main.res = some .ok → t.closed = true ∨ (t.pty = [] ∧ t.proc ≠ .running) := by rw [e]; exact hK
  have hK' : t'.main.res = some .ok → t'.closed = true ∨ (t'.pty = [] ∧ t'.proc ≠ .running) := by
    intro hr
    cases hen : t.main.ended with
    | false => exact ok_step hen hw hf ht hr
    | true =>
      obtain ⟨_, k2, _, _, k4⟩ := ended_step hen ht
      rcases hKt (k2 ▸ hr) with hc | ⟨hp, hn⟩
      · exact .inl (closed_kept ht hc)
      · obtain ⟨_, k5, k6⟩ := k4 hn
        exact .inr ⟨k5.trans hp, k6⟩
  rw [e']
  exact ⟨⟨hI'.out, hI'.inp, hI'.lostOut, hI'.lostIn, hI'.hang⟩, hK'⟩

/-- **C139** (output, repaired).  If the display ended only at the end of the pager's terminal, everything the pager printed would have been
shown to a client that is still there when the attach goes on; and once the pager has exited and its output has been read, the display ends. -/
theorem C139_repaired : (∀ ls s, runSteps stepR init ls = some s → s.main = .returned .ok → s.closed = false → shown s.sent = s.printed) ∧
    ∀ s, s.main = .poll → s.proc ≠ .running → s.pty = [] → ∃ s', runSteps stepR s [.wake false, .readPty 1] = some s' ∧
      s'.main = .guard .ok := by
  constructor
  · intro ls s h hr hc
    obtain ⟨hI, hK⟩ : Good s := run_inv good_step
      ⟨⟨rfl, rfl, by simp [init], by simp [init], by simp [init, Main.res]⟩, by simp [init, Main.res]⟩ h
    have ho : s.lostOut = [] := Classical.byContradiction fun hc => by simpa [hr, Main.res] using hI.lostOut hc
    rcases hK (by rw [hr]; rfl) with h1 | ⟨h1, _⟩
    · rw [hc] at h1; cases h1
    · simpa [ho, hr, Main.outHand, h1] using hI.out.symm
  · intro s h1 h2 h3
    simp [runSteps, stepR, step, h1, h2, h3]

/-- The schedule of `C139_false`: now the last thing printed is shown. -/
def lastShown : List Label :=
  [.print [27], .exit, .reap, .setFlag, .wake false, .readPty 16384, .showDone none, .wake false, .readPty 1, .guard]

example : ∃ s, runSteps stepR init lastShown = some s ∧ s.main = .returned .ok ∧ s.closed = false ∧ shown s.sent = [27] := ⟨_, rfl, rfl, rfl, rfl⟩

end Shpool.PagerRun
