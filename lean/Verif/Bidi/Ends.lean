import Verif.Bidi.Truth

/-! # How a request ends: the result, and the exit frame -/

namespace Shpool.Bidi

/-- Steps that can make the request end with an error: malformed keybindings, a failing read from the client or write to the pty, a
detach key sequence (its request to the shell-to-client thread may fail), a missing acknowledgement, the end of the shell-to-client
thread by an error. -/
def Failing : Label → Bool
  | .c2sCompiles good => !good
  | .c2sReads key => key
  | .c2sReadFails => true
  | .c2sWriteFails => true
  | .ackTimeout => true
  | .s2cFails => true
  | _ => false

structure Fails (F : Prop) (s : St) : Prop where
  c2s : s.c2s = .done .err → F
  det : s.c2s = .detaching → F
  hb : s.hb = .done .err → F
  leaving : s.main = .leaving → F
  ret : s.main = .returned none → s.c2s ≠ .off → F
  gone : ∀ w m, s.ctl = some (w, m, true) → s.s2c = .gone → F

theorem fails_step {F F' : Prop} {s : St} {l : Label} {s' : St} (hI : Inv s)
    (hB : ∀ w m, s.ctl = some (w, m, true) → s.s2c = .busy w m ∨ (∃ p, s.s2c = .acking w m p) ∨ s.s2c = .gone) (hF : Fails F s) (hcm : F → F')
    (hcl : Failing l = true → F') (h : step s l = some s') : Fails F' s' := by
  obtain ⟨f1, f2, f3, f4, f5, f6⟩ := hF
  have hoff := hI.off
  have hcc := hI.ctlc
  by_cases hl : l = .sendTimeout ∨ l = .ackTimeout ∨ l = .noticeGone
  · obtain ⟨w, m, b, o, hct, rfl, ho, hlo, _⟩ := step_noack hl h
    have hfin := finish_fin o hI hct
    have hto : o = .ackTimeout → F' := fun h => hcl (by rw [hlo.mpr h]; rfl)
    generalize s.finish w o = s' at *
    cases hfin <;> constructor <;> grind
  cases l
  case meet =>
    obtain ⟨w, m, hc, hs, rfl⟩ := step_meet h
    constructor <;> grind
  case s2cWorks =>
    obtain ⟨w, m, hs, rfl⟩ := step_works h
    rw [perform_eq]
    constructor <;> grind
  case ack =>
    obtain ⟨w, m, p, x, hct, hs, hx, rfl⟩ := step_ack h
    have hfin := finish_fin (s := { s with s2c := x }) (.acked p) (inv_s2c x hI) hct
    generalize { s with s2c := x }.finish w (.acked p) = s' at *
    cases hfin <;> constructor <;> grind
  all_goals
    simp only [step] at h <;> (repeat' split at h) <;> (try cases h) <;> (try (simp only [Option.some.injEq] at h; subst h))
  all_goals first
    | (exfalso; simp at hl; done)
    | (rw [tell_frame]; constructor <;> grind [Failing])
    | (constructor <;> grind [Failing])

/-- One of the steps performed is `Failing`. -/
def Failed (ls : List Label) : Prop := ∃ l ∈ ls, Failing l = true

theorem fails_run {ls : List Label} {s : St} (h : Run ls s) : Fails (Failed ls) s ∧ Told (Caused ls) s := by
  refine run_hist (I := fun (ls : List Label) (s : St) => Fails (Failed ls) s ∧ Told (Caused ls) s) (fun ls s l s' hI h => ⟨?_, told_step hI.2 h⟩)
    ⟨?_, told_init _⟩ h
  · refine fails_step hI.2.inv hI.2.ctlBusy hI.1 (fun ⟨x, hx, hf⟩ => ⟨x, by simp [hx], hf⟩) (fun hf => ⟨l, by simp, hf⟩) h
  · constructor <;> simp [init]

/-- The supervisor's observation of the exit is what makes `childDone` true. -/
theorem childDone_run {ls : List Label} {s : St} (h : Run ls s) : s.childDone = true ↔ .supSees ∈ ls := by
  refine run_hist (I := fun (ls : List Label) (s : St) => s.childDone = true ↔ .supSees ∈ ls) (fun ls s l s' hI h => ?_) (by simp [init]) h
  have hf : ∀ (s : St) w o, (s.finish w o).childDone = s.childDone := by
    intro s w o; unfold St.finish; dsimp only; (repeat' split) <;> rfl
  rw [List.mem_append, ← hI]
  step_cases
  all_goals first
    | simp; done
    | (rw [hf]; simp; done)
    | (rw [perform_frame]; simp; done)
    | (rw [tell_frame]; simp; done)

/-! ## The exit frame in undisturbed runs -/

/-- Steps of an undisturbed attachment: nobody and nothing ends it but the exit of the shell, and all waits are long enough. -/
def Clean (l : Label) : Bool :=
  !Cause l && !Failing l && match l with
    | .clientCloses => false
    | .sendTimeout => false
    | .hangupAlone => false
    | _ => true

structure Frame (s : St) : Prop where
  conn : s.c2s ≠ .off → s.att = true ∨ s.told ≠ []
  shut : s.shut = true → s.told ≠ []
  closed : s.closed = false
  past : s.c2s ≠ .off → s.main = .poll ∨ s.main = .stopping ∨ (∃ e, s.main = .disconnecting e) ∨ s.told ≠ []
  acking : ∀ w m p, s.s2c = .acking w m p → m ≠ .beat → s.att = true ∧ m = .new ∨ s.c2s = .off ∧ m ≠ .new ∨ s.told ≠ []
  gone : s.c2s ≠ .off → s.s2c = .gone → s.told ≠ []

set_option maxHeartbeats 2000000 in
theorem frame_step {s : St} {l : Label} {s' : St} (hT : Told False s) (hF : Frame s) (hl : Clean l = true) (h : step s l = some s') :
    Frame s' := by
  obtain ⟨inv, conn, busyNew, att, len, busyExit, gone, ackExit, busyMsg, ackMsg, ackNo, ctlBusy, det, ext, c2sDone, hbDone, stopping,
    disc, busyDisc, truth⟩ := hT
  obtain ⟨f1, f2, f3, f4, f5, f6⟩ := hF
  have hoff := inv.off
  have hcc := inv.ctlc
  have hcm := inv.ctlm
  have hch := inv.ctlh
  have hoc := inv.offc
  by_cases hn : l = .sendTimeout ∨ l = .ackTimeout ∨ l = .noticeGone
  · obtain ⟨w, m, b, o, hct, rfl, ho, hlo, hls⟩ := step_noack hn h
    have hfin := finish_fin o inv hct
    have hg : o ≠ .sendTimeout ∧ o ≠ .ackTimeout := by
      constructor
      · rintro rfl; rw [hls.mpr rfl] at hl; cases hl
      · rintro rfl; rw [hlo.mpr rfl] at hl; cases hl
    have hgone : s.s2c = .gone := by grind
    generalize s.finish w o = s' at *
    cases hfin <;> constructor <;> grind
  cases l
  case meet =>
    obtain ⟨w, m, hc, hs, rfl⟩ := step_meet h
    constructor <;> grind
  case s2cWorks =>
    obtain ⟨w, m, hs, rfl⟩ := step_works h
    have hd : Dead s → s.closed = true ∨ s.shut = true ∨ s.att = false ∨ w = .hb := fun h => by
      have := h.2.2
      grind [S2c.onBeat]
    rw [perform_eq]
    cases m <;> dsimp only <;> constructor <;> grind
  case ack =>
    obtain ⟨w, m, p, x, hct, hs, hx, rfl⟩ := step_ack h
    have hfin := finish_fin (s := { s with s2c := x }) (.acked p) (inv_s2c x inv) hct
    generalize { s with s2c := x }.finish w (.acked p) = s' at *
    cases hfin <;> constructor <;> grind
  case hangup =>
    have h1 := tell_told s
    simp only [step] at h
    repeat' split at h
    all_goals cases h
    · rw [tell_frame]
      constructor <;> grind
    · constructor <;> grind
  all_goals
    simp only [step] at h <;> (repeat' split at h) <;> (try cases h) <;> (try (simp only [Option.some.injEq] at h; subst h))
  all_goals first
    | (exfalso; simp at hn; done)
    | (exfalso; cases hl; done)
    | (constructor <;> grind [Clean, Cause, Failing])

end Shpool.Bidi
