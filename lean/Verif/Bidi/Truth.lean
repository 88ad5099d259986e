import Verif.Bidi.Told

/-! # The statuses the client is told are true -/

namespace Shpool.Bidi

/-- `Told` for the end of talking to the shell-to-client thread; `x` is the state of that thread then. -/
theorem told_finish {C C' : Prop} {s : St} {w : Who} {m : Msg} {b : Bool} (x : S2c) (o : Out) (hT : Told C s) (hcm : C → C')
    (hc : s.ctl = some (w, m, b)) (hI' : Inv ({ s with s2c := x }.finish w o))
    (hD' : Dead s → Dead ({ s with s2c := x }.finish w o))
    (hx : (∃ p, o = .acked p ∧ b = true ∧ s.s2c = .acking w m p ∧ (x = .gone ∧ (∃ c, m = .exit c) ∨ x = .free ∧ ∀ c, m ≠ .exit c)) ∨
      x = s.s2c ∧ ((o = .sendTimeout ∧ b = false) ∨ (o = .ackTimeout ∧ b = true) ∨
      (o = .goneAtSend ∧ b = false ∧ s.s2c = .gone) ∨ (o = .goneAtAck ∧ b = true ∧ s.s2c = .gone))) :
    Told C' ({ s with s2c := x }.finish w o) := by
  have hF := finish_fin (s := { s with s2c := x }) o (inv_s2c x hT.inv) hc
  generalize { s with s2c := x }.finish w o = s' at *
  obtain ⟨inv, conn, busyNew, att, len, busyExit, gone, ackExit, busyMsg, ackMsg, ackNo, ctlBusy, det, ext, c2sDone, hbDone, stopping, disc,
    busyDisc, truth⟩ := hT
  have hm := inv.ctlm
  have hh := inv.ctlh
  have hcc := inv.ctlc
  have he := inv.ctle
  cases hF
  case connected p hmc =>
    constructor <;> first | assumption | grind
  case refused hmc ho => constructor <;> first | assumption | grind
  case left e p hmc => constructor <;> first | assumption | grind
  case shut e hmc ho => constructor <;> first | assumption | grind
  case lost e hmc ho => constructor <;> first | assumption | grind
  case hbRest ho => constructor <;> first | assumption | grind
  case keyOk p => constructor <;> first | assumption | grind
  case keyErr ho => constructor <;> first | assumption | grind
  case ext t => constructor <;> first | assumption | grind
  case hbOk ho =>
    have hd : s.main = .poll → Dead { s with s2c := x, ctl := none, hb := .done .ok } := fun hp => dead_intro (by grind) (by grind) (by grind) (by grind [S2c.onBeat])
    constructor <;> first | assumption | grind
  case hbErr =>
    have hd : s.main = .poll → Dead { s with s2c := x, ctl := none, hb := .done .err } := fun hp => dead_intro (by grind) (by grind) (by grind) (by grind [S2c.onBeat])
    constructor <;> first | assumption | grind

theorem told_meet {C C' : Prop} {s s' : St} (hT : Told C s) (hcm : C → C') (hI' : Inv s') (hD' : Dead s → Dead s')
    (h : step s .meet = some s') : Told C' s' := by
  obtain ⟨w, m, hc, hs, rfl⟩ := step_meet h
  obtain ⟨inv, conn, busyNew, att, len, busyExit, gone, ackExit, busyMsg, ackMsg, ackNo, ctlBusy, det, ext, c2sDone, hbDone, stopping,
    disc, busyDisc, truth⟩ := hT
  have hm := inv.ctlm
  have hh := inv.ctlh
  have hcc := inv.ctlc
  have he := inv.ctle
  cases w <;> constructor <;> first | assumption | grind

theorem told_works {C C' : Prop} {s s' : St} (hT : Told C s) (hcm : C → C') (hI' : Inv s') (hD' : Dead s → Dead s')
    (h : step s .s2cWorks = some s') : Told C' s' := by
  obtain ⟨w, m, hs, rfl⟩ := step_works h
  rw [perform_eq] at *
  obtain ⟨inv, conn, busyNew, att, len, busyExit, gone, ackExit, busyMsg, ackMsg, ackNo, ctlBusy, det, ext, c2sDone, hbDone, stopping,
    disc, busyDisc, truth⟩ := hT
  have hd : Dead s → s.closed = true ∨ s.shut = true ∨ s.att = false ∨ w = .hb := fun h => by
    have := h.2.2
    grind [S2c.onBeat]
  cases m <;> dsimp only at * <;> constructor <;> first | assumption | grind

set_option maxHeartbeats 4000000 in
theorem told_step {ls : List Label} {s : St} {l : Label} {s' : St} (hT : Told (Caused ls) s) (h : step s l = some s') :
    Told (Caused (ls ++ [l])) s' := by
  have hcm : Caused ls → Caused (ls ++ [l]) := caused_mono l
  have hcl : Cause l = true → Caused (ls ++ [l]) := caused_last ls
  have hI' := inv_step s l s' hT.inv h
  have hD' : Dead s → Dead s' := fun hD => dead_step hT.inv hD h
  generalize Caused ls = C at *
  generalize Caused (ls ++ [l]) = C' at *
  by_cases hl : l = .sendTimeout ∨ l = .ackTimeout ∨ l = .noticeGone
  · obtain ⟨w, m, b, o, hct, rfl, ho, _⟩ := step_noack hl h
    exact told_finish s.s2c o hT hcm hct hI' hD' (.inr ⟨rfl, ho⟩)
  cases l
  case meet => exact told_meet hT hcm hI' hD' h
  case s2cWorks => exact told_works hT hcm hI' hD' h
  case ack =>
    obtain ⟨w, m, p, x, hct, hs, hx, rfl⟩ := step_ack h
    exact told_finish x _ hT hcm hct hI' hD' (.inl ⟨p, rfl, rfl, hs, hx⟩)
  case c2sEof =>
    obtain ⟨inv, conn, busyNew, att, len, busyExit, gone, ackExit, busyMsg, ackMsg, ackNo, ctlBusy, det, ext, c2sDone, hbDone, stopping,
      disc, busyDisc, truth⟩ := hT
    simp only [step] at h
    split at h
    · cases h
      have hd : s.main = .poll → Dead { s with c2s := .done .ok } := fun hp =>
        dead_intro (by grind) (by grind) (by grind) (by grind)
      constructor <;> first | assumption | grind
    · cases h
  case mainPolls =>
    obtain ⟨inv, conn, busyNew, att, len, busyExit, gone, ackExit, busyMsg, ackMsg, ackNo, ctlBusy, det, ext, c2sDone, hbDone, stopping,
      disc, busyDisc, truth⟩ := hT
    have hsd := inv.sdone
    have hsp := inv.poll
    have ho : s.over = true → s.main = .poll → s.childDone = true ∨ C ∨ Dead s := by
      unfold St.over; grind
    simp only [step] at h
    repeat' split at h
    all_goals cases h
    all_goals constructor <;> first | assumption | grind
  case hangup =>
    obtain ⟨inv, conn, busyNew, att, len, busyExit, gone, ackExit, busyMsg, ackMsg, ackNo, ctlBusy, det, ext, c2sDone, hbDone, stopping,
      disc, busyDisc, truth⟩ := hT
    simp only [step] at h
    repeat' split at h
    all_goals cases h
    · have h1 := tell_told s
      rw [tell_frame] at *
      constructor <;> first | assumption | grind
    · constructor <;> first | assumption | grind
  all_goals
    obtain ⟨inv, conn, busyNew, att, len, busyExit, gone, ackExit, busyMsg, ackMsg, ackNo, ctlBusy, det, ext, c2sDone, hbDone, stopping,
      disc, busyDisc, truth⟩ := hT
    simp only [step] at h <;> (repeat' split at h) <;> (try cases h) <;> (try (simp only [Option.some.injEq] at h; subst h))
  all_goals first
    | (exfalso; simp at hl; done)
    | (have hmm := inv.ctlm
       have hsp := inv.poll
       constructor <;> first | assumption | grind [Cause])

theorem told_run {ls : List Label} {s : St} (h : Run ls s) : Told (Caused ls) s :=
  run_hist (I := fun (ls : List Label) (s : St) => Told (Caused ls) s) (fun _ _ _ _ hT h => told_step hT h) (told_init _) h

end Shpool.Bidi
