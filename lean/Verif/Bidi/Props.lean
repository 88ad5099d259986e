import Verif.Bidi.Ends
import Verif.Bidi.Progress

/-!
# Properties of serving an attached client

* C94: the attached client is told the shell's exit status (the frames themselves are in `Verif/Spawn` and `Verif/Pipe`).
* C107: a client that is gone frees its session.
* C108: the status a client is told is true.
* C109: the session of a shell that exited while attached is removed.
* C110: a former client cannot type.
-/

namespace Shpool.Bidi

/-- The client is connected, its threads run. -/
def connect : List Label := [.mainLock, .meet, .s2cWorks, .ack, .c2sCompiles true, .c2sChecks, .hbPolls, .supChecks]

/-! ## C107 -/

/-- Whatever has happened, once the client has gone the daemon can end the request, which frees the session, by itself. -/
def C107_statement : Prop := ∀ ls s, Run ls s → s.closed = true →
  ∃ ls' s' r, runSteps step s ls' = some s' ∧ s'.main = .returned r ∧ ∀ l ∈ ls', Internal l = true

/-- A run in which the daemon is handing input to a shell that does not read it when the client goes. -/
def blockedRun : List Label := connect ++ [.clientSends 1, .c2sReads false, .clientCloses]

theorem writing_stays {s : St} {l : Label} {s' : St} {x : Nat} (hI : Inv s) (hl : Internal l = true) (hw : s.c2s = .writing x)
    (hh : s.hung = false) (h : step s l = some s') : s'.c2s = .writing x ∧ s'.hung = false := by
  have hoff := hI.off
  have hcc := hI.ctlc
  have hf : ∀ (x' : S2c) w m b o, s.ctl = some (w, m, b) →
      ({ s with s2c := x' }.finish w o).c2s = .writing x ∧ ({ s with s2c := x' }.finish w o).hung = false := by
    intro x' w m b o hc
    have hfin := finish_fin (s := { s with s2c := x' }) o (inv_s2c x' hI) hc
    generalize { s with s2c := x' }.finish w o = s' at *
    cases hfin <;> grind
  by_cases hn : l = .sendTimeout ∨ l = .ackTimeout ∨ l = .noticeGone
  · obtain ⟨w, m, b, o, hct, rfl, ho, hlo, hls⟩ := step_noack hn h
    exact hf s.s2c w m b o hct
  cases l
  case ack =>
    obtain ⟨w, m, p, x', hct, hs, hx, rfl⟩ := step_ack h
    exact hf x' w m true (.acked p) hct
  case s2cWorks =>
    obtain ⟨w, m, hs, rfl⟩ := step_works h
    rw [perform_frame]; exact ⟨hw, hh⟩
  all_goals
    simp only [step] at h <;> (repeat' split at h) <;> (try cases h) <;> (try (simp only [Option.some.injEq] at h; subst h))
  all_goals first
    | (exfalso; simp at hn; done)
    | (exfalso; cases hl; done)
    | (rw [tell_frame]; exact ⟨hw, hh⟩)
    | grind

theorem writing_forever {ls : List Label} {s s' : St} {x : Nat} (hI : Inv s) (hl : ∀ l ∈ ls, Internal l = true) (hw : s.c2s = .writing x)
    (hh : s.hung = false) (h : runSteps step s ls = some s') : s'.c2s = .writing x ∧ Inv s' := by
  induction ls generalizing s with
  | nil => cases h; exact ⟨hw, hI⟩
  | cons l ls ih =>
    obtain ⟨s1, h1, h2⟩ := run_cons_some h
    have := writing_stays hI (hl l (by simp)) hw hh h1
    exact ih (inv_step _ _ _ hI h1) (fun l' hl' => hl l' (by simp [hl'])) this.1 this.2 h2

/-- C107 is false: if the shell does not read its terminal, the daemon hangs in handing over what the client had typed; the session
stays occupied although its client is gone. -/
theorem C107_false : ¬ C107_statement := by
  intro hS
  obtain ⟨s, hs, hc, hw, hh⟩ : ∃ s, Run blockedRun s ∧ s.closed = true ∧ s.c2s = .writing 1 ∧ s.hung = false :=
    ⟨_, rfl, by decide, by decide, by decide⟩
  obtain ⟨ls', s', r, h1, h2, h3⟩ := hS _ _ hs hc
  have := writing_forever (inv_run hs) h3 hw hh h1
  have hr := (this.2.ret r h2).1
  rw [this.1] at hr
  cases hr

/-- A run in which the acknowledgement of a heartbeat is late, and then `shpool detach` is called. -/
def stuckRun : List Label := connect ++ [.hbWakes, .hbLock, .meet, .ackTimeout, .s2cWorks, .extAsks false, .clientCloses]

/-- `shpool detach` waits for the shell-to-client thread, which waits for somebody to take an acknowledgement. -/
def Stuck (s : St) : Prop := s.ctl = some (.ext false, .disc, false) ∧ (∃ p, s.s2c = .acking .hb .beat p) ∧
  (s.main = .poll ∨ s.main = .stopping ∨ ∃ e, s.main = .disconnecting e)

theorem stuck_step (s : St) (l : Label) (s' : St) (hS : Stuck s) (h : step s l = some s') : Stuck s' := by
  obtain ⟨h1, ⟨p, h2⟩, h3⟩ := hS
  unfold Stuck
  cases l <;> simp only [step, h1, h2] at h <;> (repeat' split at h) <;> (try cases h) <;>
    (try (simp only [Option.some.injEq] at h; subst h)) <;> grind [Who.timed]

/-- C107 is false also because of `shpool detach`, which waits without a limit: after a late acknowledgement it blocks the end of the
request for ever, whatever happens. -/
theorem C107_false_detach : ∃ s, Run stuckRun s ∧ s.closed = true ∧
    ∀ ls s' r, runSteps step s ls = some s' → s'.main ≠ .returned r := by
  refine ⟨_, rfl, by decide, fun ls s' r h hr => ?_⟩
  have := run_inv stuck_step (s := _) ⟨by decide, ⟨true, by decide⟩, by decide⟩ h
  obtain ⟨_, _, h3⟩ := this
  rw [hr] at h3
  grind

/-- C107, proved part: as long as no `shpool detach` interferes, the daemon can end the request of a client that is gone from every
state it can be in; it needs the shell (to read its terminal) only if input of the client is still on its way. -/
theorem C107_ends_partial {ls : List Label} {s : St} (h : Run ls s) (hd : .extAsks false ∉ ls) (hc : s.closed = true) :
    ∃ ls' s' r, runSteps step s ls' = some s' ∧ s'.main = .returned r ∧ (∀ l ∈ ls', Internal l = true ∨ l = .ptyTakes) ∧
      (s.inq = [] → (∀ x, s.c2s ≠ .writing x) → ∀ l ∈ ls', Internal l = true) := by
  have hT : Timed s := timed_run (s := init) ⟨by simp [init], by simp [init]⟩ hd h
  obtain ⟨ls', s', r, h1, h2, h3, h4⟩ := ends (rank s) s (Nat.le_refl _) (inv_run h) hT hc
  exact ⟨ls', s', r, h1, h2, h3, fun a b => h4 ⟨a, b⟩⟩

/-- A client leaves in the middle of a heartbeat while another request waits. -/
example : ∃ s, Run (connect ++ [.clientSends 5, .hbWakes, .hbLock, .clientCloses, .meet]) s ∧
    .extAsks false ∉ (connect ++ [.clientSends 5, .hbWakes, .hbLock, .clientCloses, .meet] : List Label) ∧ s.closed = true ∧
    s.inq = [5] := ⟨_, rfl, by simp [connect], by decide, by decide⟩

/-- Once the request has ended, none of its threads is left. -/
theorem C107_no_threads {ls : List Label} {s : St} {r : Option Bool} (h : Run ls s) (hr : s.main = .returned r) :
    (s.c2s = .off ∨ ∃ e, s.c2s = .done e) ∧ (s.hb = .off ∨ ∃ e, s.hb = .done e) ∧ (s.sup = .off ∨ s.sup = .done) := by
  obtain ⟨h1, h2, h3⟩ := (inv_run h).ret r hr
  refine ⟨?_, ?_, ?_⟩
  · revert h1; cases s.c2s <;> simp [C2s.ended]
  · revert h2; cases s.hb <;> simp [Hb.ended]
  · revert h3; cases s.sup <;> simp [Sup.ended]

/-- The end of a request after its client has gone. -/
def goneRun : List Label := connect ++ [.clientCloses, .c2sEof, .mainPolls, .mainLooks, .mainLock, .meet, .s2cWorks, .ack, .mainJoins,
  .hbPolls, .mainJoins, .supTimeout, .supChecks, .mainJoins, .mainJoins]

example : ∃ s, Run goneRun s ∧ s.main = .returned (some false) := ⟨_, rfl, by decide⟩

/-! ## C108 -/

/-- Somebody asked for the client to be detached. -/
def asked : Label → Bool
  | .c2sReads key => key
  | .extAsks _ => true
  | _ => false

/-- A client is told a status only if the shell exited with it, or, with 0, if somebody asked for the client to be detached. -/
def C108_statement : Prop := ∀ ls s, Run ls s → ∀ c ∈ s.told, s.exited = some c ∨ (c = 0 ∧ ∃ l ∈ ls, asked l = true)

/-- The shell exits with status 3; the daemon fails to hand it a key pressed meanwhile and takes that for the end of the attachment. -/
def falseZeroRun : List Label := connect ++ [.shellExits 3, .ptyCloses, .clientSends 1, .c2sReads false, .c2sWriteFails, .mainPolls,
  .mainLooks, .mainLock, .meet, .s2cWorks, .ack]

/-- C108 is false: a key pressed while the shell exits can make the client exit with status 0 although the shell failed and nobody
detached the client. -/
theorem C108_false : ¬ C108_statement := by
  intro hS
  obtain ⟨s, hs, ht, he⟩ : ∃ s, Run falseZeroRun s ∧ s.told = [0] ∧ s.exited = some 3 := ⟨_, rfl, by decide, by decide⟩
  have := hS _ _ hs 0 (by simp [ht])
  rw [he] at this
  simp [falseZeroRun, connect, asked] at this

/-- C108, proved part: a status the client is told is the shell's, or it is 0 and somebody asked for the client to be detached, the
configuration has malformed keybindings, or reading from the client or writing to the shell failed. -/
theorem C108_true_partial {ls : List Label} {s : St} (h : Run ls s) {c : Nat} (hc : c ∈ s.told) :
    s.exited = some c ∨ (c = 0 ∧ ∃ l ∈ ls, asked l = true ∨ l = .c2sCompiles false ∨ l = .c2sReadFails ∨ l = .c2sWriteFails) := by
  rcases (told_run h).truth c hc with h | ⟨h0, l, hl, hcs⟩
  · exact .inl h
  · refine .inr ⟨h0, l, hl, ?_⟩
    cases l <;> simp_all [Cause, asked]

/-- The client is told at most one status. -/
theorem C108_once {ls : List Label} {s : St} (h : Run ls s) : s.told.length ≤ 1 := (told_run h).len

/-- Detached by keys: the client is told 0. -/
def keyRun : List Label := connect ++ [.clientSends 1, .c2sReads true, .c2sLock, .meet, .s2cWorks, .ack, .mainPolls, .mainLooks, .mainLock,
  .meet, .s2cWorks, .ack, .mainJoins, .hbPolls, .mainJoins, .supTimeout, .supChecks, .mainJoins, .mainJoins]

/-- The shell exits: the client is told its status. -/
def exitRun : List Label := connect ++ [.shellExits 3, .supSees, .mainPolls, .mainLooks, .mainLock, .meet, .s2cWorks, .ack, .c2sEof,
  .mainJoins, .hbPolls, .mainJoins, .mainJoins, .mainJoins]

example : ∃ s, Run keyRun s ∧ s.told = [0] ∧ s.main = .returned (some false) ∧ s.exited = none := ⟨_, rfl, by decide, by decide, by decide⟩

example : ∃ s, Run exitRun s ∧ s.told = [3] ∧ s.main = .returned (some true) := ⟨_, rfl, by decide, by decide⟩

/-! ## C94 -/

/-- When a request is over whose client stayed to the end and whom nobody asked to detach, the client was told the status of the
shell. -/
def C94_statement : Prop := ∀ ls s r, Run ls s → s.main = .returned (some r) → s.closed = false → (∀ l ∈ ls, asked l = false) →
  ∃ c, s.exited = some c ∧ s.told = [c]

/-- The shell exits while the shell-to-client thread is busy, for example in writing to a slow terminal. -/
def slowRun : List Label := connect ++ [.shellExits 3, .supSees, .mainPolls, .mainLooks, .mainLock, .sendTimeout, .c2sEof, .mainJoins,
  .hbPolls, .mainJoins, .mainJoins, .mainJoins]

/-- C94 is false: if the thread that serves the client does not get to it within 300 ms, the connection is closed without telling the
client the status. -/
theorem C94_false : ¬ C94_statement := by
  intro hS
  obtain ⟨s, hs, hr, hc, ht⟩ : ∃ s, Run slowRun s ∧ s.main = .returned (some true) ∧ s.closed = false ∧ s.told = [] :=
    ⟨_, rfl, by decide, by decide, by decide⟩
  obtain ⟨c, _, h⟩ := hS _ _ true hs hr hc (by simp [slowRun, connect, asked])
  rw [ht] at h
  cases h

theorem frame_run {ls : List Label} : ∀ {s : St}, Run ls s → (∀ l ∈ ls, Clean l = true) → Frame s := by
  intro s h
  refine run_hist (I := fun (ls : List Label) (s : St) => (Run ls s) ∧ ((∀ l ∈ ls, Clean l = true) → Frame s))
    (fun ls s l s' hI h => ⟨?_, fun hl => ?_⟩) ⟨rfl, fun _ => ?_⟩ h |>.2
  · unfold Run at *
    rw [run_append, hI.1]
    simp [runSteps, h]
  · have hcl : ∀ l ∈ ls, Clean l = true := fun l' hl' => hl l' (by simp [hl'])
    have hT := told_run hI.1
    have hn : ¬ Caused ls := by
      rintro ⟨x, hx, hcx⟩
      have := hcl x hx
      simp [Clean, hcx] at this
    rw [eq_false hn] at hT
    exact frame_step hT (hI.2 hcl) (hl l (by simp)) h
  · constructor <;> simp [init]

/-- C94, proved part: in an undisturbed attachment (the client stays, nobody detaches it, no thread fails or waits too long, and the
shell does not outlive its terminal) the client was told the status of the shell when the request is over. -/
theorem C94_told_partial {ls : List Label} {s : St} {r : Bool} (h : Run ls s) (hr : s.main = .returned (some r))
    (hl : ∀ l ∈ ls, Clean l = true) : ∃ c, s.exited = some c ∧ s.told = [c] := by
  have hF := frame_run h hl
  have hT := told_run h
  have hoff := hT.inv.retb r hr
  have hne : s.told ≠ [] := by
    rcases hF.past (by rw [hoff.1]; simp) with h | h | ⟨e, h⟩ | h
    · rw [hr] at h; cases h
    · rw [hr] at h; cases h
    · rw [hr] at h; cases h
    · exact h
  have hlen := hT.len
  obtain ⟨c, hc⟩ : ∃ c, s.told = [c] := by
    match hs : s.told with
    | [] => exact absurd hs hne
    | [c] => exact ⟨c, rfl⟩
    | a :: b :: t => rw [hs] at hlen; simp at hlen
  refine ⟨c, ?_, hc⟩
  rcases hT.truth c (by simp [hc]) with h | ⟨_, x, hx, hcx⟩
  · exact h
  · have := hl x hx
    simp [Clean, hcx] at this

example : ∃ s, Run exitRun s ∧ s.main = .returned (some true) ∧ ∀ l ∈ exitRun, Clean l = true := ⟨_, rfl, by decide, by decide⟩

/-- The pty hangs up first, and the shell-to-client thread passes the status on. -/
example : ∃ s, Run (connect ++ [.shellExits 7, .ptyCloses, .hangup, .supSees, .mainPolls, .mainLooks, .mainLock, .noticeGone, .c2sEof,
    .mainJoins, .hbPolls, .mainJoins, .mainJoins, .mainJoins]) s ∧ s.main = .returned (some true) ∧ s.told = [7] :=
  ⟨_, rfl, by decide, by decide⟩

/-! ## C109 -/

/-- A session whose shell exits while the client is attached is removed from the table when the request ends. -/
def C109_statement : Prop := ∀ ls ls' s s' r, Run ls s → s.main = .poll → s.exited.isSome = true → runSteps step s ls' = some s' →
  s'.main = .returned r → removes r = true

/-- The part of `falseZeroRun` before the shell's exit is noticed, and the rest of the request. -/
def zombieRun : List Label := [.ptyCloses, .clientSends 1, .c2sReads false, .c2sWriteFails, .mainPolls,
  .mainLooks, .mainLock, .meet, .s2cWorks, .ack, .mainJoins, .hbPolls, .supSees, .mainJoins]

/-- C109 is false: after a key pressed while the shell exits the session stays in the table, without a shell. -/
theorem C109_false : ¬ C109_statement := by
  intro hS
  obtain ⟨s, s', hs, hm, he, hs', hr⟩ : ∃ s s', Run (connect ++ [Label.shellExits 3]) s ∧ s.main = .poll ∧ s.exited.isSome = true ∧
      runSteps step s zombieRun = some s' ∧ s'.main = .returned none := ⟨_, _, rfl, by decide, by decide, rfl, by decide⟩
  have := hS _ _ _ _ _ hs hm he hs' hr
  cases this

/-- The heartbeat notices the end of the shell-to-client thread before the supervisor has noticed the exit. -/
def raceRun : List Label := [.hangup, .hbWakes, .hbLock, .noticeGone, .mainPolls, .mainLooks, .mainLock, .noticeGone, .c2sEof, .mainJoins,
  .mainJoins, .supTimeout, .supChecks, .mainJoins, .mainJoins]

/-- C109 is false even if nothing fails: the threads may notice the exit in the wrong order. -/
theorem C109_false_race : ∃ s s', Run (connect ++ [.ptyCloses, .shellExits 3]) s ∧ s.main = .poll ∧ s.exited.isSome = true ∧
    runSteps step s raceRun = some s' ∧ s'.main = .returned (some false) ∧ removes (some false) = false ∧ s'.told = [3] ∧
    ∀ l ∈ raceRun, Clean l = true :=
  ⟨_, _, rfl, by decide, by decide, rfl, by decide, by decide, by decide, by decide⟩

/-- C109, proved part: if the supervisor noticed the exit, and no thread failed, waited in vain for an acknowledgement or got a detach
key sequence, the session is removed. -/
theorem C109_removed_partial {ls : List Label} {s : St} {r : Option Bool} (h : Run ls s) (hr : s.main = .returned r)
    (hs : .supSees ∈ ls) (hl : ∀ l ∈ ls, Failing l = false) : removes r = true := by
  have hc : s.childDone = true := (childDone_run h).mpr hs
  have hI := inv_run h
  have hsup := (hI.cdone hc).2
  have hoff : s.c2s ≠ .off := fun ho => by
    have := (hI.offc ho).2.2
    rw [hsup] at this
    cases this
  cases r with
  | none =>
    obtain ⟨x, hx, hf⟩ := (fails_run h).1.ret hr hoff
    rw [hl x hx] at hf
    cases hf
  | some b =>
    have := (hI.retb b hr).2.2.2
    rw [hc] at this
    subst this
    rfl

/-- The other direction holds always: a session is removed only after its shell has exited. -/
theorem C109_only_exited {ls : List Label} {s : St} {r : Option Bool} (h : Run ls s) (hr : s.main = .returned r)
    (hrm : removes r = true) : s.exited.isSome = true := by
  have hI := inv_run h
  cases r with
  | none => cases hrm
  | some b =>
    have hb : b = true := hrm
    have := (hI.retb b hr).2.2.2
    rw [hb] at this
    exact (hI.cdone this.symm).1

/-- C109, exactly: the session is removed if and only if the request ended without an error and its supervisor had noticed the exit. -/
theorem C109_exact {ls : List Label} {s : St} {r : Option Bool} (h : Run ls s) (hr : s.main = .returned r) :
    removes r = true ↔ r ≠ none ∧ .supSees ∈ ls := by
  rw [← childDone_run h]
  cases r with
  | none => exact ⟨fun e => (by cases e), fun e => absurd rfl e.1⟩
  | some b =>
    rw [← ((inv_run h).retb b hr).2.2.2]
    exact ⟨fun e => ⟨by simp, e⟩, fun e => e.2⟩

example : ∃ s, Run exitRun s ∧ s.main = .returned (some true) ∧ .supSees ∈ exitRun ∧ ∀ l ∈ exitRun, Failing l = false :=
  ⟨_, rfl, by decide, by decide, by decide⟩

/-! ## C110 -/

/-- What the client has sent. -/
def sent : List Label → List Nat
  | [] => []
  | .clientSends x :: ls => x :: sent ls
  | _ :: ls => sent ls

theorem sent_append (a b : List Label) : sent (a ++ b) = sent a ++ sent b := by
  induction a with
  | nil => rfl
  | cons l a ih => cases l <;> simp [sent, ih]

/-- What is being written to the pty. -/
def C2s.pending : C2s → List Nat
  | .writing x => [x]
  | _ => []

theorem ended_stays {s : St} {l : Label} {s' : St} (hI : Inv s) {r : Option Bool} (hr : s.main = .returned r) (h : step s l = some s') :
    s'.main = .returned r ∧ s'.out = s.out := by
  have hret := hI.ret r hr
  have hf : ∀ (x' : S2c) w m b o, s.ctl = some (w, m, b) →
      ({ s with s2c := x' }.finish w o).main = .returned r ∧ ({ s with s2c := x' }.finish w o).out = s.out := by
    intro x' w m b o hc
    have hfin := finish_fin (s := { s with s2c := x' }) o (inv_s2c x' hI) hc
    generalize { s with s2c := x' }.finish w o = s' at *
    cases hfin <;> grind
  by_cases hn : l = .sendTimeout ∨ l = .ackTimeout ∨ l = .noticeGone
  · obtain ⟨w, m, b, o, hct, rfl, ho, hlo, hls⟩ := step_noack hn h
    exact hf s.s2c w m b o hct
  cases l
  case ack =>
    obtain ⟨w, m, p, x', hct, hs, hx, rfl⟩ := step_ack h
    exact hf x' w m true (.acked p) hct
  case s2cWorks =>
    obtain ⟨w, m, hs, rfl⟩ := step_works h
    rw [perform_frame]; exact ⟨hr, rfl⟩
  all_goals
    simp only [step] at h <;> (repeat' split at h) <;> (try cases h) <;> (try (simp only [Option.some.injEq] at h; subst h))
  all_goals first
    | (exfalso; simp at hn; done)
    | (rw [tell_frame]; exact ⟨hr, rfl⟩)
    | grind [C2s.ended]

/-- C110: whatever a former client still sends, nothing of it reaches the shell once its request has ended, and the end is final. -/
theorem C110_former {ls ls' : List Label} {s s' : St} {r : Option Bool} (h : Run ls s) (hr : s.main = .returned r)
    (h' : runSteps step s ls' = some s') : s'.main = .returned r ∧ s'.out = s.out := by
  have : ∀ (ls : List Label) (s0 : St), Inv s0 → s0.main = .returned r → s0.out = s.out → runSteps step s0 ls = some s' →
      s'.main = .returned r ∧ s'.out = s.out := by
    intro ls
    induction ls with
    | nil => intro s0 _ h1 h2 h3; cases h3; exact ⟨h1, h2⟩
    | cons l ls ih =>
      intro s0 hI h1 h2 h3
      obtain ⟨s1, h4, h5⟩ := run_cons_some h3
      have h6 := ended_stays hI h1 h4
      exact ih s1 (inv_step _ _ _ hI h4) h6.1 (h6.2.trans h2) h5
  exact this ls' s (inv_run h) hr rfl h'

/-- C110: until then, the shell gets what the client sent, in the order in which it was sent, each item at most once; and all that was
read, unless the client detached by keys or a write failed. -/
theorem C110_own_input {ls : List Label} {s : St} (h : Run ls s) :
    (s.out ++ s.c2s.pending ++ s.inq).Sublist (sent ls) ∧
    ((∀ l ∈ ls, l ≠ .c2sReads true ∧ l ≠ .c2sWriteFails) → s.out ++ s.c2s.pending ++ s.inq = sent ls) := by
  refine (run_hist (I := fun (ls : List Label) (s : St) => Inv s ∧ ((s.out ++ s.c2s.pending ++ s.inq).Sublist (sent ls) ∧
    ((∀ l ∈ ls, l ≠ .c2sReads true ∧ l ≠ .c2sWriteFails) → s.out ++ s.c2s.pending ++ s.inq = sent ls)))
    (fun ls s l s' hI h => ⟨inv_step _ _ _ hI.1 h, ?_⟩) ⟨inv_init, by simp [init, sent, C2s.pending], fun _ => rfl⟩ h).2
  obtain ⟨hI, h1, h2⟩ := hI
  have hkeep : (s'.out ++ s'.c2s.pending ++ s'.inq = s.out ++ s.c2s.pending ++ s.inq) → sent [l] = [] →
      (s'.out ++ s'.c2s.pending ++ s'.inq).Sublist (sent (ls ++ [l])) ∧
      ((∀ l' ∈ ls ++ [l], l' ≠ .c2sReads true ∧ l' ≠ .c2sWriteFails) → s'.out ++ s'.c2s.pending ++ s'.inq = sent (ls ++ [l])) := by
    intro he hs
    rw [he, sent_append, hs, List.append_nil]
    exact ⟨h1, fun hl => h2 (fun l' hl' => hl l' (by simp [hl']))⟩
  have hoff := hI.off
  have hcc := hI.ctlc
  have hf : ∀ (x' : S2c) w m b o, s.ctl = some (w, m, b) →
      ({ s with s2c := x' }.finish w o).out ++ ({ s with s2c := x' }.finish w o).c2s.pending ++ ({ s with s2c := x' }.finish w o).inq =
      s.out ++ s.c2s.pending ++ s.inq := by
    intro x' w m b o hc
    have hfin := finish_fin (s := { s with s2c := x' }) o (inv_s2c x' hI) hc
    generalize { s with s2c := x' }.finish w o = s' at *
    cases hfin <;> grind [C2s.pending]
  by_cases hn : l = .sendTimeout ∨ l = .ackTimeout ∨ l = .noticeGone
  · obtain ⟨w, m, b, o, hct, rfl, ho, hlo, hls⟩ := step_noack hn h
    exact hkeep (hf s.s2c w m b o hct) (by rcases hn with rfl | rfl | rfl <;> rfl)
  cases l
  case ack =>
    obtain ⟨w, m, p, x', hct, hs, hx, rfl⟩ := step_ack h
    exact hkeep (hf x' w m true (.acked p) hct) rfl
  case s2cWorks =>
    obtain ⟨w, m, hs, rfl⟩ := step_works h
    exact hkeep (by rw [perform_frame]) rfl
  case clientSends x =>
    simp only [step] at h
    split at h
    · cases h
    · cases h
      rw [sent_append]
      simp only [sent, ← List.append_assoc]
      refine ⟨List.Sublist.append h1 (List.Sublist.refl _), fun hl => ?_⟩
      rw [h2 (fun l' hl' => hl l' (by simp [hl']))]
  case c2sReads key =>
    simp only [step] at h
    split at h
    · rename_i x q hc hq
      cases h
      cases key with
      | false => exact hkeep (by simp [hc, hq, C2s.pending]) rfl
      | true =>
        rw [sent_append]
        simp only [sent, List.append_nil]
        refine ⟨List.Sublist.trans ?_ h1, fun hl => absurd rfl (hl (.c2sReads true) (by simp)).1⟩
        simp [hc, hq, C2s.pending]
    · cases h
  case c2sWriteFails =>
    simp only [step] at h
    repeat' split at h
    all_goals cases h
    rename_i x hc _
    rw [sent_append]
    simp only [sent, List.append_nil]
    refine ⟨List.Sublist.trans ?_ h1, fun hl => absurd rfl (hl .c2sWriteFails (by simp)).2⟩
    simp [hc, C2s.pending]
  case ptyTakes =>
    simp only [step] at h
    repeat' split at h
    all_goals cases h
    rename_i x hc _
    exact hkeep (by simp [hc, C2s.pending]) rfl
  all_goals
    simp only [step] at h <;> (repeat' split at h) <;> (try cases h) <;> (try (simp only [Option.some.injEq] at h; subst h))
  all_goals first
    | (exfalso; simp at hn; done)
    | exact hkeep (by rw [tell_frame]) rfl
    | exact hkeep (by grind [C2s.pending]) rfl

/-- Three inputs, two of which have arrived when the client leaves. -/
example : ∃ s, Run (connect ++ [.clientSends 1, .clientSends 2, .clientSends 3, .c2sReads false, .ptyTakes, .c2sChecks, .c2sReads false,
    .ptyTakes, .clientCloses]) s ∧ s.out = [1, 2] ∧ s.inq = [3] := ⟨_, rfl, by decide, by decide⟩

/-- How much the client-to-shell thread may still write once it is told to stop. -/
private def C2s.left : C2s → Nat
  | .reading | .writing _ => 1
  | _ => 0

private theorem tell_same (s : St) (c : Nat) : (s.tell c).out = s.out ∧ (s.tell c).c2s = s.c2s ∧ (s.tell c).stop = s.stop := by
  unfold St.tell; split <;> exact ⟨rfl, rfl, rfl⟩

private theorem left_step {s s' : St} {l : Label} (h : step s l = some s') (hs : s.stop = true) :
    s'.stop = true ∧ s'.out.length + s'.c2s.left ≤ s.out.length + s.c2s.left := by
  have ht := tell_same
  cases l <;> simp only [step] at h <;> (repeat' (split at h)) <;> simp only [Option.some.injEq, reduceCtorEq] at h <;> subst h <;>
    simp_all [C2s.left, St.finish, St.perform] <;> (repeat' split) <;> simp_all [C2s.left]

/-- C110: once the request is ending (its client was replaced or detached, is gone, or the shell has exited), at most one more item of the
client's input reaches the shell. -/
theorem C110_at_most_one {s s' : St} {ls' : List Label} (hs : s.stop = true)
    (h' : runSteps step s ls' = some s') : s'.out.length ≤ s.out.length + 1 := by
  have key : s'.out.length + s'.c2s.left ≤ s.out.length + s.c2s.left := by
    induction ls' generalizing s with
    | nil => cases h'; exact Nat.le_refl _
    | cons l ls ih =>
      obtain ⟨s1, h1, h2⟩ := run_cons_some h'
      have := left_step h1 hs
      exact Nat.le_trans (ih this.1 h2) this.2
  have : s.c2s.left ≤ 1 := by cases s.c2s <;> simp [C2s.left]
  omega

/-- One item does reach it if the thread is already reading. -/
example : ∃ s s', Run (connect ++ [.clientSends 1, .clientSends 2, .shellExits 0, .supSees, .mainPolls]) s ∧ s.stop = true ∧
    s.out = [] ∧ runSteps step s [.c2sReads false, .ptyTakes, .c2sChecks] = some s' ∧ s'.out = [1] ∧ s'.c2s = .done .ok :=
  ⟨_, _, rfl, rfl, rfl, rfl, rfl, rfl⟩

end Shpool.Bidi
