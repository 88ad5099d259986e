import Verif.Bidi.Props

/-!
# C162: what a client had sent when it left

A user types ahead, or pastes, and closes the window.  What the client has sent is in the connection; the daemon reads it there even when the
other end is closed.
-/

namespace Shpool.Bidi

/-- Nothing but the client's leaving can end the request: no detach keys, no other request for the session, no malformed configuration, no
failing read or write, and the shell goes on. -/
def Undisturbed : Label → Bool
  | .shellExits _ => false
  | .ptyCloses => false
  | l => !Cause l

/-- Whatever an attached client has sent before it leaves has been written to the shell when its request is over. -/
def C162_statement : Prop := ∀ l1 l2 s1 s r, Run l1 s1 → s1.main = .poll → runSteps step s1 (.clientCloses :: l2) = some s →
  (∀ l ∈ l1 ++ l2, Undisturbed l = true) → s.main = .returned r → s.out = sent l1

/-- The client sends two pieces; the first is being written to the shell. -/
def typedAhead : List Label := connect ++ [.clientSends 1, .clientSends 2, .c2sReads false]

/-- It leaves.  A heartbeat finds it gone before the first piece has been taken. -/
def cutShort : List Label := [.hbWakes, .hbLock, .meet, .s2cWorks, .ack, .mainPolls, .ptyTakes, .c2sChecks, .mainLooks, .mainLock, .meet,
  .s2cWorks, .ack, .mainJoins, .mainJoins, .supTimeout, .supChecks, .mainJoins, .mainJoins]

/-- C162: false.  A heartbeat that finds the client gone ends the request, and what has not been read by then is thrown away. -/
theorem C162_false : ¬ C162_statement := by
  intro h
  have hr : Run typedAhead { init with main := .poll, c2s := .writing 1, hb := .sleeping, sup := .waiting false, att := true, inq := [2] } := rfl
  have := h typedAhead cutShort _ { init with
    main := .returned (some false), c2s := .done .ok, hb := .done .ok, sup := .done, closed := true, inq := [2], out := [1], stop := true,
    shut := true } (some false) hr rfl rfl (by decide) rfl
  exact absurd this (by decide)

/-! ## What is known while the client is served -/

/-- As long as the request is not ending and nothing has disturbed it. -/
structure Early (s : St) : Prop where
  shut : s.shut = false
  busy : ∀ w m, s.s2c = .busy w m → m = .new ∨ m = .beat
  ctl : ∀ w m b, s.ctl = some (w, m, b) → (w = .main ∧ m = .new) ∨ (w = .hb ∧ m = .beat)
  key : s.c2s ≠ .detaching
  run : ∀ e, s.c2s = .done e → s.closed = true ∧ s.inq = []

def St.before (s : St) : Prop := s.main = .connecting ∨ s.main = .poll

set_option maxHeartbeats 1000000 in
theorem early_step {s s' : St} {l : Label} (hI : Inv s) (hE : s.before → Early s) (hq : Undisturbed l = true) (h : step s l = some s') :
    s'.before → Early s' := by
  intro hb'
  have hoff := hI.off
  have hpoll := hI.poll
  have hctlm := hI.ctlm
  have e1 := fun h => (hE h).shut
  have e2 := fun h => (hE h).busy
  have e3 := fun h => (hE h).ctl
  have e4 := fun h => (hE h).key
  have e5 := fun h => (hE h).run
  have hf : ∀ (x' : S2c) w m b o, (∀ w m, x' = .busy w m → s.s2c = .busy w m) → s.ctl = some (w, m, b) →
      ({ s with s2c := x' }.finish w o).before → Early ({ s with s2c := x' }.finish w o) := by
    intro x' w m b o hx hc hb
    have hfin := finish_fin (s := { s with s2c := x' }) o (inv_s2c x' hI) hc
    generalize { s with s2c := x' }.finish w o = s' at *
    cases hfin <;> simp only [St.before] at * <;> constructor <;> grind
  by_cases hn : l = .sendTimeout ∨ l = .ackTimeout ∨ l = .noticeGone
  · obtain ⟨w, m, b, o, hct, rfl, ho, hlo, hls⟩ := step_noack hn h
    exact hf s.s2c w m b o (fun _ _ h => h) hct hb'
  cases l
  case ack =>
    obtain ⟨w, m, p, x', hct, hs, hx, rfl⟩ := step_ack h
    exact hf x' w m true (.acked p) (by grind) hct hb'
  case s2cWorks =>
    obtain ⟨w, m, hs, rfl⟩ := step_works h
    have hbe : s.before := by rw [perform_frame] at hb'; exact hb'
    have hE := hE hbe
    have := hE.busy w m hs
    rcases this with rfl | rfl <;> simp only [St.perform] <;> obtain ⟨a, b, c, d, e⟩ := hE <;> constructor <;> grind
  all_goals
    simp only [step] at h <;> (repeat' split at h) <;> (try cases h) <;> (try (simp only [Option.some.injEq] at h; subst h))
  all_goals first
    | (exfalso; simp at hn; done)
    | (exfalso; revert hq; simp [Undisturbed, Cause]; done)
    | (rw [tell_frame] at hb' ⊢; have hE := hE hb'; obtain ⟨a, b, c, d, e⟩ := hE; constructor <;> grind)
    | (simp only [St.before] at *; constructor <;> grind [Undisturbed, Cause])

theorem early_run {ls : List Label} {s : St} (h : Run ls s) (hq : ∀ l ∈ ls, Undisturbed l = true) : s.before → Early s := by
  refine (run_hist (I := fun ls s => Inv s ∧ ((∀ l ∈ ls, Undisturbed l = true) → s.before → Early s))
    (fun ls s l s' hI h => ⟨inv_step _ _ _ hI.1 h, fun hq => early_step hI.1 (hI.2 fun l hl => hq l (by simp [hl])) (hq l (by simp)) h⟩)
    ⟨inv_init, fun _ _ => ?_⟩ h).2 hq
  constructor <;> simp [init]

/-! ## No heartbeat comes in between -/

/-- The client is gone; if the daemon has stopped reading, nothing is left. -/
structure Draining (s : St) : Prop where
  inv : Inv s
  closed : s.closed = true
  exited : s.exited = none
  started : s.main ≠ .connecting ∧ s.c2s ≠ .off
  key : s.c2s ≠ .detaching
  beat : s.hb = .rest ∨ s.hb = .sleeping ∨ ∃ e, s.hb = .done e ∧ s.stop = true
  stop : s.stop = true → ∃ e, s.c2s = .done e
  read : ∀ e, s.c2s = .done e → s.inq = []

set_option maxHeartbeats 1000000 in
theorem draining_step {s s' : St} {l : Label} (hD : Draining s) (hq : Undisturbed l = true) (hw : l ≠ .hbWakes) (h : step s l = some s') :
    Draining s' := by
  have hI' := inv_step _ _ _ hD.inv h
  obtain ⟨hI, hcl, hex, hst, hkey, hbeat, hstop, hread⟩ := hD
  have hcd := hI.cdone
  have hsd := hI.sdone
  have hctlm := hI.ctlm
  have hctlc := hI.ctlc
  have hctlh := hI.ctlh
  have hf : ∀ (x' : S2c) w m b o, s.ctl = some (w, m, b) → Inv ({ s with s2c := x' }.finish w o) → Draining ({ s with s2c := x' }.finish w o) := by
    intro x' w m b o hc hI'
    have hfin := finish_fin (s := { s with s2c := x' }) o (inv_s2c x' hI) hc
    generalize { s with s2c := x' }.finish w o = s' at *
    cases hfin <;> constructor <;> first | assumption | grind
  by_cases hn : l = .sendTimeout ∨ l = .ackTimeout ∨ l = .noticeGone
  · obtain ⟨w, m, b, o, hct, rfl, ho, hlo, hls⟩ := step_noack hn h
    exact hf s.s2c w m b o hct hI'
  cases l
  case ack =>
    obtain ⟨w, m, p, x', hct, hs, hx, rfl⟩ := step_ack h
    exact hf x' w m true (.acked p) hct hI'
  case s2cWorks =>
    obtain ⟨w, m, hs, rfl⟩ := step_works h
    rw [perform_frame] at hI' ⊢
    constructor <;> assumption
  case mainPolls =>
    simp only [step] at h
    repeat' split at h
    all_goals cases h
    · rename_i hm ho
      simp only [St.over] at ho
      constructor <;> first | assumption | grind
    · constructor <;> first | assumption | grind
  all_goals
    simp only [step] at h <;> (repeat' split at h) <;> (try cases h) <;> (try (simp only [Option.some.injEq] at h; subst h))
  all_goals first
    | (exfalso; simp at hn; done)
    | (exfalso; exact hw rfl)
    | (exfalso; revert hq; simp [Undisturbed, Cause]; done)
    | (rw [tell_frame] at hI' ⊢; constructor <;> first | assumption | grind)
    | (constructor <;> first | assumption | grind [Undisturbed, Cause])

theorem draining_run {ls : List Label} {s s' : St} (hD : Draining s) (hq : ∀ l ∈ ls, Undisturbed l = true) (hw : .hbWakes ∉ ls)
    (h : runSteps step s ls = some s') : Draining s' := by
  induction ls generalizing s with
  | nil => cases h; exact hD
  | cons l ls ih =>
    obtain ⟨s1, h1, h2⟩ := run_cons_some h
    exact ih (draining_step hD (hq l (by simp)) (by grind) h1) (fun l hl => hq l (by simp [hl])) (by grind) h2

private theorem sent_closed {ls : List Label} {s s' : St} (hc : s.closed = true) (h : runSteps step s ls = some s') : sent ls = [] := by
  have key : ∀ (s s' : St) l, s.closed = true → step s l = some s' → s'.closed = true ∧ sent [l] = [] := by
    intro s s' l hc h
    have ht : ∀ (s : St) c, (s.tell c).closed = s.closed := fun s c => by rw [tell_frame]
    cases l <;> simp only [step] at h <;> (repeat' (split at h)) <;> simp only [Option.some.injEq, reduceCtorEq] at h <;> (try subst h) <;>
      simp_all [sent, St.finish, St.perform] <;> (repeat' split) <;> simp_all
  induction ls generalizing s with
  | nil => rfl
  | cons l ls ih =>
    obtain ⟨s1, h1, h2⟩ := run_cons_some h
    have := key _ _ _ hc h1
    have h3 := sent_append [l] ls
    rw [this.2, ih this.1 h2] at h3
    simpa using h3

private theorem all_read {l1 l2 : List Label} {s1 s : St} (h1 : Run l1 s1) (h2 : runSteps step s1 (.clientCloses :: l2) = some s)
    (hq : ∀ l ∈ l1 ++ l2, Undisturbed l = true) : s.out ++ s.c2s.pending ++ s.inq = sent l1 := by
  have hr : Run (l1 ++ .clientCloses :: l2) s := by simp only [Run, run_append]; rw [show runSteps step init l1 = some s1 from h1]; exact h2
  have := (C110_own_input hr).2 (fun l hl => by
    have : l = .clientCloses ∨ Undisturbed l = true := by
      simp only [List.mem_append, List.mem_cons] at hl hq
      grind
    rcases this with rfl | h
    · simp
    · constructor <;> (rintro rfl; simp [Undisturbed, Cause] at h))
  rw [this, sent_append]
  obtain ⟨s2, h3, h4⟩ := run_cons_some h2
  have hc : s2.closed = true := by
    simp only [step] at h3
    split at h3
    · cases h3
    · cases h3; rfl
  simp only [sent, sent_closed hc h4, List.append_nil]

/-- C162: if the time for the next heartbeat does not come before the request is over, everything the client had sent has been written to the
shell: the request is not over before the daemon has read the connection to its end. -/
theorem C162_partial {l1 l2 : List Label} {s1 s : St} {r : Option Bool} (h1 : Run l1 s1) (hm : s1.main = .poll)
    (hbeat : s1.hb = .rest ∨ s1.hb = .sleeping) (h2 : runSteps step s1 (.clientCloses :: l2) = some s)
    (hq : ∀ l ∈ l1 ++ l2, Undisturbed l = true) (hw : .hbWakes ∉ l2) (hr : s.main = .returned r) : s.out = sent l1 := by
  have hE := early_run h1 (fun l hl => hq l (by simp [hl])) (.inr hm)
  have hI := inv_run h1
  have hex : s1.exited = none := by
    refine (run_hist (I := fun ls s => (∀ l ∈ ls, Undisturbed l = true) → s.exited = none) (fun ls s l s' hI h hq => ?_) (fun _ => rfl) h1)
      (fun l hl => hq l (by simp [hl]))
    have h0 := hI (fun l hl => hq l (by simp [hl]))
    have hql := hq l (by simp)
    have ht : ∀ (s : St) c, (s.tell c).exited = s.exited := fun s c => by rw [tell_frame]
    cases l <;> simp only [step] at h <;> (repeat' (split at h)) <;> simp only [Option.some.injEq, reduceCtorEq] at h <;> (try subst h) <;>
      simp_all [St.finish, St.perform, Undisturbed] <;> (repeat' split) <;> simp_all
  obtain ⟨s2, h3, h4⟩ := run_cons_some h2
  have hD : Draining s2 := by
    have hI2 := inv_step _ _ _ hI h3
    simp only [step] at h3
    split at h3
    · cases h3
    · rename_i hcl
      cases h3
      have hpoll := hI.poll hm
      have hoff := hI.offc
      obtain ⟨a, b, c, d, e⟩ := hE
      constructor <;> first | assumption | grind
  have hD' := draining_run hD (fun l hl => hq l (by simp [hl])) hw h4
  have hret := hD'.inv.ret r hr
  obtain ⟨e, he⟩ : ∃ e, s.c2s = .done e := by
    have := hD'.started.2
    have := hret.1
    cases hc : s.c2s <;> simp_all [C2s.ended]
  have := all_read h1 h2 hq
  rw [he, hD'.read e he] at this
  simpa [C2s.pending] using this

/-- Both pieces arrive. -/
example : ∃ s, runSteps step init (typedAhead ++ .clientCloses :: [.ptyTakes, .c2sChecks, .c2sReads false, .ptyTakes, .c2sChecks, .c2sEof,
    .mainPolls, .mainLooks, .mainLock, .meet, .s2cWorks, .ack, .mainJoins, .hbPolls, .mainJoins, .supTimeout, .supChecks, .mainJoins,
    .mainJoins]) = some s ∧ s.main = .returned (some false) ∧ s.out = [1, 2] := ⟨_, rfl, rfl, rfl⟩

/-! ## Even if one does -/

/-- C162: what is thrown away is always an end of what was sent. -/
theorem C162_end_only {l1 l2 : List Label} {s1 s : St} {r : Option Bool} (h1 : Run l1 s1) (hm : s1.main = .poll)
    (h2 : runSteps step s1 (.clientCloses :: l2) = some s) (hq : ∀ l ∈ l1 ++ l2, Undisturbed l = true) (hr : s.main = .returned r) :
    s.out <+: sent l1 := by
  have hr' : Run (l1 ++ .clientCloses :: l2) s := by simp only [Run, run_append]; rw [show runSteps step init l1 = some s1 from h1]; exact h2
  have := all_read h1 h2 hq
  have hp : s.c2s.pending = [] := by
    have := ((inv_run hr').ret r hr).1
    cases hc : s.c2s <;> simp_all [C2s.ended, C2s.pending]
  rw [hp, List.append_nil] at this
  exact ⟨s.inq, this⟩

/-- The piece `x` is about to be read, is being written, or has been written, after `out`. -/
private def Coming (out : List Nat) (x : Nat) (s : St) : Prop :=
  (s.c2s = .reading ∧ s.out = out ∧ ∃ q, s.inq = x :: q) ∨ (s.c2s = .writing x ∧ s.out = out) ∨ ∃ q, s.out = out ++ x :: q

set_option maxHeartbeats 1000000 in
private theorem coming_step {out : List Nat} {x : Nat} {s s' : St} {l : Label} (hI : Inv s) (hC : Coming out x s) (hq : Undisturbed l = true)
    (h : step s l = some s') : Coming out x s' := by
  have hctlc := hI.ctlc
  have hoff := hI.off
  have hf : ∀ (x' : S2c) w m b o, s.ctl = some (w, m, b) → Coming out x ({ s with s2c := x' }.finish w o) := by
    intro x' w m b o hc
    have hfin := finish_fin (s := { s with s2c := x' }) o (inv_s2c x' hI) hc
    generalize { s with s2c := x' }.finish w o = s' at *
    cases hfin <;> simp only [Coming] at * <;> grind
  by_cases hn : l = .sendTimeout ∨ l = .ackTimeout ∨ l = .noticeGone
  · obtain ⟨w, m, b, o, hct, rfl, ho, hlo, hls⟩ := step_noack hn h
    exact hf s.s2c w m b o hct
  cases l
  case ack =>
    obtain ⟨w, m, p, x', hct, hs, hx, rfl⟩ := step_ack h
    exact hf x' w m true (.acked p) hct
  case s2cWorks =>
    obtain ⟨w, m, hs, rfl⟩ := step_works h
    rw [perform_frame]; exact hC
  case ptyTakes =>
    simp only [step] at h
    repeat' split at h
    all_goals cases h
    rename_i y hc _
    rcases hC with ⟨h1, -, -⟩ | ⟨h1, h2⟩ | ⟨q, h2⟩
    · rw [hc] at h1; cases h1
    · rw [hc] at h1; cases h1
      exact .inr (.inr ⟨[], by simp [h2]⟩)
    · exact .inr (.inr ⟨q ++ [y], by simp [h2]⟩)
  case clientSends y =>
    simp only [step] at h
    split at h
    · cases h
    · cases h
      rcases hC with ⟨h1, h2, q, h3⟩ | h1 | h1
      · exact .inl ⟨h1, h2, q ++ [y], by simp [h3]⟩
      · exact .inr (.inl h1)
      · exact .inr (.inr h1)
  all_goals
    simp only [step] at h <;> (repeat' split at h) <;> (try cases h) <;> (try (simp only [Option.some.injEq] at h; subst h))
  all_goals first
    | (exfalso; simp at hn; done)
    | (exfalso; revert hq; simp [Undisturbed, Cause]; done)
    | (rw [tell_frame]; exact hC)
    | (simp only [Coming] at *; grind [Undisturbed, Cause])

/-- C162: the piece that the daemon's reader finds when it waits for input is never among what is thrown away, whatever else happens to the
request in the meantime. -/
theorem C162_next {ls ls' : List Label} {s s' : St} {x : Nat} {q : List Nat} {r : Option Bool} (h : Run ls s) (hc : s.c2s = .reading)
    (hx : s.inq = x :: q) (h' : runSteps step s ls' = some s') (hq : ∀ l ∈ ls', Undisturbed l = true) (hr : s'.main = .returned r) :
    s.out ++ [x] <+: s'.out := by
  have key : ∀ (ls' : List Label) (s0 : St), Inv s0 → Coming s.out x s0 → runSteps step s0 ls' = some s' → (∀ l ∈ ls', Undisturbed l = true) →
      Inv s' ∧ Coming s.out x s' := by
    intro ls'
    induction ls' with
    | nil => intro s0 hI hC h _; cases h; exact ⟨hI, hC⟩
    | cons l ls' ih =>
      intro s0 hI hC h hq
      obtain ⟨s1, h1, h2⟩ := run_cons_some h
      exact ih s1 (inv_step _ _ _ hI h1) (coming_step hI hC (hq l (by simp)) h1) h2 (fun l hl => hq l (by simp [hl]))
  obtain ⟨hI, hC⟩ := key ls' s (inv_run h) (.inl ⟨hc, rfl, q, hx⟩) h' hq
  have hret := (hI.ret r hr).1
  rcases hC with ⟨h1, -, -⟩ | ⟨h1, -⟩ | ⟨q, h1⟩
  · rw [h1] at hret; cases hret
  · rw [h1] at hret; cases hret
  · exact ⟨q, by simp [h1]⟩

/-- One piece is sent just before the client leaves, and a heartbeat finds it gone at once. -/
example : ∃ s s', Run (connect ++ [.clientSends 7, .clientCloses, .hbWakes, .hbLock, .meet, .s2cWorks, .ack, .mainPolls]) s ∧
    s.c2s = .reading ∧ s.inq = [7] ∧ s.stop = true ∧
    runSteps step s [.mainLooks, .mainLock, .meet, .s2cWorks, .ack, .c2sReads false, .ptyTakes, .c2sChecks, .mainJoins, .mainJoins, .supTimeout,
      .supChecks, .mainJoins, .mainJoins] = some s' ∧ s'.main = .returned (some false) ∧ s'.out = [7] := ⟨_, _, rfl, rfl, rfl, rfl, rfl, rfl, rfl⟩

/-! ## Exactly when something is thrown away -/

/-- The client is gone, its request has begun and no detach key was pressed. -/
structure Gone (s : St) : Prop where
  inv : Inv s
  closed : s.closed = true
  started : s.main ≠ .connecting ∧ s.c2s ≠ .off
  key : s.c2s ≠ .detaching

set_option maxHeartbeats 1000000 in
theorem gone_step {s s' : St} {l : Label} (hG : Gone s) (hq : Undisturbed l = true) (h : step s l = some s') :
    Gone s' ∧ (∀ e, s.c2s = .done e → s'.c2s = .done e ∧ s'.inq = s.inq) ∧
      ∀ e, s'.c2s = .done e → (∃ e, s.c2s = .done e) ∨ s'.inq = [] ∨ l = .c2sChecks ∧ s.stop = true ∧ s'.inq = s.inq := by
  have hI' := inv_step _ _ _ hG.inv h
  obtain ⟨hI, hcl, hst, hkey⟩ := hG
  have hctlm := hI.ctlm
  have hctlc := hI.ctlc
  have hf : ∀ (x' : S2c) w m b o, s.ctl = some (w, m, b) → Inv ({ s with s2c := x' }.finish w o) →
      Gone ({ s with s2c := x' }.finish w o) ∧ ({ s with s2c := x' }.finish w o).c2s = s.c2s ∧
        ({ s with s2c := x' }.finish w o).inq = s.inq := by
    intro x' w m b o hc hI'
    have hfin := finish_fin (s := { s with s2c := x' }) o (inv_s2c x' hI) hc
    generalize { s with s2c := x' }.finish w o = s' at *
    cases hfin <;> refine ⟨⟨?_, ?_, ?_, ?_⟩, ?_, ?_⟩ <;> first | assumption | grind
  by_cases hn : l = .sendTimeout ∨ l = .ackTimeout ∨ l = .noticeGone
  · obtain ⟨w, m, b, o, hct, rfl, ho, hlo, hls⟩ := step_noack hn h
    obtain ⟨g1, g2, g3⟩ := hf s.s2c w m b o hct hI'
    exact ⟨g1, fun e he => ⟨g2.trans he, g3⟩, fun e he => .inl ⟨e, g2.symm.trans he⟩⟩
  cases l
  case ack =>
    obtain ⟨w, m, p, x', hct, hs, hx, rfl⟩ := step_ack h
    obtain ⟨g1, g2, g3⟩ := hf x' w m true (.acked p) hct hI'
    exact ⟨g1, fun e he => ⟨g2.trans he, g3⟩, fun e he => .inl ⟨e, g2.symm.trans he⟩⟩
  case s2cWorks =>
    obtain ⟨w, m, hs, rfl⟩ := step_works h
    rw [perform_frame] at hI' ⊢
    exact ⟨⟨hI', hcl, hst, hkey⟩, fun e he => ⟨he, rfl⟩, fun e he => .inl ⟨e, he⟩⟩
  all_goals
    simp only [step] at h <;> (repeat' split at h) <;> (try cases h) <;> (try (simp only [Option.some.injEq] at h; subst h))
  all_goals first
    | (exfalso; simp at hn; done)
    | (exfalso; revert hq; simp [Undisturbed, Cause]; done)
    | (rw [tell_frame] at hI' ⊢; exact ⟨⟨hI', hcl, hst, hkey⟩, fun e he => ⟨he, rfl⟩, fun e he => .inl ⟨e, he⟩⟩)
    | (refine ⟨⟨hI', ?_, ?_, ?_⟩, ?_, ?_⟩ <;> grind [Undisturbed, Cause])

theorem gone_run {ls : List Label} {s s' : St} (hG : Gone s) (hq : ∀ l ∈ ls, Undisturbed l = true) (h : runSteps step s ls = some s') :
    Gone s' := by
  induction ls generalizing s with
  | nil => cases h; exact hG
  | cons l ls ih =>
    obtain ⟨s1, h1, h2⟩ := run_cons_some h
    exact ih (gone_step hG (hq l (by simp)) h1).1 (fun l hl => hq l (by simp [hl])) h2

/-- Once the reader has ended it stays so, and what it has not read by then it never reads. -/
theorem gone_done {ls : List Label} {s s' : St} (hG : Gone s) (hq : ∀ l ∈ ls, Undisturbed l = true) {e : End} (he : s.c2s = .done e)
    (h : runSteps step s ls = some s') : s'.inq = s.inq := by
  induction ls generalizing s with
  | nil => cases h; rfl
  | cons l ls ih =>
    obtain ⟨s1, h1, h2⟩ := run_cons_some h
    obtain ⟨g1, g2, -⟩ := gone_step hG (hq l (by simp)) h1
    exact (ih g1 (fun l hl => hq l (by simp [hl])) (g2 e he).1 h2).trans (g2 e he).2

/-- If the reader has ended and left something, it looked at the flag then, and the flag was up. -/
theorem gone_left {ls : List Label} {s s' : St} (hG : Gone s) (hq : ∀ l ∈ ls, Undisturbed l = true) (hn : ∀ e, s.c2s ≠ .done e)
    (h : runSteps step s ls = some s') {e : End} (he : s'.c2s = .done e) (hi : s'.inq ≠ []) :
    ∃ pre post t, ls = pre ++ .c2sChecks :: post ∧ runSteps step s pre = some t ∧ t.stop = true ∧ t.inq ≠ [] := by
  induction ls generalizing s with
  | nil => cases h; exact absurd he (hn e)
  | cons l ls ih =>
    obtain ⟨s1, h1, h2⟩ := run_cons_some h
    obtain ⟨g1, -, g3⟩ := gone_step hG (hq l (by simp)) h1
    have hq' : ∀ l ∈ ls, Undisturbed l = true := fun l hl => hq l (by simp [hl])
    by_cases hd : ∃ e, s1.c2s = .done e
    · obtain ⟨e1, he1⟩ := hd
      have hi1 := gone_done g1 hq' he1 h2
      rcases g3 e1 he1 with ⟨e0, h0⟩ | h0 | ⟨rfl, h0, h0'⟩
      · exact absurd h0 (hn e0)
      · rw [hi1] at hi; exact absurd h0 hi
      · exact ⟨[], ls, s, rfl, rfl, h0, by rw [← h0', ← hi1]; exact hi⟩
    · obtain ⟨pre, post, t, e1, e2, e3⟩ := ih g1 hq' (fun e he => hd ⟨e, he⟩) h2
      exact ⟨l :: pre, post, t, by rw [e1]; rfl, by simp only [runSteps, h1]; exact e2, e3⟩

/-- C162, exactly: part of what the client had sent is missing iff the daemon's reader, having written a piece, found the request ending while
there was more to read. -/
theorem C162_exact {l1 l2 : List Label} {s1 s : St} {r : Option Bool} (h1 : Run l1 s1) (hm : s1.main = .poll)
    (h2 : runSteps step s1 (.clientCloses :: l2) = some s) (hq : ∀ l ∈ l1 ++ l2, Undisturbed l = true) (hr : s.main = .returned r) :
    s.out ≠ sent l1 ↔ ∃ pre post t, l2 = pre ++ .c2sChecks :: post ∧ runSteps step s1 (.clientCloses :: pre) = some t ∧
      t.stop = true ∧ t.inq ≠ [] := by
  have hE := early_run h1 (fun l hl => hq l (by simp [hl])) (.inr hm)
  have hI := inv_run h1
  have hr' : Run (l1 ++ .clientCloses :: l2) s := by simp only [Run, run_append]; rw [show runSteps step init l1 = some s1 from h1]; exact h2
  obtain ⟨s2, h3, h4⟩ := run_cons_some h2
  have hq2 : ∀ l ∈ l2, Undisturbed l = true := fun l hl => hq l (by simp [hl])
  obtain ⟨hG, hnd⟩ : Gone s2 ∧ ∀ e, s2.c2s ≠ .done e := by
    have hI2 := inv_step _ _ _ hI h3
    simp only [step] at h3
    split at h3
    · cases h3
    · rename_i hcl
      cases h3
      have hoff := hI.offc
      obtain ⟨a, b, c, d, e⟩ := hE
      refine ⟨⟨hI2, rfl, ?_, d⟩, ?_⟩ <;> grind
  have hall := all_read h1 h2 hq
  have hend := ((inv_run hr').ret r hr).1
  have hp : s.c2s.pending = [] := by cases hc : s.c2s <;> simp_all [C2s.ended, C2s.pending]
  rw [hp, List.append_nil] at hall
  have hiff : s.out ≠ sent l1 ↔ s.inq ≠ [] := by
    rw [← hall]
    constructor
    · intro h hi; rw [hi] at h; simp at h
    · intro h hi; exact h (by simpa using hi)
  rw [hiff]
  constructor
  · intro hi
    have hG' : Gone s := gone_run hG hq2 h4
    obtain ⟨e, he⟩ : ∃ e, s.c2s = .done e := by
      have := hG'.started.2
      cases hc : s.c2s <;> simp_all [C2s.ended]
    obtain ⟨pre, post, t, e1, e2, e3⟩ := gone_left hG hq2 hnd h4 he hi
    exact ⟨pre, post, t, e1, by simp only [runSteps, h3]; exact e2, e3⟩
  · rintro ⟨pre, post, t, rfl, ht, hstop, hti⟩
    obtain ⟨s2', h3', ht⟩ := run_cons_some ht
    rw [h3] at h3'; cases h3'
    obtain ⟨t', e1, e2⟩ := run_append_some h4
    rw [ht] at e1; cases e1
    obtain ⟨u, e3, e4⟩ := run_cons_some e2
    have hGt := gone_run hG (fun l hl => hq2 l (by simp [hl])) ht
    have hGu := (gone_step hGt rfl e3).1
    simp only [step, hstop] at e3
    split at e3
    · cases e3
      rw [gone_done hGu (fun l hl => hq2 l (by simp [hl])) (e := .ok) rfl e4]
      exact hti
    · cases e3

/-- The witness of `C162_false` from this side. -/
example : ∃ t, runSteps step init (typedAhead ++ .clientCloses :: [.hbWakes, .hbLock, .meet, .s2cWorks, .ack, .mainPolls, .ptyTakes]) = some t ∧
    t.stop = true ∧ t.inq = [2] := ⟨_, rfl, rfl, rfl⟩

/-! ## A reader that reads to the end -/

/-- The same daemon with a reader that does not look at the flag (shell.rs 843-846 left out): it ends when the connection does. -/
def stepToEnd (s : St) : Label → Option St
  | .c2sChecks => if s.c2s = .top then some { s with c2s := .reading } else none
  | l => step s l

def RunToEnd (ls : List Label) (s : St) : Prop := runSteps stepToEnd init ls = some s

theorem toEnd_other {s : St} {l : Label} (h : l ≠ .c2sChecks) : stepToEnd s l = step s l := by
  cases l <;> first | rfl | exact absurd rfl h

theorem toEnd_checks {s s' : St} (h : stepToEnd s .c2sChecks = some s') : s.c2s = .top ∧ s' = { s with c2s := .reading } := by
  simp only [stepToEnd] at h
  split at h
  · cases h; exact ⟨by assumption, rfl⟩
  · cases h

theorem toEnd_inv (s : St) (l : Label) (s' : St) (hI : Inv s) (h : stepToEnd s l = some s') : Inv s' := by
  by_cases hl : l = .c2sChecks
  · subst hl
    obtain ⟨hc, rfl⟩ := toEnd_checks h
    obtain ⟨off, offc, offh, offs, joinH, joinS, final, ret, retb, poll, later, cdone, sdone, ctlm, ctlc, ctlh, disc, ctle⟩ := hI
    constructor <;> first | assumption | grind [C2s.ended, Hb.ended, Sup.ended]
  · rw [toEnd_other hl] at h; exact inv_step _ _ _ hI h

set_option maxHeartbeats 1000000 in
/-- One step of an undisturbed request: what has been sent is written, is being written, or waits to be read. -/
theorem kept_step {s s' : St} {l : Label} (hI : Inv s) (hq : Undisturbed l = true) (h : step s l = some s') :
    s'.out ++ s'.c2s.pending ++ s'.inq = (s.out ++ s.c2s.pending ++ s.inq) ++ sent [l] := by
  have hoff := hI.off
  have hcc := hI.ctlc
  have hf : ∀ (x' : S2c) w m b o, s.ctl = some (w, m, b) →
      ({ s with s2c := x' }.finish w o).out ++ ({ s with s2c := x' }.finish w o).c2s.pending ++ ({ s with s2c := x' }.finish w o).inq =
      s.out ++ s.c2s.pending ++ s.inq := by
    intro x' w m b o hc
    have hfin := finish_fin (s := { s with s2c := x' }) o (inv_s2c x' hI) hc
    generalize { s with s2c := x' }.finish w o = s' at *
    cases hfin <;> grind [C2s.pending]
  by_cases hn : l = .sendTimeout ∨ l = .ackTimeout ∨ l = .noticeGone
  · obtain ⟨w, m, b, o, hct, rfl, ho, hlo, hls⟩ := step_noack hn h
    have : sent [l] = [] := by rcases hn with rfl | rfl | rfl <;> rfl
    rw [this, List.append_nil]
    exact hf s.s2c w m b o hct
  cases l
  case ack =>
    obtain ⟨w, m, p, x', hct, hs, hx, rfl⟩ := step_ack h
    simp only [sent, List.append_nil]
    exact hf x' w m true (.acked p) hct
  case s2cWorks =>
    obtain ⟨w, m, hs, rfl⟩ := step_works h
    rw [perform_frame]; simp [sent]
  all_goals
    simp only [step] at h <;> (repeat' split at h) <;> (try cases h) <;> (try (simp only [Option.some.injEq] at h; subst h))
  all_goals first
    | (exfalso; simp at hn; done)
    | (exfalso; revert hq; simp [Undisturbed, Cause]; done)
    | (rw [tell_frame]; simp [sent]; done)
    | (simp_all [sent, C2s.pending, Undisturbed, Cause]; done)
    | (simp only [sent]; grind [C2s.pending, Undisturbed, Cause])

set_option maxHeartbeats 1000000 in
/-- The reader ends only at the end of the connection. -/
theorem end_step {s s' : St} {l : Label} (hI : Inv s) (hl : l ≠ .c2sChecks) (hq : Undisturbed l = true) (h : step s l = some s')
    (hcl : s.closed = true) (hst : s.main ≠ .connecting) (hkey : s.c2s ≠ .detaching) (hno : s.c2s ≠ .off)
    (hread : ∀ e, s.c2s = .done e → s.inq = []) :
    s'.closed = true ∧ s'.main ≠ .connecting ∧ s'.c2s ≠ .detaching ∧ s'.c2s ≠ .off ∧ ∀ e, s'.c2s = .done e → s'.inq = [] := by
  have hctlm := hI.ctlm
  have hctlc := hI.ctlc
  have hf : ∀ (x' : S2c) w m b o, s.ctl = some (w, m, b) → ({ s with s2c := x' }.finish w o).closed = true ∧
      ({ s with s2c := x' }.finish w o).main ≠ .connecting ∧ ({ s with s2c := x' }.finish w o).c2s ≠ .detaching ∧
      ({ s with s2c := x' }.finish w o).c2s ≠ .off ∧ ∀ e, ({ s with s2c := x' }.finish w o).c2s = .done e → ({ s with s2c := x' }.finish w o).inq = [] := by
    intro x' w m b o hc
    have hfin := finish_fin (s := { s with s2c := x' }) o (inv_s2c x' hI) hc
    generalize { s with s2c := x' }.finish w o = s' at *
    cases hfin <;> grind
  by_cases hn : l = .sendTimeout ∨ l = .ackTimeout ∨ l = .noticeGone
  · obtain ⟨w, m, b, o, hct, rfl, ho, hlo, hls⟩ := step_noack hn h
    exact hf s.s2c w m b o hct
  cases l
  case ack =>
    obtain ⟨w, m, p, x', hct, hs, hx, rfl⟩ := step_ack h
    exact hf x' w m true (.acked p) hct
  case s2cWorks =>
    obtain ⟨w, m, hs, rfl⟩ := step_works h
    rw [perform_frame]; exact ⟨hcl, hst, hkey, hno, hread⟩
  all_goals
    simp only [step] at h <;> (repeat' split at h) <;> (try cases h) <;> (try (simp only [Option.some.injEq] at h; subst h))
  all_goals first
    | (exfalso; simp at hn; done)
    | (exfalso; exact hl rfl)
    | (exfalso; revert hq; simp [Undisturbed, Cause]; done)
    | (rw [tell_frame]; exact ⟨hcl, hst, hkey, hno, hread⟩)
    | grind [Undisturbed, Cause]

/-- C162: with a reader that reads to the end, whatever an attached client has sent before it leaves has been written to the shell when its
request is over. -/
theorem C162_repaired {l1 l2 : List Label} {s1 s : St} {r : Option Bool} (h1 : RunToEnd l1 s1) (hm : s1.main = .poll)
    (h2 : runSteps stepToEnd s1 (.clientCloses :: l2) = some s) (hq : ∀ l ∈ l1 ++ l2, Undisturbed l = true) (hr : s.main = .returned r) :
    s.out = sent l1 := by
  -- up to the moment the client leaves
  obtain ⟨hI1, hE1, hk1⟩ : Inv s1 ∧ (s1.before → Early s1) ∧ s1.out ++ s1.c2s.pending ++ s1.inq = sent l1 := by
    have := run_hist (I := fun ls s => (∀ l ∈ ls, Undisturbed l = true) →
        Inv s ∧ (s.before → Early s) ∧ s.out ++ s.c2s.pending ++ s.inq = sent ls)
      (fun ls s l s' hI h hq => by
        obtain ⟨hI, hE, hk⟩ := hI (fun l hl => hq l (by simp [hl]))
        have hql := hq l (by simp)
        refine ⟨toEnd_inv _ _ _ hI h, ?_⟩
        by_cases hl : l = .c2sChecks
        · subst hl
          obtain ⟨hc, rfl⟩ := toEnd_checks h
          refine ⟨fun hb => ?_, ?_⟩
          · obtain ⟨a, b, c, d, e⟩ := hE hb
            constructor <;> first | assumption | grind
          · rw [sent_append, ← hk, hc]; simp [C2s.pending, sent]
        · rw [toEnd_other hl] at h
          exact ⟨early_step hI hE hql h, by rw [sent_append, ← hk]; exact kept_step hI hql h⟩)
      (fun _ => ⟨inv_init, fun _ => by constructor <;> simp [init], rfl⟩) h1
    exact this (fun l hl => hq l (by simp [hl]))
  have hE := hE1 (.inr hm)
  obtain ⟨s2, h3, h4⟩ := run_cons_some h2
  have h20 : Inv s2 ∧ s2.closed = true ∧ s2.main ≠ .connecting ∧ s2.c2s ≠ .detaching ∧ s2.c2s ≠ .off ∧ (∀ e, s2.c2s = .done e → s2.inq = []) ∧
      s2.out ++ s2.c2s.pending ++ s2.inq = sent l1 := by
    have hI2 := toEnd_inv _ _ _ hI1 h3
    have hoff := hI1.offc
    simp only [stepToEnd, step] at h3
    split at h3
    · cases h3
    · cases h3
      obtain ⟨a, b, c, d, e⟩ := hE
      refine ⟨hI2, rfl, ?_, d, ?_, ?_, hk1⟩ <;> grind
  clear h2 h3
  have key : ∀ (ls : List Label) (s2 : St), (Inv s2 ∧ s2.closed = true ∧ s2.main ≠ .connecting ∧ s2.c2s ≠ .detaching ∧ s2.c2s ≠ .off ∧
      (∀ e, s2.c2s = .done e → s2.inq = []) ∧ s2.out ++ s2.c2s.pending ++ s2.inq = sent l1) → runSteps stepToEnd s2 ls = some s →
      (∀ l ∈ ls, Undisturbed l = true) → Inv s ∧ s.c2s ≠ .off ∧ (∀ e, s.c2s = .done e → s.inq = []) ∧
      s.out ++ s.c2s.pending ++ s.inq = sent l1 := by
    intro ls
    induction ls with
    | nil => intro s2 ⟨a, b, c, d, e, f, g⟩ h _; cases h; exact ⟨a, e, f, g⟩
    | cons l ls ih =>
      intro s2 ⟨a, b, c, d, e, f, g⟩ h hq
      obtain ⟨s3, h5, h6⟩ := run_cons_some h
      have hI3 := toEnd_inv _ _ _ a h5
      have hql := hq l (by simp)
      refine ih s3 ⟨hI3, ?_⟩ h6 (fun l hl => hq l (by simp [hl]))
      by_cases hl : l = .c2sChecks
      · subst hl
        obtain ⟨hc, rfl⟩ := toEnd_checks h5
        exact ⟨b, c, by simp, by simp, by simp, by rw [← g, hc]; simp [C2s.pending]⟩
      · rw [toEnd_other hl] at h5
        obtain ⟨x1, x2, x3, x4, x5⟩ := end_step a hl hql h5 b c d e f
        refine ⟨x1, x2, x3, x4, x5, ?_⟩
        · have hs : sent [l] = [] := by
            cases l <;> first | rfl | (simp only [step, b] at h5; cases h5)
          rw [kept_step a hql h5, hs, List.append_nil, g]
  obtain ⟨hI, hno, hread, hall⟩ := key l2 s2 h20 h4 (fun l hl => hq l (by simp [hl]))
  have hret := (hI.ret r hr).1
  obtain ⟨e, he⟩ : ∃ e, s.c2s = .done e := by cases hc : s.c2s <;> simp_all [C2s.ended]
  rw [he, hread e he] at hall
  simpa [C2s.pending] using hall

/-- The run above, with a reader that reads to the end. -/
example : ∃ s, runSteps stepToEnd init (typedAhead ++ .clientCloses :: [.hbWakes, .hbLock, .meet, .s2cWorks, .ack, .mainPolls, .ptyTakes,
    .c2sChecks, .mainLooks, .mainLock, .meet, .s2cWorks, .ack, .c2sReads false, .ptyTakes, .c2sChecks, .c2sEof, .mainJoins, .mainJoins,
    .supTimeout, .supChecks, .mainJoins, .mainJoins]) = some s ∧ s.main = .returned (some false) ∧ s.out = [1, 2] := ⟨_, rfl, rfl, rfl⟩

end Shpool.Bidi
