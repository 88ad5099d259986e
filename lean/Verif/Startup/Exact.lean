import Verif.Startup.Props
/-!
# What is behind every failed client and every lost file (C63, C84, C85)
-/

namespace Shpool.Startup

/-- Takes apart the branches of a step. -/
local macro "branches" h:ident : tactic =>
  `(tactic| ((repeat' split at $h:ident) <;> first | (cases $h:ident; done) | (cases $h:ident) | contradiction))

/-! ## Specification -/

/-- In the history `ls` there was a moment with `P` at which `x` happened and led to `Q`. -/
def Moment (ls : List Label) (P : St → Prop) (x : Label) (Q : St → Prop) : Prop :=
  ∃ before after s s', ls = before ++ x :: after ∧ Run before s ∧ P s ∧ step s x = some s' ∧ Q s'

theorem Moment.snoc {ls : List Label} {P Q : St → Prop} {x : Label} (l : Label) (h : Moment ls P x Q) : Moment (ls ++ [l]) P x Q := by
  obtain ⟨a, b, s, s', rfl, h⟩ := h
  exact ⟨a, b ++ [l], s, s', by simp, h⟩

theorem Moment.now {ls : List Label} {P Q : St → Prop} {x : Label} {s s' : St} (h : Run ls s) (hp : P s) (hs : step s x = some s') (hq : Q s') :
    Moment (ls ++ [x]) P x Q := ⟨ls, [], s, s', rfl, h, hp, hs, hq⟩

private theorem run_snoc {ls : List Label} {s s' : St} {l : Label} (h : Run ls s) (hs : step s l = some s') : Run (ls ++ [l]) s' := by
  unfold Run at h ⊢
  rw [run_append, h]
  simp [runSteps, hs]

/-! ## C84 -/

private def Behind (c : Nat) (ls : List Label) (s : St) : Prop :=
  Run ls s ∧
  let lost := ∃ x, x ≠ .client c ∧ Moment ls (fun s => s.cli c = .stale ∧ s.sock.isSome) x (fun s => s.sock = none)
  (s.cli c = .stale → s.sock.isSome ∨ lost) ∧ (s.cli c = .failed → lost)

/-- What a step of somebody else does to a client. -/
private theorem cli_other {s s' : St} {l : Label} {c : Nat} (hl : l ≠ .client c) (h : step s l = some s') : s'.cli c = s.cli c := by
  cases l with
  | client c' =>
    have hc : c ≠ c' := fun e => hl (by rw [e])
    simp only [step, clientStep] at h; branches h <;> simp [setCli, hc]
  | start d auto => simp only [step] at h; branches h; rfl
  | go d =>
    simp only [step, daemonStep] at h
    cases hd : s.dae d <;> simp only [hd] at h <;> branches h <;> rfl
  | term d => simp only [step] at h; branches h; rfl
  | crash d => simp only [step] at h; branches h <;> rfl

private theorem step_behind (c : Nat) (ls : List Label) (s : St) (l : Label) (s' : St) (hI : Behind c ls s) (h : step s l = some s') :
    Behind c (ls ++ [l]) s' := by
  obtain ⟨hr, h1, h2⟩ := hI
  refine ⟨run_snoc hr h, ?_⟩
  have up : (∃ x, x ≠ .client c ∧ Moment ls (fun s => s.cli c = .stale ∧ s.sock.isSome) x (fun s => s.sock = none)) →
      ∃ x, x ≠ .client c ∧ Moment (ls ++ [l]) (fun s => s.cli c = .stale ∧ s.sock.isSome) x (fun s => s.sock = none) :=
    fun ⟨x, hx, hm⟩ => ⟨x, hx, hm.snoc l⟩
  by_cases hl : l = .client c
  · subst hl
    simp only [step, clientStep] at h
    cases hc : s.cli c with
    | idle =>
      simp only [hc, connect] at h
      cases hs : s.sock with
      | none =>
        simp only [hs] at h; cases h
        constructor <;> (intro e; simp [setCli] at e)
      | some d =>
        simp only [hs] at h
        branches h
        all_goals
          refine ⟨fun e => ?_, fun e => ?_⟩
          · first | (simp [setCli] at e; done) | exact .inl (by simp [setCli, hs])
          · simp [setCli] at e
    | stale =>
      simp only [hc] at h
      cases hs : s.sock with
      | none =>
        simp only [hs] at h; cases h
        refine ⟨fun e => ?_, fun _ => ?_⟩
        · simp [setCli] at e
        · rcases h1 hc with h | h
          · rw [hs] at h; cases h
          · exact up h
      | some d =>
        simp only [hs] at h; cases h
        constructor <;> (intro e; simp [setCli] at e)
    | launching =>
      simp only [hc] at h; cases h
      constructor <;> (intro e; simp [setCli] at e)
    | ready => simp only [hc] at h; cases h
    | failed => simp only [hc] at h; cases h
  · have hc := cli_other hl h
    refine ⟨fun e => ?_, fun e => up (h2 (hc ▸ e))⟩
    rw [hc] at e
    rcases h1 e with hs | hs
    · cases hs' : s'.sock with
      | some d => exact .inl rfl
      | none => exact .inr ⟨l, hl, .now hr ⟨e, hs⟩ h hs'⟩
    · exact .inr (up hs)

/-- **C84 (cause)**: whenever a client is turned away, a daemon had crashed, the client had found its socket file left over, and somebody else
removed the file before the client did. -/
theorem C84_cause {ls : List Label} {s : St} (h : Run ls s) {c : Nat} (hf : s.cli c = .failed) :
    (∃ d, .crash d ∈ ls) ∧ ∃ x, x ≠ .client c ∧ Moment ls (fun s => s.cli c = .stale ∧ s.sock.isSome) x (fun s => s.sock = none) := by
  refine ⟨?_, ?_⟩
  · refine Classical.byContradiction fun hn => (C84_no_crash_partial h (fun d hd => hn ⟨d, hd⟩) c).1 hf
  · exact (run_hist (I := Behind c) (step_behind c) ⟨rfl, by simp [init], by simp [init]⟩ h).2.2 hf

example : ∃ s, Run twoClients s ∧ s.cli 1 = .failed := ⟨_, rfl, rfl⟩

/-! ## C63, C85 -/

/-- The phases of a daemon between its having made the file and its beginning to leave. -/
def keepsEv : Phase → Bool
  | .check | .removing | .binding | .serving => true
  | _ => false

private theorem ev_step {s s' : St} {l : Label} {d : Nat} (h : step s l = some s') (hk : keepsEv (s'.dae d) = true) :
    (l = .go d ∧ s'.ev = some d) ∨ (keepsEv (s.dae d) = true ∧ (l = .go d → s'.ev = s.ev)) := by
  cases l with
  | client c => simp only [step, clientStep] at h; branches h <;> exact .inr ⟨hk, fun e => by cases e⟩
  | start e auto =>
    simp only [step] at h
    branches h
    simp only [setDae, upd_apply] at hk
    split at hk
    · cases hk
    · exact .inr ⟨hk, fun e => by cases e⟩
  | go e =>
    simp only [step, daemonStep] at h
    by_cases hde : d = e
    · subst hde
      cases hd : s.dae d <;> simp only [hd] at h <;> branches h <;> simp [setDae, keepsEv] at hk ⊢
    · refine .inr ⟨?_, fun e1 => by cases e1; exact absurd rfl hde⟩
      cases hd : s.dae e <;> simp only [hd] at h <;> branches h <;> simpa [setDae, hde] using hk
  | term e =>
    simp only [step] at h
    branches h
    simp only [setDae, upd_apply] at hk
    split at hk
    · cases hk
    · exact .inr ⟨hk, fun e => by cases e⟩
  | crash e =>
    simp only [step] at h
    branches h <;> simp only [setDae, upd_apply] at hk <;> split at hk <;>
      first | (cases hk; done) | exact .inr ⟨hk, fun e => by cases e⟩

private theorem ev_by_daemon {s s' : St} {l : Label} (h : step s l = some s') (he : s'.ev ≠ s.ev) : ∃ e, l = .go e := by
  cases l with
  | client c => simp only [step, clientStep] at h; branches h <;> exact absurd rfl he
  | start e auto => simp only [step] at h; branches h; exact absurd rfl he
  | go e => exact ⟨e, rfl⟩
  | term e => simp only [step] at h; branches h; exact absurd rfl he
  | crash e => simp only [step] at h; branches h <;> exact absurd rfl he

/-- **C85 (cause, events)**: in every history, crashes included: a serving daemon without its events socket has had it taken away by a step of
another daemon. -/
theorem C85_events_cause {ls : List Label} {s : St} (h : Run ls s) {d : Nat} (hd : s.dae d = .serving) (he : s.ev ≠ some d) :
    ∃ e, e ≠ d ∧ Moment ls (fun s => s.ev = some d) (.go e) (fun s => s.ev ≠ some d) := by
  have := run_hist (I := fun ls s => Run ls s ∧ (keepsEv (s.dae d) = true → s.ev = some d ∨
    ∃ e, e ≠ d ∧ Moment ls (fun s => s.ev = some d) (.go e) (fun s => s.ev ≠ some d))) ?_ ⟨rfl, by simp [init, keepsEv]⟩ h
  · exact (this.2 (by rw [hd]; rfl)).resolve_left he
  · rintro ls s l s' ⟨hr, hI⟩ hs
    refine ⟨run_snoc hr hs, fun hk => ?_⟩
    rcases ev_step hs hk with ⟨_, h1⟩ | ⟨h1, h2⟩
    · exact .inl h1
    · rcases hI h1 with h3 | ⟨e, h3, h4⟩
      · by_cases h5 : s'.ev = some d
        · exact .inl h5
        · right
          obtain ⟨e, rfl⟩ := ev_by_daemon hs (by rw [h3]; exact h5)
          refine ⟨e, ?_, .now hr h3 hs h5⟩
          rintro rfl
          exact h5 (by rw [h2 rfl, h3])
      · exact .inr ⟨e, h3, h4.snoc l⟩

example : ∃ s, Run second s ∧ s.dae 0 = .serving ∧ s.ev ≠ some 0 := ⟨_, rfl, rfl, by decide⟩

private theorem sock_step {s s' : St} {l : Label} {d : Nat} (h : step s l = some s') (hk : s'.dae d = .serving) :
    (l = .go d ∧ s'.sock = some d) ∨ (s.dae d = .serving ∧ l ≠ .go d) := by
  cases l with
  | client c => simp only [step, clientStep] at h; branches h <;> exact .inr ⟨hk, fun e => by cases e⟩
  | start e auto =>
    simp only [step] at h
    branches h
    simp only [setDae, upd_apply] at hk
    split at hk
    · cases hk
    · exact .inr ⟨hk, fun e => by cases e⟩
  | go e =>
    simp only [step, daemonStep] at h
    by_cases hde : d = e
    · subst hde
      cases hd : s.dae d <;> simp only [hd] at h <;> branches h <;> simp [setDae] at hk ⊢ <;> split at hk <;> cases hk
    · refine .inr ⟨?_, fun e1 => by cases e1; exact absurd rfl hde⟩
      cases hd : s.dae e <;> simp only [hd] at h <;> branches h <;> simpa [setDae, hde] using hk
  | term e =>
    simp only [step] at h
    branches h
    simp only [setDae, upd_apply] at hk
    split at hk
    · cases hk
    · exact .inr ⟨hk, fun e => by cases e⟩
  | crash e =>
    simp only [step] at h
    branches h <;> simp only [setDae, upd_apply] at hk <;> split at hk <;>
      first | (cases hk; done) | exact .inr ⟨hk, fun e => by cases e⟩

/-- Who takes a socket file away that is there: a client that has found nobody listening on it, a daemon that has, or the signal handler of a
daemon. -/
private theorem sock_by {s s' : St} {l : Label} {d : Nat} (h : step s l = some s') (hs : s.sock = some d) (hs' : s'.sock ≠ some d) :
    (∃ c, l = .client c ∧ s.cli c = .stale) ∨ (∃ e, l = .go e ∧ (s.dae e = .removing ∨ s.dae e = .term1)) := by
  cases l with
  | client c =>
    left
    refine ⟨c, rfl, ?_⟩
    simp only [step, clientStep] at h
    cases hc : s.cli c <;> simp only [hc] at h <;> branches h <;> first | rfl | exact absurd hs hs'
  | start e auto => simp only [step] at h; branches h; exact absurd hs hs'
  | go e =>
    right
    refine ⟨e, rfl, ?_⟩
    simp only [step, daemonStep] at h
    cases hd : s.dae e <;> simp only [hd] at h <;> branches h <;> first | exact .inl rfl | exact .inr rfl | exact absurd hs hs' | skip
    all_goals simp_all
  | term e => simp only [step] at h; branches h; exact absurd hs hs'
  | crash e => simp only [step] at h; branches h <;> exact absurd hs hs'

/-- Somebody takes away the file of the control socket on which daemon `d` serves: a client or a daemon that found nobody listening before, or
the signal handler of another daemon. -/
def TakenFrom (d : Nat) (ls : List Label) : Prop :=
  ∃ x, x ≠ .go d ∧ Moment ls
    (fun s => s.dae d = .serving ∧ s.sock = some d ∧
      ((∃ c, x = .client c ∧ s.cli c = .stale) ∨ (∃ e, x = .go e ∧ (s.dae e = .removing ∨ s.dae e = .term1))))
    x (fun s => s.sock ≠ some d)

/-- **C85 (cause, control socket)**: in every history, crashes included. -/
theorem C85_control_cause {ls : List Label} {s : St} (h : Run ls s) {d : Nat} (hd : s.dae d = .serving) (he : s.sock ≠ some d) :
    TakenFrom d ls := by
  have := run_hist (I := fun ls s => Run ls s ∧ (s.dae d = .serving → s.sock = some d ∨ TakenFrom d ls)) ?_ ⟨rfl, by simp [init]⟩ h
  · exact (this.2 hd).resolve_left he
  · rintro ls s l s' ⟨hr, hI⟩ hs
    refine ⟨run_snoc hr hs, fun hk => ?_⟩
    rcases sock_step hs hk with ⟨_, h1⟩ | ⟨h1, h2⟩
    · exact .inl h1
    · rcases hI h1 with h3 | ⟨x, h3, h4⟩
      · by_cases h5 : s'.sock = some d
        · exact .inl h5
        · exact .inr ⟨l, h2, .now hr ⟨h1, h3, sock_by hs h3 h5⟩ hs h5⟩
      · exact .inr ⟨x, h3, h4.snoc l⟩

/-- **C63 (cause)**: whenever two daemons serve, a daemon had crashed, and the file of the control socket of one of the two was taken away by
somebody who had found nobody listening on the path before that daemon came up, or by the signal handler of a daemon. -/
theorem C63_cause {ls : List Label} {s : St} (h : Run ls s) {d e : Nat} (hd : s.dae d = .serving) (he : s.dae e = .serving) (hne : d ≠ e) :
    (∃ f, .crash f ∈ ls) ∧ (TakenFrom d ls ∨ TakenFrom e ls) := by
  refine ⟨?_, ?_⟩
  · exact Classical.byContradiction fun hn => hne (C63_one_daemon_partial h (fun f hf => hn ⟨f, hf⟩) d e hd he).1
  · by_cases hs : s.sock = some d
    · right
      refine C85_control_cause h he ?_
      rw [hs]
      exact fun e => hne (Option.some.inj e)
    · exact .inl (C85_control_cause h hd hs)

example : ∃ s, Run twoDaemons s ∧ s.dae 1 = .serving ∧ s.dae 2 = .serving := ⟨_, rfl, rfl, rfl⟩

/-! The pid file. -/

def keepsPid : Phase → Bool
  | .idle | .starting | .gone => false
  | _ => true

private theorem pid_step {s s' : St} {l : Label} {d : Nat} (h : step s l = some s') (hk : keepsPid (s'.dae d) = true) (ha : s'.auto d = true) :
    s'.pid.isSome ∨ (keepsPid (s.dae d) = true ∧ s.auto d = true ∧ (l = .go d → s'.pid = s.pid)) := by
  cases l with
  | client c => simp only [step, clientStep] at h; branches h <;> exact .inr ⟨hk, ha, fun e => by cases e⟩
  | start e auto =>
    simp only [step] at h
    branches h
    simp only [setDae, upd_apply] at hk ha
    split at hk
    · cases hk
    · rename_i hne
      rw [if_neg hne] at ha
      exact .inr ⟨hk, ha, fun e => by cases e⟩
  | go e =>
    simp only [step, daemonStep] at h
    by_cases hde : d = e
    · subst hde
      have hau : s'.auto d = s.auto d := by
        cases hd : s.dae d <;> simp only [hd] at h <;> branches h <;> rfl
      rw [hau] at ha
      cases hd : s.dae d <;> simp only [hd, ha] at h <;> branches h <;> simp_all [setDae, keepsPid]
    · have hau : s'.auto d = s.auto d := by
        cases hd : s.dae e <;> simp only [hd] at h <;> branches h <;> rfl
      refine .inr ⟨?_, hau ▸ ha, fun e1 => by cases e1; exact absurd rfl hde⟩
      cases hd : s.dae e <;> simp only [hd] at h <;> branches h <;> simpa [setDae, hde] using hk
  | term e =>
    simp only [step] at h
    branches h
    rename_i he
    simp only [setDae, upd_apply] at hk ha
    refine .inr ⟨?_, ha, fun e => by cases e⟩
    split at hk
    · rename_i h1; rw [h1, he]; rfl
    · exact hk
  | crash e =>
    simp only [step] at h
    branches h <;> simp only [setDae, upd_apply] at hk ha <;> split at hk <;>
      first | (cases hk; done) | exact .inr ⟨hk, ha, fun e => by cases e⟩

private theorem pid_by {s s' : St} {l : Label} (h : step s l = some s') (hs : s.pid.isSome) (hs' : s'.pid.isSome = false) :
    ∃ e, l = .go e ∧ s.auto e = true ∧ (s.dae e = .failPid ∨ s.dae e = .term3) := by
  have hne : s'.pid = s.pid → False := fun e => by rw [e, hs] at hs'; cases hs'
  cases l with
  | client c => simp only [step, clientStep] at h; branches h <;> exact (hne rfl).elim
  | start e auto => simp only [step] at h; branches h; exact (hne rfl).elim
  | go e =>
    refine ⟨e, rfl, ?_⟩
    simp only [step, daemonStep] at h
    cases hd : s.dae e <;> simp only [hd] at h <;> branches h <;> first | exact (hne rfl).elim | skip
    all_goals
      cases ha : s.auto e <;> simp_all
  | term e => simp only [step] at h; branches h; exact (hne rfl).elim
  | crash e => simp only [step] at h; branches h <;> exact (hne rfl).elim

/-- **C85 (cause, pid file)**: if a serving daemon that was started automatically has no pid file, another automatically started one removed it
when it gave up or was terminated. -/
theorem C85_pid_cause {ls : List Label} {s : St} (h : Run ls s) {d : Nat} (hd : s.dae d = .serving) (ha : s.auto d = true) (hp : s.pid = none) :
    ∃ e, e ≠ d ∧ Moment ls (fun s => s.pid.isSome ∧ s.auto e = true ∧ (s.dae e = .failPid ∨ s.dae e = .term3)) (.go e)
      (fun s => s.pid = none) := by
  have := run_hist (I := fun ls s => Run ls s ∧ (keepsPid (s.dae d) = true → s.auto d = true → s.pid.isSome ∨
    ∃ e, e ≠ d ∧ Moment ls (fun s => s.pid.isSome ∧ s.auto e = true ∧ (s.dae e = .failPid ∨ s.dae e = .term3)) (.go e)
      (fun s => s.pid = none))) ?_ ⟨rfl, by simp [init, keepsPid]⟩ h
  · refine (this.2 (by rw [hd]; rfl) ha).resolve_left ?_
    rw [hp]; decide
  · rintro ls s l s' ⟨hr, hI⟩ hs
    refine ⟨run_snoc hr hs, fun hk ha => ?_⟩
    rcases pid_step hs hk ha with h1 | ⟨h1, h1', h2⟩
    · exact .inl h1
    · rcases hI h1 h1' with h3 | ⟨e, h3, h4⟩
      · cases h5 : s'.pid.isSome with
        | true => exact .inl rfl
        | false =>
          right
          obtain ⟨e, rfl, h6⟩ := pid_by hs h3 h5
          refine ⟨e, ?_, .now hr ⟨h3, h6⟩ hs (by simpa using h5)⟩
          rintro rfl
          rw [h2 rfl, h3] at h5
          cases h5
      · exact .inr ⟨e, h3, h4.snoc l⟩

example : ∃ s, Run secondAuto s ∧ s.dae 0 = .serving ∧ s.auto 0 = true ∧ s.pid = none := ⟨_, rfl, rfl, rfl, rfl⟩

end Shpool.Startup
