import Verif.Startup.Model
/-!
# Starting and stopping daemons (C63, C84, C85, C86)
-/

namespace Shpool.Startup

@[simp] theorem upd_apply {α : Type} (f : Nat → α) (i : Nat) (x : α) (j : Nat) : upd f i x j = if j = i then x else f j := rfl

/-- Takes apart the branches of a step. -/
local macro "branches" h:ident : tactic =>
  `(tactic| ((repeat' split at $h:ident) <;> first | (cases $h:ident; done) | (cases $h:ident) | contradiction))

/-! ## The histories used below -/

/-- A daemon started by hand comes up. -/
def up (d : Nat) : List Label := [.start d false, .go d, .go d, .go d, .go d, .go d]

/-- A daemon started by hand crashes; its socket file stays.  Two clients find it; both see that nobody listens.  The first removes
the file and launches a daemon, which serves; then the second removes the file of the new daemon. -/
def twoDaemons : List Label :=
  up 0 ++ [.crash 0, .client 0, .client 1, .client 0, .client 0] ++
  [.start 1 true, .go 1, .go 1, .go 1, .go 1, .go 1, .go 1, .go 1, .go 1] ++
  [.client 1, .client 1] ++
  [.start 2 true, .go 2, .go 2, .go 2, .go 2, .go 2, .go 2, .go 2, .go 2]

/-- Two clients find the socket of a crashed daemon at the same time. -/
def twoClients : List Label := up 0 ++ [.crash 0, .client 0, .client 1, .client 0, .client 1]

/-- A second daemon is started by hand beside the first. -/
def second : List Label := up 0 ++ [.start 1 false, .go 1, .go 1, .go 1, .go 1, .go 1, .go 1, .go 1, .go 1]

/-- A client that found no daemon launches one, which is slow; meanwhile another one has come up. -/
def secondAuto : List Label :=
  [.start 0 true, .go 0, .go 0, .go 0, .go 0, .go 0, .go 0, .go 0] ++
  [.start 1 true, .go 1, .go 1, .go 1, .go 1, .go 1, .go 1, .go 1, .go 1, .go 1, .go 1]

/-! ## C63 -/

/-- The full property: at most one daemon serves. -/
def C63_statement : Prop := ∀ ls s, Run ls s → ∀ d e, s.dae d = .serving → s.dae e = .serving → d = e

/-- **C63 (defect)**: two daemons serve at the same time, and the sessions of the first cannot be reached any more. -/
theorem C63_false : ¬ C63_statement := by
  intro h
  obtain ⟨s, hs, h1, h2⟩ : ∃ s, Run twoDaemons s ∧ s.dae 1 = .serving ∧ s.dae 2 = .serving := ⟨_, rfl, rfl, rfl⟩
  exact absurd (h _ _ hs 1 2 h1 h2) (by decide)

/-- A daemon that has not yet removed the control socket it bound. -/
private def holdsSock (p : Phase) : Bool := p = .serving ∨ p = .term1

private def Inv (ls : List Label) (s : St) : Prop :=
  (∀ d, .crash d ∉ ls) →
    (∀ d, s.sock = some d ↔ holdsSock (s.dae d) = true) ∧ (∀ c, s.cli c ≠ .stale) ∧ (∀ c, s.cli c ≠ .failed) ∧
    (∀ d, s.dae d ≠ .removing)

private theorem step_inv (ls : List Label) (s : St) (l : Label) (s' : St) (hI : Inv ls s) (h : step s l = some s') :
    Inv (ls ++ [l]) s' := by
  intro hn
  obtain ⟨h1, h2, h3, h4⟩ := hI (fun d hd => hn d (by simp [hd]))
  have hc : connect s ≠ .refused := by
    unfold connect
    split
    · simp
    · rename_i d hd
      have := (h1 d).1 hd
      simp only [holdsSock, Bool.decide_or, Bool.or_eq_true, decide_eq_true_eq] at this
      rcases this with h | h <;> simp [h, Phase.listens]
  simp only [holdsSock] at h1 ⊢
  cases l with
  | client c =>
    have a1 := h2 c
    simp only [step, clientStep] at h
    branches h <;> simp only [setCli, upd_apply] <;> grind
  | start d auto =>
    have a1 := h1 d
    simp only [step] at h
    branches h
    simp only [setDae, upd_apply]; grind
  | go d =>
    have a1 := h1 d
    have a2 := h4 d
    simp only [step, daemonStep] at h
    cases hd : s.dae d <;> simp only [hd] at h a1 a2 <;> branches h <;> simp only [setDae, upd_apply] <;> grind
  | term d =>
    have a1 := h1 d
    simp only [step] at h
    branches h
    simp only [setDae, upd_apply]; grind
  | crash d => exact absurd (by simp) (hn d)

private theorem inv {ls : List Label} {s : St} (h : Run ls s) : Inv ls s :=
  run_hist (I := Inv) step_inv (fun _ => by simp [init, holdsSock]) h

/-- **C63 (part)**: as long as no daemon is killed or crashes (so that no socket file is left over), at most one daemon serves, and
the control socket is its, whatever the interleaving of clients and daemons.  Missing: stale socket files. -/
theorem C63_one_daemon_partial {ls : List Label} {s : St} (h : Run ls s) (hn : ∀ d, .crash d ∉ ls) (d e : Nat)
    (hd : s.dae d = .serving) (he : s.dae e = .serving) : d = e ∧ s.sock = some d := by
  obtain ⟨h1, _⟩ := inv h hn
  have a := (h1 d).2 (by simp [holdsSock, hd])
  have b := (h1 e).2 (by simp [holdsSock, he])
  rw [a] at b
  exact ⟨Option.some.inj b, a⟩

/-- Two daemons racing without a stale socket: one serves, the other is gone. -/
example : ∃ s, Run [.start 0 false, .start 1 false, .go 0, .go 1, .go 0, .go 1, .go 1, .go 0, .go 0, .go 1, .go 1] s ∧
    s.dae 1 = .serving ∧ s.dae 0 = .gone ∧ s.sock = some 1 := ⟨_, rfl, rfl, rfl, rfl⟩

/-- The holder of a pid file's lock is exactly the daemon between taking and releasing it. -/
private def LockInv (s : St) : Prop := ∀ i d, s.lock i = some d ↔ s.dae d = .locked i

private theorem step_lock (s : St) (l : Label) (s' : St) (hI : LockInv s) (h : step s l = some s') : LockInv s' := by
  unfold LockInv at *
  cases l with
  | client c =>
    simp only [step, clientStep] at h
    branches h <;> simp only [setCli] <;> exact hI
  | start d auto =>
    simp only [step] at h
    branches h
    simp only [setDae, upd_apply]; grind
  | go d =>
    simp only [step, daemonStep] at h
    have a1 := fun i => hI i d
    cases hd : s.dae d <;> simp only [hd] at h a1 <;> branches h <;> simp only [setDae, upd_apply] <;> intro i e <;>
      have a2 := hI i e <;> grind
  | term d =>
    simp only [step] at h
    branches h
    simp only [setDae, upd_apply]; grind
  | crash d =>
    simp only [step] at h
    branches h <;> simp only [setDae, upd_apply] <;> grind

/-- **C63**: in every history, crashes included, at most one daemon at a time is between locking a pid file and writing its number
into it. -/
theorem C63_pid_lock {ls : List Label} {s : St} (h : Run ls s) (i d e : Nat) (hd : s.dae d = .locked i) (he : s.dae e = .locked i) :
    d = e := by
  have hI : LockInv s := run_inv (I := LockInv) step_lock (by simp [LockInv, init]) h
  have a := (hI i d).2 hd
  have b := (hI i e).2 he
  rw [a] at b
  exact Option.some.inj b

/-- **C63**: a daemon that finds the pid file locked gives up and touches nothing. -/
theorem C63_locked_out {s s' : St} {d e i : Nat} (hd : s.dae d = .opened i) (hl : s.lock i = some e) (h : step s (.go d) = some s') :
    s'.dae d = .gone ∧ s'.sock = s.sock ∧ s'.ev = s.ev ∧ s'.pid = s.pid := by
  simp only [step, daemonStep, hd, hl] at h
  cases h
  simp [setDae]

example : ∃ s, Run [.start 0 true, .start 1 true, .go 0, .go 1, .go 0, .go 1] s ∧ s.dae 0 = .locked 0 ∧ s.dae 1 = .gone :=
  ⟨_, rfl, rfl, rfl⟩

/-! ## C84 -/

/-- The full property: a client looking for a daemon is never turned away because of other clients or daemons. -/
def C84_statement : Prop := ∀ ls s, Run ls s → ∀ c, s.cli c ≠ .failed

/-- **C84 (defect)**: after a crash two clients started together both see the left-over socket; the one that comes second to remove
it fails with an error instead of attaching. -/
theorem C84_false : ¬ C84_statement := by
  intro h
  obtain ⟨s, hs, h1⟩ : ∃ s, Run twoClients s ∧ s.cli 1 = .failed := ⟨_, rfl, rfl⟩
  exact h _ _ hs 1 h1

/-- **C84 (part)**: without a crash no client fails, and no client removes a socket file.  Missing: left-over socket files. -/
theorem C84_no_crash_partial {ls : List Label} {s : St} (h : Run ls s) (hn : ∀ d, .crash d ∉ ls) (c : Nat) :
    s.cli c ≠ .failed ∧ s.cli c ≠ .stale := ⟨(inv h hn).2.2.1 c, (inv h hn).2.1 c⟩

/-- **C84**: in every history a client that connects while a daemon serves on the socket just uses it; and it fails only if the
file disappeared between its looking and its removing. -/
theorem C84_uses_running {s s' : St} {c d : Nat} (hc : s.cli c = .idle) (hs : s.sock = some d) (hd : s.dae d = .serving)
    (h : step s (.client c) = some s') : s'.cli c = .ready ∧ s'.sock = some d := by
  simp only [step, clientStep, hc, connect, hs, hd, Phase.listens] at h
  cases h
  simp [setCli, hs]

theorem C84_fails_only {s s' : St} {c : Nat} {l : Label} (hc : s.cli c ≠ .failed) (h : step s l = some s') (hf : s'.cli c = .failed) :
    l = .client c ∧ s.cli c = .stale ∧ s.sock = none := by
  cases l with
  | client c' => simp only [step, clientStep] at h; branches h <;> simp only [setCli, upd_apply] at hf <;> grind
  | start d auto => simp only [step] at h; branches h; exact absurd hf hc
  | go d =>
    simp only [step, daemonStep] at h
    cases hd : s.dae d <;> simp only [hd] at h <;> branches h <;> exact absurd hf hc
  | term d => simp only [step] at h; branches h; exact absurd hf hc
  | crash d => simp only [step] at h; branches h <;> exact absurd hf hc

/-- **C84**: a client that connects to a daemon about to end is told that all is well, although the daemon will not serve it: with
the signal handler still at work the socket of an ending daemon accepts connections. -/
theorem C84_ending_daemon {s s' : St} {c d : Nat} (hc : s.cli c = .idle) (hs : s.sock = some d) (hd : s.dae d = .term1)
    (h : step s (.client c) = some s') : s'.cli c = .ready := by
  simp only [step, clientStep, hc, connect, hs, hd, Phase.listens] at h
  cases h
  simp [setCli]

example : ∃ s, Run (up 0 ++ [.client 0, .term 0, .client 1]) s ∧ s.cli 0 = .ready ∧ s.cli 1 = .ready ∧ s.dae 0 = .term1 :=
  ⟨_, rfl, rfl, rfl, rfl⟩

/-- **C84**: a client that is alone recovers from any crash: it finds the left-over socket, removes it and launches a daemon, and if
that daemon runs undisturbed it ends up serving on both sockets — whatever else the crashed daemon left behind. -/
theorem C84_recovers {s : St} {c d e : Nat} (hc : s.cli c = .idle) (hs : s.sock = some d) (hd : s.dae d = .gone)
    (he : s.dae e = .idle) (hl : ∀ i, s.lock i = none) :
    ∃ n s', runSteps step s ([.client c, .client c, .client c, .start e true] ++ List.replicate n (.go e)) = some s' ∧
      s'.cli c = .ready ∧ s'.dae e = .serving ∧ s'.sock = some e ∧ s'.ev = some e ∧ s'.pid.isSome := by
  have hde : e ≠ d := fun h => by rw [h, hd] at he; cases he
  cases hev : s.ev <;> cases hp : s.pid
  · refine ⟨7, _, by simp [runSteps, step, clientStep, daemonStep, setDae, setCli, connect, Phase.listens, *]; rfl, ?_⟩
    simp
  · refine ⟨7, _, by simp [runSteps, step, clientStep, daemonStep, setDae, setCli, connect, Phase.listens, *]; rfl, ?_⟩
    simp
  · refine ⟨8, _, by simp [runSteps, step, clientStep, daemonStep, setDae, setCli, connect, Phase.listens, *]; rfl, ?_⟩
    simp
  · refine ⟨8, _, by simp [runSteps, step, clientStep, daemonStep, setDae, setCli, connect, Phase.listens, *]; rfl, ?_⟩
    simp

example : ∃ s, Run (up 0 ++ [Label.crash 0]) s ∧ s.cli 0 = .idle ∧ s.sock = some 0 ∧ s.dae 0 = .gone ∧ s.dae 1 = .idle ∧
    s.ev = some 0 := ⟨_, rfl, rfl, rfl, rfl, rfl, rfl⟩

/-! ## C85 -/

/-- The full property: whatever other daemons do, the files of a serving daemon stay: both sockets, and the pid file if it has one. -/
def C85_statement : Prop :=
  ∀ ls s, Run ls s → (∀ d, .crash d ∉ ls) → ∀ d, s.dae d = .serving →
    s.sock = some d ∧ s.ev = some d ∧ (s.auto d = true → s.pid.isSome)

/-- **C85 (defect)**: starting a second daemon by hand on the same socket fails, but before it does it takes the events socket away
from the first one, and then removes it: subscribers cannot connect any more. -/
theorem C85_false_events : ∃ ls s, Run ls s ∧ (∀ d, .crash d ∉ ls) ∧ s.dae 0 = .serving ∧ s.dae 1 = .gone ∧ s.sock = some 0 ∧
    s.ev = none :=
  ⟨second, _, rfl, by simp [second, up], rfl, rfl, rfl, rfl⟩

/-- **C85 (defect)**: the lock on the pid file is released as soon as the daemon has started, so a second one gets past it and
removes the pid file when it fails. -/
theorem C85_false_pid : ∃ ls s, Run ls s ∧ (∀ d, .crash d ∉ ls) ∧ s.dae 0 = .serving ∧ s.auto 0 = true ∧ s.pid = none :=
  ⟨secondAuto, _, rfl, by simp [secondAuto], rfl, rfl, rfl⟩

theorem C85_false : ¬ C85_statement := by
  intro h
  obtain ⟨ls, s, hr, hn, hd, _, _, he⟩ := C85_false_events
  have := (h ls s hr hn 0 hd).2.1
  rw [he] at this
  cases this

/-- **C85 (part)**: the control socket stays: without a crash a serving daemon keeps it whatever clients and other daemons do. -/
theorem C85_control_partial {ls : List Label} {s : St} (h : Run ls s) (hn : ∀ d, .crash d ∉ ls) (d : Nat) (hd : s.dae d = .serving) :
    s.sock = some d := (C63_one_daemon_partial h hn d d hd hd).2

private def Alone (d : Nat) (ls : List Label) (s : St) : Prop :=
  (∀ e, .crash e ∉ ls) → (∀ e a, .start e a ∈ ls → e = d) →
    (∀ e, e ≠ d → s.dae e = .idle) ∧ ((s.dae d).publishes = true → s.dae d ≠ .failEv → s.dae d ≠ .term3 → s.ev = some d) ∧
    (s.dae d = .evCheck ∨ s.dae d = .evBind ∨ s.dae d = .starting ∨ s.dae d = .idle ∨ (∃ i, s.dae d = .opened i ∨ s.dae d = .locked i) →
      s.ev = none) ∧
    (s.auto d = true → s.dae d ≠ .idle → s.dae d ≠ .starting → s.dae d ≠ .gone → s.pid.isSome)

private theorem step_alone (d : Nat) (ls : List Label) (s : St) (l : Label) (s' : St) (hI : Alone d ls s) (h : step s l = some s') :
    Alone d (ls ++ [l]) s' := by
  intro hn ho
  obtain ⟨h1, h2, h3, h4⟩ := hI (fun e he => hn e (by simp [he])) (fun e a he => ho e a (by simp [he]))
  cases l with
  | client c => simp only [step, clientStep] at h; branches h <;> simp only [setCli] <;> exact ⟨h1, h2, h3, h4⟩
  | start e auto =>
    have := ho e auto (by simp)
    subst this
    simp only [step] at h
    branches h
    simp only [setDae, upd_apply]; grind [Phase.publishes]
  | go e =>
    simp only [step, daemonStep] at h
    by_cases he : e = d
    · subst he
      cases hd : s.dae e <;> simp only [hd] at h h2 h3 h4 <;> branches h <;> simp only [setDae, upd_apply] <;>
        grind [Phase.publishes]
    · rw [h1 e he] at h; cases h
  | term e =>
    simp only [step] at h
    by_cases he : e = d
    · subst he; branches h; simp only [setDae, upd_apply]; grind [Phase.publishes]
    · rw [h1 e he] at h; simp at h
  | crash e => exact absurd (by simp) (hn e)

/-- **C85 (part)**: a daemon that is the only one ever started and does not crash keeps all its files while it serves, whatever
clients do.  Missing: other daemons (see the defects). -/
theorem C85_alone_partial {ls : List Label} {s : St} (h : Run ls s) (d : Nat) (hn : ∀ e, .crash e ∉ ls)
    (ho : ∀ e a, .start e a ∈ ls → e = d) (hd : s.dae d = .serving) :
    s.sock = some d ∧ s.ev = some d ∧ (s.auto d = true → s.pid.isSome) := by
  obtain ⟨_, h2, _, h4⟩ := run_hist (I := Alone d) (step_alone d) (fun _ _ => by simp [init, Phase.publishes]) h hn ho
  exact ⟨C85_control_partial h hn d hd, h2 (by simp [hd, Phase.publishes]) (by simp [hd]) (by simp [hd]),
    fun ha => h4 ha (by simp [hd]) (by simp [hd]) (by simp [hd])⟩

example : ∃ s, Run [.client 0, .client 0, .start 0 true, .go 0, .go 0, .go 0, .go 0, .go 0, .go 0, .go 0, .client 1] s ∧
    s.dae 0 = .serving ∧ s.auto 0 = true ∧ s.ev = some 0 := ⟨_, rfl, rfl, rfl, rfl⟩

/-- **C85**: a daemon started by hand never touches the pid file, neither at start nor when it gives up nor at its end. -/
theorem C85_pid_by_hand {s s' : St} {d : Nat} (ha : s.auto d = false) {l : Label} (hl : l = .go d ∨ l = .term d ∨ l = .crash d)
    (h : step s l = some s') : s'.pid = s.pid := by
  rcases hl with rfl | rfl | rfl
  · simp only [step, daemonStep] at h
    cases hd : s.dae d <;> simp only [hd, ha, Bool.false_eq_true, if_false] at h <;> branches h <;> rfl
  · simp only [step] at h; branches h; rfl
  · simp only [step] at h; branches h; rfl

example : ∃ s, Run second s ∧ s.auto 1 = false ∧ s.dae 1 = .gone := ⟨_, rfl, rfl, rfl⟩

/-- **C85**: a daemon ended by a signal leaves none of its files behind, if no other daemon was started. -/
theorem C85_clean_exit {ls : List Label} {s : St} (d : Nat) (hd : s.dae d = .serving)
    (hls : ls = [.term d, .go d, .go d, .go d]) : ∃ s', runSteps step s ls = some s' ∧ s'.dae d = .gone ∧ s'.sock = none ∧
      s'.ev = none ∧ (s.auto d = true → s'.pid = none) := by
  subst hls
  refine ⟨_, by simp [runSteps, step, daemonStep, setDae, hd]; rfl, ?_⟩
  simp
  intro h; simp [h]

/-! ## C86 -/

/-- The full property: daemons on different sockets share no file. -/
def C86_statement : Prop := ∀ a b : Path, a ≠ b → ∀ f ∈ files a, f ∉ files b

/-- **C86 (defect)**: two sockets in the same directory share the events socket, the pid file and the log file. -/
theorem C86_false_same_dir (a b : Path) (h : a.dir = b.dir) :
    eventsPath a = eventsPath b ∧ pidPath a = pidPath b ∧ logPath a = logPath b := by
  simp [eventsPath, pidPath, logPath, Path.withName, h]

theorem C86_false : ¬ C86_statement := by
  intro h
  exact h ⟨["tmp".toList], "a".toList⟩ ⟨["tmp".toList], "b".toList⟩ (by decide) (eventsPath ⟨["tmp".toList], "a".toList⟩)
    (by decide) (by decide)

/-- **C86 (defect)**: a socket called `events.socket` is also the daemon's events socket: the daemon cannot start on it. -/
theorem C86_false_name (dir : List Str) : eventsPath ⟨dir, "events.socket".toList⟩ = ⟨dir, "events.socket".toList⟩ := rfl

/-- **C86 (part)**: in different directories nothing is shared.  Missing: the same directory. -/
theorem C86_different_dirs_partial (a b : Path) (h : a.dir ≠ b.dir) : ∀ f ∈ files a, f ∉ files b := by
  intro f ha hb
  have dirOf : ∀ p : Path, f ∈ files p → f.dir = p.dir := by
    intro p hp
    simp only [files, eventsPath, pidPath, logPath, Path.withName, List.mem_cons, List.not_mem_nil, or_false] at hp
    rcases hp with rfl | rfl | rfl | rfl <;> rfl
  exact h ((dirOf a ha).symm.trans (dirOf b hb))

/-- **C86, exactly**: two daemons share no file if and only if their sockets are in different directories. -/
theorem C86_exact (a b : Path) : (∀ f ∈ files a, f ∉ files b) ↔ a.dir ≠ b.dir :=
  ⟨fun h e => h (pidPath a) (by simp [files]) (by rw [(C86_false_same_dir a b e).2.1]; simp [files]), C86_different_dirs_partial a b⟩

/-- **C86**: the sessions' own files are kept apart wherever the sockets are, as long as the hashes of their names differ. -/
theorem C86_runtime_dir (base : List Str) (hash : Path → Str) (a b : Path) (h : hash a ≠ hash b) :
    ¬ runtimeDir base hash a <+: runtimeDir base hash b := by
  intro hp
  have := hp.eq_of_length (by simp [runtimeDir])
  simp only [runtimeDir, List.append_cancel_left_eq, List.cons.injEq, and_true] at this
  exact h this

example : (⟨["a".toList], "s".toList⟩ : Path).dir ≠ (⟨["b".toList], "s".toList⟩ : Path).dir := by decide

end Shpool.Startup
