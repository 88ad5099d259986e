import Verif.Fork.Model
/-!
# C120: a daemon follows its configuration; C121: an automatically started daemon comes up
-/

namespace Shpool.Fork

variable {good : Nat → Bool} {auto : Bool}

/-- The steps of the watcher. -/
def Label.own (l : Label) : Prop := l = .take ∨ l = .fire ∨ l = .read ∨ l = .store

/-! ## C120 -/

/-- C120: whenever a daemon serves and the configuration file is well-formed, the daemon comes to use it by itself, unless it is edited
again. -/
def C120_statement : Prop := ∀ (good : Nat → Bool) (auto : Bool) (ls : List Label) (s : St), Run good auto ls s → s.main = .serving →
  good s.file = true → ∃ ms s', (∀ l ∈ ms, l.own) ∧ runSteps (step good auto) s ms = some s' ∧ s'.file = s.file ∧ s'.conf = s.file

/-- A process that has forked. -/
def Main.forked : Main → Prop
  | .forked1 | .ready | .serving => True
  | _ => False

/-- An automatically started daemon has no watcher. -/
theorem worker_gone {ls : List Label} {s : St} (h : Run good true ls s) (hf : s.main.forked) : s.worker = .gone := by
  refine run_inv (I := fun s => s.main.forked → s.worker = .gone) ?_ (by intro h; cases h) h hf
  intro s l s' hI hs hf'
  unfold step at hs
  split at hs <;> (try split at hs) <;> (try split at hs) <;> simp only [Option.some.injEq, reduceCtorEq] at hs <;> subst hs <;>
    simp_all [Main.forked]

/-- Without the watcher the configuration in use never changes. -/
theorem frozen_step {s s' : St} {l : Label} (hf : s.main.forked) (hw : s.worker = .gone) (h : step good true s l = some s') :
    s'.conf = s.conf ∧ s'.main.forked ∧ s'.worker = .gone := by
  unfold step at h
  split at h <;> (try split at h) <;> (try split at h) <;> simp only [Option.some.injEq, reduceCtorEq] at h <;> subst h <;>
    simp_all [Main.forked]

/-- C120: an automatically started daemon uses, for as long as it runs, the configuration it had when it went to the background,
whatever is edited. -/
theorem C120_frozen {ls ms : List Label} {s s' : St} (h : Run good true ls s) (hf : s.main.forked)
    (hr : runSteps (step good true) s ms = some s') : s'.conf = s.conf :=
  (run_inv (step := step good true) (I := fun x => x.conf = s.conf ∧ x.main.forked ∧ x.worker = .gone)
    (fun _ _ _ hI hs => ⟨(frozen_step hI.2.1 hI.2.2 hs).1.trans hI.1, (frozen_step hI.2.1 hI.2.2 hs).2⟩)
    ⟨rfl, hf, worker_gone h hf⟩ hr).1

example : ∃ s, Run (fun _ => true) true [.main, .main, .main, .main, .main, .edit, .edit] s ∧ s.main.forked ∧ s.conf = 0 ∧ s.file = 2 :=
  ⟨_, rfl, trivial, rfl, rfl⟩

/-- C120 is false: an automatically started daemon, which is what commands start by default, never notices an edit. -/
theorem C120_false : ¬ C120_statement := by
  intro h
  obtain ⟨ms, s', _, hr, _, hc⟩ := h (fun _ => true) true [.main, .main, .main, .main, .main, .edit] _ rfl rfl rfl
  have hz := C120_frozen (good := fun _ => true) (ls := [.main, .main, .main, .main, .main, .edit]) rfl trivial hr
  rw [hz] at hc
  cases hc

/-- In a daemon that does not fork the worker is there, the lock is taken exactly while it reloads, and an edit that was not taken notice of
is noticed by an event, a deadline or a reload that is still to read the file. -/
def Good (good : Nat → Bool) (s : St) : Prop :=
  (s.main = .ready ∨ s.main = .serving ∨ s.main = .watching → s.worker ≠ .gone ∧
    (s.event = true ∨ s.due = true ∨ s.worker = .locked ∨ s.worker = .loaded s.file ∨
      s.worker = .idle ∧ (good s.file = true → s.conf = s.file))) ∧
  (s.main = .start ∨ s.main = .loaded ∨ s.main = .failed → s.worker = .gone ∧ s.lock = false) ∧
  s.main ≠ .forked1 ∧ (s.main = .watching ∨ s.main = .ready ∨ s.main = .serving → s.watched = true) ∧
  (s.lock = true ↔ (s.worker = .locked ∨ ∃ v, s.worker = .loaded v))

theorem good_run {ls : List Label} {s : St} (h : Run good false ls s) : Good good s := by
  refine run_inv (I := Good good) ?_ (by simp [Good, init]) h
  intro s l s' hI hs
  obtain ⟨h1, h2, h3, h4, h5⟩ := hI
  unfold step at hs
  split at hs
  · split at hs <;> (try split at hs) <;> simp only [Option.some.injEq, reduceCtorEq] at hs <;> subst hs <;> simp_all [Good]
  · cases hs
    simp only [Good] at *
    refine ⟨fun hm => ?_, h2, h3, h4, h5⟩
    have := h4 (by rcases hm with h | h | h <;> simp [h])
    exact ⟨(h1 hm).1, .inl (by simp [this])⟩
  · split at hs <;> (try split at hs) <;> simp only [Option.some.injEq, reduceCtorEq] at hs <;> subst hs <;> simp_all [Good]
  · split at hs <;> (try split at hs) <;> simp only [Option.some.injEq, reduceCtorEq] at hs <;> subst hs <;> simp_all [Good]
  · split at hs <;> (try split at hs) <;> simp only [Option.some.injEq, reduceCtorEq] at hs <;> subst hs <;> simp_all [Good]
  · split at hs <;> (try split at hs) <;> simp only [Option.some.injEq, reduceCtorEq] at hs <;> subst hs <;> simp_all [Good]
    · intro hm; rcases h1 hm with h | h | h <;> simp [h]
    · intro hm; rcases h1 hm with h | h | h
      · simp [h]
      · simp [h]
      · rw [← h]; simp_all

theorem from_idle {s : St} (hw : s.worker = .idle) (hg : good s.file = true) (h : s.event = true ∨ s.due = true ∨ s.conf = s.file) :
    ∃ ms s', (∀ l ∈ ms, l.own) ∧ runSteps (step good false) s ms = some s' ∧ s'.file = s.file ∧ s'.conf = s.file := by
  obtain ⟨m, w, f, c, wa, e, d, lk⟩ := s
  simp only at *
  subst hw
  cases e with
  | true => exact ⟨[.take, .fire, .read, .store], _, by simp [Label.own], rfl, rfl, by simp [hg]⟩
  | false =>
    cases d with
    | true => exact ⟨[.fire, .read, .store], _, by simp [Label.own], rfl, rfl, by simp [hg]⟩
    | false => exact ⟨[], _, by simp, rfl, rfl, by simpa using h⟩

/-- C120 for a daemon that was not started automatically: it comes to use the file by steps of its own.  Missing: automatically started
daemons. -/
theorem C120_follows_partial {ls : List Label} {s : St} (h : Run good false ls s) (hs : s.main = .serving) (hg : good s.file = true) :
    ∃ ms s', (∀ l ∈ ms, l.own) ∧ runSteps (step good false) s ms = some s' ∧ s'.file = s.file ∧ s'.conf = s.file := by
  obtain ⟨h1, -, -, -, -⟩ := good_run h
  obtain ⟨hw, h1⟩ := h1 (.inr (.inl hs))
  obtain ⟨m, w, f, c, wa, e, d, lk⟩ := s
  simp only at *
  cases w with
  | gone => exact absurd rfl hw
  | idle => exact from_idle rfl hg (by simp_all)
  | locked => exact ⟨[.read, .store], _, by simp [Label.own], rfl, rfl, by simp [hg]⟩
  | loaded v =>
    by_cases hv : v = f
    · subst hv; exact ⟨[.store], _, by simp [Label.own], rfl, rfl, by simp [hg]⟩
    · obtain ⟨ms, s', hms, hr, hf, hc⟩ := from_idle (good := good) (s := ⟨m, .idle, f, if good v then v else c, wa, e, d, false⟩) rfl hg
        (by simp_all; rcases h1 with h1 | h1 <;> simp [h1])
      refine ⟨.store :: ms, s', by simpa [Label.own] using hms, hr, hf, hc⟩

/-- C120, exactly: a serving daemon can come to use a good configuration file by steps of its own iff it was not started automatically or
already uses that file. -/
theorem C120_exact {ls : List Label} {s : St} (h : Run good auto ls s) (hs : s.main = .serving) (hg : good s.file = true) :
    (∃ ms s', (∀ l ∈ ms, l.own) ∧ runSteps (step good auto) s ms = some s' ∧ s'.file = s.file ∧ s'.conf = s.file) ↔
      auto = false ∨ s.conf = s.file := by
  constructor
  · rintro ⟨ms, s', -, hr, -, hc⟩
    cases auto with
    | false => exact .inl rfl
    | true => exact .inr ((C120_frozen h (by rw [hs]; trivial) hr).symm.trans hc)
  · rintro (rfl | e)
    · exact C120_follows_partial h hs hg
    · exact ⟨[], s, by simp, rfl, rfl, e⟩

example : ∃ s, Run (fun _ => true) true [.main, .main, .main, .main, .main, .edit] s ∧ s.main = .serving ∧ s.conf ≠ s.file :=
  ⟨_, rfl, rfl, by simp [init]⟩

example : ∃ s, Run (fun _ => true) false [.main, .main, .main, .main, .fire, .read, .edit] s ∧ s.main = .serving ∧ s.conf = 0 ∧ s.file = 1 :=
  ⟨_, rfl, rfl, rfl, rfl⟩

/-- C120 for a daemon that was not started automatically: when its watcher has nothing to do, the file is in use if it is well-formed. -/
theorem C120_quiet_partial {ls : List Label} {s : St} (h : Run good false ls s) (hs : s.main = .serving) (hg : good s.file = true)
    (hq : ∀ l, l.own → step good false s l = none) : s.conf = s.file := by
  obtain ⟨h1, -, -, -, -⟩ := good_run h
  obtain ⟨hw, h1⟩ := h1 (.inr (.inl hs))
  have q1 := hq .take (.inl rfl)
  have q2 := hq .fire (.inr (.inl rfl))
  have q3 := hq .read (.inr (.inr (.inl rfl)))
  have q4 := hq .store (.inr (.inr (.inr rfl)))
  obtain ⟨m, w, f, c, wa, e, d, lk⟩ := s
  simp only [step] at *
  cases w <;> simp_all

example : ∃ s, Run (fun v => v == 0 || v == 2) false [.main, .main, .main, .main, .fire, .read, .store, .edit, .edit, .take, .fire, .read, .store] s ∧
    s.main = .serving ∧ s.conf = 2 ∧ s.file = 2 ∧ ∀ l : Label, l.own → step (fun v => v == 0 || v == 2) false s l = none :=
  ⟨_, rfl, rfl, rfl, rfl, by rintro l (rfl | rfl | rfl | rfl) <;> rfl⟩

/-- C120: contents that cannot be parsed are never used. -/
theorem C120_wellformed {ls : List Label} {s : St} (h : Run good auto ls s) (hs : s.main ≠ .start ∧ s.main ≠ .failed) : good s.conf = true := by
  refine run_inv (I := fun s => (s.main ≠ .start ∧ s.main ≠ .failed → good s.conf = true) ∧ (s.main = .start ∨ s.main = .failed → s.worker = .gone))
    ?_ (by simp [init]) h |>.1 hs
  intro s l s' hI hst
  obtain ⟨h1, h2⟩ := hI
  unfold step at hst
  split at hst <;> (try split at hst) <;> (try split at hst) <;> simp only [Option.some.injEq, reduceCtorEq] at hst <;> subst hst <;>
    simp_all

/-! ## C121 -/

/-- C121: a daemon that could read its configuration can come up by its own steps. -/
def C121_statement : Prop := ∀ (good : Nat → Bool) (auto : Bool) (ls : List Label) (s : St), Run good auto ls s → s.main ≠ .start →
  s.main ≠ .failed → ∃ ms s', (∀ l ∈ ms, l.own ∨ l = .main) ∧ runSteps (step good auto) s ms = some s' ∧ s'.main = .serving

theorem stuck_step {s s' : St} {l : Label} (h : s.worker = .gone ∧ s.lock = true ∧ (s.main = .ready ∨ s.main = .forked1))
    (hs : step good auto s l = some s') : s'.worker = .gone ∧ s'.lock = true ∧ (s'.main = .ready ∨ s'.main = .forked1) := by
  obtain ⟨h1, h2, h3⟩ := h
  unfold step at hs
  split at hs <;> (try split at hs) <;> (try split at hs) <;> simp only [Option.some.injEq, reduceCtorEq] at hs <;> subst hs <;>
    simp_all

/-- C121: a daemon that went to the background while its watcher was reloading never comes up. -/
theorem C121_stuck {s s' : St} {ms : List Label} (hw : s.worker = .gone) (hl : s.lock = true) (hm : s.main = .ready ∨ s.main = .forked1)
    (h : runSteps (step good auto) s ms = some s') : s'.main ≠ .serving := by
  have := run_inv (step := step good auto) (fun _ _ _ hI hs => stuck_step hI hs) ⟨hw, hl, hm⟩ h
  rcases this.2.2 with h | h <;> simp [h]

example : ∃ s, Run (fun _ => true) true [.main, .main, .fire, .main] s ∧ s.worker = .gone ∧ s.lock = true ∧ s.main = .forked1 :=
  ⟨_, rfl, rfl, rfl, rfl⟩

/-- C121 is false: the reload that is due a tenth of a second after the start can be under way at the fork. -/
theorem C121_false : ¬ C121_statement := by
  intro h
  obtain ⟨ms, s', _, hr, hm⟩ := h (fun _ => true) true [.main, .main, .fire, .main] _ rfl (by simp) (by simp)
  exact C121_stuck rfl rfl (.inr rfl) hr hm

/-- In every state the lock is taken by a worker that can let go of it, unless the worker is gone. -/
def Lock (s : St) : Prop := (s.lock = true → s.worker = .gone → s.main.forked) ∧
  (s.worker ≠ .gone → (s.lock = true ↔ (s.worker = .locked ∨ ∃ v, s.worker = .loaded v)))

theorem lock_run {ls : List Label} {s : St} (h : Run good auto ls s) : Lock s := by
  refine (run_inv (I := fun s => Lock s ∧ (s.main = .start ∨ s.main = .loaded ∨ s.main = .failed → s.worker = .gone ∧ s.lock = false))
    ?_ (by simp [Lock, init]) h).1
  intro s l s' hI hs
  obtain ⟨⟨h1, h2⟩, h3⟩ := hI
  unfold step at hs
  split at hs <;> (try split at hs) <;> (try split at hs) <;> simp only [Option.some.injEq, reduceCtorEq] at hs <;> subst hs <;>
    simp_all [Lock, Main.forked]

/-- From the state before `Server::new` with a free lock the daemon comes up. -/
theorem up_free {s : St} (hl : s.lock = false) (hm : s.main = .ready ∨ s.main = .forked1 ∨ s.main = .watching ∨ s.main = .loaded) :
    ∃ ms s', (∀ l ∈ ms, l.own ∨ l = .main) ∧ runSteps (step good auto) s ms = some s' ∧ s'.main = .serving := by
  obtain ⟨m, w, f, c, wa, e, d, lk⟩ := s
  simp only at *
  subst hl
  rcases hm with rfl | rfl | rfl | rfl
  · exact ⟨[.main], _, by simp, rfl, rfl⟩
  · exact ⟨[.main, .main], _, by simp, rfl, rfl⟩
  · cases auto
    · exact ⟨[.main, .main], _, by simp, rfl, rfl⟩
    · exact ⟨[.main, .main, .main], _, by simp, rfl, rfl⟩
  · cases auto
    · exact ⟨[.main, .main, .main], _, by simp, rfl, rfl⟩
    · exact ⟨[.main, .main, .main, .main], _, by simp, rfl, rfl⟩

/-- C121, exactly: a daemon that could read its configuration can come up if and only if it has not gone to the background while its watcher
held the lock. -/
theorem C121_exact_partial {ls : List Label} {s : St} (h : Run good auto ls s) (h1 : s.main ≠ .start) (h2 : s.main ≠ .failed)
    (h3 : s.main ≠ .serving) :
    (∃ ms s', (∀ l ∈ ms, l.own ∨ l = .main) ∧ runSteps (step good auto) s ms = some s' ∧ s'.main = .serving) ↔
      ¬ (s.worker = .gone ∧ s.lock = true) := by
  have hL := lock_run h
  constructor
  · rintro ⟨ms, s', -, hr, hm⟩ ⟨hw, hl⟩
    refine C121_stuck hw hl ?_ hr hm
    have := hL.1 hl hw
    revert this h3
    cases s.main <;> simp [Main.forked]
  · intro hn
    have hm : s.main = .ready ∨ s.main = .forked1 ∨ s.main = .watching ∨ s.main = .loaded := by
      revert h1 h2 h3; cases s.main <;> simp
    cases hl : s.lock with
    | false => exact up_free hl hm
    | true =>
      have hw : s.worker ≠ .gone := fun hw => hn ⟨hw, hl⟩
      rcases (hL.2 hw).mp hl with hw | ⟨v, hw⟩
      · obtain ⟨ms, s', hms, hr, hs⟩ := up_free (good := good) (auto := auto)
          (s := { s with worker := .idle, lock := false, conf := if good s.file then s.file else s.conf }) rfl hm
        have e1 : step good auto s .read = some { s with worker := .loaded s.file } := by simp [step, hw]
        have e2 : step good auto { s with worker := .loaded s.file } .store =
            some { s with worker := .idle, lock := false, conf := if good s.file then s.file else s.conf } := rfl
        refine ⟨.read :: .store :: ms, s', by simpa [Label.own] using hms, ?_, hs⟩
        simp only [runSteps, e1, e2]
        exact hr
      · obtain ⟨ms, s', hms, hr, hs⟩ := up_free (good := good) (auto := auto)
          (s := { s with worker := .idle, lock := false, conf := if good v then v else s.conf }) rfl hm
        have e2 : step good auto s .store =
            some { s with worker := .idle, lock := false, conf := if good v then v else s.conf } := by simp [step, hw]
        refine ⟨.store :: ms, s', by simpa [Label.own] using hms, ?_, hs⟩
        simp only [runSteps, e2]
        exact hr

example : ∃ s, Run (fun _ => true) true [.main, .main, .fire, .read] s ∧ s.main = .watching ∧ s.lock = true ∧ s.worker ≠ .gone :=
  ⟨_, rfl, rfl, rfl, by simp⟩

/-- C121 for a daemon that was not started automatically. -/
theorem C121_by_hand {ls : List Label} {s : St} (h : Run good false ls s) (h1 : s.main ≠ .start) (h2 : s.main ≠ .failed)
    (h3 : s.main ≠ .serving) :
    ∃ ms s', (∀ l ∈ ms, l.own ∨ l = .main) ∧ runSteps (step good false) s ms = some s' ∧ s'.main = .serving := by
  refine (C121_exact_partial h h1 h2 h3).mpr ?_
  rintro ⟨hw, hl⟩
  obtain ⟨-, -, -, -, g⟩ := good_run h
  rcases g.mp hl with g | ⟨v, g⟩ <;> rw [hw] at g <;> cases g

/-- C121 for a daemon that goes to the background before its watcher's first deadline has passed. -/
theorem C121_quick_partial {ls : List Label} {s : St} (h : Run good true ls s) (hq : .fire ∉ ls) (h1 : s.main ≠ .start) (h2 : s.main ≠ .failed)
    (h3 : s.main ≠ .serving) :
    ∃ ms s', (∀ l ∈ ms, l.own ∨ l = .main) ∧ runSteps (step good true) s ms = some s' ∧ s'.main = .serving := by
  refine (C121_exact_partial h h1 h2 h3).mpr ?_
  rintro ⟨-, hl⟩
  have := run_hist (I := fun ls s => .fire ∉ ls → s.lock = false ∧ (s.worker = .gone ∨ s.worker = .idle)) ?_ (by simp [init]) h hq
  · rw [this.1] at hl; cases hl
  · intro ls s l s' hI hs hn
    simp only [List.mem_append, List.mem_singleton, not_or] at hn
    obtain ⟨g1, g2⟩ := hI hn.1
    unfold step at hs
    split at hs <;> (try split at hs) <;> (try split at hs) <;> simp only [Option.some.injEq, reduceCtorEq] at hs <;> subst hs <;>
      simp_all

example : ∃ s, Run (fun _ => true) true [.main, .main, .edit, .take, .main] s ∧ s.main = .forked1 := ⟨_, rfl, rfl⟩

end Shpool.Fork
