import Verif.Handshake.Model
/-!
# A session keeps answering requests (C76)
-/

namespace Shpool.Handshake

/-- The full property: from every reachable state the shell-to-client thread can get back to taking requests, unless it
has ended. -/
def C76_statement : Prop :=
  ∀ ls s, Run ls s → ∃ ls' s', runSteps step s ls' = some s' ∧ (s'.thread = .ready ∨ s'.thread = .gone)

/-- The thread is busy with a message whose sender has given up. -/
def Orphaned (s : St) : Prop :=
  (∃ c n, s.thread = .acking c n) ∧ ∀ c t n, s.req ≠ some (.awaiting c t n)

private theorem orphaned_step {s s' : St} {l : Label} (ho : Orphaned s) (h : step s l = some s') :
    Orphaned s' ∧ s'.thread = s.thread ∧
      (∀ e ∈ s'.log, e ∈ s.log ∨ e.2 = .sendTimeout) := by
  obtain ⟨⟨c, n, ht⟩, hr⟩ := ho
  cases l <;> simp only [step, ht] at h
  case «begin» =>
    split at h <;> cases h
    exact ⟨⟨⟨c, n, rfl⟩, by simp⟩, ht.symm ▸ rfl, fun e he => .inl he⟩
  case meet => split at h <;> simp_all
  case work => cases h
  case threadEnds => cases h
  case ack =>
    split at h
    · rename_i h1 h2; exact absurd h1 (hr _ _ _)
    · cases h
  case sendTimeout =>
    split at h <;> cases h
    refine ⟨⟨⟨c, n, rfl⟩, by simp⟩, ht.symm ▸ rfl, fun e he => ?_⟩
    simp only [List.mem_append, List.mem_singleton] at he
    rcases he with he | he
    · exact .inl he
    · exact .inr (by rw [he])
  case ackTimeout =>
    split at h
    · rename_i h1; exact absurd h1 (hr _ _ _)
    · cases h
  case disconnected => split at h <;> simp_all

/-- **C76 (defect)**: once a requester has given up waiting for an acknowledgement the thread is about to send, the thread
never takes another request: in every continuation it stays in that send, and no later request is acknowledged — attaching,
detaching and resizing all fail with a timeout. -/
theorem C76_wedged_forever {s s' : St} {ls : List Label} (ho : Orphaned s) (h : runSteps step s ls = some s') :
    s'.thread = s.thread ∧ ∀ e ∈ s'.log, e ∈ s.log ∨ e.2 = .sendTimeout := by
  have : Orphaned s' ∧ s'.thread = s.thread ∧ ∀ e ∈ s'.log, e ∈ s.log ∨ e.2 = .sendTimeout := by
    refine run_inv (I := fun x => Orphaned x ∧ x.thread = s.thread ∧ ∀ e ∈ x.log, e ∈ s.log ∨ e.2 = .sendTimeout)
      (fun a l b hI hs => ?_) ⟨ho, rfl, fun e he => .inl he⟩ h
    obtain ⟨h1, h2, h3⟩ := orphaned_step hI.1 hs
    refine ⟨h1, h2.trans hI.2.1, fun e he => ?_⟩
    rcases h3 e he with he | he
    · exact hI.2.2 e he
    · exact .inr he
  exact this.2

/-- A heartbeat whose writing takes longer than the requester waits. -/
def lateAck : List Label := [.begin .heartbeat true, .meet, .ackTimeout, .work]

private theorem lateAck_run :
    Run lateAck { thread := .acking .heartbeat 0, req := none, next := 1, log := [(0, .ackTimeout)] } := rfl

/-- **C76 (defect)**: the property is false: one late acknowledgement wedges the session. -/
theorem C76_false : ¬ C76_statement := by
  intro h
  obtain ⟨ls', s', hr, hs⟩ := h _ _ lateAck_run
  obtain ⟨ht, _⟩ := C76_wedged_forever ⟨⟨_, _, rfl⟩, by simp⟩ hr
  rw [ht] at hs
  simp at hs

/-- **C76 (defect)**: in a wedged session a request without timeout (`shpool detach`) never ends, and keeps everybody else
out: no other request gets the mutex any more, and the list of finished requests does not grow. -/
theorem C76_false_untimed {s s' : St} {ls : List Label} (c : Chan) (n : Nat) (ho : Orphaned s)
    (hreq : s.req = some (.sending c false n)) (h : runSteps step s ls = some s') :
    s'.req = some (.sending c false n) ∧ s'.log = s.log := by
  have : Orphaned s' ∧ s'.req = some (.sending c false n) ∧ s'.log = s.log := by
    refine run_inv (I := fun x => Orphaned x ∧ x.req = some (.sending c false n) ∧ x.log = s.log)
      (fun a l b hI hs => ?_) ⟨ho, hreq, rfl⟩ h
    obtain ⟨ha, hq, hl⟩ := hI
    refine ⟨(orphaned_step ha hs).1, ?_⟩
    obtain ⟨⟨c', n', ht⟩, _⟩ := ha
    cases l <;> simp [step, hq, ht] at hs
  exact this.2

/-- A detach command after the late acknowledgement meets the hypotheses of `C76_false_untimed`. -/
example : ∃ s, Run (lateAck ++ [.begin .conn false]) s ∧ s.req = some (.sending .conn false 1) ∧
    s.thread = .acking .heartbeat 0 := ⟨_, rfl, by decide⟩

/-! ## What holds -/

/-- No acknowledgement was given up: the message the thread works on is the one the requester awaits. -/
def Inv (ls : List Label) (s : St) : Prop :=
  (.ackTimeout ∉ ls →
    (match s.thread with
      | .working c n => ∃ t, s.req = some (.awaiting c t n)
      | .acking c n => ∃ t, s.req = some (.awaiting c t n)
      | .ready => ∀ c t n, s.req ≠ some (.awaiting c t n)
      | .gone => True))

private theorem step_inv (ls : List Label) (s : St) (l : Label) (s' : St) (hI : Inv ls s) (h : step s l = some s') :
    Inv (ls ++ [l]) s' := by
  intro hn
  have hn' : Label.ackTimeout ∉ ls := fun hm => hn (by simp [hm])
  have hI := hI hn'
  cases l <;> simp only [step] at h
  case «begin» =>
    split at h <;> cases h
    rename_i hr
    simp only [hr] at hI
    split <;> simp_all
  case meet =>
    split at h <;> cases h
    exact ⟨_, rfl⟩
  case work =>
    split at h <;> cases h
    rename_i ht
    simpa [ht] using hI
  case ack =>
    split at h
    · split at h <;> cases h
      simp
    · cases h
  case sendTimeout =>
    split at h <;> cases h
    rename_i hr
    simp only [hr] at hI
    split <;> simp_all
  case ackTimeout => simp at hn
  case threadEnds => split at h <;> cases h <;> trivial
  case disconnected =>
    split at h <;> cases h
    rename_i ht
    simp [ht]

theorem run_inv' {ls : List Label} {s : St} (h : Run ls s) : Inv ls s :=
  run_hist (I := Inv) step_inv (fun _ => by simp [init]) h

/-- **C76 (part)**: as long as every acknowledgement arrived in time, the thread gets back to taking requests, from every
reachable state.  Missing: a requester that gave up (see `C76_wedged_forever`). -/
theorem C76_recovers_partial {ls : List Label} {s : St} (h : Run ls s) (hn : Label.ackTimeout ∉ ls) :
    ∃ ls' s', runSteps step s ls' = some s' ∧ (s'.thread = .ready ∨ s'.thread = .gone) ∧
      (∀ n, n ∈ s.log.map Prod.fst → n ∈ s'.log.map Prod.fst) := by
  have hI := run_inv' h hn
  cases ht : s.thread with
  | ready => exact ⟨[], s, rfl, .inl ht, fun _ h => h⟩
  | gone => exact ⟨[], s, rfl, .inr ht, fun _ h => h⟩
  | working c n =>
    rw [ht] at hI
    obtain ⟨t, hr⟩ := hI
    refine ⟨[.work, .ack], { s with req := none, thread := .ready, log := s.log ++ [(n, .acked n)] }, ?_, .inl rfl, ?_⟩
    · simp [runSteps, step, ht, hr]
    · intro m hm; simp at hm ⊢; exact .inl hm
  | acking c n =>
    rw [ht] at hI
    obtain ⟨t, hr⟩ := hI
    refine ⟨[.ack], { s with req := none, thread := .ready, log := s.log ++ [(n, .acked n)] }, ?_, .inl rfl, ?_⟩
    · simp [runSteps, step, ht, hr]
    · intro m hm; simp at hm ⊢; exact .inl hm

/-- Whatever the timeouts: a requester awaiting an acknowledgement awaits the one for its own message, and every
acknowledgement received so far was for the request that received it. -/
private def InvOwn (s : St) : Prop :=
  (∀ c t n, s.req = some (.awaiting c t n) → s.thread = .working c n ∨ s.thread = .acking c n ∨ s.thread = .gone) ∧
  (∀ n m, (n, .acked m) ∈ s.log → m = n)

private theorem step_own (s : St) (l : Label) (s' : St) (hI : InvOwn s) (h : step s l = some s') : InvOwn s' := by
  obtain ⟨h1, h2⟩ := hI
  cases l <;> simp only [step] at h
  case «begin» =>
    split at h <;> cases h
    exact ⟨by simp, h2⟩
  case meet =>
    split at h <;> cases h
    refine ⟨fun c t n hr => ?_, h2⟩
    simp only [Option.some.injEq, Req.awaiting.injEq] at hr
    obtain ⟨rfl, rfl, rfl⟩ := hr
    exact .inl rfl
  case work =>
    split at h <;> cases h
    rename_i ht
    refine ⟨fun c t n hr => ?_, h2⟩
    have := h1 c t n hr
    simp [ht] at this
    simp [this]
  case ack =>
    split at h
    · rename_i c t n c' m hr ht
      split at h <;> cases h
      refine ⟨by simp, fun a b hab => ?_⟩
      simp only [List.mem_append, List.mem_singleton, Prod.mk.injEq, Outcome.acked.injEq] at hab
      rcases hab with hab | ⟨rfl, rfl⟩
      · exact h2 a b hab
      · have := h1 _ _ _ hr
        simp [ht] at this
        exact this.2
    · cases h
  case sendTimeout | ackTimeout =>
    split at h <;> cases h
    refine ⟨by simp, fun a b hab => ?_⟩
    simp at hab
    exact h2 a b hab
  case threadEnds =>
    split at h <;> cases h
    · exact ⟨fun _ _ _ _ => .inr (.inr rfl), h2⟩
    · exact ⟨fun _ _ _ _ => .inr (.inr rfl), h2⟩
  case disconnected =>
    split at h <;> cases h
    refine ⟨by simp, fun a b hab => ?_⟩
    simp at hab
    exact h2 a b hab

/-- **C76**: answers are never mixed up: whatever timeouts happened before, an acknowledgement received by a request was
made for that very request — a detach command never reads the answer to a heartbeat's or another client's message. -/
theorem C76_own_answer {ls : List Label} {s : St} {n m : Nat} (h : Run ls s) (hm : (n, .acked m) ∈ s.log) : m = n :=
  (run_inv step_own ⟨by simp [init], by simp [init]⟩ h : InvOwn s).2 n m hm

private def InvTimed (ls : List Label) (s : St) : Prop :=
  ((∀ c, .begin c true ∉ ls) →
    (∀ r, s.req = some r → (match r with | .sending _ t _ => t | .awaiting _ t _ => t) = false) ∧
    ∀ n o, (n, o) ∈ s.log → o ≠ .sendTimeout ∧ o ≠ .ackTimeout) ∧
  (∀ n, (n, Outcome.disconnected) ∈ s.log → s.thread = .gone)

private theorem step_timed (ls : List Label) (s : St) (l : Label) (s' : St) (hI : InvTimed ls s) (h : step s l = some s') :
    InvTimed (ls ++ [l]) s' := by
  obtain ⟨hI, hD⟩ := hI
  refine ⟨fun hn => ?_, ?_⟩
  · obtain ⟨h1, h2⟩ := hI (fun c hc => hn c (by simp [hc]))
    cases l <;> simp only [step] at h
    case «begin» c t =>
      have ht : t = false := by
        cases t
        · rfl
        · exact absurd (by simp) (hn c)
      split at h <;> cases h
      exact ⟨fun r hr => by cases hr; exact ht, h2⟩
    all_goals grind
  · cases l <;> simp only [step] at h
    all_goals grind

/-- **C76**: the answers given are the true ones: a request that waits without a limit is never reported as timed out, and a
request is told that the thread is gone only if it is. -/
theorem C76_outcome {ls : List Label} {s : St} (h : Run ls s) :
    ((∀ c, .begin c true ∉ ls) → ∀ n o, (n, o) ∈ s.log → o ≠ .sendTimeout ∧ o ≠ .ackTimeout) ∧
    (∀ n, (n, Outcome.disconnected) ∈ s.log → s.thread = .gone) := by
  have hI : InvTimed ls s := run_hist (I := InvTimed) step_timed ⟨fun _ => ⟨by simp [init], by simp [init]⟩, by simp [init]⟩ h
  exact ⟨fun hn => (hI.1 hn).2, hI.2⟩

example : ∃ s, Run [.begin .conn false, .meet, .threadEnds, .disconnected] s ∧ s.log = [(0, .disconnected)] ∧
    s.thread = .gone := ⟨_, rfl, by decide⟩

/-- Two requests in turn, and one that was not taken in between. -/
example : ∃ s, Run [.begin .conn true, .meet, .work, .ack, .begin .heartbeat true, .sendTimeout, .begin .size true, .meet,
    .work, .ack] s ∧ s.log = [(0, .acked 0), (1, .sendTimeout), (2, .acked 2)] ∧ s.thread = .ready := ⟨_, rfl, by decide⟩

end Shpool.Handshake
