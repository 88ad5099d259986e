import Verif.Handshake.Props
/-! # Exactly when a session is wedged (C76) -/

namespace Shpool.Handshake

/-- Who waits for an acknowledgement waits for the one the thread is working on, or is about to send. -/
def Matched (s : St) : Prop := ∀ c t n, s.req = some (.awaiting c t n) → s.thread = .working c n ∨ s.thread = .acking c n ∨ s.thread = .gone

theorem matched_step {s s' : St} {l : Label} (h : Matched s) (hs : step s l = some s') : Matched s' := by
  unfold Matched at *
  cases l <;> simp only [step] at hs
  case «begin» => split at hs <;> cases hs; simp
  case meet =>
    split at hs <;> cases hs
    simp +contextual
  case work =>
    split at hs <;> cases hs
    rename_i c n ht
    intro c' t' n' hr
    rcases h c' t' n' hr with h1 | h1 | h1 <;> rw [ht] at h1 <;> cases h1
    exact .inr (.inl rfl)
  case ack =>
    split at hs
    · split at hs <;> cases hs
      simp
    · cases hs
  case sendTimeout => split at hs <;> cases hs; simp
  case ackTimeout => split at hs <;> cases hs; simp
  case threadEnds => split at hs <;> cases hs <;> simp
  case disconnected => split at hs <;> cases hs; simp

theorem matched_run {ls : List Label} {s : St} (h : Run ls s) : Matched s :=
  run_inv (fun _ _ _ hI hs => matched_step hI hs) (fun c t n h => by cases h) h

/-- Nobody waits for the acknowledgement of the message the thread is at. -/
def Deserted (s : St) : Prop :=
  (∃ c n, s.thread = .working c n ∨ s.thread = .acking c n) ∧ ∀ c t n, s.req ≠ some (.awaiting c t n)

theorem deserted_step {s s' : St} {l : Label} (h : Deserted s ∨ s.thread = .gone) (hs : step s l = some s') : Deserted s' ∨ s'.thread = .gone := by
  unfold Deserted at *
  cases l <;> simp only [step] at hs
  case «begin» => split at hs <;> cases hs; grind
  case meet => split at hs <;> cases hs; grind
  case work => split at hs <;> cases hs; grind
  case ack =>
    split at hs
    · split at hs <;> cases hs
      grind
    · cases hs
  case sendTimeout => split at hs <;> cases hs; grind
  case ackTimeout => split at hs <;> cases hs; grind
  case threadEnds => split at hs <;> cases hs <;> exact .inr rfl
  case disconnected => split at hs <;> cases hs; grind

/-- **C76** (exactly when): the thread can still take another request, or end, exactly if it is not about to send an acknowledgement nobody waits for. -/
theorem C76_exact {ls : List Label} {s : St} (h : Run ls s) :
    (∃ ls' s', runSteps step s ls' = some s' ∧ (s'.thread = .ready ∨ s'.thread = .gone)) ↔ ¬ Orphaned s := by
  constructor
  · rintro ⟨ls', s', hr, ht⟩ ho
    have := (C76_wedged_forever ho hr).1
    obtain ⟨⟨c, n, hc⟩, _⟩ := ho
    rw [this, hc] at ht
    rcases ht with ht | ht <;> cases ht
  · intro hno
    have hm := matched_run h
    cases ht : s.thread with
    | ready => exact ⟨[], s, rfl, .inl ht⟩
    | gone => exact ⟨[], s, rfl, .inr ht⟩
    | working c n => exact ⟨[.threadEnds], { s with thread := .gone }, by simp [runSteps, step, ht], .inr rfl⟩
    | acking c n =>
      have : ∃ c' t' n', s.req = some (.awaiting c' t' n') := Classical.byContradiction fun hn =>
        hno ⟨⟨c, n, ht⟩, fun c' t' n' hr => hn ⟨c', t', n', hr⟩⟩
      obtain ⟨c', t', n', hr⟩ := this
      have he := hm c' t' n' hr
      rw [ht] at he
      have hcc : c = c' ∧ n = n' := by rcases he with he | he | he <;> cases he; exact ⟨rfl, rfl⟩
      obtain ⟨rfl, rfl⟩ := hcc
      exact ⟨[.ack], { s with req := none, thread := .ready, log := s.log ++ [(n, .acked n)] }, by simp [runSteps, step, ht, hr], .inl rfl⟩

/-- **C76** (exactly when a session goes on): the thread can take another request exactly if it has not ended, and whoever asked it for what it is doing still
waits for the answer. -/
theorem C76_exact_goes_on {ls : List Label} {s : St} (h : Run ls s) :
    (∃ ls' s', runSteps step s ls' = some s' ∧ s'.thread = .ready) ↔ s.thread ≠ .gone ∧ ¬ Deserted s := by
  constructor
  · rintro ⟨ls', s', hr, ht⟩
    refine Classical.byContradiction fun hn => ?_
    have h0 : Deserted s ∨ s.thread = .gone := by
      by_cases hg : s.thread = .gone
      · exact .inr hg
      · exact .inl (Classical.byContradiction fun hd => hn ⟨hg, hd⟩)
    have := run_inv (I := fun s => Deserted s ∨ s.thread = .gone) (fun _ _ _ hI hs => deserted_step hI hs) h0 hr
    rcases this with ⟨⟨c, n, hc | hc⟩, _⟩ | hc <;> rw [ht] at hc <;> cases hc
  · rintro ⟨hg, hd⟩
    have hm := matched_run h
    have hw : (∃ c n, s.thread = .working c n ∨ s.thread = .acking c n) → ∃ c' t' n', s.req = some (.awaiting c' t' n') := fun hb =>
      Classical.byContradiction fun hn => hd ⟨hb, fun c' t' n' hr => hn ⟨c', t', n', hr⟩⟩
    cases ht : s.thread with
    | ready => exact ⟨[], s, rfl, ht⟩
    | gone => exact absurd ht hg
    | working c n =>
      obtain ⟨c', t', n', hr⟩ := hw ⟨c, n, .inl ht⟩
      have he := hm c' t' n' hr
      rw [ht] at he
      have hcc : c = c' ∧ n = n' := by rcases he with he | he | he <;> cases he; exact ⟨rfl, rfl⟩
      obtain ⟨rfl, rfl⟩ := hcc
      exact ⟨[.work, .ack], { s with req := none, thread := .ready, log := s.log ++ [(n, .acked n)] }, by simp [runSteps, step, ht, hr], rfl⟩
    | acking c n =>
      obtain ⟨c', t', n', hr⟩ := hw ⟨c, n, .inr ht⟩
      have he := hm c' t' n' hr
      rw [ht] at he
      have hcc : c = c' ∧ n = n' := by rcases he with he | he | he <;> cases he; exact ⟨rfl, rfl⟩
      obtain ⟨rfl, rfl⟩ := hcc
      exact ⟨[.ack], { s with req := none, thread := .ready, log := s.log ++ [(n, .acked n)] }, by simp [runSteps, step, ht, hr], rfl⟩

/-- Giving up while the thread is still at work, a session that does not go on. -/
example : ∃ s, Run [.begin .size true, .meet, .ackTimeout] s ∧ Deserted s ∧ ¬ Orphaned s :=
  ⟨_, rfl, ⟨⟨.size, 0, .inl rfl⟩, by simp⟩, fun h => by obtain ⟨⟨c, n, h⟩, _⟩ := h; cases h⟩

end Shpool.Handshake
