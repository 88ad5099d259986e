import Verif.Winch.Model
/-!
# The window size follows the terminal (C89)
-/

namespace Shpool.Winch

@[simp] theorem upd_apply (f : Nat → Option Nat) (i : Nat) (x : Option Nat) (j : Nat) : upd f i x j = if j = i then x else f j := rfl

/-- No signal is waiting or being handled. -/
def Quiet (s : St) : Prop := s.pending = false ∧ s.hand = .idle

/-- The full property: when no signal is waiting or being handled, the session has the size of the terminal it is shown in. -/
def C89_statement : Prop := ∀ n z sess ls s k, Run (init n z sess) ls s → .fail ∉ ls → s.main = .attached k → Quiet s →
  s.sess k = some s.term

/-- **C89 (defect)**: the terminal is resized after the client read its size and before the session is in the daemon's table: the
resize request is answered "not found" and dropped, and the session keeps the old size. -/
theorem C89_false : ¬ C89_statement := by
  intro h
  obtain ⟨s, hr, hm, hq, hz, ht⟩ : ∃ s, Run (init 0 80 (fun _ => none)) [.readSize, .resize 120, .take, .read, .send, .attach] s ∧
      s.main = .attached 0 ∧ Quiet s ∧ s.sess 0 = some 80 ∧ s.term = 120 := ⟨_, rfl, rfl, ⟨rfl, rfl⟩, rfl, rfl⟩
  have := h _ _ _ _ s 0 hr (by decide) hm hq
  rw [hz, ht] at this
  cases this

/-- **C89 (defect)**: the same when reattaching to a session that exists: the request is served, and then undone by the attach. -/
theorem C89_false_reattach : ∃ s, Run (init 0 80 (fun _ => some 100)) [.readSize, .resize 120, .take, .read, .send, .attach] s ∧
    s.main = .attached 0 ∧ Quiet s ∧ s.sess 0 = some 80 ∧ s.term = 120 := ⟨_, rfl, rfl, ⟨rfl, rfl⟩, rfl, rfl⟩

private def Inv (ls : List Label) (s : St) : Prop :=
  (∀ z, s.hand = .sending z → z = s.term ∨ s.pending = true) ∧
  (∀ n, s.main = .attached n → s.slot = n) ∧ (∀ n, s.main = .start n → s.slot = n) ∧ (∀ n z, s.main = .sized n z → s.slot = n) ∧
  (∀ n, s.main = .attached n → s.sess n ≠ none) ∧
  (.fail ∉ ls → s.overtaken = false →
    (∀ n z, s.main = .sized n z → z = s.term ∨ s.pending = true ∨ s.hand = .reading ∨ s.hand = .sending s.term) ∧
    (∀ n, s.main = .attached n → s.sess n = some s.term ∨ s.pending = true ∨ s.hand = .reading ∨ s.hand = .sending s.term))

private theorem step_inv (ls : List Label) (s : St) (l : Label) (s' : St) (hI : Inv ls s) (h : step s l = some s') :
    Inv (ls ++ [l]) s' := by
  obtain ⟨h1, h2, h2b, h2c, h2d, h3⟩ := hI
  unfold Inv
  simp only [List.mem_append, List.mem_singleton]
  cases l <;> simp only [step] at h
  all_goals (repeat' split at h) <;> first | (cases h; done) | (cases h; simp only [upd_apply]; grind)

/-- **C89 (part)**: as long as no resize request overtakes the header of an attach with another size, and no request fails, the
session has the size of the terminal whenever no signal is waiting or being handled — through any number of resizes, switches and
actions of others.  Missing: the overtaking. -/
theorem C89_follows_partial {n z : Nat} {sess : Nat → Option Nat} {ls : List Label} {s : St} (h : Run (init n z sess) ls s)
    (hf : .fail ∉ ls) (ho : s.overtaken = false) (k : Nat) (hm : s.main = .attached k) (hq : Quiet s) : s.sess k = some s.term := by
  have hI : Inv ls s := run_hist (I := Inv) step_inv (by simp [Inv, init]) h
  rcases (hI.2.2.2.2.2 hf ho).2 k hm with h | h | h | h
  · exact h
  · rw [hq.1] at h; cases h
  · rw [hq.2] at h; cases h
  · rw [hq.2] at h; cases h

/-- Three resizes, one of them during the handling of another and one while the header is on its way. -/
example : ∃ s, Run (init 0 80 (fun _ => none)) [.readSize, .resize 90, .attach, .take, .resize 100, .read, .resize 120, .send, .take,
    .read, .send] s ∧ s.main = .attached 0 ∧ Quiet s ∧ s.overtaken = false ∧ s.sess 0 = some 120 := ⟨_, rfl, rfl, ⟨rfl, rfl⟩, rfl, rfl⟩

/-- **C89**: a resize while attached always gets through, whatever went wrong before (and so repairs it): once its signal is
handled the session has the size of the terminal. -/
theorem C89_next_resize {n z : Nat} {sess : Nat → Option Nat} {ls : List Label} {s : St} (h : Run (init n z sess) ls s) (k : Nat)
    (hm : s.main = .attached k) (hi : s.hand = .idle) (z' : Nat) :
    ∃ s', runSteps step s [.resize z', .take, .read, .send] = some s' ∧ s'.sess k = some z' ∧ s'.term = z' := by
  have hI : Inv ls s := run_hist (I := Inv) step_inv (by simp [Inv, init]) h
  have hs : s.slot = k := hI.2.1 k hm
  cases hx : s.sess k with
  | none => exact absurd hx (hI.2.2.2.2.1 k hm)
  | some v =>
    refine ⟨_, by simp [runSteps, step, hm, hi, hs, hx]; rfl, ?_⟩
    simp

/-- **C89**: requests concern only the session the client is at: no step of the client changes the size of another one. -/
theorem C89_only_own {n z : Nat} {sess : Nat → Option Nat} {ls : List Label} {s s' : St} {l : Label} (_h : Run (init n z sess) ls s)
    (hl : ∀ n z, l ≠ .other n z) (hs : step s l = some s') (j : Nat) (hj : j ≠ s.slot) : s'.sess j = s.sess j := by
  have hI : Inv ls s := run_hist (I := Inv) step_inv (by simp [Inv, init]) _h
  obtain ⟨_, h2, h2b, h2c, _⟩ := hI
  cases l <;> simp only [step] at hs
  all_goals (repeat' split at hs) <;> first | (cases hs; done) | (cases hs; rfl) | (cases hs; simp only [upd_apply]; grind)

/-- `C89_next_resize`, `C89_only_own`: attached and idle after a size that was missed. -/
example : ∃ s, Run (init 0 80 (fun _ => some 100)) [.readSize, .resize 120, .take, .read, .send, .attach] s ∧ s.main = .attached 0 ∧
    s.hand = .idle ∧ s.sess 0 = some 80 ∧ s.term = 120 := ⟨_, rfl, rfl, rfl, rfl, rfl⟩

/-! Exactly when the size is wrong. -/

/-- Since the attach with size `z`: what is known of the session's size. -/
private def Since (k z : Nat) (ls : List Label) (s : St) : Prop :=
  (∀ z, s.hand = .sending z → z = s.term ∨ s.pending = true) ∧
  (.fail ∉ ls → .attach ∉ ls → ∀ j, s.main = .attached j → j = k ∧ s.slot = k ∧ s.sess k ≠ none ∧
    (.send ∉ ls → s.sess k = some z) ∧
    (.send ∈ ls → s.sess k = some s.term ∨ s.pending = true ∨ s.hand = .reading ∨ s.hand = .sending s.term))

private theorem step_since (k z : Nat) (ls : List Label) (s : St) (l : Label) (s' : St) (hI : Since k z ls s) (h : step s l = some s') :
    Since k z (ls ++ [l]) s' := by
  obtain ⟨h1, h2⟩ := hI
  unfold Since
  simp only [List.mem_append, List.mem_singleton]
  cases l <;> simp only [step] at h
  all_goals (repeat' split at h) <;> first | (cases h; done) | (cases h; simp only [upd_apply]; grind)

/-- **C89, exactly**: a client whose last attach request announced the size `z`, and none of whose requests fail, when no signal is waiting or being
handled: if a resize request was sent since that attach, the session has the size of the terminal; if not, it has the size announced.  So the
size is wrong if and only if the terminal was resized after its size was read for the attach, and every request about that came too early. -/
theorem C89_exact {n z k : Nat} {sess : Nat → Option Nat} {before after : List Label} {s0 s : St} (h0 : Run (init n z sess) before s0) {z0 : Nat}
    (hz : s0.main = .sized k z0) (h : runSteps step s0 (.attach :: after) = some s) (hf : .fail ∉ after) (ha : .attach ∉ after)
    (hm : s.main = .attached k) (hq : Quiet s) :
    (.send ∈ after → s.sess k = some s.term) ∧ (.send ∉ after → s.sess k = some z0) ∧
    (s.sess k ≠ some s.term ↔ .send ∉ after ∧ z0 ≠ s.term) := by
  have hI : Inv before s0 := run_hist (I := Inv) step_inv (by simp [Inv, init]) h0
  obtain ⟨s1, h1, h2⟩ := run_cons_some h
  have hS : Since k z0 after s := by
    refine run_hist (I := Since k z0) (step_since k z0) ?_ h2
    simp only [step, hz, Option.some.injEq] at h1
    subst h1
    refine ⟨hI.1, fun _ _ j hj => ?_⟩
    cases hj
    exact ⟨rfl, hI.2.2.2.1 k z0 hz, by simp, by simp, by simp⟩
  obtain ⟨_, _, _, h3, h4⟩ := hS.2 hf ha k hm
  have h5 : .send ∈ after → s.sess k = some s.term := by
    intro hs
    rcases h4 hs with h | h | h | h
    · exact h
    · rw [hq.1] at h; cases h
    · rw [hq.2] at h; cases h
    · rw [hq.2] at h; cases h
  refine ⟨h5, h3, ⟨fun hn => ?_, fun ⟨hs, hn⟩ e => ?_⟩⟩
  · have hs : .send ∉ after := fun hs => hn (h5 hs)
    exact ⟨hs, fun e => hn (by rw [h3 hs, e])⟩
  · rw [h3 hs] at e
    exact hn (Option.some.inj e)

/-- Both cases: a request that came too early, and one in time. -/
example : (∃ s0 s, Run (init 0 80 (fun _ => none)) [.readSize, .resize 120, .take, .read, .send] s0 ∧ s0.main = .sized 0 80 ∧
      runSteps step s0 [.attach] = some s ∧ s.main = .attached 0 ∧ Quiet s ∧ s.term = 120) ∧
    (∃ s0 s, Run (init 0 80 (fun _ => none)) [.readSize, .resize 120, .take, .read] s0 ∧ s0.main = .sized 0 80 ∧
      runSteps step s0 [.attach, .send] = some s ∧ s.main = .attached 0 ∧ Quiet s ∧ s.sess 0 = some 120) :=
  ⟨⟨_, _, rfl, rfl, rfl, rfl, ⟨rfl, rfl⟩, rfl⟩, ⟨_, _, rfl, rfl, rfl, rfl, ⟨rfl, rfl⟩, rfl⟩⟩

end Shpool.Winch
