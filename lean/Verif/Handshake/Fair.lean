import Verif.Handshake.Props
import Verif.Util.Fair

/-! # In every fair execution a request ends -/

namespace Shpool.Handshake

/-- Whether a request waits with time limits. -/
def Req.timed : Req → Bool
  | .sending _ t _ => t
  | .awaiting _ t _ => t

/-- A requester that waits with time limits does not wait for ever. -/
def gaveUp : Label → Bool
  | .sendTimeout => true
  | .ackTimeout => true
  | _ => false

/-- The thread and the requester do not put off for ever what they can do: to meet, to do the work, to hand over the acknowledgement, to
notice that the other is gone. -/
structure Fair (σ : Nat → St) (lab : Nat → Option Label) : Prop where
  meet : WeakFair step σ lab (· == .meet)
  work : WeakFair step σ lab (· == .work)
  ack : WeakFair step σ lab (· == .ack)
  disconnected : WeakFair step σ lab (· == .disconnected)

/-- Request `n` has ended. -/
def Ended (n : Nat) (s : St) : Prop := ∃ o, (n, o) ∈ s.log

/-- A request goes on as the one it is until it has ended; meeting the thread is the only other thing that happens to it. -/
theorem req_step {s s' : St} {l : Label} {r : Req} (hr : s.req = some r) (h : step s l = some s') :
    Ended r.num s' ∨ s'.req = some r ∨ (l = .meet ∧ s.thread = .ready ∧ ∃ c, r = .sending c r.timed r.num ∧ s'.req = some (.awaiting c r.timed r.num) ∧
      s'.thread = .working c r.num) := by
  cases l <;> simp only [step, hr] at h
  case «begin» => cases h
  case meet =>
    split at h <;> cases h
    rename_i h1 h2
    cases h1
    exact .inr (.inr ⟨rfl, h2, _, rfl, rfl, rfl⟩)
  case work => split at h <;> cases h; exact .inr (.inl rfl)
  case ack =>
    split at h
    · rename_i h1 h2
      cases h1
      split at h <;> cases h
      exact .inl ⟨_, List.mem_append_right _ (List.mem_singleton.mpr rfl)⟩
    · cases h
  case sendTimeout =>
    split at h <;> cases h
    rename_i h1; cases h1
    exact .inl ⟨_, List.mem_append_right _ (List.mem_singleton.mpr rfl)⟩
  case ackTimeout =>
    split at h <;> cases h
    rename_i h1; cases h1
    exact .inl ⟨_, List.mem_append_right _ (List.mem_singleton.mpr rfl)⟩
  case threadEnds => split at h <;> cases h <;> exact .inr (.inl rfl)
  case disconnected =>
    split at h <;> cases h
    rename_i h1 _; cases h1
    exact .inl ⟨_, List.mem_append_right _ (List.mem_singleton.mpr rfl)⟩

/-- What is recorded stays recorded. -/
theorem ended_step {s s' : St} {l : Label} {n : Nat} (hn : Ended n s) (h : step s l = some s') : Ended n s' := by
  obtain ⟨o, ho⟩ := hn
  refine ⟨o, ?_⟩
  cases l <;> simp only [step] at h <;> grind

private theorem pending {σ : Nat → St} {lab : Nat → Option Label} (hx : Exec step σ lab) {m : Nat} {r : Req} (hr : (σ m).req = some r) :
    ∀ i, m ≤ i → Ended r.num (σ i) ∨ ∃ r', (σ i).req = some r' ∧ r'.num = r.num ∧ r'.timed = r.timed :=
  exec_stays hx (p := fun s => Ended r.num s ∨ ∃ r', s.req = some r' ∧ r'.num = r.num ∧ r'.timed = r.timed)
    (fun i l _ _ hp h => by
      rcases hp with hp | ⟨r', h1, h2, h3⟩
      · exact .inl (ended_step hp h)
      · rcases req_step h1 h with h4 | h4 | ⟨_, _, c, _, h4, _⟩
        · exact .inl (h2 ▸ h4)
        · exact .inr ⟨r', h4, h2, h3⟩
        · exact .inr ⟨_, h4, h2, h3⟩) (.inr ⟨r, hr, rfl, rfl⟩)

private theorem at_ {σ : Nat → St} {lab : Nat → Option Label} (hx : Exec step σ lab) {i : Nat} {l : Label} (hl : lab i = some l) :
    step (σ i) l = some (σ (i + 1)) := by
  rcases hx i with ⟨h1, _⟩ | ⟨l', h1, h2⟩
  · rw [h1] at hl; cases hl
  · rw [hl] at h1; cases h1; exact h2

/-- C76, whatever the state of the session: a request that waits with time limits ends, in every execution in which waiting with a time limit
ends.  (All requests but those of `shpool detach`, for which see `C76_false_untimed`.) -/
theorem C76_timed_ends {σ : Nat → St} {lab : Nat → Option Label} (hx : Exec step σ lab) (hf : WeakFair step σ lab gaveUp) {m : Nat} {r : Req}
    (hr : (σ m).req = some r) (ht : r.timed = true) : ∃ i, m ≤ i ∧ Ended r.num (σ i) := by
  have hp := pending hx hr
  refine Classical.byContradiction fun hno => ?_
  have hq : ∀ i, m ≤ i → ∃ r', (σ i).req = some r' ∧ r'.num = r.num ∧ r'.timed = r.timed := fun i hi =>
    (hp i hi).resolve_left (fun h => hno ⟨i, hi, h⟩)
  obtain ⟨i, l, hi, hl, ha⟩ := hf ⟨m, fun i hi => by
    obtain ⟨r', h1, _, h3⟩ := hq i hi
    cases r' with
    | sending c t n =>
      have : t = true := h3.trans ht
      exact ⟨.sendTimeout, rfl, by simp [step, h1, this]⟩
    | awaiting c t n =>
      have : t = true := h3.trans ht
      exact ⟨.ackTimeout, rfl, by simp [step, h1, this]⟩⟩ m
  obtain ⟨r', h1, h2, _⟩ := hq i hi
  have hs := at_ hx hl
  refine hno ⟨i + 1, by omega, h2 ▸ ?_⟩
  generalize σ (i + 1) = s' at hs ⊢
  cases l <;> simp only [gaveUp, Bool.false_eq_true] at ha
  all_goals
    simp only [step, h1] at hs
    split at hs <;> cases hs
    rename_i h4; cases h4
    exact ⟨_, List.mem_append_right _ (List.mem_singleton.mpr rfl)⟩

/-- How far a request is from its end. -/
def left (s : St) : Nat :=
  match s.thread with
  | .gone => 0
  | .acking _ _ => 1
  | .working _ _ => 2
  | .ready => 3

theorem left_step {s s' : St} {l : Label} {r : Req} (hr : s.req = some r) (h : step s l = some s') :
    Ended r.num s' ∨ (left s' ≤ left s ∧ (l = .meet ∨ l = .work → left s' < left s)) := by
  rcases req_step hr h with h1 | h1 | ⟨rfl, h1, c, _, _, h2⟩
  · exact .inl h1
  · refine .inr ?_
    cases l <;> simp only [step, hr] at h
    all_goals first | cases h | (split at h <;> cases h) | (split at h; split at h <;> cases h)
    all_goals simp_all [left]
  · exact .inr (by simp [left, h1, h2])

/-- That somebody gave up waiting for an acknowledgement is recorded only if it happened. -/
theorem ackTimeouts {ls : List Label} {s : St} {n : Nat} (h : Run ls s) (hn : (n, Outcome.ackTimeout) ∈ s.log) : Label.ackTimeout ∈ ls := by
  have : ∀ n, (n, Outcome.ackTimeout) ∈ s.log → Label.ackTimeout ∈ ls := run_hist (I := fun ls s => ∀ n, (n, Outcome.ackTimeout) ∈ s.log →
      Label.ackTimeout ∈ ls) (fun ls s l s' hI h n hn => by
    cases l <;> simp only [step] at h <;> grind) (by simp [init]) h
  exact this n hn

/-- C76, over time: in every execution in which nobody gives up waiting for an acknowledgement, and neither thread nor requester puts off for
ever what it can do, every request ends: it is acknowledged as the request it is, or not taken in time, or told that the thread is gone, which
then is the case.  Missing: what follows when somebody gave up (see `C76_wedged_forever`). -/
theorem C76_fair_partial {σ : Nat → St} {lab : Nat → Option Label} (hx : Exec step σ lab) (h0 : σ 0 = init) (hf : Fair σ lab)
    (hno : ∀ i, lab i ≠ some .ackTimeout) {m : Nat} {r : Req} (hr : (σ m).req = some r) :
    ∃ i o, m ≤ i ∧ (r.num, o) ∈ (σ i).log ∧ (o = .acked r.num ∨ o = .sendTimeout ∨ (o = .disconnected ∧ (σ i).thread = .gone)) := by
  have hrun : ∀ i, Run (performed lab i) (σ i) := fun i => by
    have h := exec_run hx i
    rw [h0] at h
    exact h
  have hperf : ∀ i, Label.ackTimeout ∉ performed lab i := fun i h => by
    obtain ⟨j, _, hj⟩ := mem_performed h
    exact hno j hj
  have hp := pending hx hr
  have main : ∃ i, m ≤ i ∧ Ended r.num (σ i) := by
    refine Classical.byContradiction fun hne => ?_
    have hq : ∀ i, m ≤ i → ∃ r', (σ i).req = some r' ∧ r'.num = r.num := fun i hi => by
      obtain ⟨r', h1, h2, _⟩ := (hp i hi).resolve_left (fun h => hne ⟨i, hi, h⟩)
      exact ⟨r', h1, h2⟩
    have hle : ∀ i l, m ≤ i → step (σ i) l = some (σ (i + 1)) → left (σ (i + 1)) ≤ left (σ i) ∧
        (l = .meet ∨ l = .work → left (σ (i + 1)) < left (σ i)) := fun i l hi h => by
      obtain ⟨r', h1, h2⟩ := hq i hi
      exact (left_step h1 h).resolve_left (fun h => hne ⟨i + 1, by omega, h2 ▸ h⟩)
    obtain ⟨_, _, h⟩ := reaches (σ := σ) (Goal := fun _ => False) left (m := m) (fun i hi _ => by
      rcases hx i with ⟨_, h3⟩ | ⟨l, hl, h3⟩
      · rw [h3]; exact Nat.le_refl _
      · exact (hle i l hi h3).1) (fun k hk hrest => by
      have same : ∀ i, k ≤ i → left (σ i) = left (σ k) := fun i hi => (hrest i hi).2
      have hI : ∀ i, Inv (performed lab i) (σ i) := fun i => run_inv' (hrun i)
      -- which step is possible from now on depends only on how far the request is
      cases ht : (σ k).thread with
      | ready =>
        obtain ⟨i, l, hi, hl, ha⟩ := hf.meet ⟨k, fun i hi => ⟨.meet, rfl, by
          have h1 := same i hi
          obtain ⟨r', h2, _⟩ := hq i (by omega)
          have h3 := hI i (hperf i)
          cases hti : (σ i).thread <;> simp [left, ht, hti] at h1
          rw [hti] at h3
          cases r' with
          | sending c t n => simp [step, h2, hti]
          | awaiting c t n => exact absurd h2 (h3 c t n)⟩⟩ k
        have h1 := (hle i l (by omega) (at_ hx hl)).2 (.inl (by simpa using ha))
        have h2 := same i hi
        have h3 := same (i + 1) (by omega)
        omega
      | working c n =>
        obtain ⟨i, l, hi, hl, ha⟩ := hf.work ⟨k, fun i hi => ⟨.work, rfl, by
          have h1 := same i hi
          cases hti : (σ i).thread <;> simp [left, ht, hti] at h1
          simp [step, hti]⟩⟩ k
        have h1 := (hle i l (by omega) (at_ hx hl)).2 (.inr (by simpa using ha))
        have h2 := same i hi
        have h3 := same (i + 1) (by omega)
        omega
      | acking c n =>
        obtain ⟨i, l, hi, hl, ha⟩ := hf.ack ⟨k, fun i hi => ⟨.ack, rfl, by
          have h1 := same i hi
          have h3 := hI i (hperf i)
          cases hti : (σ i).thread <;> simp [left, ht, hti] at h1
          rw [hti] at h3
          obtain ⟨t, h3⟩ := h3
          simp [step, hti, h3]⟩⟩ k
        have hl' : l = .ack := by simpa using ha
        have hs := at_ hx hl
        obtain ⟨r', h2, h3⟩ := hq i (by omega)
        rcases req_step h2 hs with h4 | h4 | ⟨h4, _⟩
        · exact hne ⟨i + 1, by omega, h3 ▸ h4⟩
        · subst hl'
          simp only [step, h2] at hs
          split at hs
          · split at hs
            · rw [← Option.some.inj hs] at h4; cases h4
            · cases hs
          · cases hs
        · rw [hl'] at h4; cases h4
      | gone =>
        obtain ⟨i, l, hi, hl, ha⟩ := hf.disconnected ⟨k, fun i hi => ⟨.disconnected, rfl, by
          have h1 := same i hi
          obtain ⟨r', h2, _⟩ := hq i (by omega)
          cases hti : (σ i).thread <;> simp [left, ht, hti] at h1
          simp [step, h2, hti]⟩⟩ k
        have hl' : l = .disconnected := by simpa using ha
        have hs := at_ hx hl
        obtain ⟨r', h2, h3⟩ := hq i (by omega)
        rcases req_step h2 hs with h4 | h4 | ⟨h4, _⟩
        · exact hne ⟨i + 1, by omega, h3 ▸ h4⟩
        · subst hl'
          simp only [step, h2] at hs
          split at hs
          · rw [← Option.some.inj hs] at h4; cases h4
          · cases hs
        · rw [hl'] at h4; cases h4)
    exact h
  obtain ⟨i, hi, o, ho⟩ := main
  refine ⟨i, o, hi, ho, ?_⟩
  cases o with
  | acked k => exact .inl (by rw [C76_own_answer (hrun i) ho])
  | sendTimeout => exact .inr (.inl rfl)
  | ackTimeout => exact absurd (ackTimeouts (hrun i) ho) (hperf i)
  | disconnected => exact .inr (.inr ⟨rfl, (C76_outcome (hrun i)).2 _ ho⟩)

/-- A request without time limits is made and acknowledged. -/
def answeredRun : List Label := [.begin .conn false, .meet, .work, .ack]

example : Exec step (thenRests step init answeredRun) (fun i => answeredRun[i]?) ∧
    Fair (thenRests step init answeredRun) (fun i => answeredRun[i]?) ∧ (∀ i : Nat, answeredRun[i]? ≠ some Label.ackTimeout) ∧
    (thenRests step init answeredRun 1).req = some (.sending .conn false 0) := by
  obtain ⟨h1, h2⟩ := thenRests_exec (step := step) (s := init) (ls := answeredRun) (s' := ⟨.ready, none, 1, [(0, .acked 0)]⟩) rfl
  refine ⟨h1, ⟨(fair_at_rest h2 ?_).1, (fair_at_rest h2 ?_).1, (fair_at_rest h2 ?_).1, (fair_at_rest h2 ?_).1⟩, fun i h => ?_, rfl⟩
  · intro l hl; rw [(by simpa using hl : l = .meet)]; rfl
  · intro l hl; rw [(by simpa using hl : l = .work)]; rfl
  · intro l hl; rw [(by simpa using hl : l = .ack)]; rfl
  · intro l hl; rw [(by simpa using hl : l = .disconnected)]; rfl
  · have := List.mem_of_getElem? h
    revert this; decide

/-- In a session that takes no requests any more a request with time limits ends nevertheless. -/
def wedgedRun : List Label := lateAck ++ [.begin .size true, .sendTimeout]

example : Exec step (thenRests step init wedgedRun) (fun i => wedgedRun[i]?) ∧
    WeakFair step (thenRests step init wedgedRun) (fun i => wedgedRun[i]?) gaveUp ∧
    (thenRests step init wedgedRun 5).req = some (.sending .size true 1) ∧ (thenRests step init wedgedRun 5).thread = .acking .heartbeat 0 := by
  obtain ⟨h1, h2⟩ := thenRests_exec (step := step) (s := init) (ls := wedgedRun)
    (s' := ⟨.acking .heartbeat 0, none, 2, [(0, .ackTimeout), (1, .sendTimeout)]⟩) rfl
  refine ⟨h1, (fair_at_rest h2 ?_).1, rfl, rfl⟩
  intro l hl
  cases l <;> simp only [gaveUp, Bool.false_eq_true] at hl <;> rfl

end Shpool.Handshake
