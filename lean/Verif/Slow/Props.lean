import Verif.Slow.Model
/-!
# Slow clients (C129, C130, C131)
-/

namespace Shpool.Slow

/-! ## C129: a connection that does not complete its request is closed soon -/

/-- C129: whatever a client does, after a minute the daemon has its request or has given up. -/
def C129_statement : Prop := ∀ need arrivals, (readRequest need arrivals).2 ≤ 60000

/-- A byte every 150 milliseconds. -/
def drip (n : Nat) : List (Nat × Nat) := List.replicate n (150, 1)

theorem drip_time (n : Nat) : readRequest n (drip n) = (true, 150 * n) := by
  induction n with
  | zero => rfl
  | succ n ih =>
    have hd : drip (n + 1) = (150, 1) :: drip n := rfl
    rw [hd]
    simp only [readRequest]
    rw [if_neg (by decide), if_neg (by decide)]
    simp only [Nat.add_sub_cancel, ih]
    refine Prod.ext rfl ?_
    simp only; omega

/-- **C129 fails**: the timeout is one of each read; a request that comes byte by byte occupies its thread as long as the client likes. -/
theorem C129_false : ¬ C129_statement := by
  intro h
  have := h 1000 (drip 1000)
  rw [drip_time] at this
  exact absurd this (by decide)

/-- There is no bound at all. -/
theorem C129_false_any (bound : Nat) : ∃ need arrivals, bound < (readRequest need arrivals).2 :=
  ⟨bound + 1, drip (bound + 1), by rw [drip_time]; simp only; omega⟩

/-- **C129**, what does hold: it takes no more than the timeout for each byte of the request. -/
theorem C129_bound_partial (need : Nat) (arrivals : List (Nat × Nat)) : (readRequest need arrivals).2 ≤ 200 * need := by
  induction arrivals generalizing need with
  | nil =>
    cases need with
    | zero => simp [readRequest]
    | succ n => simp only [readRequest, timeout]; omega
  | cons a rest ih =>
    obtain ⟨gap, k⟩ := a
    cases need with
    | zero => simp [readRequest]
    | succ n =>
      simp only [readRequest, timeout]
      split
      · simp only; omega
      · split
        · simp only; omega
        · have := ih (n + 1 - k)
          simp only
          omega

/-- The client pauses for the timeout, closes the connection, or does nothing more, before its request is complete. -/
def Stops : Nat → List (Nat × Nat) → Prop
  | 0, _ => False
  | _ + 1, [] => True
  | need + 1, (gap, k) :: rest => timeout ≤ gap ∨ k = 0 ∨ Stops (need + 1 - k) rest

/-- **C129**: a request is read exactly if the client does not stop. -/
theorem C129_read_exact (need : Nat) (arrivals : List (Nat × Nat)) :
    (readRequest need arrivals).1 = true ↔ ¬ Stops need arrivals := by
  induction arrivals generalizing need with
  | nil => cases need <;> simp [readRequest, Stops]
  | cons a rest ih =>
    obtain ⟨gap, k⟩ := a
    cases need with
    | zero => simp [readRequest, Stops]
    | succ n =>
      simp only [readRequest, Stops]
      split
      · simp_all
      · split
        · simp_all
        · rename_i h1 h2
          simp only [ih]
          simp [h1, h2]

/-- **C129**: a client that stops is noticed at the latest one timeout after the last thing it did. -/
theorem C129_silent (need : Nat) (arrivals : List (Nat × Nat)) :
    (readRequest need arrivals).2 ≤ (arrivals.map (·.1)).sum + 200 := by
  induction arrivals generalizing need with
  | nil => cases need <;> simp [readRequest, timeout]
  | cons a rest ih =>
    obtain ⟨gap, k⟩ := a
    cases need with
    | zero => simp [readRequest]
    | succ n =>
      simp only [readRequest, timeout, List.map_cons, List.sum_cons]
      split
      · simp only; omega
      · split
        · simp only; omega
        · have := ih (n + 1 - k)
          simp only
          omega

/-- A presence probe (it connects and closes), a client that hangs in the middle, a client that sends all at once. -/
example : readRequest 40 [(1, 0)] = (false, 1) ∧ readRequest 40 [(3, 10)] = (false, 203) ∧ readRequest 40 [(3, 40)] = (true, 3) := by decide

/-! ## C130: a client that does not read its answer does not hold up others -/

/-- C130: no request waits more than a second because of the clients of others. -/
def C130_statement : Prop := ∀ r : Req, wait [r] ≤ 1000

/-- A list of 10 kB more than fits, read 1 kB at a time. -/
def slowReader : Req := ⟨.list, 18192, 8192, List.replicate 10 (150, 1000)⟩

/-- **C130 fails**: a list is written with the table locked; its reader determines when the table is free again. -/
theorem C130_false : ¬ C130_statement := by
  intro h
  exact absurd (h slowReader) (by decide)

theorem write_fits (size room : Nat) (drains : List (Nat × Nat)) (h : size ≤ room) : writeReply size room drains = (true, 0) := by
  cases drains <;> simp [writeReply, h]

/-- A client that does not read at all still holds others up only for the timeout. -/
theorem C130_stuck_reader (size room : Nat) : (writeReply size room []).2 ≤ 200 := by
  simp only [writeReply, timeout]; split <;> simp

/-- **C130** exactly: whose client holds others up. -/
theorem C130_exact_partial (r : Req) (hs : ∀ d ∈ r.drains, 0 < d.1) :
    wait [r] = 0 ↔ (r.kind = .detach ∨ r.kind = .kill) ∨ r.size ≤ r.room := by
  obtain ⟨kind, size, room, drains⟩ := r
  have key : (writeReply size room drains).2 = 0 ↔ size ≤ room := by
    cases drains with
    | nil => simp only [writeReply, timeout]; split <;> simp_all
    | cons a rest =>
      obtain ⟨gap, k⟩ := a
      have hg : 0 < gap := hs (gap, k) (by simp)
      simp only [writeReply, timeout]
      split
      · simp_all
      · rename_i hn
        split
        · simp [hn]
        · split
          · simp only [hn, iff_false]; omega
          · simp only [hn, iff_false]; omega
  cases kind <;> simp [wait, Req.held, key]

/-- **C130**: if all answers fit, nobody waits for anybody's client. -/
theorem C130_fits_partial (rs : List Req) (h : ∀ r ∈ rs, r.size ≤ r.room) : wait rs = 0 := by
  induction rs with
  | nil => rfl
  | cons r rs ih =>
    have h1 : r.held = 0 := by
      unfold Req.held
      cases r.kind <;> simp [write_fits _ _ _ (h r (by simp))]
    have h2 := ih (fun r hr => h r (by simp [hr]))
    simp only [wait, List.map_cons, List.sum_cons] at h2 ⊢
    omega

/-- **C130**: and in any case no longer than the timeout for each byte that does not fit. -/
theorem C130_bound_partial (r : Req) : wait [r] ≤ 200 * (r.size - r.room) := by
  have key : ∀ (drains : List (Nat × Nat)) (size room : Nat), (writeReply size room drains).2 ≤ 200 * (size - room) := by
    intro drains
    induction drains with
    | nil => intro size room; simp only [writeReply, timeout]; split <;> simp only <;> omega
    | cons a rest ih =>
      intro size room
      obtain ⟨gap, k⟩ := a
      simp only [writeReply, timeout]
      split
      · simp
      · split
        · simp only; omega
        · split
          · simp only; omega
          · have := ih (size - room) k
            simp only
            omega
  simp only [wait, List.map_cons, List.map_nil, List.sum_cons, List.sum_nil, Req.held]
  cases r.kind <;> simp [key]

example : wait [⟨.list, 300, 8192, []⟩, ⟨.kill, 20, 0, []⟩, ⟨.detach, 20, 8192, []⟩] = 0 ∧ wait [⟨.list, 9000, 8192, []⟩] = 200 := by decide

/-! ## C131: clients cannot end the daemon -/

/-- C131: whatever connections are made, the daemon goes on. -/
def C131_statement : Prop := ∀ max ls s, Run max ls s → s.up = true

/-- **C131 fails**: if the system refuses a thread for one more connection, the daemon ends, and with it all sessions. (Each of the
connections lasts as long as its client likes, C129.) -/
theorem C131_false : ¬ C131_statement := by
  intro h
  exact absurd (h 2 [.accept 1, .accept 2, .accept 3] _ rfl) (by decide)

/-- Whatever the system allows, one connection more is too many. -/
theorem C131_false_any (max : Nat) : ∃ ls s, Run max ls s ∧ s.up = false ∧ ls.length = max + 1 := by
  have hr : ∀ n, n ≤ max → ∃ s, Run max ((List.range n).map .accept) s ∧ s.up = true ∧ s.live.length = n ∧ ∀ c ∈ s.live, c < n := by
    intro n
    induction n with
    | zero => intro _; exact ⟨_, rfl, rfl, rfl, nofun⟩
    | succ n ih =>
      intro hn
      obtain ⟨s, hr, hu, hl, hc⟩ := ih (by omega)
      refine ⟨{ s with live := n :: s.live }, ?_, hu, by simp [hl], ?_⟩
      · unfold Run at hr ⊢
        rw [List.range_succ, List.map_append, run_append, hr]
        have hnm : n ∉ s.live := fun h => absurd (hc n h) (by omega)
        have : step max s (.accept n) = some { s with live := n :: s.live } := by
          simp only [step]
          rw [if_neg (by simp [hu, hnm]), if_pos (by omega)]
        simp [runSteps, this]
      · intro c hcm
        simp only [List.mem_cons] at hcm
        rcases hcm with rfl | hcm
        · omega
        · have := hc c hcm; omega
  obtain ⟨s, hr, hu, hl, hc⟩ := hr max (Nat.le_refl _)
  refine ⟨(List.range max).map .accept ++ [.accept max], { s with up := false }, ?_, rfl, by simp⟩
  unfold Run at hr ⊢
  rw [run_append, hr]
  have hnm : max ∉ s.live := fun h => absurd (hc max h) (by omega)
  have : step max s (.accept max) = some { s with up := false } := by
    simp only [step]
    rw [if_neg (by simp [hu, hnm]), if_neg (by omega)]
  simp [runSteps, this]

/-- **C131** exactly: the daemon ends by a connection only if that comes when as many as possible are there; failing to accept a
connection, and whatever happens in a connection's own thread, does not end it. -/
theorem C131_exact_partial {max : Nat} {s s' : St} {l : Label} (hu : s.up = true) (h : step max s l = some s') :
    s'.up = false ↔ (∃ c, l = .accept c) ∧ max ≤ s.live.length := by
  cases l with
  | accept c =>
    simp only [step] at h
    split at h
    · cases h
    · split at h <;> cases h
      · simp [hu]; omega
      · simp; omega
  | acceptFails =>
    simp only [step] at h
    rw [if_pos hu] at h
    cases h
    simp [hu]
  | ends c =>
    simp only [step] at h
    split at h <;> cases h
    simp [hu]

/-- **C131** for histories: at each new connection there are fewer than the system allows. -/
theorem C131_up_partial {max : Nat} {ls : List Label} {s : St} (h : Run max ls s)
    (hb : ∀ pre c post s1, ls = pre ++ .accept c :: post → Run max pre s1 → s1.live.length < max) : s.up = true := by
  have := run_hist (step := step max) (s := ⟨true, []⟩) (I := fun ls s => Run max ls s ∧
    ((∀ pre c post s1, ls = pre ++ .accept c :: post → Run max pre s1 → s1.live.length < max) → s.up = true)) ?_ ⟨rfl, fun _ => rfl⟩ h
  · exact this.2 hb
  · intro ls s l s' hI hs
    refine ⟨?_, fun hb => ?_⟩
    · unfold Run; rw [run_append, show runSteps (step max) _ ls = some s from hI.1]; simp [runSteps, hs]
    · have hu := hI.2 (fun pre c post s1 he => hb pre c (post ++ [l]) s1 (by rw [he]; simp))
      cases hu' : s'.up with
      | true => rfl
      | false =>
        obtain ⟨⟨c, rfl⟩, hm⟩ := (C131_exact_partial hu hs).1 hu'
        have := hb ls c [] s rfl hI.1
        omega

/-- Three connections, of which one ends before the next comes; accepting fails in between. -/
example : ∃ s, Run 3 [.accept 1, .accept 2, .ends 1, .acceptFails, .accept 3] s ∧ s.up = true ∧ s.live = [3, 2] := ⟨_, rfl, rfl, rfl⟩

end Shpool.Slow
