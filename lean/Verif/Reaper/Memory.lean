import Verif.Reaper.Fair
/-!
# C160: what is kept for the time limits of sessions that are gone
-/

namespace Shpool.Reaper

variable {N : Type} [DecidableEq N]

/-- The claim: when there is no session of a name, and none is being made, nothing about the name is kept. -/
def C160_statement : Prop := ∀ (ls : List (Label Nat)) (s : St Nat), Run ls s → ∀ n, s.table n = none → (∀ c ∈ s.creating, c.name ≠ n) →
  (∀ m ∈ s.mail, m.1 ≠ n) → s.gens n = 0 ∧ ∀ e ∈ s.heap, e.name ≠ n

/-- `k` sessions made with a limit of a `t`, and taken away at once. -/
def comeAndGo (t : Nat) : Nat → List (Label Nat)
  | 0 => []
  | k + 1 => comeAndGo t k ++ [.spawn k (some t), .recv, .insert ⟨k, k, some t, 1⟩, .remove k]

private theorem comeAndGo_run (t k : Nat) : ∃ s, Run (comeAndGo t k) s ∧ s.table = (fun _ => none) ∧ s.creating = [] ∧ s.mail = [] ∧
    s.now = 0 ∧ s.nextSid = k ∧ s.heap = (List.range k).map (fun i => ⟨i, 1, t⟩) ∧ (∀ n, s.gens n = if n < k then 1 else 0) ∧
    s.received = (List.range k).map (fun i => (i, t)) := by
  induction k with
  | zero => exact ⟨init, rfl, rfl, rfl, rfl, rfl, rfl, rfl, fun n => by simp [init], rfl⟩
  | succ k ih =>
    obtain ⟨s, hr, h1, h2, h3, h4, h5, h6, h7, h8⟩ := ih
    have hc : countOf k s.sent = 0 := by
      unfold countOf St.sent
      rw [h8, h3, List.append_nil, List.length_eq_zero_iff, List.filter_eq_nil_iff]
      intro a ha
      obtain ⟨i, hi, rfl⟩ := List.mem_map.1 ha
      have := List.mem_range.1 hi
      simp; omega
    refine ⟨⟨0, s.received ++ [(k, t)], [], fun m => if m = k then 1 else s.gens m, s.heap ++ [⟨k, 1, t⟩], fun _ => none, [],
      k + 1⟩, ?_, rfl, rfl, rfl, rfl, rfl, ?_, ?_, ?_⟩
    · unfold Run at hr ⊢
      unfold comeAndGo
      rw [run_append, hr]
      have hg : s.gens k = 0 := by rw [h7]; simp
      simp only [Option.bind_some, runSteps, step, h3, h2, h4, h5, hc, mailCap, h1]
      simp
      refine ⟨by rw [hg], hg, ?_⟩
      funext m
      (repeat' split) <;> rfl
    · rw [h6, List.range_succ]; simp
    · intro n
      simp only [h7]
      split <;> (repeat' split) <;> omega
    · rw [h8, List.range_succ]; simp

/-- **C160** is false: of a session that is gone its number stays for ever, and its deadline stays until it has passed. -/
theorem C160_false : ¬ C160_statement := by
  intro h
  obtain ⟨s, hr, h1, h2, h3, -, -, -, h7, -⟩ := comeAndGo_run 5 1
  have := (h _ s hr 0 (by rw [h1]) (by simp [h2]) (by simp [h3])).1
  rw [h7] at this
  simp at this

/-- There is no bound on the deadlines kept for sessions that are gone, however far away these are. -/
theorem C160_false_heap (t k : Nat) : ∃ (ls : List (Label Nat)) (s : St Nat), Run ls s ∧ (∀ n, s.table n = none) ∧ s.creating = [] ∧
    s.mail = [] ∧ s.heap.length = k ∧ ∀ e ∈ s.heap, e.at_ = s.now + t := by
  obtain ⟨s, hr, h1, h2, h3, h4, -, h6, -, -⟩ := comeAndGo_run t k
  refine ⟨_, s, hr, fun n => by rw [h1], h2, h3, by rw [h6]; simp, ?_⟩
  rw [h6, h4]
  intro e he
  obtain ⟨i, -, rfl⟩ := List.mem_map.1 he
  simp

/-- **C160**, what is kept of the names: of each the number of its registrations, whatever became of its sessions. -/
theorem C160_names_exact {ls : List (Label N)} {s : St N} (h : Run ls s) (n : N) :
    s.gens n = (s.received.filter (fun m => decide (m.1 = n))).length := (inv_run h).gens n

/-- A name once kept is kept for ever. -/
theorem C160_names_for_ever {ls ws : List (Label N)} {s s' : St N} (_h : Run ls s) (h' : runSteps step s ws = some s') (n : N)
    (hn : 0 < s.gens n) : 0 < s'.gens n := by
  refine run_inv (I := fun s => 0 < s.gens n) ?_ hn h'
  intro s l s' hI hs
  cases l <;> simp only [step] at hs <;> (repeat' split at hs) <;> cases hs <;> simp_all
  split <;> simp_all

private theorem heap_sub {ls : List (Label N)} {s : St N} (h : Run ls s) : List.Sublist (s.heap.map fun e => (e.name, e.at_)) s.received := by
  refine run_inv (I := fun s => List.Sublist (s.heap.map fun e => (e.name, e.at_)) s.received) ?_ (by simp [init]) h
  intro s l s' hI hs
  cases l with
  | tick => cases hs; exact hI
  | spawn n ttl =>
    cases ttl with
    | none => cases hs; exact hI
    | some t => simp only [step] at hs; split at hs <;> cases hs; exact hI
  | insert c => simp only [step] at hs; split at hs <;> cases hs; exact hI
  | remove n => cases hs; exact hI
  | recv =>
    simp only [step] at hs
    split at hs <;> cases hs
    simp only [List.map_append, List.map_cons, List.map_nil]
    exact List.Sublist.append hI (List.Sublist.refl _)
  | reap e =>
    have : List.Sublist ((s.heap.erase e).map fun e => (e.name, e.at_)) s.received := (List.Sublist.map _ List.erase_sublist).trans hI
    simp only [step] at hs
    split at hs
    · (repeat' split at hs) <;> cases hs <;> exact this
    · cases hs

/-- **C160** for the deadlines: when the reaper has nothing to do, the deadlines kept are registrations (each once) that have not
passed. -/
theorem C160_heap_partial {ls : List (Label N)} {s : St N} (h : Run ls s) (hidle : ∀ e, step s (.reap e) = none) :
    List.Sublist (s.heap.map fun e => (e.name, e.at_)) (s.received.filter (fun m => decide (s.now < m.2))) := by
  have hfut : ∀ e ∈ s.heap, s.now < e.at_ := by
    intro x hx
    obtain ⟨e, he⟩ := exists_top s.heap (List.ne_nil_of_mem hx)
    have h1 := (isTop_mem he).2 x hx
    refine Nat.lt_of_not_le fun hle => ?_
    have := hidle e
    simp only [step] at this
    rw [if_pos ⟨he, by omega⟩] at this
    (repeat' split at this) <;> cases this
  have := List.Sublist.filter (fun m => decide (s.now < m.2)) (heap_sub h)
  rw [List.filter_eq_self.2] at this
  · exact this
  · intro m hm
    obtain ⟨e, he, rfl⟩ := List.mem_map.1 hm
    simpa using hfut e he

/-- One session of three has been reaped, one was removed by hand; the reaper waits with two deadlines. -/
example : ∃ (ls : List (Label Nat)) (s : St Nat), Run ls s ∧ s.received = [(0, 1), (1, 7), (2, 9)] ∧
    s.heap = [⟨1, 1, 7⟩, ⟨2, 1, 9⟩] ∧ s.table 0 = none ∧ s.table 1 = none ∧ s.now = 2 ∧ ∀ e, step s (.reap e) = none := by
  refine ⟨[.spawn 0 (some 1), .spawn 1 (some 7), .recv, .insert ⟨0, 0, some 1, 1⟩, .insert ⟨1, 1, some 7, 1⟩, .spawn 2 (some 9), .recv, .recv,
    .tick, .tick, .remove 1, .reap ⟨0, 1, 1⟩], _, rfl, rfl, rfl, rfl, rfl, rfl, fun e => ?_⟩
  simp only [step]
  refine if_neg ?_
  rintro ⟨h1, h2⟩
  have := (isTop_mem h1).1
  change e ∈ [(⟨1, 1, 7⟩ : Reapable Nat), ⟨2, 1, 9⟩] at this
  change e.at_ ≤ 2 at h2
  simp only [List.mem_cons, List.not_mem_nil, or_false] at this
  rcases this with rfl | rfl <;> simp at h2

/-- **C160** for the registrations under way: at most ten. -/
theorem C160_mail {ls : List (Label N)} {s : St N} (h : Run ls s) : s.mail.length ≤ 10 := by
  refine run_inv (I := fun s => s.mail.length ≤ 10) ?_ (by simp [init]) h
  intro s l s' hI hs
  cases l <;> simp only [step] at hs <;> (repeat' split at hs) <;> cases hs <;> simp_all <;> (unfold mailCap at *; omega)

/-- All ten can be there; the next session with a limit has to wait. -/
theorem C160_mail_full : ∃ (ls : List (Label Nat)) (s : St Nat), Run ls s ∧ s.mail.length = 10 ∧ ∀ n t, step s (.spawn n (some t)) = none :=
  ⟨(List.range 10).map fun n => .spawn n (some 3), _, rfl, rfl, fun _ _ => rfl⟩

/-- **C160** for the deadlines, over time: of every moment, the deadlines up to it are forgotten sooner or later, for good. -/
theorem C160_fair_partial {σ : Nat → St N} {lab : Nat → Option (Label N)} (hx : Exec step σ lab) (hf : Fair σ lab) (d : Nat) :
    ∃ i, ∀ j, i ≤ j → (∀ e ∈ (σ j).heap, d < e.at_) ∧ ∀ r ∈ (σ j).mail, d < r.2 := by
  -- the moment passes
  obtain ⟨m, -, hnow⟩ : ∃ j, 0 ≤ j ∧ d < (σ j).now := by
    refine reaches (σ := σ) (Goal := fun s => d < s.now) (fun s => d + 1 - s.now) (fun i hi _ => ?_) (fun j hj hrest => ?_)
    · rcases hx i with ⟨_, h2⟩ | ⟨l, _, h2⟩
      · rw [h2]; exact Nat.le_refl _
      · have := (received_step h2).2
        omega
    · obtain ⟨i, l, hi, hl, ha⟩ := hf.time j
      have h1 := hrest i hi
      have h2 := hrest (i + 1) (by omega)
      have := (received_step (exec_at hx hl)).2
      rw [ha] at this
      simp only [if_true] at this
      omega
  have hnow' : ∀ i, m ≤ i → d < (σ i).now := exec_stays hx (p := fun s => d < s.now) (fun i l _ _ hp h => by
    have := (received_step h).2; omega) hnow
  have hmono : ∀ i, m ≤ i → ∃ x, (σ i).sent = (σ m).sent ++ x ∧ ∀ r ∈ x, d < r.2 :=
    exec_stays hx (p := fun s => ∃ x, s.sent = (σ m).sent ++ x ∧ ∀ r ∈ x, d < r.2)
      (fun i l hi hl hp h => by
        obtain ⟨x, hp2, hp3⟩ := hp
        rcases sent_step h with ⟨n', t, rfl, e⟩ | ⟨_, e⟩
        · refine ⟨x ++ [(n', (σ i).now + t)], by rw [e, hp2, List.append_assoc], ?_⟩
          intro r hr
          rcases List.mem_append.1 hr with hr | hr
          · exact hp3 r hr
          · simp only [List.mem_singleton] at hr
            have := hnow' i hi
            subst hr; dsimp only; omega
        · exact ⟨x, by rw [e]; exact hp2, hp3⟩) ⟨[], by simp, by simp⟩
  -- everything registered before is received
  obtain ⟨k, hk, hrec⟩ : ∃ k, m ≤ k ∧ (σ m).sent.length ≤ (σ k).received.length := by
    refine reaches (σ := σ) (Goal := fun s => (σ m).sent.length ≤ s.received.length) (fun s => (σ m).sent.length - s.received.length) (fun i hi _ => ?_) (fun k hk hrest => ?_)
    · rcases hx i with ⟨_, h2⟩ | ⟨l, _, h2⟩
      · rw [h2]; exact Nat.le_refl _
      · have := (received_step h2).1
        omega
    · obtain ⟨i, l, hi, hl, ha⟩ := hf.recv ⟨k, fun i hi => ⟨.recv, rfl, by
        have h1 := (hrest i hi).1
        obtain ⟨x, h2, -⟩ := hmono i (by omega)
        have h2 := congrArg List.length h2
        simp only [St.sent, List.length_append] at h1 h2
        cases hm : (σ i).mail with
        | nil => rw [hm] at h2; simp at h2; omega
        | cons a b => simp [step, hm]⟩⟩ k
      have h1 := hrest i hi
      have h2 := hrest (i + 1) (by omega)
      have := (received_step (exec_at hx hl)).1
      rw [ha] at this
      simp only [if_true] at this
      omega
  have hmail : ∀ i, k ≤ i → ∀ r ∈ (σ i).mail, d < r.2 := by
    intro i hi r hr
    have hlen : (σ m).sent.length ≤ (σ i).received.length :=
      exec_stays hx (p := fun s => (σ m).sent.length ≤ s.received.length) (fun i l _ _ hp h => by
        have := (received_step h).1; omega) hrec i hi
    obtain ⟨x, h1, h2⟩ := hmono i (by omega)
    obtain ⟨y, hy⟩ : (σ m).sent <+: (σ i).received := List.prefix_of_prefix_length_le ⟨x, h1.symm⟩ ⟨(σ i).mail, rfl⟩ hlen
    refine h2 r ?_
    rw [St.sent, ← hy, List.append_assoc] at h1
    rw [← List.append_cancel_left h1]
    simp [hr]
  -- the reaper deals with the deadlines up to it, one by one
  obtain ⟨i, hi, hz⟩ : ∃ i, k ≤ i ∧ due d (σ i) = 0 := by
    refine reaches (σ := σ) (Goal := fun s => due d s = 0) (due d) (fun i hi _ => ?_) (fun q hq hrest => ?_)
    · rcases hx i with ⟨_, h2⟩ | ⟨l, _, h2⟩
      · rw [h2]; exact Nat.le_refl _
      · exact (due_step (hnow' i (by omega)) h2).1
    · have hin : ∀ i, q ≤ i → ∃ e ∈ (σ i).heap, e.at_ ≤ d := by
        intro i hi
        have h1 := (hrest i hi).1
        have h2 : (σ i).mail.filter (fun m => decide (m.2 ≤ d)) = [] := by
          rw [List.filter_eq_nil_iff]
          intro r hr
          have := hmail i (by omega) r hr
          simp; omega
        have h3 : 0 < ((σ i).heap.filter (fun e => decide (e.at_ ≤ d))).length := by
          unfold due at h1
          rw [h2] at h1
          simp only [List.length_nil, Nat.add_zero] at h1
          omega
        obtain ⟨e, he⟩ := List.exists_mem_of_length_pos h3
        have := List.mem_filter.1 he
        exact ⟨e, this.1, by simpa using this.2⟩
      obtain ⟨i, l, hi, hl, ha⟩ := hf.reap ⟨q, fun i hi => by
        obtain ⟨x, hmem, hxd⟩ := hin i hi
        obtain ⟨e, he⟩ := exists_top (σ i).heap (List.ne_nil_of_mem hmem)
        refine ⟨.reap e, rfl, ?_⟩
        have h1 := (isTop_mem he).2 _ hmem
        have h2 := hnow' i (by omega)
        have hc : isTop (σ i).heap e = true ∧ e.at_ ≤ (σ i).now := ⟨he, by omega⟩
        simp only [step, if_pos hc]
        (repeat' split) <;> rfl⟩ q
      have h1 := (due_step (hnow' i (by omega)) (exec_at hx hl)).2 ha (hin i hi)
      have h2 := (hrest i hi).2
      have h3 := (hrest (i + 1) (by omega)).2
      omega
  refine ⟨i, fun j hj => ⟨fun e he => ?_, hmail j (by omega)⟩⟩
  have hz' : due d (σ j) = 0 := by
    have := exec_stays hx (m := i) (p := fun s => d < s.now ∧ due d s = 0) (fun i l _ _ hp h => by
      have h1 := (received_step h).2
      have h2 := (due_step hp.1 h).1
      exact ⟨by omega, by omega⟩) ⟨hnow' i (by omega), hz⟩ j hj
    exact this.2
  refine Nat.lt_of_not_le fun hle => ?_
  have : e ∈ (σ j).heap.filter (fun e => decide (e.at_ ≤ d)) := List.mem_filter.2 ⟨he, by simpa using hle⟩
  have := List.length_pos_of_mem this
  unfold due at hz'
  omega

end Shpool.Reaper
