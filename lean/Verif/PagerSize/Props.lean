import Verif.PagerSize.Model
/-!
# Properties C155 and C156: new window sizes while a message pager is shown
-/

namespace Shpool.PagerSize

open Shpool.FdTable

/-! ## The descriptor -/

/-- What does not change. -/
theorem fixed {r : Bool} {s s' : St} {l : Label} (h : stepOf r s l = some s') : s'.term = s.term ∧ s'.fd = s.fd := by
  cases l with
  | close m =>
    cases m <;> simp only [stepOf] at h
    all_goals
      repeat' split at h
    all_goals first
      | (cases h; done)
      | (cases h; exact ⟨rfl, rfl⟩)
  | _ =>
    simp only [stepOf] at h
    repeat' split at h
    all_goals first
      | (cases h; done)
      | (cases h; exact ⟨rfl, rfl⟩)

/-- As long as the terminal is not closed its number stands for it. -/
structure Held (s : St) : Prop where
  open_ : s.closed = false → on s.fds s.fd = some s.term
  shows : s.disp = .shows → s.forkGone = false
  runs : s.exited = false → s.monGone = false

theorem held_step {r : Bool} {s s' : St} {l : Label} (hi : Held s) (h : stepOf r s l = some s') : Held s' := by
  obtain ⟨h1, h2, h3⟩ := hi
  cases l with
  | openOn t =>
    simp only [stepOf] at h
    cases h; exact ⟨fun hc => on_lowest (h1 hc), h2, h3⟩
  | closeOther d =>
    simp only [stepOf] at h
    split at h
    · cases h
    · rename_i hd
      cases h
      refine ⟨fun hc => ?_, h2, h3⟩
      have hne : d ≠ s.fd := fun e => hd ⟨e, hc⟩
      show on (s.fds.set d none) s.fd = _
      rw [on_set_ne hne]; exact h1 hc
  | close m =>
    cases m <;> simp only [stepOf] at h
    · split at h
      · cases h
      · rename_i hd
        split at h
        · cases h
          exact ⟨fun hc => by simp [St.closed] at hc, fun e => (by rw [hd] at e; cases e), h3⟩
        · cases h
      · rename_i hd
        split at h
        · cases h
          exact ⟨fun hc => by simp [St.closed] at hc, fun e => (by rw [hd] at e; cases e), h3⟩
        · cases h
    · split at h
      · rename_i hc
        cases h
        exact ⟨fun hc => by simp [St.closed] at hc, h2, fun e => by rw [hc.2.1] at e; cases e⟩
      · cases h
  | exit =>
    simp only [stepOf] at h
    split at h
    · cases h
    · cases h; exact ⟨h1, h2, fun e => by cases e⟩
  | _ =>
    simp only [stepOf] at h
    repeat' split at h
    all_goals first
      | (cases h; done)
      | (cases h; exact ⟨h1, h2, h3⟩)
      | (cases h; exact ⟨h1, fun e => (by cases e), h3⟩)

theorem held_start {s0 : St} (h : ∃ fds t d z size, on fds d = some t ∧ s0 = start fds t d z size) : Held s0 := by
  obtain ⟨fds, t, d, z, size, h1, rfl⟩ := h
  exact ⟨fun _ => h1, fun _ => rfl, fun _ => rfl⟩

theorem held_run {r : Bool} {s0 s : St} {ls : List Label} (h : RunOf r s0 ls s) : Held s :=
  run_inv (I := Held) (fun _ _ _ => held_step) (held_start h.1) h.2

/-! ## C155 -/

/-- C155: whatever size is asked for while the message pager is shown, it is set on the terminal of the pager and on nothing else. -/
def C155_statement : Prop := ∀ s0 ls s, Run s0 ls s → ∀ x ∈ s.hits, x = some s.term

/-- The pager's terminal (7) has the descriptor 3.  A resize request comes when the pager has just ended: before the slot is free again, the terminal is closed, and another
session's terminal (9) is opened and gets the number 3; the size is set on that. -/
def reused : List Label := [.exit, .finish, .ask 50, .send, .close false, .openOn 9, .setSize]
def table : List (Option Nat) := [some 0, some 1, some 2, some 7]

theorem C155_false : ¬ C155_statement := by
  intro h
  have := h (start table 7 3 24 fun _ => 24) reused _ ⟨⟨_, _, _, _, _, rfl, rfl⟩, rfl⟩ (some 9) (by decide)
  revert this; decide

/-- What happens then: another session, to which nobody is resizing anything, has a wrong size, and the request is acknowledged. -/
theorem C155_false_acknowledged : ∃ s, Run (start table 7 3 24 fun _ => 24) (reused ++ [.note, .ack, .clear]) s ∧
    s.size 9 = 50 ∧ s.size 7 = 24 ∧ s.log = [(0, .ok 0)] :=
  ⟨_, ⟨⟨_, _, _, _, _, rfl, rfl⟩, rfl⟩, rfl, rfl, rfl⟩

/-- A request that has given up waiting can have that effect even long after the pager. -/
theorem C155_false_later : ∃ s, Run (start table 7 3 24 fun _ => 24)
    [.ask 50, .send, .ackTimeout, .exit, .finish, .close false, .clear, .close true, .closeOther 0, .openOn 8, .openOn 9, .setSize] s ∧
    s.disp = .over 24 ∧ s.size 9 = 50 := ⟨_, ⟨⟨_, _, _, _, _, rfl, rfl⟩, rfl⟩, rfl, rfl⟩

/-- The pager need not even be over for `display`: the thread that waits for its exit closes the terminal. -/
theorem C155_false_shown : ∃ s, Run (start table 7 3 24 fun _ => 24) [.ask 50, .send, .exit, .close true, .openOn 9, .setSize] s ∧
    s.disp = .shows ∧ s.size 9 = 50 := ⟨_, ⟨⟨_, _, _, _, _, rfl, rfl⟩, rfl⟩, rfl, rfl⟩

/-- How the ghost `hits` grows: only by setting a size. -/
theorem hits_step {r : Bool} {s s' : St} {l : Label} (h : stepOf r s l = some s') :
    s'.hits = s.hits ∨ (l = .setSize ∧ s'.hits = s.hits ++ [on s.fds s.fd]) := by
  cases l with
  | close m =>
    cases m <;> simp only [stepOf] at h
    all_goals
      repeat' split at h
    all_goals first
      | (cases h; done)
      | (cases h; exact .inl rfl)
  | _ =>
    simp only [stepOf] at h
    repeat' split at h
    all_goals first
      | (cases h; done)
      | (cases h; exact .inl rfl)
      | (cases h; exact .inr ⟨rfl, rfl⟩)

/-- Only `close` closes the pager's terminal. -/
theorem closed_step {r : Bool} {s s' : St} {l : Label} (h : stepOf r s l = some s') (hl : ∀ m, l ≠ .close m) : s'.closed = s.closed := by
  cases l with
  | close m => exact absurd rfl (hl m)
  | _ =>
    simp only [stepOf] at h
    repeat' split at h
    all_goals first
      | (cases h; done)
      | (cases h; rfl)

theorem close_step {r : Bool} {s s' : St} {m : Bool} (h : stepOf r s (.close m) = some s') :
    s'.closed = true ∧ s'.fds = s.fds.set s.fd none ∧ s'.hits = s.hits ∧ s'.disp = s.disp ∧ s'.req = s.req ∧ s'.lis = s.lis := by
  cases m <;> simp only [stepOf] at h
  all_goals
    repeat' split at h
  all_goals first
    | (cases h; done)
    | (cases h; simp [St.closed])

theorem close_log {r : Bool} {s s' : St} {m : Bool} (h : stepOf r s (.close m) = some s') : s'.log = s.log := by
  cases m <;> simp only [stepOf] at h
  all_goals
    repeat' split at h
  all_goals first
    | (cases h; done)
    | (cases h; rfl)

/-- Until the terminal of the pager is closed, new sizes are set on it and on nothing else. -/
theorem before_close {r : Bool} {s0 s : St} {ls : List Label} (h : RunOf r s0 ls s) (hc : ∀ m, .close m ∉ ls) :
    s.closed = false ∧ ∀ x ∈ s.hits, x = some s.term := by
  have key : Held s ∧ ((∀ m, .close m ∉ ls) → s.closed = false ∧ ∀ x ∈ s.hits, x = some s.term) :=
    run_hist (I := fun ls s => Held s ∧ ((∀ m, .close m ∉ ls) → s.closed = false ∧ ∀ x ∈ s.hits, x = some s.term))
      (fun ls s l s' hi hs => by
        refine ⟨held_step hi.1 hs, fun hn => ?_⟩
        obtain ⟨k1, k2⟩ := hi.2 (fun m hm => hn m (by simp [hm]))
        have hl : ∀ m, l ≠ .close m := fun m e => hn m (by simp [e])
        refine ⟨by rw [closed_step hs hl]; exact k1, ?_⟩
        rw [(fixed hs).1]
        rcases hits_step hs with e | ⟨_, e⟩ <;> rw [e]
        · exact k2
        · intro x hx
          rcases List.mem_append.mp hx with hx | hx
          · exact k2 x hx
          · rw [List.mem_singleton] at hx
            rw [hx]; exact hi.1.open_ k1)
      ⟨held_start h.1, fun _ => by
        obtain ⟨fds, t, d, z, size, _, rfl⟩ := h.1
        exact ⟨rfl, fun x hx => by cases hx⟩⟩ h.2
  exact key.2 hc

/-- **C155** (before): until the terminal of the pager is closed, new sizes are set on it and on nothing else. -/
theorem C155_partial {s0 s : St} {ls : List Label} (h : Run s0 ls s) (hc : ∀ m, .close m ∉ ls) : ∀ x ∈ s.hits, x = some s.term :=
  (before_close h hc).2

/-- **C155** (the pager runs): until the pager has exited or `display` has left its loop, new sizes are set on its terminal and on nothing else. -/
theorem C155_runs_partial {s0 s : St} {ls : List Label} (h : Run s0 ls s) (he : .exit ∉ ls) (hf : .finish ∉ ls) :
    ∀ x ∈ s.hits, x = some s.term := by
  refine C155_partial h fun m hm => ?_
  have key : (.exit ∉ ls → s.exited = false) ∧ (.finish ∉ ls → s.disp = .shows) ∧ (.exit ∉ ls → .finish ∉ ls → ∀ m, .close m ∉ ls) :=
    run_hist (I := fun ls s => (.exit ∉ ls → s.exited = false) ∧ (.finish ∉ ls → s.disp = .shows) ∧
        (.exit ∉ ls → .finish ∉ ls → ∀ m, .close m ∉ ls))
      (fun ls s l s' hi hs => by
        obtain ⟨i1, i2, i3⟩ := hi
        refine ⟨fun hn => ?_, fun hn => ?_, fun hn1 hn2 m hm => ?_⟩
        · have k := i1 fun h => hn (by simp [h])
          have hl : l ≠ .exit := fun e => hn (by simp [e])
          cases l with
          | exit => exact absurd rfl hl
          | close m =>
            cases m <;> simp only [stepOf] at hs
            all_goals
              repeat' split at hs
            all_goals first
              | (cases hs; done)
              | (cases hs; exact k)
          | _ =>
            simp only [stepOf] at hs
            repeat' split at hs
            all_goals first
              | (cases hs; done)
              | (cases hs; exact k)
        · have k := i2 fun h => hn (by simp [h])
          have hl : l ≠ .finish := fun e => hn (by simp [e])
          cases l with
          | finish => exact absurd rfl hl
          | close m => rw [(close_step hs).2.2.2.1]; exact k
          | _ =>
            simp only [stepOf, k] at hs
            repeat' split at hs
            all_goals first
              | (cases hs; done)
              | (cases hs; rfl)
              | (cases hs; exact k)
        · rcases List.mem_append.mp hm with hm | hm
          · exact i3 (fun h => hn1 (by simp [h])) (fun h => hn2 (by simp [h])) m hm
          · cases List.mem_singleton.mp hm
            have k1 := i1 fun h => hn1 (by simp [h])
            have k2 := i2 fun h => hn2 (by simp [h])
            cases m <;> simp [stepOf, k1, k2] at hs)
      (by
        obtain ⟨fds, t, d, z, size, _, rfl⟩ := h.1
        exact ⟨fun _ => rfl, fun _ => rfl, fun _ _ m hm => by cases hm⟩) h.2
  exact key.2.2 he hf m hm

/-- **C155** (reuse): if nothing is opened after the terminal was first closed, new sizes are set on it or, later, on nothing. -/
theorem C155_reuse_partial {s0 s : St} {m : Bool} {ls1 ls2 : List Label} (h : Run s0 (ls1 ++ .close m :: ls2) s)
    (hf : ∀ m, .close m ∉ ls1) (ho : ∀ t, .openOn t ∉ ls2) : ∀ x ∈ s.hits, x = some s.term ∨ x = none := by
  obtain ⟨h0, hr⟩ := h
  obtain ⟨s1, h1, h2⟩ := run_append_some hr
  obtain ⟨s2, h3, h4⟩ := run_cons_some h2
  have b1 := (before_close ⟨h0, h1⟩ hf).2
  have b2 : on s2.fds s2.fd = none ∧ ∀ x ∈ s2.hits, x = some s2.term ∨ x = none := by
    obtain ⟨_, e1, e2, _⟩ := close_step h3
    rw [e1, e2, (fixed h3).1, (fixed h3).2]
    exact ⟨on_set_eq _ _, fun x hx => .inl (b1 x hx)⟩
  -- afterwards the number stands for nothing
  have key : (∀ t, .openOn t ∉ ls2) → on s.fds s.fd = none ∧ ∀ x ∈ s.hits, x = some s.term ∨ x = none :=
    run_hist (I := fun ls s => (∀ t, .openOn t ∉ ls) → on s.fds s.fd = none ∧ ∀ x ∈ s.hits, x = some s.term ∨ x = none)
      (fun ls s l s' hi hs hn => by
        obtain ⟨k1, k3⟩ := hi (fun t hm => hn t (by simp [hm]))
        have hl : ∀ t, l ≠ .openOn t := fun t e => hn t (by simp [e])
        have hit : ∀ x ∈ s'.hits, x = some s'.term ∨ x = none := by
          rw [(fixed hs).1]
          rcases hits_step hs with e | ⟨_, e⟩ <;> rw [e]
          · exact k3
          · intro x hx
            rcases List.mem_append.mp hx with hx | hx
            · exact k3 x hx
            · rw [List.mem_singleton] at hx
              exact .inr (hx.trans k1)
        refine ⟨?_, hit⟩
        rw [(fixed hs).2]
        cases l with
        | openOn t => exact absurd rfl (hl t)
        | close m => rw [(close_step hs).2.1]; exact on_set_eq _ _
        | closeOther d =>
          simp only [stepOf] at hs
          split at hs
          · cases hs
          · cases hs
            by_cases e : d = s.fd
            · subst e; exact on_set_eq _ _
            · show on (s.fds.set d none) s.fd = none
              rw [on_set_ne e]; exact k1
        | _ =>
          simp only [stepOf] at hs
          repeat' split at hs
          all_goals first
            | (cases hs; done)
            | (cases hs; exact k1)) (fun _ => b2) h4
  exact (key ho).2

/-- Without a request that has given up waiting, the listener works only for the request that has the slot. -/
def Paired (s : St) : Prop :=
  (∀ n z, s.lis = .got n z ∨ s.lis = .noting n z ∨ s.lis = .acking n z → s.req = some (.waiting n z)) ∧
  (∀ n z, s.req = some (.waiting n z) → s.lis = .got n z ∨ s.lis = .noting n z ∨ s.lis = .acking n z) ∧
  (∀ z, s.disp = .over z → s.req = none) ∧ (s.lis = .ended → ∃ z, s.disp = .over z)

theorem paired_step {r : Bool} {s s' : St} {l : Label} (hi : Paired s) (hl : l ≠ .ackTimeout) (h : stepOf r s l = some s') : Paired s' := by
  cases l with
  | close m =>
    obtain ⟨_, _, _, e1, e2, e3⟩ := close_step h
    simp only [Paired, e1, e2, e3]; exact hi
  | _ =>
    obtain ⟨h1, h2, h3, h4⟩ := hi
    simp only [stepOf] at h
    repeat' split at h
    all_goals first
      | (cases h; done)
      | exact absurd rfl hl
      | (cases h; exact ⟨h1, h2, h3, h4⟩)
      | (cases h; simp_all [Paired]; done)
      | (cases h; exact ⟨h1, h2, fun z e => (by cases e), fun e => (by
          obtain ⟨z, hz⟩ := h4 e
          rename_i hd
          rw [hd] at hz; cases hz)⟩)
      | (cases h; exact ⟨h1, h2, fun z e => by assumption, fun e => ⟨_, rfl⟩⟩)

theorem paired_start {s0 : St} (h : ∃ fds t d z size, on fds d = some t ∧ s0 = start fds t d z size) : Paired s0 := by
  obtain ⟨fds, t, d, z, size, h1, rfl⟩ := h
  refine ⟨?_, ?_, ?_, ?_⟩ <;> simp [start]

theorem paired_run {r : Bool} {s0 s : St} {ls : List Label} (h : RunOf r s0 ls s) (hn : .ackTimeout ∉ ls) : Paired s :=
  run_hist (I := fun ls s => .ackTimeout ∉ ls → Paired s)
    (fun _ _ _ _ hi hs hn => paired_step (hi fun hm => hn (by simp [hm])) (fun e => hn (by simp [e])) hs)
    (fun _ => paired_start h.1) h.2 hn

/-- With both repairs the terminal is open until the slot is free. -/
def Late (s : St) : Prop := s.closed = true → ∃ z, s.disp = .over z

theorem late_step {s s' : St} {l : Label} (hi : Late s) (h : stepOf true s l = some s') : Late s' := by
  intro hc
  cases l with
  | close m =>
    cases m <;> simp only [stepOf] at h
    · split at h
      · cases h
      · simp at h
      · rename_i hd
        split at h
        · cases h; exact ⟨_, hd⟩
        · cases h
    · simp at h
  | _ =>
    have hc' := closed_step h (fun _ e => by cases e)
    obtain ⟨z, hz⟩ := hi (hc'.symm.trans hc)
    simp only [stepOf, hz] at h
    repeat' split at h
    all_goals first
      | (cases h; done)
      | (cases h; exact ⟨z, rfl⟩)
      | (cases h; exact ⟨z, hz⟩)

/-- **C155** (repaired; not the code): if the thread that waits for the pager had only its process number, the guard of the slot were declared after the
terminal, and no request gave up waiting, then sizes would be set on the pager's terminal only. -/
theorem C155_order {s0 s : St} {ls : List Label} (h : RunOf true s0 ls s) (hn : .ackTimeout ∉ ls) : ∀ x ∈ s.hits, x = some s.term := by
  have key : Held s ∧ Late s ∧ (.ackTimeout ∉ ls → Paired s ∧ ∀ x ∈ s.hits, x = some s.term) :=
    run_hist (I := fun ls s => Held s ∧ Late s ∧ (.ackTimeout ∉ ls → Paired s ∧ ∀ x ∈ s.hits, x = some s.term))
      (fun ls s l s' hi hs => by
        obtain ⟨i1, i2, i3⟩ := hi
        refine ⟨held_step i1 hs, late_step i2 hs, fun hn => ?_⟩
        obtain ⟨j1, j3⟩ := i3 (fun hm => hn (by simp [hm]))
        refine ⟨paired_step j1 (fun e => hn (by simp [e])) hs, ?_⟩
        rw [(fixed hs).1]
        rcases hits_step hs with e | ⟨el, e⟩ <;> rw [e]
        · exact j3
        · intro x hx
          rcases List.mem_append.mp hx with hx | hx
          · exact j3 x hx
          · rw [List.mem_singleton] at hx
            rw [hx]
            apply i1.open_
            cases hc : s.closed with
            | false => rfl
            | true =>
              obtain ⟨z, hz⟩ := i2 hc
              subst el
              simp only [stepOf] at hs
              split at hs
              · rename_i n z' hl
                have := j1.1 n z' (.inl hl)
                rw [j1.2.2.1 z hz] at this
                cases this
              · cases hs)
      ⟨held_start h.1, (by
        obtain ⟨fds, t, d, z, size, _, rfl⟩ := h.1
        exact fun hc => by cases hc), fun _ => ⟨paired_start h.1, by
        obtain ⟨fds, t, d, z, size, _, rfl⟩ := h.1
        exact fun x hx => by cases hx⟩⟩ h.2
  exact (key.2.2 hn).2

/-- Both repairs are needed: with the guard declared after the terminal, but a clone for the thread that waits, C155_false_shown is still a run.  That a request does not give up
is needed as well. -/
theorem C155_order_timeout : ∃ s, RunOf true (start table 7 3 24 fun _ => 24)
    [.ask 50, .send, .ackTimeout, .exit, .finish, .clear, .close false, .openOn 9, .setSize] s ∧ s.size 9 = 50 :=
  ⟨_, ⟨⟨_, _, _, _, _, rfl, rfl⟩, rfl⟩, rfl⟩

/-- A run with two new sizes, one of them when the pager has ended already. -/
def twoSizes : List Label := [.ask 50, .send, .setSize, .note, .ack, .openOn 9, .exit, .finish, .ask 60, .send, .setSize, .note, .ack]
example : ∃ s, Run (start table 7 3 24 fun _ => 24) twoSizes s ∧ (∀ m, .close m ∉ twoSizes) ∧ s.hits = [some 7, some 7] :=
  ⟨_, ⟨⟨_, _, _, _, _, rfl, rfl⟩, rfl⟩, by decide, rfl⟩
example : ∃ s, Run (start table 7 3 24 fun _ => 24) [.ask 50, .send, .setSize, .note, .ack, .openOn 9] s ∧ s.hits = [some 7] :=
  ⟨_, ⟨⟨_, _, _, _, _, rfl, rfl⟩, rfl⟩, rfl⟩
example : ∃ s, Run (start table 7 3 24 fun _ => 24)
    ([.openOn 9, .exit, .ask 50, .send] ++ .close true :: [.finish, .setSize, .closeOther 4, .note, .ack, .close false, .clear]) s ∧
    s.hits = [none] := ⟨_, ⟨⟨_, _, _, _, _, rfl, rfl⟩, rfl⟩, rfl⟩
example : ∃ s, RunOf true (start table 7 3 24 fun _ => 24) (twoSizes ++ [.clear, .quit, .close false, .openOn 5]) s ∧
    .ackTimeout ∉ (twoSizes ++ [.clear, .quit, .close false, .openOn 5]) ∧ s.closed = true ∧ s.hits = [some 7, some 7] :=
  ⟨_, ⟨⟨_, _, _, _, _, rfl, rfl⟩, rfl⟩, by decide, rfl, rfl⟩

/-! ## C156 -/

/-- C156: after whatever requests, as long as the pager runs and is shown and no request has the slot, a new size can be set: there is a way for the request and the
listener alone to get it done. -/
def C156_statement : Prop := ∀ s0 ls s z, Run s0 ls s → s.exited = false → s.disp = .shows → s.req = none →
  ∃ ls' s', (∀ l ∈ ls', l = .ask z ∨ l = .send ∨ l = .setSize ∨ l = .note ∨ l = .ack) ∧ runSteps step s ls' = some s' ∧
    s'.noted = z ∧ s'.size s.term = z ∧ (s.next, .ok s.next) ∈ s'.log

/-- The listener waits for somebody to take an acknowledgement that nobody waits for any more. -/
def Stuck (s : St) : Prop := (∃ n z, s.lis = .got n z ∨ s.lis = .noting n z ∨ s.lis = .acking n z) ∧ ∀ n z, s.req ≠ some (.waiting n z)

/-- **C156 fails** for good: once a request has given up waiting for the acknowledgement, no size is taken any more as long as
the pager is shown, whatever happens and however often it is tried. -/
theorem C156_stuck_forever {s s' : St} {ls : List Label} (hs : Stuck s) (h : runSteps step s ls = some s') :
    (∀ m n, (m, .ok n) ∈ s'.log → (m, .ok n) ∈ s.log) ∧ (s'.disp = .shows → Stuck s') := by
  have key : (∀ m n, (m, .ok n) ∈ s'.log → (m, .ok n) ∈ s.log) ∧ (Stuck s' ∨ (s'.lis = .ended ∧ s'.disp ≠ .shows ∧ ∀ n z, s'.req ≠ some (.waiting n z))) :=
    run_inv (I := fun s' => (∀ m n, (m, .ok n) ∈ s'.log → (m, .ok n) ∈ s.log) ∧
        (Stuck s' ∨ (s'.lis = .ended ∧ s'.disp ≠ .shows ∧ ∀ n z, s'.req ≠ some (.waiting n z))))
      (fun v l v' hi hv => by
        obtain ⟨i1, i2⟩ := hi
        cases l <;> (try (rename_i m; cases m)) <;> simp only [stepOf] at hv
        all_goals
          repeat' split at hv
        all_goals first
          | (cases hv; done)
          | (cases hv; exact ⟨i1, i2⟩)
          | (cases hv; simp_all [Stuck]; done)
          | skip)
      ⟨fun _ _ h => h, .inl hs⟩ h
  refine ⟨key.1, fun hd => ?_⟩
  rcases key.2 with k | ⟨_, k, _⟩
  · exact k
  · exact absurd hd k

/-- The listener is late once. -/
def late : List Label := [.ask 50, .send, .setSize, .ackTimeout, .note]

theorem C156_false : ¬ C156_statement := by
  intro h
  obtain ⟨ls', s', _, hr, _, _, hl⟩ := h (start table 7 3 24 fun _ => 24) late _ 60 ⟨⟨_, _, _, _, _, rfl, rfl⟩, rfl⟩ rfl rfl rfl
  have := (C156_stuck_forever ⟨⟨0, 50, .inr (.inr rfl)⟩, fun _ _ e => by cases e⟩ hr).1 _ _ hl
  revert this; decide

/-- **C156**: as long as no request has given up waiting for its acknowledgement. -/
theorem C156_partial {s0 s : St} {ls : List Label} (z : Nat) (h : Run s0 ls s) (hn : .ackTimeout ∉ ls) (he : s.exited = false) (hd : s.disp = .shows) (hq : s.req = none) :
    ∃ ls' s', (∀ l ∈ ls', l = .ask z ∨ l = .send ∨ l = .setSize ∨ l = .note ∨ l = .ack) ∧ runSteps step s ls' = some s' ∧
      s'.noted = z ∧ s'.size s.term = z ∧ (s.next, .ok s.next) ∈ s'.log := by
  have hp := paired_run h hn
  have hh := held_run h
  have ho := hh.open_ (by simp [St.closed, hh.shows hd, hh.runs he])
  have hl : s.lis = .recv := by
    cases hl : s.lis with
    | recv => rfl
    | ended => obtain ⟨z, hz⟩ := hp.2.2.2 hl; rw [hd] at hz; cases hz
    | got n z => have := hp.1 n z (.inl hl); rw [hq] at this; cases this
    | noting n z => have := hp.1 n z (.inr (.inl hl)); rw [hq] at this; cases this
    | acking n z => have := hp.1 n z (.inr (.inr hl)); rw [hq] at this; cases this
  have hr : runSteps step s [.ask z, .send, .setSize, .note, .ack] =
      some { s with
        req := none, lis := .recv, next := s.next + 1, noted := z, hits := s.hits ++ [some s.term], size := upd s.size s.term z
        log := s.log ++ [(s.next, .ok s.next)] } := by
    simp [runSteps, stepOf, hq, hd, hl, ho]
  exact ⟨[.ask z, .send, .setSize, .note, .ack], _, by simp, hr, rfl, by simp [upd], by simp⟩

/-- The request the listener works for, and its size. -/
def Lis.of : Lis → Option (Nat × Nat)
  | .got n z | .noting n z | .acking n z => some (n, z)
  | _ => none

def Mine (s : St) : Prop := ∀ m y p, s.req = some (.waiting m y) → s.lis.of = some p → p = (m, y)

theorem mine_step {r : Bool} {s s' : St} {l : Label} (hi : Mine s) (h : stepOf r s l = some s') : Mine s' := by
  by_cases hc : ∃ m, l = .close m
  · obtain ⟨m, rfl⟩ := hc
    obtain ⟨_, _, _, _, e1, e2⟩ := close_step h
    simp only [Mine, e1, e2]; exact hi
  cases l <;> (try exact absurd ⟨_, rfl⟩ hc) <;> simp only [stepOf] at h
  all_goals
    repeat' split at h
  all_goals first
    | (cases h; done)
    | (cases h; exact hi)
    | (cases h; intro m y p e1 e2; cases e1; done)
    | (cases h; intro m y p e1 e2; cases e2; done)
    | (cases h; intro m y p e1 e2; cases e1; cases e2; rfl)
    | (cases h
       rename_i hl _ _
       intro m y p e1 e2
       exact hi m y p e1 (by rw [hl]; exact e2))
    | (cases h
       rename_i hl _ _ _
       intro m y p e1 e2
       exact hi m y p e1 (by rw [hl]; exact e2))
    | (cases h
       rename_i hl
       intro m y p e1 e2
       exact hi m y p e1 (by rw [hl]; exact e2))

/-- **C156** (requests that are acknowledged): the acknowledgement is for the size that was asked for, not for an earlier one. -/
theorem C156_own {s0 s : St} {ls : List Label} (h : Run s0 ls s) {m n : Nat} (hm : (m, .ok n) ∈ s.log) : m = n := by
  have key : Mine s ∧ ∀ m n, (m, .ok n) ∈ s.log → m = n :=
    run_inv (I := fun s => Mine s ∧ ∀ m n, (m, .ok n) ∈ s.log → m = n)
      (fun v l v' hi hv => by
        refine ⟨mine_step hi.1 hv, ?_⟩
        have i1 := hi.1
        have i2 := hi.2
        by_cases hc : ∃ m, l = .close m
        · obtain ⟨m, rfl⟩ := hc
          rw [close_log hv]; exact i2
        cases l <;> (try exact absurd ⟨_, rfl⟩ hc) <;> simp only [stepOf] at hv
        all_goals
          repeat' split at hv
        all_goals first
          | (cases hv; done)
          | (cases hv; exact i2)
          | (cases hv
             intro m n hm
             rcases List.mem_append.mp hm with hm | hm
             · exact i2 m n hm
             · cases List.mem_singleton.mp hm; done)
          | skip
        rename_i hr hl
        cases hv
        intro m n hm
        rcases List.mem_append.mp hm with hm | hm
        · exact i2 m n hm
        · cases List.mem_singleton.mp hm
          have := i1 _ _ _ hr (by rw [hl]; rfl)
          cases this; rfl)
      (by
        obtain ⟨fds, t, d, z, size, _, rfl⟩ := h.1
        exact ⟨fun m y p e => (by cases e), fun m n hm => (by cases hm)⟩) h.2
  exact key.2 m n hm

/-- Requests before: one is served, one gives up because the listener does not take its size. -/
def before : List Label := [.ask 50, .send, .setSize, .note, .ack, .ask 60, .sendTimeout, .closeOther 1]
example : ∃ s, Run (start table 7 3 24 fun _ => 24) before s ∧ .ackTimeout ∉ before ∧ s.exited = false ∧ s.disp = .shows ∧ s.req = none ∧
    s.log = [(0, .ok 0), (1, .failed)] := ⟨_, ⟨⟨_, _, _, _, _, rfl, rfl⟩, rfl⟩, by decide, rfl, rfl, rfl, rfl⟩

end Shpool.PagerSize
