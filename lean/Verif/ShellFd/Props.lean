import Verif.ShellFd.Model
import Verif.Util.Fair
/-!
# Property C158: a session that is gone touches no other session's terminal
-/

namespace Shpool.ShellFd

open Shpool.FdTable

/-- Only the session's own terminal was read and resized. -/
def Own (s : St) : Prop := (∀ x ∈ s.reads, x = s.term) ∧ ∀ x ∈ s.sizes, x = some s.term ∨ x = none

/-- C158: what the thread of a session reads and resizes is the terminal of this session, also when the session has been dropped. -/
def C158_statement : Prop := ∀ s0 ls s, Run s0 ls s → Own s

def table : List (Option Nat) := [some 0, some 1, some 2, some 7]

/-- A session with the terminal 7, to which a client was attached; its thread has been told that there is something to read. -/
def busy : List Label := [.first, .other, .resize, .readable, .read, .other, .noResize, .readable]

/-- The session is killed or reaped, and a new one is created, whose terminal (9) gets the number. -/
def replaced : List Label := [.letGo, .closeFd, .openOn 9]

theorem C158_false : ¬ C158_statement := by
  intro h
  have := (h (start table 7 3) (busy ++ replaced ++ [.read]) _ ⟨⟨_, _, _, rfl, rfl⟩, rfl⟩).1 9 (by decide)
  revert this; decide

/-- A size that was asked for before, or during the reattach delay, is set on the new session's terminal. -/
theorem C158_false_size : ∃ s, Run (start table 7 3) ([.first, .other, .resize, .timeout, .newSize] ++ replaced ++ [.resize]) s ∧
    s.sizes = [some 7, some 9] := ⟨_, ⟨⟨_, _, _, rfl, rfl⟩, rfl⟩, rfl⟩

/-- One turn of a thread that has not noticed. -/
def again : List Label := [.other, .noResize, .readable, .read]

theorem turns (n : Nat) {s : St} (h1 : s.pos = .sel) (h2 : s.holders > 0) {x : Nat} (h3 : on s.fds s.fd = some x) :
    runSteps step s (List.flatten (List.replicate n again)) = some { s with reads := s.reads ++ List.replicate n x } := by
  induction n generalizing s with
  | zero => simp [runSteps]
  | succ n ih =>
    have hl : s.live = true := by simp [St.live, h2]
    have one : runSteps step s again = some { s with reads := s.reads ++ [x] } := by
      obtain ⟨fds, term, fd, phase, holders, pos, due, reads, sizes⟩ := s
      simp only at h1 h2 h3
      subst h1
      simp only [again, runSteps, step, hl, h3, and_self, if_true, Option.bind_some]
    rw [List.replicate_succ, List.flatten_cons, run_append, one, Option.bind_some, ih (s := { s with reads := s.reads ++ [x] }) h1 h2 h3]
    simp [List.replicate_succ]

/-- As long as a request has a reference to the control channels (one that notifies all sessions, say, and has to wait for each of them), the thread goes on:
it can take any amount of the new session's output. -/
theorem C158_false_many (n : Nat) : ∃ ls s, Run (start table 7 3) ls s ∧ s.phase = .gone ∧ s.reads = 7 :: List.replicate (n + 1) 9 := by
  let s1 : St := { fds := [some 0, some 1, some 2, some 9], term := 7, fd := 3, phase := .gone, holders := 1, pos := .sel, due := false, reads := [7, 9], sizes := [some 7] }
  have h1 : runSteps step (start table 7 3) ([.borrow] ++ busy ++ replaced ++ [.read]) = some s1 := rfl
  have h2 := turns n (s := s1) rfl (by decide) (x := 9) rfl
  refine ⟨([.borrow] ++ busy ++ replaced ++ [.read]) ++ List.flatten (List.replicate n again), { s1 with reads := s1.reads ++ List.replicate n 9 },
    ⟨⟨_, _, _, rfl, rfl⟩, ?_⟩, ?_, ?_⟩
  · rw [run_append, h1]; exact h2
  · rfl
  · simp [s1, List.replicate_succ]

/-! ## What holds -/

theorem fixed {s s' : St} {l : Label} (h : step s l = some s') : s'.term = s.term ∧ s'.fd = s.fd := by
  cases l <;> simp only [step] at h
  all_goals
    repeat' split at h
  all_goals first
    | (cases h; done)
    | (cases h; exact ⟨rfl, rfl⟩)

theorem ledger_step {s s' : St} {l : Label} (h : step s l = some s') :
    (s'.reads = s.reads ∨ ∃ x, on s.fds s.fd = some x ∧ s'.reads = s.reads ++ [x] ∧ s.pos = .ready ∧ s'.pos = .sel ∧ l = .read) ∧
    (s'.sizes = s.sizes ∨ s'.sizes = s.sizes ++ [on s.fds s.fd] ∧ (l = .newConn ∧ s.phase = .here ∨ l = .resize ∧ s.pos = .turn ∧ s'.pos = .poll)) := by
  cases l <;> simp only [step] at h
  all_goals
    repeat' split at h
  all_goals first
    | (cases h; done)
    | (cases h; exact ⟨.inl rfl, .inl rfl⟩)
    | (cases h; simp_all; done)

theorem phase_step {s s' : St} {l : Label} (h : step s l = some s') :
    s'.phase = s.phase ∨ (l = .letGo ∧ s.phase = .here ∧ s'.phase = .going) ∨ (l = .closeFd ∧ s.phase = .going ∧ s'.phase = .gone) := by
  cases l <;> simp only [step] at h
  all_goals
    repeat' split at h
  all_goals first
    | (cases h; done)
    | (cases h; exact .inl rfl)
    | (cases h; simp_all; done)

/-- Until the terminal is closed its number stands for it, and nothing else has been touched. -/
def Clean (s : St) : Prop := s.phase ≠ .gone → on s.fds s.fd = some s.term ∧ (∀ x ∈ s.reads, x = s.term) ∧ ∀ x ∈ s.sizes, x = some s.term

theorem clean_step {s s' : St} {l : Label} (hi : Clean s) (h : step s l = some s') : Clean s' := by
  intro hp
  have hps : s.phase ≠ .gone := by
    intro e
    rcases phase_step h with e' | ⟨_, e', _⟩ | ⟨_, e', _⟩
    · exact hp (e'.trans e)
    · rw [e] at e'; cases e'
    · rw [e] at e'; cases e'
  obtain ⟨h1, h2, h3⟩ := hi hps
  obtain ⟨a1, a2⟩ := ledger_step h
  refine ⟨?_, ?_, ?_⟩
  · rw [(fixed h).1, (fixed h).2]
    cases l <;> simp only [step] at h
    case openOn t => cases h; exact on_lowest h1
    case closeOther d =>
      split at h
      · cases h
      · rename_i hd
        cases h
        have hne : d ≠ s.fd := fun e => hd ⟨e, hps⟩
        show on (s.fds.set d none) s.fd = _
        rw [on_set_ne hne]; exact h1
    all_goals
      repeat' split at h
    all_goals first
      | (cases h; done)
      | (cases h; exact h1)
      | (cases h; exact absurd rfl hp)
  · rw [(fixed h).1]
    rcases a1 with e | ⟨x, e1, e, _⟩ <;> rw [e]
    · exact h2
    · intro y hy
      rcases List.mem_append.mp hy with hy | hy
      · exact h2 y hy
      · rw [List.mem_singleton] at hy
        rw [h1] at e1; cases e1; exact hy
  · rw [(fixed h).1]
    rcases a2 with e | ⟨e, _⟩ <;> rw [e]
    · exact h3
    · intro y hy
      rcases List.mem_append.mp hy with hy | hy
      · exact h3 y hy
      · rw [List.mem_singleton] at hy
        rw [hy]; exact h1

theorem clean_start {s0 : St} (h : ∃ fds t d, on fds d = some t ∧ s0 = start fds t d) : Clean s0 := by
  obtain ⟨fds, t, d, h1, rfl⟩ := h
  exact fun _ => ⟨h1, fun x hx => (by cases hx), fun x hx => (by cases hx)⟩

theorem clean_run {s0 s : St} {ls : List Label} (h : Run s0 ls s) : Clean s :=
  run_inv (I := Clean) (fun _ _ _ => clean_step) (clean_start h.1) h.2

theorem gone_hist {s0 s : St} {ls : List Label} (h : Run s0 ls s) (hc : .closeFd ∉ ls) : s.phase ≠ .gone :=
  run_hist (I := fun ls s => .closeFd ∉ ls → s.phase ≠ .gone)
    (fun ls s l s' hi hs hn => by
      have k := hi fun hm => hn (by simp [hm])
      rcases phase_step hs with e | ⟨_, _, e⟩ | ⟨e, _⟩
      · rw [e]; exact k
      · rw [e]; intro e; cases e
      · exact absurd (by simp [e]) hn)
    (fun _ => by obtain ⟨fds, t, d, _, rfl⟩ := h.1; intro e; cases e) h.2 hc

/-- **C158** (before): until the session is dropped, whatever clients and requests do, its thread reads and resizes its own terminal only. -/
theorem C158_partial {s0 s : St} {ls : List Label} (h : Run s0 ls s) (hc : .closeFd ∉ ls) : Own s :=
  have k := clean_run h (gone_hist h hc)
  ⟨k.2.1, fun x hx => .inl (k.2.2 x hx)⟩

/-- **C158** (reuse): also afterwards, if nothing is opened any more. -/
theorem C158_reuse_partial {s0 s : St} {ls1 ls2 : List Label} (h : Run s0 (ls1 ++ ls2) s) (hc : .closeFd ∉ ls1) (ho : ∀ t, .openOn t ∉ ls2) : Own s := by
  obtain ⟨h0, hr⟩ := h
  obtain ⟨s1, hr1, hr2⟩ := run_append_some hr
  have k1 := clean_run ⟨h0, hr1⟩
  have o1 := C158_partial ⟨h0, hr1⟩ hc
  have g1 := gone_hist ⟨h0, hr1⟩ hc
  have key : Clean s ∧ ((∀ t, .openOn t ∉ ls2) → Own s ∧ (s.phase = .gone → on s.fds s.fd = none)) :=
    run_hist (I := fun ls s => Clean s ∧ ((∀ t, .openOn t ∉ ls) → Own s ∧ (s.phase = .gone → on s.fds s.fd = none)))
      (fun ls s l s' hi hs => by
        obtain ⟨i1, i2⟩ := hi
        refine ⟨clean_step i1 hs, fun hn => ?_⟩
        obtain ⟨⟨o1, o2⟩, k⟩ := i2 fun t hm => hn t (by simp [hm])
        have hl : ∀ t, l ≠ .openOn t := fun t e => hn t (by simp [e])
        have h3 : on s.fds s.fd = some s.term ∨ on s.fds s.fd = none := by
          by_cases e : s.phase = .gone
          · exact .inr (k e)
          · exact .inl (i1 e).1
        obtain ⟨a1, a2⟩ := ledger_step hs
        refine ⟨⟨?_, ?_⟩, fun hg => ?_⟩
        · rw [(fixed hs).1]
          rcases a1 with e | ⟨x, e1, e, _⟩ <;> rw [e]
          · exact o1
          · intro y hy
            rcases List.mem_append.mp hy with hy | hy
            · exact o1 y hy
            · rw [List.mem_singleton] at hy
              rcases h3 with h3 | h3 <;> rw [h3] at e1 <;> cases e1
              exact hy
        · rw [(fixed hs).1]
          rcases a2 with e | ⟨e, _⟩ <;> rw [e]
          · exact o2
          · intro y hy
            rcases List.mem_append.mp hy with hy | hy
            · exact o2 y hy
            · rw [List.mem_singleton] at hy
              rw [hy]; exact h3
        · rw [(fixed hs).2]
          cases l <;> simp only [step] at hs
          case openOn t => exact absurd rfl (hl t)
          case closeOther d =>
            split at hs
            · cases hs
            · cases hs
              by_cases e : d = s.fd
              · subst e; exact on_set_eq _ _
              · show on (s.fds.set d none) s.fd = none
                rw [on_set_ne e]; exact k hg
          all_goals
            repeat' split at hs
          all_goals first
            | (cases hs; done)
            | (cases hs; exact k hg)
            | (cases hs; exact on_set_eq _ _)
            | (cases hs; cases hg))
      ⟨k1, fun _ => ⟨o1, fun e => absurd e g1⟩⟩ hr2
  exact (key.2 ho).1

/-- How many of the things touched are not the session's terminal. -/
def strange (t : Nat) (xs : List (Option Nat)) : Nat := (xs.filter fun x => x ≠ some t ∧ x ≠ none).length

theorem strange_snoc (t : Nat) (xs : List (Option Nat)) (x : Option Nat) : strange t (xs ++ [x]) ≤ strange t xs + 1 := by
  simp only [strange, List.filter_append, List.length_append]
  have := List.length_filter_le (fun x => decide (x ≠ some t ∧ x ≠ none)) [x]
  simp only [List.length_singleton] at this
  omega

theorem strange_own {t : Nat} {xs : List (Option Nat)} (h : ∀ x ∈ xs, x = some t) : strange t xs = 0 := by
  simp only [strange, List.length_eq_zero_iff, List.filter_eq_nil_iff]
  intro x hx
  simp [h x hx]

/-- After the session's references to the channels are gone and when no request has one: where the thread is tells what can have gone wrong. -/
structure Last (s : St) : Prop where
  phase : s.phase ≠ .here
  holders : s.holders = 0
  clean : Clean s
  turn : s.pos = .turn → strange s.term (s.reads.map some) = 0 ∧ strange s.term s.sizes = 0
  poll : s.pos = .poll ∨ s.pos = .ready → strange s.term (s.reads.map some) = 0
  atMost : strange s.term (s.reads.map some) ≤ 1 ∧ strange s.term s.sizes ≤ 1

theorem last_step {s s' : St} {l : Label} (hi : Last s) (h : step s l = some s') : Last s' := by
  have hcl := clean_step hi.clean h
  obtain ⟨h1, h2, h3, h4, h5, h6, h7⟩ := hi
  have hl : s.live = false := by
    simp only [St.live, h2]
    cases hp : s.phase with
    | here => exact absurd hp h1
    | going => rfl
    | gone => rfl
  cases l <;> simp only [step] at h
  case read =>
    split at h
    · rename_i hp
      split at h
      · rename_i x hx
        cases h
        have k := h5 (.inr hp)
        have := strange_snoc s.term (s.reads.map some) (some x)
        refine ⟨h1, h2, hcl, fun e => (by cases e), fun e => (by rcases e with e | e <;> cases e), ?_, h7⟩
        show strange s.term ((s.reads ++ [x]).map some) ≤ 1
        rw [List.map_append, List.map_singleton]; omega
      · cases h
        exact ⟨h1, h2, hcl, fun e => (by cases e), fun e => (by rcases e with e | e <;> cases e), h6, h7⟩
    · cases h
  case resize =>
    split at h
    · rename_i hp
      cases h
      have k := h4 hp.1
      have := strange_snoc s.term s.sizes (on s.fds s.fd)
      refine ⟨h1, h2, hcl, fun e => (by cases e), fun _ => k.1, h6, ?_⟩
      show strange s.term (s.sizes ++ [on s.fds s.fd]) ≤ 1
      omega
    · cases h
  case noResize =>
    split at h
    · rename_i hp
      cases h
      exact ⟨h1, h2, hcl, fun e => (by cases e), fun _ => (h4 hp).1, h6, h7⟩
    · cases h
  case readable =>
    split at h
    · rename_i hp
      cases h
      exact ⟨h1, h2, hcl, fun e => (by cases e), fun _ => h5 (.inl hp), h6, h7⟩
    · cases h
  all_goals
    repeat' split at h
  all_goals first
    | (cases h; done)
    | (exfalso; simp_all; done)
    | (cases h; exact ⟨h1, h2, hcl, h4, h5, h6, h7⟩)
    | (cases h; exact ⟨fun e => (by cases e), h2, hcl, h4, h5, h6, h7⟩)
    | (cases h; exact ⟨h1, h2, hcl, fun e => (by cases e), fun e => (by rcases e with e | e <;> cases e), h6, h7⟩)

/-- **C158** (how much): if no request has a reference to the session's control channels when the session lets go of them, then, whatever is opened afterwards, at most one read
(of up to 16384 bytes) takes what belongs to another session, and at most one size is set on another terminal. -/
theorem C158_bound {s0 s1 s : St} {ls1 ls2 : List Label} (h : Run s0 ls1 s1) (hh : s1.holders = 0) (hr : runSteps step s1 (.letGo :: ls2) = some s) :
    (s.reads.filter (· ≠ s.term)).length ≤ 1 ∧ (s.sizes.filter fun x => x ≠ some s.term ∧ x ≠ none).length ≤ 1 := by
  have hc := clean_run h
  obtain ⟨s2, hs, hr2⟩ := run_cons_some hr
  have hc2 := clean_step hc hs
  have k2 : Last s2 := by
    simp only [step] at hs
    split at hs
    · rename_i hp
      obtain ⟨_, a, b⟩ := hc (by rw [hp]; intro e; cases e)
      have e1 : strange s1.term (s1.reads.map some) = 0 := strange_own (by
        intro x hx
        obtain ⟨y, hy, rfl⟩ := List.mem_map.mp hx
        rw [a y hy])
      have e2 : strange s1.term s1.sizes = 0 := strange_own b
      cases hs
      exact ⟨fun e => (by cases e), hh, hc2, fun _ => ⟨e1, e2⟩, fun _ => e1, by show strange s1.term (s1.reads.map some) ≤ 1; omega,
        by show strange s1.term s1.sizes ≤ 1; omega⟩
    · cases hs
  have k : Last s := run_inv (I := Last) (fun _ _ _ => last_step) k2 hr2
  refine ⟨?_, k.atMost.2⟩
  have := k.atMost.1
  simp only [strange] at this
  rw [List.filter_map, List.length_map] at this
  refine Nat.le_trans (Nat.le_of_eq ?_) this
  congr 1
  apply List.filter_congr
  intro x _
  simp [Function.comp]

/-- How far the thread is from noticing. -/
def rank (s : St) : Nat :=
  match s.pos with
  | .turn => 4
  | .poll => 3
  | .ready => 2
  | .sel => 1
  | .first => 1
  | .ended => 0

/-- **C158** (the end): a session that has been dropped, with no request that has a reference to its control channels, has its thread end, if the thread
is given its turns and does not choose the channel of the switch messages for ever. -/
theorem C158_ends {σ : Nat → St} {lab : Nat → Option Label} (hx : Exec step σ lab) (hf : WeakFair step σ lab threadStep) {m : Nat}
    (hp : (σ m).phase ≠ .here) (hh : (σ m).holders = 0) : ∃ i, m ≤ i ∧ (σ i).pos = .ended := by
  by_cases he : (σ m).pos = .ended
  · exact ⟨m, Nat.le_refl _, he⟩
  refine fair_reaches hx hf (B := fun s => s.phase ≠ .here ∧ s.holders = 0 ∧ s.pos ≠ .ended) (G := fun s => s.pos = .ended) rank ⟨hp, hh, he⟩ ?_ ?_
  · intro i _ ⟨h1, h2, h3⟩
    have hl : (σ i).live = false := by
      simp only [St.live, h2]
      cases hp : (σ i).phase with
      | here => exact absurd hp h1
      | going => rfl
      | gone => rfl
    cases hpos : (σ i).pos with
    | first => exact ⟨.firstEnds, rfl, by simp [step, hpos, hl]⟩
    | sel => exact ⟨.noticed, rfl, by simp [step, hpos, hl]⟩
    | turn => exact ⟨.noResize, rfl, by simp [step, hpos]⟩
    | poll => exact ⟨.timeout, rfl, by simp [step, hpos]⟩
    | ready => exact ⟨.readEnds, rfl, by simp [step, hpos]⟩
    | ended => exact absurd hpos h3
  · intro i l _ _ ⟨h1, h2, h3⟩ hs
    have hl : (σ i).live = false := by
      simp only [St.live, h2]
      cases hp : (σ i).phase with
      | here => exact absurd hp h1
      | going => rfl
      | gone => rfl
    generalize σ (i + 1) = s' at hs
    generalize σ i = s at hs h1 h2 h3 hl
    cases l <;> simp only [step, hl] at hs
    all_goals
      repeat' split at hs
    all_goals first
      | (cases hs; done)
      | (cases hs; exact .inl rfl)
      | (exfalso; simp_all; done)
      | (cases hs; right; simp_all [rank, threadStep]; done)

/-! ## Cases -/

/-- A session that two clients used, with a resize in between and a thread that asked for its control channels; it is dropped, and nothing is opened. -/
def used : List Label :=
  [.first, .borrow, .newSize, .resize, .readable, .read, .giveBack, .other, .noResize, .timeout, .newConn, .noResize, .readable, .read, .openOn 8, .other, .resize, .readable]
example : ∃ s, Run (start table 7 3) used s ∧ .closeFd ∉ used ∧ s.reads = [7, 7] ∧ s.sizes = [some 7, some 7, some 7] ∧ s.holders = 0 :=
  ⟨_, ⟨⟨_, _, _, rfl, rfl⟩, rfl⟩, by decide, rfl, rfl, rfl⟩
example : ∃ s, Run (start table 7 3) (used ++ [.letGo, .closeFd, .read, .missed, .noticed]) s ∧ s.reads = [7, 7] ∧ s.pos = .ended :=
  ⟨_, ⟨⟨_, _, _, rfl, rfl⟩, rfl⟩, rfl, rfl⟩
/-- The bound is reached. -/
example : ∃ s1 s, Run (start table 7 3) (used ++ [.read, .newSize]) s1 ∧ s1.holders = 0 ∧
    runSteps step s1 (.letGo :: [.closeFd, .openOn 9, .resize, .readable, .read, .missed, .noticed]) = some s ∧
    s.reads = [7, 7, 7, 9] ∧ s.sizes = [some 7, some 7, some 7, some 9] :=
  ⟨_, _, ⟨⟨_, _, _, rfl, rfl⟩, rfl⟩, rfl, rfl, rfl, rfl⟩
/-- A fair execution: the session is dropped while its thread polls. -/
example : ∃ (σ : Nat → St) (lab : Nat → Option Label) (m : Nat), Exec step σ lab ∧ WeakFair step σ lab threadStep ∧ σ 0 = start table 7 3 ∧
    (σ m).phase ≠ .here ∧ (σ m).holders = 0 ∧ (σ m).pos = .ready := by
  let ls : List Label := used ++ [.letGo, .closeFd, .openOn 9, .read, .missed, .noticed]
  have hr : ∃ s, runSteps step (start table 7 3) ls = some s ∧ ∀ l, threadStep l = true → step s l = none :=
    ⟨{ fds := [some 0, some 1, some 2, some 9, some 8], term := 7, fd := 3, phase := .gone, holders := 0, pos := .ended, due := false, reads := [7, 7, 9]
       sizes := [some 7, some 7, some 7] }, rfl, by intro l hl; cases l <;> first | rfl | cases hl⟩
  obtain ⟨s, hr, hno⟩ := hr
  obtain ⟨hx, hrest⟩ := thenRests_exec hr
  exact ⟨_, _, used.length + 2, hx, (fair_at_rest hrest hno).1, rfl, by decide, by decide, by decide⟩

end Shpool.ShellFd
