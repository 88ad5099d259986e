import Verif.PagerFd.Model
/-!
# Property C157: showing a message touches only the terminal of its pager
-/

namespace Shpool.PagerFd

open Shpool.FdTable

/-- Only the pager's terminal was read, written and closed. -/
def Own (s : St) : Prop :=
  (∀ x ∈ s.reads, x = s.term) ∧ (∀ x ∈ s.writes, x = s.term) ∧ ∀ x ∈ s.closes, x = some s.term ∨ x = none

/-- C157: what is shown to the client comes from the pager's terminal, what the client types goes to it, and nothing else is closed. -/
def C157_statement : Prop := ∀ s0 ls s, Run s0 ls s → Own s

def table : List (Option Nat) := [some 0, some 1, some 2, some 7]

/-- The pager's terminal (7) has the descriptor 3.  The user leaves the pager; `display` is woken and has seen that the flag is not set, then the thread that waits for
the pager sets it and ends; another thread opens something (9), which gets the number 3. -/
def window (p c : Bool) : List Label := [.exit, .wake p c, .look, .seen, .setFlag, .monDrop, .openOn 9]

theorem C157_false : ¬ C157_statement := by
  intro h
  have := (h (start table 7 3) (window true false ++ [.read]) _ ⟨⟨_, _, _, rfl, rfl⟩, rfl⟩).1 9 (by decide)
  revert this; decide

/-- What was typed goes to something else. -/
theorem C157_false_write : ∃ s, Run (start table 7 3) (window false true ++ [.input, .feed]) s ∧ s.writes = [9] :=
  ⟨_, ⟨⟨_, _, _, rfl, rfl⟩, rfl⟩, rfl⟩

/-- Whichever way the pager ends: what another thread opens between the two destructors is closed by the second one.  Here `display` sees the flag in time. -/
theorem C157_false_close : ∃ s, Run (start table 7 3) [.exit, .seen, .setFlag, .wake true false, .look, .monDrop, .openOn 9, .guardDone, .dropFork] s ∧
    s.reads = [] ∧ s.closes = [some 7, some 9] ∧ on s.fds 3 = none := ⟨_, ⟨⟨_, _, _, rfl, rfl⟩, rfl⟩, rfl, rfl, rfl⟩

/-- The same in the other order: the client hangs up, `display` kills the pager and returns, and only then the waiting thread ends. -/
theorem C157_false_close_monitor : ∃ s, Run (start table 7 3) [.wake false true, .look, .leave, .exit, .seen, .setFlag, .guardDone, .dropFork, .openOn 9, .monDrop] s ∧
    s.closes = [some 7, some 9] ∧ on s.fds 3 = none := ⟨_, ⟨⟨_, _, _, rfl, rfl⟩, rfl⟩, rfl, rfl⟩

/-! ## What holds -/

theorem fixed {r : Bool} {s s' : St} {l : Label} (h : stepOf r s l = some s') : s'.term = s.term ∧ s'.fd = s.fd := by
  cases l <;> simp only [stepOf] at h
  all_goals
    repeat' split at h
  all_goals first
    | (cases h; done)
    | (cases h; exact ⟨rfl, rfl⟩)

/-- A closing step. -/
def closing (r : Bool) (l : Label) : Prop := l = .dropFork ∨ (l = .monDrop ∧ r = false)

theorem ledger_step {r : Bool} {s s' : St} {l : Label} (h : stepOf r s l = some s') :
    (s'.reads = s.reads ∨ ∃ x c, s.main = .read c ∧ on s.fds s.fd = some x ∧ s'.reads = s.reads ++ [x] ∧ s'.main = next c) ∧
    (s'.writes = s.writes ∨ ∃ x, s.main = .feed ∧ on s.fds s.fd = some x ∧ s'.writes = s.writes ++ [x] ∧ s'.main = .poll) ∧
    (s'.closes = s.closes ∧ ¬ closing r l ∨ closing r l ∧ s'.closes = s.closes ++ [on s.fds s.fd] ∧ s'.fds = s.fds.set s.fd none) := by
  cases l <;> simp only [stepOf] at h
  all_goals
    repeat' split at h
  all_goals first
    | (cases h; done)
    | (cases h; exact ⟨.inl rfl, .inl rfl, .inl ⟨rfl, by simp_all [closing]⟩⟩)
    | (cases h; exact ⟨.inl rfl, .inl rfl, (.inr ⟨by simp_all [closing], rfl, rfl⟩)⟩)
    | (cases h; simp_all [closing]; done)

/-- As long as nothing was closed the number stands for the terminal. -/
def Held (s : St) : Prop := s.closes = [] → on s.fds s.fd = some s.term

theorem held_step {r : Bool} {s s' : St} {l : Label} (hi : Held s) (h : stepOf r s l = some s') : Held s' := by
  intro hc
  have hcs : s.closes = [] := by
    rcases (ledger_step h).2.2 with ⟨e, _⟩ | ⟨_, e, _⟩
    · rw [← e]; exact hc
    · rw [e] at hc; simp at hc
  have ho := hi hcs
  cases l <;> simp only [stepOf] at h
  case openOn t => cases h; exact on_lowest ho
  case closeOther d =>
    split at h
    · cases h
    · rename_i hd
      cases h
      have hne : d ≠ s.fd := fun e => hd ⟨e, hcs⟩
      show on (s.fds.set d none) s.fd = _
      rw [on_set_ne hne]; exact ho
  all_goals
    repeat' split at h
  all_goals first
    | (cases h; done)
    | (cases h; exact ho)
    | (cases h; simp at hc)

/-- Before anything is closed only the terminal has been touched. -/
theorem clean_step {r : Bool} {s s' : St} {l : Label} (hi : Held s ∧ (s.closes = [] → Own s)) (h : stepOf r s l = some s') :
    Held s' ∧ (s'.closes = [] → Own s') := by
  refine ⟨held_step hi.1 h, fun hc => ?_⟩
  obtain ⟨a1, a2, a3⟩ := ledger_step h
  have hcs : s.closes = [] := by
    rcases a3 with ⟨e, _⟩ | ⟨_, e, _⟩
    · rw [← e]; exact hc
    · rw [e] at hc; simp at hc
  have ho := hi.1 hcs
  obtain ⟨o1, o2, _⟩ := hi.2 hcs
  refine ⟨?_, ?_, by rw [hc]; exact fun x hx => by cases hx⟩ <;> rw [(fixed h).1]
  · rcases a1 with e | ⟨x, c, _, e1, e, _⟩ <;> rw [e]
    · exact o1
    · intro y hy
      rcases List.mem_append.mp hy with hy | hy
      · exact o1 y hy
      · rw [List.mem_singleton] at hy
        rw [ho] at e1; cases e1; exact hy
  · rcases a2 with e | ⟨x, _, e1, e, _⟩ <;> rw [e]
    · exact o2
    · intro y hy
      rcases List.mem_append.mp hy with hy | hy
      · exact o2 y hy
      · rw [List.mem_singleton] at hy
        rw [ho] at e1; cases e1; exact hy

theorem clean_start {s0 : St} (h : ∃ fds t d, on fds d = some t ∧ s0 = start fds t d) : Held s0 ∧ (s0.closes = [] → Own s0) := by
  obtain ⟨fds, t, d, h1, rfl⟩ := h
  exact ⟨fun _ => h1, fun _ => ⟨fun x hx => (by cases hx), fun x hx => (by cases hx), fun x hx => (by cases hx)⟩⟩

theorem clean_run {r : Bool} {s0 s : St} {ls : List Label} (h : RunOf r s0 ls s) : Held s ∧ (s.closes = [] → Own s) :=
  run_inv (I := fun s => Held s ∧ (s.closes = [] → Own s)) (fun _ _ _ => clean_step) (clean_start h.1) h.2

/-- What has been closed, as long as nothing was opened since the first time. -/
def Empty (s : St) : Prop := Own s ∧ (s.closes ≠ [] → on s.fds s.fd = none)

theorem empty_step {r : Bool} {s s' : St} {l : Label} (hh : Held s) (hi : Empty s) (hl : s.closes ≠ [] → ∀ t, l ≠ .openOn t) (h : stepOf r s l = some s') :
    Empty s' := by
  obtain ⟨⟨o1, o2, o3⟩, k⟩ := hi
  obtain ⟨a1, a2, a3⟩ := ledger_step h
  have h3 : on s.fds s.fd = some s.term ∨ on s.fds s.fd = none := by
    by_cases e : s.closes = []
    · exact .inl (hh e)
    · exact .inr (k e)
  refine ⟨⟨?_, ?_, ?_⟩, ?_⟩
  · rw [(fixed h).1]
    rcases a1 with e | ⟨x, c, _, e1, e, _⟩ <;> rw [e]
    · exact o1
    · intro y hy
      rcases List.mem_append.mp hy with hy | hy
      · exact o1 y hy
      · rw [List.mem_singleton] at hy
        rcases h3 with h3 | h3 <;> rw [h3] at e1 <;> cases e1
        exact hy
  · rw [(fixed h).1]
    rcases a2 with e | ⟨x, _, e1, e, _⟩ <;> rw [e]
    · exact o2
    · intro y hy
      rcases List.mem_append.mp hy with hy | hy
      · exact o2 y hy
      · rw [List.mem_singleton] at hy
        rcases h3 with h3 | h3 <;> rw [h3] at e1 <;> cases e1
        exact hy
  · rw [(fixed h).1]
    rcases a3 with ⟨e, _⟩ | ⟨_, e, _⟩ <;> rw [e]
    · exact o3
    · intro y hy
      rcases List.mem_append.mp hy with hy | hy
      · exact o3 y hy
      · rw [List.mem_singleton] at hy
        rw [hy]; exact h3
  · intro hc
    rw [(fixed h).2]
    rcases a3 with ⟨e, hn⟩ | ⟨_, _, e⟩
    · have hcs : s.closes ≠ [] := by rw [← e]; exact hc
      have ho := k hcs
      cases l <;> simp only [stepOf] at h
      case openOn t => exact absurd rfl (hl hcs t)
      case closeOther d =>
        split at h
        · cases h
        · cases h
          by_cases e : d = s.fd
          · subst e; exact on_set_eq _ _
          · show on (s.fds.set d none) s.fd = none
            rw [on_set_ne e]; exact ho
      all_goals
        repeat' split at h
      all_goals first
        | (cases h; done)
        | (cases h; exact ho)
        | (cases h; exact on_set_eq _ _)
    · rw [e]; exact on_set_eq _ _

/-- **C157** (before): until the thread that waits for the pager has ended and until `display` returns, only the terminal is read and written. -/
theorem C157_partial {s0 s : St} {ls : List Label} (h : Run s0 ls s) (h1 : .monDrop ∉ ls) (h2 : .dropFork ∉ ls) : Own s := by
  refine (clean_run h).2 ?_
  exact run_hist (I := fun ls s => .monDrop ∉ ls → .dropFork ∉ ls → s.closes = [])
    (fun ls s l s' hi hs n1 n2 => by
      rcases (ledger_step hs).2.2 with ⟨e, _⟩ | ⟨hc, _⟩
      · rw [e]; exact hi (fun hm => n1 (by simp [hm])) (fun hm => n2 (by simp [hm]))
      · rcases hc with e | ⟨e, _⟩
        · exact absurd (by simp [e]) n2
        · exact absurd (by simp [e]) n1)
    (fun _ _ => by obtain ⟨fds, t, d, _, rfl⟩ := h.1; rfl) h.2 h1 h2

/-- **C157** (reuse): if no other thread opens anything from the first closing of the terminal on (`ls1` has none), only the terminal is touched. -/
theorem C157_reuse_partial {s0 s : St} {ls1 ls2 : List Label} (h : Run s0 (ls1 ++ ls2) s) (h1 : .monDrop ∉ ls1) (h2 : .dropFork ∉ ls1)
    (ho : ∀ t, .openOn t ∉ ls2) : Own s := by
  obtain ⟨h0, hr⟩ := h
  obtain ⟨s1, hr1, hr2⟩ := run_append_some hr
  have b : Held s1 ∧ Empty s1 := by
    have ho1 := C157_partial ⟨h0, hr1⟩ h1 h2
    have hc : s1.closes = [] :=
      run_hist (I := fun ls s => .monDrop ∉ ls → .dropFork ∉ ls → s.closes = [])
        (fun ls s l s' hi hs n1 n2 => by
          rcases (ledger_step hs).2.2 with ⟨e, _⟩ | ⟨hc, _⟩
          · rw [e]; exact hi (fun hm => n1 (by simp [hm])) (fun hm => n2 (by simp [hm]))
          · rcases hc with e | ⟨e, _⟩
            · exact absurd (by simp [e]) n2
            · exact absurd (by simp [e]) n1)
        (fun _ _ => by obtain ⟨fds, t, d, _, rfl⟩ := h0; rfl) hr1 h1 h2
    exact ⟨(clean_run ⟨h0, hr1⟩).1, ho1, fun hn => absurd hc hn⟩
  have key : Held s ∧ ((∀ t, .openOn t ∉ ls2) → Empty s) :=
    run_hist (I := fun ls s => Held s ∧ ((∀ t, .openOn t ∉ ls) → Empty s))
      (fun ls s l s' hi hs => ⟨held_step hi.1 hs, fun hn =>
        empty_step hi.1 (hi.2 fun t hm => hn t (by simp [hm])) (fun _ t e => hn t (by simp [e])) hs⟩)
      ⟨b.1, fun _ => b.2⟩ hr2
  exact (key.2 ho).1

/-- How many of the things touched are not the terminal. -/
def strange (t : Nat) (xs : List Nat) : Nat := (xs.filter (· ≠ t)).length

theorem strange_snoc (t : Nat) (xs : List Nat) (x : Nat) : strange t (xs ++ [x]) ≤ strange t xs + 1 := by
  simp only [strange, List.filter_append, List.length_append]
  have := List.length_filter_le (· ≠ t) [x]
  simp only [List.length_singleton] at this
  omega

theorem strange_own {t : Nat} {xs : List Nat} (h : ∀ x ∈ xs, x = t) : strange t xs = 0 := by
  simp only [strange, List.length_eq_zero_iff, List.filter_eq_nil_iff]
  intro x hx
  simp [h x hx]

/-- Where `display` is tells what can have gone wrong so far. -/
structure Bound (s : St) : Prop where
  clean : Held s ∧ (s.closes = [] → Own s)
  early : s.flag = false → s.mon ≠ .gone ∧ s.mon ≠ .flagged
  closed : s.closes ≠ [] → s.mon = .gone ∨ s.main = .over
  notYet : s.flag = false → strange s.term s.reads = 0 ∧ strange s.term s.writes = 0
  read : ∀ c, s.main = .read c → strange s.term s.reads = 0 ∧ strange s.term s.writes = 0
  feed : s.main = .client ∨ s.main = .feed → strange s.term s.writes = 0
  atMost : strange s.term s.reads ≤ 1 ∧ strange s.term s.writes ≤ 1

theorem bound_step {s s' : St} {l : Label} (hi : Bound s) (h : step s l = some s') : Bound s' := by
  have hcl := clean_step hi.clean h
  obtain ⟨b1, b2, b3, b4, b5, b6, b7, b8⟩ := hi
  have own : s.flag = false → s.main ≠ .over → Own s := fun hf hm => b1.2 (Classical.byContradiction fun hn => by
    rcases b3 hn with e | e
    · exact (b2 hf).1 e
    · exact hm e)
  have held : s.flag = false → s.main ≠ .over → on s.fds s.fd = some s.term := fun hf hm => b1.1 (Classical.byContradiction fun hn => by
    rcases b3 hn with e | e
    · exact (b2 hf).1 e
    · exact hm e)
  cases l <;> simp only [step, stepOf] at h
  case read =>
    split at h
    · rename_i c hm
      split at h
      · rename_i x hx
        cases h
        have hr := (b5 c hm)
        have hle := strange_snoc s.term s.reads x
        refine ⟨hcl, b2, fun hn => ?_, fun hf => ?_, fun c' e => ?_, fun _ => hr.2, by show strange s.term (s.reads ++ [x]) ≤ 1; omega, b8⟩
        · rcases b3 hn with e | e
          · exact .inl e
          · rw [hm] at e; cases e
        · have := held hf (by rw [hm]; intro e; cases e)
          rw [this] at hx; cases hx
          have ho := (own hf (by rw [hm]; intro e; cases e))
          refine ⟨strange_own ?_, hr.2⟩
          intro y hy
          rcases List.mem_append.mp hy with hy | hy
          · exact ho.1 y hy
          · rw [List.mem_singleton] at hy; exact hy
        · cases c <;> simp [next] at e
      · cases h
        refine ⟨hcl, b2, fun hn => ?_, b4, fun c e => (by cases e), fun e => (by rcases e with e | e <;> cases e), b7, b8⟩
        rcases b3 hn with e | e
        · exact .inl e
        · rw [hm] at e; cases e
    · cases h
  case feed =>
    split at h
    · rename_i hm
      split at h
      · rename_i x hx
        cases h
        have hr := (b6 (.inr hm))
        have hle := strange_snoc s.term s.writes x
        refine ⟨hcl, b2, fun hn => ?_, fun hf => ?_, fun c' e => (by cases e), fun e => (by rcases e with e | e <;> cases e), b7,
          by show strange s.term (s.writes ++ [x]) ≤ 1; omega⟩
        · rcases b3 hn with e | e
          · exact .inl e
          · rw [hm] at e; cases e
        · have := held hf (by rw [hm]; intro e; cases e)
          rw [this] at hx; cases hx
          have ho := (own hf (by rw [hm]; intro e; cases e))
          refine ⟨(b4 hf).1, strange_own ?_⟩
          intro y hy
          rcases List.mem_append.mp hy with hy | hy
          · exact ho.2.1 y hy
          · rw [List.mem_singleton] at hy; exact hy
      · cases h
        refine ⟨hcl, b2, fun hn => ?_, b4, fun c e => (by cases e), fun e => (by rcases e with e | e <;> cases e), b7, b8⟩
        rcases b3 hn with e | e
        · exact .inl e
        · rw [hm] at e; cases e
    · cases h
  case look =>
    split at h
    · rename_i p c hm
      cases h
      refine ⟨hcl, b2, fun hn => ?_, b4, fun c' e => ?_, fun e => ?_, b7, b8⟩
      · rcases b3 hn with e | e
        · exact .inl e
        · rw [hm] at e; cases e
      · cases hf : s.flag with
        | true => simp [hf] at e
        | false => exact b4 hf
      · cases hf : s.flag with
        | true => simp [hf] at e
        | false => exact (b4 hf).2
    · cases h
  all_goals
    repeat' split at h
  all_goals first
    | (cases h; done)
    | (cases h; exact ⟨hcl, b2, b3, b4, b5, b6, b7, b8⟩)
    | (cases h; refine ⟨hcl, ?_, ?_, ?_, ?_, ?_, b7, b8⟩ <;> simp_all; done)

theorem bound_run {s0 s : St} {ls : List Label} (h : Run s0 ls s) : Bound s :=
  run_inv (I := Bound) (fun _ _ _ => bound_step) (by
    have hc := clean_start h.1
    obtain ⟨fds, t, d, h1, rfl⟩ := h.1
    exact ⟨hc, by simp [start], by simp [start], by simp [start, strange], by simp [start], by simp [start], by simp [start, strange]⟩) h.2

/-- **C157** (how much): however the threads are scheduled, at most one read (up to 16384 bytes) and one piece of input (as much) go to the wrong place. -/
theorem C157_bound {s0 s : St} {ls : List Label} (h : Run s0 ls s) :
    (s.reads.filter (· ≠ s.term)).length ≤ 1 ∧ (s.writes.filter (· ≠ s.term)).length ≤ 1 := (bound_run h).atMost

/-- The number is closed as often as handles are dropped; the first time it is the terminal. -/
structure Count (s : St) : Prop where
  held : Held s
  len : s.closes.length = (if s.mon = .gone then 1 else 0) + (if s.main = .over then 1 else 0)
  first : s.closes = [] ∨ ∃ r, s.closes = some s.term :: r

theorem count_step {s s' : St} {l : Label} (hi : Count s) (h : step s l = some s') : Count s' := by
  have hh := held_step hi.held h
  obtain ⟨h1, h2, h3⟩ := hi
  have snoc : s.closes ++ [on s.fds s.fd] = [] ∨ ∃ r, s.closes ++ [on s.fds s.fd] = some s.term :: r := by
    rcases h3 with e | ⟨r, e⟩
    · rw [h1 e, e]; exact .inr ⟨[], rfl⟩
    · rw [e]; exact .inr ⟨_, rfl⟩
  cases l <;> simp only [step, stepOf] at h
  all_goals
    repeat' split at h
  all_goals first
    | (cases h; done)
    | (cases h; exact ⟨hh, h2, h3⟩)
    | (cases h; refine ⟨hh, ?_, h3⟩; simp_all [next]; done)
    | (cases h; refine ⟨hh, ?_, snoc⟩; simp_all; omega)
    | (cases h; refine ⟨hh, ?_, snoc⟩; simp_all; done)
    | (cases h
       refine ⟨hh, ?_, h3⟩
       simp only [next] at h2 ⊢
       simp_all
       split <;> simp_all)

/-- **C157** (always twice): whenever both threads are through, the number has been closed twice, the first time with the terminal under it.  It is not a question of
timing whether there is a second time, only what has the number then. -/
theorem C157_twice {s0 s : St} {ls : List Label} (h : Run s0 ls s) (hm : s.mon = .gone) (ho : s.main = .over) :
    ∃ x, s.closes = [some s.term, x] := by
  have k : Count s := run_inv (I := Count) (fun _ _ _ => count_step) (by
    have hc := clean_start h.1
    obtain ⟨fds, t, d, h1, rfl⟩ := h.1
    exact ⟨hc.1, by simp [start], .inl rfl⟩) h.2
  have hl := k.len
  simp only [hm, ho, if_true] at hl
  rcases k.first with e | ⟨r, e⟩
  · rw [e] at hl; simp at hl
  · rw [e] at hl ⊢
    match r, hl with
    | [x], _ => exact ⟨x, rfl⟩
    | [], hl => simp at hl
    | _ :: _ :: _, hl => simp at hl

/-- **C157** (repaired; not the code): with the process number instead of a clone, as is done for shells, the property holds. -/
theorem C157_repaired {s0 s : St} {ls : List Label} (h : RunOf true s0 ls s) : Own s := by
  have key : (Held s ∧ (s.closes = [] → Own s)) ∧ Own s ∧ (s.main ≠ .over → s.closes = []) :=
    run_inv (I := fun s => (Held s ∧ (s.closes = [] → Own s)) ∧ Own s ∧ (s.main ≠ .over → s.closes = []))
      (fun s l s' hi hs => by
        obtain ⟨i1, ⟨o1, o2, o3⟩, i3⟩ := hi
        have hc := clean_step i1 hs
        obtain ⟨a1, a2, a3⟩ := ledger_step hs
        rcases a3 with ⟨e, hn⟩ | ⟨hcl, e, _⟩
        · have hmain : s'.main ≠ .over → s.main ≠ .over := by
            intro hm ho
            apply hm
            cases l <;> simp only [stepOf, ho] at hs
            all_goals
              repeat' split at hs
            all_goals first
              | (cases hs; done)
              | (cases hs; rfl)
              | (cases hs; exact ho)
          refine ⟨hc, ?_, fun hm => by rw [e]; exact i3 (hmain hm)⟩
          by_cases hz : s.closes = []
          · exact hc.2 (by rw [e]; exact hz)
          · have hov : s.main = .over := Classical.byContradiction fun hm => hz (i3 hm)
            refine ⟨?_, ?_, ?_⟩ <;> rw [(fixed hs).1]
            · rcases a1 with e1 | ⟨_, _, e1, _⟩
              · rw [e1]; exact o1
              · rw [hov] at e1; cases e1
            · rcases a2 with e1 | ⟨_, e1, _⟩
              · rw [e1]; exact o2
              · rw [hov] at e1; cases e1
            · rw [e]; exact o3
        · have hl : l = .dropFork := by
            rcases hcl with e | ⟨_, e⟩
            · exact e
            · cases e
          subst hl
          simp only [stepOf] at hs
          split at hs
          · rename_i hm
            have hz := i3 (by rw [hm]; intro e; cases e)
            cases hs
            refine ⟨hc, ⟨o1, o2, ?_⟩, fun hm => absurd rfl hm⟩
            rw [e, hz]
            intro x hx
            rw [List.nil_append, List.mem_singleton] at hx
            rw [hx]; exact .inl (i1.1 hz)
          · cases hs)
      ⟨clean_start h.1, (clean_start h.1).2 (by obtain ⟨fds, t, d, _, rfl⟩ := h.1; rfl), fun _ => by
        obtain ⟨fds, t, d, _, rfl⟩ := h.1; rfl⟩ h.2
  exact key.2.1

/-- A pager that shows something and takes a key; other threads open and close. -/
def short : List Label := [.wake true true, .look, .openOn 8, .read, .input, .feed, .closeOther 4, .wake true false, .look, .read]
example : ∃ s, Run (start table 7 3) short s ∧ .monDrop ∉ short ∧ .dropFork ∉ short ∧ s.reads = [7, 7] ∧ s.writes = [7] :=
  ⟨_, ⟨⟨_, _, _, rfl, rfl⟩, rfl⟩, by decide, by decide, rfl, rfl⟩
/-- The rest of it: the pager exits, both threads end; nothing else is opened. -/
def rest : List Label := [.exit, .wake true false, .look, .seen, .setFlag, .monDrop, .read, .closeOther 0, .guardDone, .dropFork]
example : ∃ s, Run (start table 7 3) (short ++ rest) s ∧ (∀ t, .openOn t ∉ rest) ∧ s.closes = [some 7, none] ∧ s.mon = .gone ∧ s.main = .over :=
  ⟨_, ⟨⟨_, _, _, rfl, rfl⟩, rfl⟩, by simp [rest], rfl, rfl, rfl⟩
/-- With the repair, and another thread that opens something at the worst time. -/
example : ∃ s, RunOf true (start table 7 3) (short ++ window true false ++ [.read, .leave, .guardDone, .dropFork]) s ∧ s.closes = [some 7] ∧ s.reads = [7, 7, 7] :=
  ⟨_, ⟨⟨_, _, _, rfl, rfl⟩, rfl⟩, rfl, rfl⟩

end Shpool.PagerFd
