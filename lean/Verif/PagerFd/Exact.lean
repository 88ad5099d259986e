import Verif.PagerFd.Props
import Verif.Util.FdHistory
/-! # C157, exactly: what is read, written and closed -/

namespace Shpool.PagerFd
open Shpool FdTable

/-- What a step opens. -/
def opens : Label → Option Nat
  | .openOn t => some t
  | _ => none

/-- A step closes the number `d`. -/
def closesNumber (d : Nat) : Label → Bool
  | .monDrop | .dropFork => true
  | .closeOther e => e == d
  | _ => false

/-- `u` has been opened under the number that was the terminal's when this was free, and the number has not been closed since. -/
def Taken (s0 : St) (u : Nat) (ls : List Label) : Prop :=
  ∃ pre mid s1, ls = pre ++ .openOn u :: mid ∧ runSteps step s0 pre = some s1 ∧ on s1.fds s0.fd = none ∧ on (lowest s1.fds u) s0.fd = some u ∧
    ∀ l ∈ mid, closesNumber s0.fd l = false

private theorem acts (d : Nat) : Acts step (fun s => s.fd = d) St.fds d opens (closesNumber d) := by
  intro s l s' hd h
  subst hd
  cases l
  all_goals
    simp only [step, stepOf] at h
    (repeat' split at h) <;> (try cases h)
  all_goals first
    | contradiction
    | exact ⟨rfl, .inl ⟨_, rfl, rfl, rfl⟩⟩
    | exact ⟨rfl, .inr (.inr ⟨rfl, rfl, rfl⟩)⟩
    | exact ⟨rfl, .inr (.inl ⟨rfl, rfl, on_set_eq ..⟩)⟩
    | (rename_i e _
       by_cases he : e = s.fd
       · subst he; exact ⟨rfl, .inr (.inl ⟨rfl, by simp [closesNumber], on_set_eq ..⟩)⟩
       · exact ⟨rfl, .inr (.inr ⟨rfl, by simp [closesNumber, he], on_set_ne he⟩)⟩)

private theorem taken_iff {s0 : St} {u : Nat} {ls : List Label} :
    Opened step St.fds s0.fd opens (closesNumber s0.fd) s0 u ls ↔ Taken s0 u ls := by
  constructor
  · rintro ⟨pre, l, mid, s1, e, h1, h⟩
    cases l <;> cases h1
    exact ⟨pre, mid, s1, e, h⟩
  · rintro ⟨pre, mid, s1, e, h⟩
    exact ⟨pre, _, mid, s1, e, rfl, h⟩

/-- What the number stands for: the terminal, if it was never closed, or what has been opened under it since. -/
theorem number_is {s0 s : St} {ls : List Label} (h : Run s0 ls s) (u : Nat) :
    on s.fds s0.fd = some u ↔ (u = s0.term ∧ ∀ l ∈ ls, closesNumber s0.fd l = false) ∨ Taken s0 u ls := by
  obtain ⟨⟨fds, t, d, hon, rfl⟩, hr⟩ := h
  rw [← taken_iff]
  exact under_iff (acts d) (s0 := start fds t d) rfl hon hr u

private theorem fd_same {s0 s : St} {ls : List Label} (h : runSteps step s0 ls = some s) : s.fd = s0.fd ∧ s.term = s0.term := by
  refine run_inv (I := fun s => s.fd = s0.fd ∧ s.term = s0.term) (fun s l s' hI h => ?_) ⟨rfl, rfl⟩ h
  cases l
  all_goals
    simp only [step, stepOf] at h
    (repeat' split at h) <;> (try cases h)
  all_goals exact hI

private theorem readFrom {s0 s : St} {ls : List Label} (h : Run s0 ls s) (x : Nat) : x ∈ s.reads ↔
    ∃ pre l post s1, ls = pre ++ l :: post ∧ ((· == .read)) l = true ∧ runSteps step s0 pre = some s1 ∧ x ∈ (fun s => (on s.fds s.fd).toList) s1 := by
  obtain ⟨⟨fds, t, d, hon, rfl⟩, hr⟩ := h
  refine recorded (P := fun _ => True) (record := St.reads) ?_ trivial rfl hr x
  intro s l s' _ h
  refine ⟨trivial, ?_⟩
  cases l
  all_goals
    simp only [step, stepOf] at h
    (repeat' split at h) <;> (try cases h)
  all_goals first
    | contradiction
    | exact (List.append_nil _).symm
    | rfl
    | simp_all

private theorem writtenTo {s0 s : St} {ls : List Label} (h : Run s0 ls s) (x : Nat) : x ∈ s.writes ↔
    ∃ pre l post s1, ls = pre ++ l :: post ∧ ((· == .feed)) l = true ∧ runSteps step s0 pre = some s1 ∧ x ∈ (fun s => (on s.fds s.fd).toList) s1 := by
  obtain ⟨⟨fds, t, d, hon, rfl⟩, hr⟩ := h
  refine recorded (P := fun _ => True) (record := St.writes) ?_ trivial rfl hr x
  intro s l s' _ h
  refine ⟨trivial, ?_⟩
  cases l
  all_goals
    simp only [step, stepOf] at h
    (repeat' split at h) <;> (try cases h)
  all_goals first
    | contradiction
    | exact (List.append_nil _).symm
    | rfl
    | simp_all

private theorem closedOn {s0 s : St} {ls : List Label} (h : Run s0 ls s) (x : Option Nat) : x ∈ s.closes ↔
    ∃ pre l post s1, ls = pre ++ l :: post ∧ (fun l => l == .monDrop || l == .dropFork) l = true ∧ runSteps step s0 pre = some s1 ∧ x ∈ (fun s => [on s.fds s.fd]) s1 := by
  obtain ⟨⟨fds, t, d, hon, rfl⟩, hr⟩ := h
  refine recorded (P := fun _ => True) (record := St.closes) ?_ trivial rfl hr x
  intro s l s' _ h
  refine ⟨trivial, ?_⟩
  cases l
  all_goals
    simp only [step, stepOf] at h
    (repeat' split at h) <;> (try cases h)
  all_goals first
    | contradiction
    | exact (List.append_nil _).symm
    | rfl
    | simp_all

private theorem through {s0 s : St} {ls : List Label} (h : Run s0 ls s) {u : Nat} (hu : u ≠ s.term) {pre : List Label} {l : Label} {post : List Label}
    (e : ls = pre ++ l :: post) : (∃ s1, runSteps step s0 pre = some s1 ∧ on s1.fds s1.fd = some u) ↔ Taken s0 u pre := by
  have ht := (fd_same h.2).2
  constructor
  · rintro ⟨s1, h1, hx⟩
    rw [(fd_same h1).1] at hx
    rcases (number_is ⟨h.1, h1⟩ u).mp hx with ⟨e, -⟩ | h
    · exact absurd (e.trans ht.symm) hu
    · exact h
  · intro hT
    obtain ⟨s1, h1, -⟩ := run_append_some (e ▸ h.2)
    exact ⟨s1, h1, by rw [(fd_same h1).1]; exact (number_is ⟨h.1, h1⟩ u).mpr (.inr hT)⟩

/-- **C157**, exactly: something else than the pager's terminal is shown to the client, is written to or is closed iff that was opened under the number of
the terminal, this having been closed, before. -/
theorem C157_exact {s0 s : St} {ls : List Label} (h : Run s0 ls s) {u : Nat} (hu : u ≠ s.term) :
    (u ∈ s.reads ↔ ∃ pre post, ls = pre ++ .read :: post ∧ Taken s0 u pre) ∧
    (u ∈ s.writes ↔ ∃ pre post, ls = pre ++ .feed :: post ∧ Taken s0 u pre) ∧
    (some u ∈ s.closes ↔ ∃ pre l post, ls = pre ++ l :: post ∧ (l = .monDrop ∨ l = .dropFork) ∧ Taken s0 u pre) := by
  refine ⟨?_, ?_, ?_⟩
  · rw [readFrom h]
    constructor
    · rintro ⟨pre, l, post, s1, e, hl, h1, hx⟩
      have : l = .read := by simpa using hl
      subst this
      exact ⟨pre, post, e, (through h hu e).mp ⟨s1, h1, by simpa using hx⟩⟩
    · rintro ⟨pre, post, e, hT⟩
      obtain ⟨s1, h1, hx⟩ := (through h hu e).mpr hT
      exact ⟨pre, _, post, s1, e, rfl, h1, by simpa using hx⟩
  · rw [writtenTo h]
    constructor
    · rintro ⟨pre, l, post, s1, e, hl, h1, hx⟩
      have : l = .feed := by simpa using hl
      subst this
      exact ⟨pre, post, e, (through h hu e).mp ⟨s1, h1, by simpa using hx⟩⟩
    · rintro ⟨pre, post, e, hT⟩
      obtain ⟨s1, h1, hx⟩ := (through h hu e).mpr hT
      exact ⟨pre, _, post, s1, e, rfl, h1, by simpa using hx⟩
  · rw [closedOn h]
    constructor
    · rintro ⟨pre, l, post, s1, e, hl, h1, hx⟩
      exact ⟨pre, l, post, e, by simpa using hl, (through h hu e).mp ⟨s1, h1, (List.mem_singleton.mp hx).symm⟩⟩
    · rintro ⟨pre, l, post, e, hl, hT⟩
      obtain ⟨s1, h1, hx⟩ := (through h hu e).mpr hT
      exact ⟨pre, l, post, s1, e, by simpa using hl, h1, List.mem_singleton.mpr hx.symm⟩

/-- The witness of `C157_false_close`: the other session's terminal has got the number. -/
example : Taken (start table 7 3) 9 [.exit, .seen, .setFlag, .wake true false, .look, .monDrop, .openOn 9, .guardDone] :=
  ⟨[.exit, .seen, .setFlag, .wake true false, .look, .monDrop], [.guardDone], _, rfl, rfl, rfl, rfl, by decide⟩

end Shpool.PagerFd
