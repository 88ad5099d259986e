import Verif.PagerSize.Props
import Verif.Util.FdHistory
/-! # C155, exactly: what a new size is set on -/

namespace Shpool.PagerSize
open Shpool FdTable

/-- What a step opens. -/
def opens : Label → Option Nat
  | .openOn t => some t
  | _ => none

/-- A step closes the number `d`. -/
def closesNumber (d : Nat) : Label → Bool
  | .close _ => true
  | .closeOther e => e == d
  | _ => false

/-- `u` has been opened under the number that was the terminal's when this was free, and the number has not been closed since. -/
def Taken (s0 : St) (u : Nat) (ls : List Label) : Prop :=
  ∃ pre mid s1, ls = pre ++ .openOn u :: mid ∧ runSteps step s0 pre = some s1 ∧ on s1.fds s0.fd = none ∧ on (lowest s1.fds u) s0.fd = some u ∧
    ∀ l ∈ mid, closesNumber s0.fd l = false

private theorem acts (d : Nat) : Acts step (fun s => s.fd = d) St.fds d opens (closesNumber d) := by
  intro s l s' hd h
  subst hd
  cases l
  all_goals
    simp only [step, stepOf] at h
    (repeat' split at h) <;> (try cases h)
  all_goals first
    | contradiction
    | exact ⟨rfl, .inl ⟨_, rfl, rfl, rfl⟩⟩
    | exact ⟨rfl, .inr (.inr ⟨rfl, rfl, rfl⟩)⟩
    | exact ⟨rfl, .inr (.inl ⟨rfl, rfl, on_set_eq ..⟩)⟩
    | (rename_i e _
       by_cases he : e = s.fd
       · subst he; exact ⟨rfl, .inr (.inl ⟨rfl, by simp [closesNumber], on_set_eq ..⟩)⟩
       · exact ⟨rfl, .inr (.inr ⟨rfl, by simp [closesNumber, he], on_set_ne he⟩)⟩)

private theorem taken_iff {s0 : St} {u : Nat} {ls : List Label} :
    Opened step St.fds s0.fd opens (closesNumber s0.fd) s0 u ls ↔ Taken s0 u ls := by
  constructor
  · rintro ⟨pre, l, mid, s1, e, h1, h⟩
    cases l <;> cases h1
    exact ⟨pre, mid, s1, e, h⟩
  · rintro ⟨pre, mid, s1, e, h⟩
    exact ⟨pre, _, mid, s1, e, rfl, h⟩

/-- What the number stands for: the terminal, if it was never closed, or what has been opened under it since. -/
theorem number_is {s0 s : St} {ls : List Label} (h : Run s0 ls s) (u : Nat) :
    on s.fds s0.fd = some u ↔ (u = s0.term ∧ ∀ l ∈ ls, closesNumber s0.fd l = false) ∨ Taken s0 u ls := by
  obtain ⟨⟨fds, t, d, z, sz, hon, rfl⟩, hr⟩ := h
  rw [← taken_iff]
  exact under_iff (acts d) (s0 := start fds t d z sz) rfl hon hr u

private theorem fd_same {s0 s : St} {ls : List Label} (h : runSteps step s0 ls = some s) : s.fd = s0.fd ∧ s.term = s0.term := by
  refine run_inv (I := fun s => s.fd = s0.fd ∧ s.term = s0.term) (fun s l s' hI h => ?_) ⟨rfl, rfl⟩ h
  cases l
  all_goals
    simp only [step, stepOf] at h
    (repeat' split at h) <;> (try cases h)
  all_goals exact hI

private theorem hit {s0 s : St} {ls : List Label} (h : Run s0 ls s) (x : Option Nat) : x ∈ s.hits ↔
    ∃ pre l post s1, ls = pre ++ l :: post ∧ ((· == .setSize)) l = true ∧ runSteps step s0 pre = some s1 ∧ x ∈ (fun s => [on s.fds s.fd]) s1 := by
  obtain ⟨⟨fds, t, d, z, sz, hon, rfl⟩, hr⟩ := h
  refine recorded (P := fun _ => True) (record := St.hits) ?_ trivial rfl hr x
  intro s l s' _ h
  refine ⟨trivial, ?_⟩
  cases l
  all_goals
    simp only [step, stepOf] at h
    (repeat' split at h) <;> (try cases h)
  all_goals first
    | contradiction
    | exact (List.append_nil _).symm
    | rfl
    | simp_all

/-- **C155**, exactly: a new size is set on something else than the pager's terminal iff that was opened under the number of the terminal, this having been
closed, before the size was set. -/
theorem C155_exact {s0 s : St} {ls : List Label} (h : Run s0 ls s) {u : Nat} (hu : u ≠ s.term) :
    some u ∈ s.hits ↔ ∃ pre post, ls = pre ++ .setSize :: post ∧ Taken s0 u pre := by
  have ht := (fd_same h.2).2
  rw [hit h]
  constructor
  · rintro ⟨pre, l, post, s1, rfl, hl, h1, hx⟩
    have : l = .setSize := by simpa using hl
    subst this
    refine ⟨pre, post, rfl, ?_⟩
    rw [List.mem_singleton, (fd_same h1).1] at hx
    rcases (number_is ⟨h.1, h1⟩ u).mp hx.symm with ⟨e, -⟩ | h
    · exact absurd (e.trans ht.symm) hu
    · exact h
  · rintro ⟨pre, post, rfl, hT⟩
    obtain ⟨s1, h1, -⟩ := run_append_some h.2
    refine ⟨pre, _, post, s1, rfl, rfl, h1, ?_⟩
    rw [List.mem_singleton, (fd_same h1).1]
    exact ((number_is ⟨h.1, h1⟩ u).mpr (.inr hT)).symm

/-- The witness of `C155_false`: the other session's terminal has got the number. -/
example : Taken (start table 7 3 24 fun _ => 24) 9 [.exit, .finish, .ask 50, .send, .close false, .openOn 9] :=
  ⟨[.exit, .finish, .ask 50, .send, .close false], [], _, rfl, rfl, rfl, rfl, by simp⟩

end Shpool.PagerSize
