/-!
# The table of file descriptors of a process

Not code of the repository but what the system does: a number stands for something that is open or for nothing, and something that is opened gets
the lowest number that is free.
-/

namespace Shpool.FdTable

/-- The system gives out the lowest number that is free. -/
def lowest : List (Option Nat) → Nat → List (Option Nat)
  | [], t => [some t]
  | none :: r, t => some t :: r
  | some u :: r, t => some u :: lowest r t

/-- What a number stands for. -/
def on (fds : List (Option Nat)) (d : Nat) : Option Nat := (fds[d]?).join

theorem on_lowest {fds : List (Option Nat)} {d t u : Nat} (h : on fds d = some t) : on (lowest fds u) d = some t := by
  induction fds generalizing d with
  | nil => simp [on] at h
  | cons f r ih =>
    cases f with
    | none =>
      cases d with
      | zero => simp [on] at h
      | succ d => simpa [on, lowest] using h
    | some w =>
      cases d with
      | zero => simpa [on, lowest] using h
      | succ d =>
        have := ih (d := d) (by simpa [on] using h)
        simpa [on, lowest] using this

theorem on_set_ne {fds : List (Option Nat)} {d e : Nat} (h : e ≠ d) : on (fds.set e none) d = on fds d := by
  simp only [on, List.getElem?_set, h, if_false]

theorem on_set_eq (fds : List (Option Nat)) (d : Nat) : on (fds.set d none) d = none := by
  simp only [on, List.getElem?_set, if_true]
  split <;> rfl

end Shpool.FdTable
