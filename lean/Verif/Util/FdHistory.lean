import Verif.Util.Lts
import Verif.Util.FdTable

/-!
# What a number of the table of file descriptors stands for, from the history

A number that stood for `t0` at the start stands for `u` now iff it was never closed and `u` is `t0`, or `u` was opened under it while it was free and it has
not been closed since.
-/

namespace Shpool.FdTable

variable {S L α : Type}

theorem lowest_new {fds : List (Option Nat)} {d t u : Nat} (h0 : on fds d = none) (h : on (lowest fds u) d = some t) : t = u := by
  induction fds generalizing d with
  | nil =>
    cases d with
    | zero => simp [on, lowest] at h; exact h.symm
    | succ d => simp [on, lowest] at h
  | cons f r ih =>
    cases f with
    | none =>
      cases d with
      | zero => simp [on, lowest] at h; exact h.symm
      | succ d => simp [on, lowest] at h h0; rw [h0] at h; cases h
    | some w =>
      cases d with
      | zero => simp [on] at h0
      | succ d => exact ih (d := d) (by simpa [on] using h0) (by simpa [on, lowest] using h)

/-- Something was opened as `u` under the number `d` when that was free, and the number was not closed since. -/
def Opened (step : S → L → Option S) (fds : S → List (Option Nat)) (d : Nat) (opens : L → Option Nat) (closes : L → Bool) (s0 : S) (u : Nat)
    (ls : List L) : Prop :=
  ∃ pre l mid s1, ls = pre ++ l :: mid ∧ opens l = some u ∧ runSteps step s0 pre = some s1 ∧ on (fds s1) d = none ∧
    on (lowest (fds s1) u) d = some u ∧ ∀ l ∈ mid, closes l = false

theorem snoc_split {ls : List L} {l l' : L} {pre post : List L} (h : ls ++ [l] = pre ++ l' :: post) :
    (pre = ls ∧ l' = l ∧ post = []) ∨ ∃ post', post = post' ++ [l] ∧ ls = pre ++ l' :: post' := by
  rcases List.eq_nil_or_concat post with rfl | ⟨post', x, rfl⟩
  · have := List.append_inj' h rfl
    exact .inl ⟨this.1.symm, (by have := this.2; cases this; rfl), rfl⟩
  · have h' : ls ++ [l] = (pre ++ l' :: post') ++ [x] := by rw [h]; simp
    have := List.append_inj' h' rfl
    exact .inr ⟨post', (by have := this.2; cases this; simp), this.1⟩

/-- What each step does to the number `d`. -/
def Acts (step : S → L → Option S) (P : S → Prop) (fds : S → List (Option Nat)) (d : Nat) (opens : L → Option Nat) (closes : L → Bool) : Prop :=
  ∀ s l s', P s → step s l = some s' → P s' ∧
    ((∃ u, opens l = some u ∧ closes l = false ∧ fds s' = lowest (fds s) u) ∨
     (opens l = none ∧ closes l = true ∧ on (fds s') d = none) ∨
     (opens l = none ∧ closes l = false ∧ on (fds s') d = on (fds s) d))

theorem under_iff {step : S → L → Option S} {P : S → Prop} {fds : S → List (Option Nat)} {d : Nat} {opens : L → Option Nat} {closes : L → Bool}
    (hA : Acts step P fds d opens closes) {s0 s : S} {t0 : Nat} (h0 : P s0) (ht : on (fds s0) d = some t0) {ls : List L}
    (h : runSteps step s0 ls = some s) (u : Nat) :
    on (fds s) d = some u ↔ (u = t0 ∧ ∀ l ∈ ls, closes l = false) ∨ Opened step fds d opens closes s0 u ls := by
  refine (run_hist (step := step) (I := fun ls s => runSteps step s0 ls = some s ∧ P s ∧
    (on (fds s) d = some u ↔ (u = t0 ∧ ∀ l ∈ ls, closes l = false) ∨ Opened step fds d opens closes s0 u ls)) ?_ ⟨rfl, h0, ?_⟩ h).2.2
  · rintro ls s l s' ⟨hr, hP, hI⟩ hs
    have hr' : runSteps step s0 (ls ++ [l]) = some s' := by rw [run_append, hr]; simp [runSteps, hs]
    obtain ⟨hP', hcase⟩ := hA s l s' hP hs
    refine ⟨hr', hP', ?_⟩
    have hmore : closes l = false → ((u = t0 ∧ ∀ l ∈ ls, closes l = false) ∨ Opened step fds d opens closes s0 u ls) →
        ((u = t0 ∧ ∀ k ∈ ls ++ [l], closes k = false) ∨ Opened step fds d opens closes s0 u (ls ++ [l])) := by
      intro hc hI
      have hlast : ∀ m : List L, (∀ k ∈ m, closes k = false) → ∀ k ∈ m ++ [l], closes k = false := by
        intro m hm k hk
        rcases List.mem_append.mp hk with hk | hk
        · exact hm k hk
        · rw [List.mem_singleton.mp hk]; exact hc
      rcases hI with ⟨e, ha⟩ | ⟨pre, k, mid, s1, e, h1, h2, h3, h4, h5⟩
      · exact .inl ⟨e, hlast _ ha⟩
      · exact .inr ⟨pre, k, mid ++ [l], s1, by rw [e]; simp, h1, h2, h3, h4, hlast _ h5⟩
    have hless : ((u = t0 ∧ ∀ k ∈ ls ++ [l], closes k = false) ∨ Opened step fds d opens closes s0 u (ls ++ [l])) →
        (closes l = false ∧ ((u = t0 ∧ ∀ l ∈ ls, closes l = false) ∨ Opened step fds d opens closes s0 u ls)) ∨
        (opens l = some u ∧ on (fds s) d = none ∧ on (lowest (fds s) u) d = some u) := by
      rintro (⟨e, ha⟩ | ⟨pre, k, mid, s1, e, h1, h2, h3, h4, h5⟩)
      · exact .inl ⟨ha l (by simp), .inl ⟨e, fun k hk => ha k (by simp [hk])⟩⟩
      · rcases snoc_split e with ⟨rfl, rfl, rfl⟩ | ⟨post', rfl, e'⟩
        · rw [hr] at h2; cases h2
          exact .inr ⟨h1, h3, h4⟩
        · exact .inl ⟨h5 l (by simp), .inr ⟨pre, k, post', s1, e', h1, h2, h3, h4, fun k hk => h5 k (by simp [hk])⟩⟩
    rcases hcase with ⟨v, hv, hc, hf⟩ | ⟨ho, hc, hf⟩ | ⟨ho, hc, hf⟩
    · rw [hf]
      constructor
      · intro hon
        cases hn : on (fds s) d with
        | some w =>
          rw [on_lowest hn] at hon; cases hon
          exact hmore hc (hI.mp hn)
        | none =>
          cases lowest_new hn hon
          exact .inr ⟨ls, l, [], s, rfl, hv, hr, hn, hon, by simp⟩
      · intro hh
        rcases hless hh with ⟨-, hh⟩ | ⟨e, -, h4⟩
        · exact on_lowest (hI.mpr hh)
        · rw [hv] at e; cases e; exact h4
    · rw [hf]
      constructor
      · intro h; cases h
      · intro hh
        rcases hless hh with ⟨e, -⟩ | ⟨e, -⟩
        · rw [hc] at e; cases e
        · rw [ho] at e; cases e
    · rw [hf]
      constructor
      · intro h; exact hmore hc (hI.mp h)
      · intro hh
        rcases hless hh with ⟨-, hh⟩ | ⟨e, -⟩
        · exact hI.mpr hh
        · rw [ho] at e; cases e
  · rw [ht]
    constructor
    · intro h; exact .inl ⟨(Option.some.inj h).symm, by simp⟩
    · rintro (⟨e, -⟩ | ⟨pre, l, mid, s1, e, -⟩)
      · rw [e]
      · simp at e

/-- What a record holds that only steps marked write to. -/
theorem recorded {step : S → L → Option S} {P : S → Prop} {record : S → List α} {marks : L → Bool} {vals : S → List α}
    (hA : ∀ s l s', P s → step s l = some s' → P s' ∧ record s' = record s ++ if marks l then vals s else []) {s0 s : S} {ls : List L} (h0 : P s0)
    (hn : record s0 = []) (h : runSteps step s0 ls = some s) (x : α) :
    x ∈ record s ↔ ∃ pre l post s1, ls = pre ++ l :: post ∧ marks l = true ∧ runSteps step s0 pre = some s1 ∧ x ∈ vals s1 := by
  refine (run_hist (step := step) (I := fun ls s => runSteps step s0 ls = some s ∧ P s ∧
    (x ∈ record s ↔ ∃ pre l post s1, ls = pre ++ l :: post ∧ marks l = true ∧ runSteps step s0 pre = some s1 ∧ x ∈ vals s1)) ?_
    ⟨rfl, h0, ?_⟩ h).2.2
  · rintro ls s l s' ⟨hr, hP, hI⟩ hs
    obtain ⟨hP', he⟩ := hA s l s' hP hs
    refine ⟨by rw [run_append, hr]; simp [runSteps, hs], hP', ?_⟩
    rw [he, List.mem_append, hI]
    constructor
    · rintro (⟨pre, k, post, s1, e, h1⟩ | hx)
      · exact ⟨pre, k, post ++ [l], s1, by rw [e]; simp, h1⟩
      · split at hx
        · next hm => exact ⟨ls, l, [], s, rfl, hm, hr, hx⟩
        · cases hx
    · rintro ⟨pre, k, post, s1, e, h1, h2, h3⟩
      rcases snoc_split e with ⟨rfl, rfl, rfl⟩ | ⟨post', rfl, e'⟩
      · rw [hr] at h2; cases h2
        exact .inr (by rw [if_pos h1]; exact h3)
      · exact .inl ⟨pre, k, post', s1, e', h1, h2, h3⟩
  · rw [hn]
    constructor
    · intro h; cases h
    · rintro ⟨pre, l, post, s1, e, -⟩; simp at e

end Shpool.FdTable
