/-!
# List induction from the end
-/

namespace Shpool

/-- Induction over lists from the end. -/
@[elab_as_elim]
theorem snocInd {α : Type u} {P : List α → Prop} (l : List α) (nil : P [])
    (snoc : ∀ xs x, P xs → P (xs ++ [x])) : P l := by
  have : ∀ n, ∀ l : List α, l.length = n → P l := by
    intro n
    induction n with
    | zero => intro l hl; rw [List.length_eq_zero_iff.mp hl]; exact nil
    | succ n ih =>
      intro l hl
      rcases List.eq_nil_or_concat l with rfl | ⟨xs, x, rfl⟩
      · simp at hl
      · rw [List.concat_eq_append] at hl ⊢
        exact snoc xs x (ih xs (by simpa using hl))
  exact this _ l rfl

end Shpool
