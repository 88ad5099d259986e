import Verif.Json.Props
/-!
# Exactly which tables `shpool var list` shows without doubt (C112)
-/

namespace Shpool.Json

private theorem tabs (vars : List (Str × Str)) : (varsText vars).count '\t' =
    vars.length + (vars.map fun p => p.1.count '\t' + p.2.count '\t').sum := by
  induction vars with
  | nil => rfl
  | cons p vars ih =>
    rw [varsText_cons]
    simp [List.count_append, List.count_cons, ih]
    omega

private theorem split_tab {a a' b b' : Str} (h : a ++ '\t' :: b = a' ++ '\t' :: b') (ha : '\t' ∉ a) (ha' : '\t' ∉ a') : a = a' ∧ b = b' := by
  induction a generalizing a' with
  | nil =>
    cases a' with
    | nil => simpa using h
    | cons c a' => simp at h ha'; exact absurd h.1 ha'.1
  | cons c a ih =>
    cases a' with
    | nil => simp at h ha; exact absurd h.1.symm ha.1
    | cons c' a' =>
      simp at h ha ha'
      have := ih h.2 ha.2 ha'.2
      exact ⟨by rw [h.1, this.1], this.2⟩

private theorem text_ends (vars : List (Str × Str)) (h : vars ≠ []) : ∃ t, varsText vars = t ++ ['\n'] := by
  induction vars with
  | nil => exact absurd rfl h
  | cons p vars ih =>
    rw [varsText_cons]
    cases vars with
    | nil => exact ⟨p.1 ++ '\t' :: p.2, by simp [varsText]⟩
    | cons q vars =>
      obtain ⟨t, ht⟩ := ih (by simp)
      exact ⟨(p.1 ++ '\t' :: p.2) ++ '\n' :: t, by rw [ht]; simp⟩

/-- **C112** (text).  With two variables or more the text of `shpool var list` is always also that of a single variable with a value of several
lines. -/
theorem C112_two (p q : Str × Str) (vars : List (Str × Str)) : ∃ v, varsText [(p.1, v)] = varsText (p :: q :: vars) := by
  obtain ⟨t, ht⟩ := text_ends (q :: vars) (by simp)
  refine ⟨p.2 ++ '\n' :: t, ?_⟩
  rw [varsText_cons, varsText_cons, ht]
  simp [varsText]

/-- **C112** (text, exactly).  The text of `shpool var list` is that of one table only if and only if there is no variable, or a single one without
a tab in its name or value. -/
theorem C112_exact (vars : List (Str × Str)) (hd : Distinct vars) :
    (∀ vars', Distinct vars' → varsText vars' = varsText vars → vars' = vars) ↔
      vars = [] ∨ ∃ k v, vars = [(k, v)] ∧ '\t' ∉ k ∧ '\t' ∉ v := by
  constructor
  · intro h
    match vars, hd, h with
    | [], _, _ => exact .inl rfl
    | p :: q :: vars, _, h =>
      obtain ⟨v, hv⟩ := C112_two p q vars
      have := congrArg List.length (h [(p.1, v)] (by simp [Distinct]) hv)
      simp at this
    | [(k, v)], _, h =>
      refine .inr ⟨k, v, rfl, fun hk => ?_, fun hv => ?_⟩
      · obtain ⟨a, b, rfl⟩ := List.append_of_mem hk
        have := h [(a, b ++ '\t' :: v)] (by simp [Distinct]) (by simp [varsText])
        simp at this
      · obtain ⟨a, b, rfl⟩ := List.append_of_mem hv
        have := h [(k ++ '\t' :: a, b)] (by simp [Distinct]) (by simp [varsText])
        simp at this
  · rintro (rfl | ⟨k, v, rfl, hk, hv⟩) vars' _ he
    · cases vars' with
      | nil => rfl
      | cons p vars' => rw [varsText_cons] at he; simp [varsText] at he
    · have h1 := tabs vars'
      rw [he, tabs] at h1
      simp [List.count_eq_zero.mpr hk, List.count_eq_zero.mpr hv] at h1
      match vars', he, h1 with
      | [], he, _ => simp [varsText] at he
      | _ :: _ :: _, _, h1 => simp at h1; omega
      | [(k', v')], he, h1 =>
        simp at h1
        simp only [varsText_cons, List.append_cancel_right_eq] at he
        have := split_tab he (List.count_eq_zero.mp (by omega)) hk
        rw [this.1, this.2]

example : Distinct [("a".toList, "1".toList), ("b".toList, "2".toList)] ∧
    varsText [("a".toList, "1\nb\t2".toList)] = varsText [("a".toList, "1".toList), ("b".toList, "2".toList)] := by decide
example : Distinct [("a".toList, "1\n2".toList)] ∧ '\t' ∉ "a".toList ∧ '\t' ∉ "1\n2".toList := by decide

end Shpool.Json
