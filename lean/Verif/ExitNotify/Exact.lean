import Verif.ExitNotify.Props
/-! # Exactly what every wait for the end of the shell returns (C58) -/

namespace Shpool.ExitNotify

private inductive At (w : Nat) (timed : Bool) (s : St) (mid : List Label) : Prop where
  | parked (h : s.phase w = .parked timed) (h1 : .expire w ∉ mid) (h2 : announced mid = [])
  | woken (h : s.phase w = .woken) (h1 : .expire w ∉ mid) (h2 : announced mid ≠ [])
  | expired (h : s.phase w = .expired) (h1 : timed = true) (h2 : ∃ a b, mid = a ++ .expire w :: b ∧ announced a = [])
  | done (r : Option Int) (h : s.phase w = .returned r) (h1 : .expire w ∉ mid)

private theorem at_step {w : Nat} {timed : Bool} {s s' : St} {mid : List Label} {l : Label} (ha : At w timed s mid)
    (h1 : ∀ t, l ≠ .begin w t) (h2 : l ≠ .resume w) (hs : step s l = some s') : At w timed s' (mid ++ [l]) := by
  have other : (∀ st, l ≠ .notify st) → l ≠ .expire w → s'.phase w = s.phase w → At w timed s' (mid ++ [l]) := by
    intro hn he hp
    have han : announced (mid ++ [l]) = announced mid := by
      rw [announced_append]
      cases l with
      | notify st => exact absurd rfl (hn st)
      | _ => simp [announced]
    have hex : Label.expire w ∈ mid ++ [l] ↔ Label.expire w ∈ mid := by
      simp only [List.mem_append, List.mem_singleton]
      exact ⟨fun h => h.resolve_right fun e => he e.symm, .inl⟩
    cases ha with
    | parked h a b => exact .parked (by rw [hp, h]) (by rw [hex]; exact a) (by rw [han]; exact b)
    | woken h a b => exact .woken (by rw [hp, h]) (by rw [hex]; exact a) (by rw [han]; exact b)
    | expired h a b =>
      obtain ⟨x, y, e, hx⟩ := b
      exact .expired (by rw [hp, h]) a ⟨x, y ++ [l], by rw [e]; simp, hx⟩
    | done r h a => exact .done r (by rw [hp, h]) (by rw [hex]; exact a)
  cases l with
  | notify st =>
    cases hs
    have hex : Label.expire w ∈ mid ++ [Label.notify st] ↔ Label.expire w ∈ mid := by simp
    have han : announced (mid ++ [.notify st]) ≠ [] := by rw [announced_append]; simp [announced]
    cases ha with
    | parked h a b => exact .woken (by simp [h]) (by rw [hex]; exact a) han
    | woken h a b => exact .woken (by simp [h]) (by rw [hex]; exact a) han
    | expired h a b =>
      obtain ⟨x, y, e, hx⟩ := b
      exact .expired (by simp [h]) a ⟨x, y ++ [.notify st], by rw [e]; simp, hx⟩
    | done r h a => exact .done r (by simp [h]) (by rw [hex]; exact a)
  | begin v t =>
    refine other nofun nofun ?_
    have hne : w ≠ v := fun e => h1 t (by rw [e])
    simp only [step] at hs
    cases hq : s.phase v <;> rw [hq] at hs <;> dsimp only at hs <;> (try cases hs) <;>
      (split at hs <;> cases hs <;> simp [setPhase, hne])
  | expire v =>
    by_cases hv : v = w
    · subst hv
      simp only [step] at hs
      split at hs
      · rename_i hp
        cases hs
        cases ha with
        | parked h a b =>
          rw [hp] at h
          cases h
          exact .expired (by simp [setPhase]) rfl ⟨mid, [], rfl, b⟩
        | woken h => rw [hp] at h; cases h
        | expired h => rw [hp] at h; cases h
        | done r h => rw [hp] at h; cases h
      · cases hs
    · refine other nofun (fun e => by cases e; exact hv rfl) ?_
      simp only [step] at hs
      split at hs <;> cases hs
      simp [setPhase, Ne.symm hv]
  | resume v =>
    refine other nofun nofun ?_
    have hne : w ≠ v := fun e => h2 (by rw [e])
    simp only [step] at hs
    split at hs <;> cases hs <;> simp [setPhase, hne]

/-- **C58** (exactly what): a wait that sleeps returns "still running" exactly if its own timeout passed while it slept — which is before
any announcement made during the wait, however many follow before it returns —, and otherwise the status announced last. -/
theorem C58_exact (ls mid : List Label) (w : Nat) (timed : Bool) (s : St) (h : Run (ls ++ .begin w timed :: (mid ++ [.resume w])) s)
    (hb : ∀ t, .begin w t ∉ mid) (hr : .resume w ∉ mid) :
    (.expire w ∉ mid ∧ announced mid ≠ [] ∧ s.phase w = .returned (announced mid).getLast?) ∨
    (timed = true ∧ s.phase w = .returned none ∧ ∃ a b, mid = a ++ .expire w :: b ∧ announced a = []) := by
  obtain ⟨s1, h1, h2⟩ := Shpool.run_append_some h
  obtain ⟨s2, h3, h4⟩ := Shpool.run_cons_some h2
  obtain ⟨s3, h5, h6⟩ := Shpool.run_append_some h4
  obtain ⟨s4, h7, h8⟩ := Shpool.run_cons_some h6
  cases h8
  have h0 : At w timed s2 [] := by
    simp only [step] at h3
    split at h3
    · split at h3 <;> cases h3
      · exact .done s1.slot (by simp [setPhase]) (by simp)
      · exact .parked (by simp [setPhase]) (by simp) rfl
    · split at h3 <;> cases h3
      · exact .done s1.slot (by simp [setPhase]) (by simp)
      · exact .parked (by simp [setPhase]) (by simp) rfl
    · cases h3
  have key : ∀ (m2 m1 : List Label) (s2 : St), At w timed s2 m1 → (∀ t, .begin w t ∉ m2) → .resume w ∉ m2 → runSteps step s2 m2 = some s3 →
      At w timed s3 (m1 ++ m2) := by
    intro m2
    induction m2 with
    | nil => intro m1 s2 ha _ _ hr; cases hr; simpa using ha
    | cons l m2 ih =>
      intro m1 s2 ha hb hr hrun
      obtain ⟨s', e1, e2⟩ := Shpool.run_cons_some hrun
      have := ih (m1 ++ [l]) s' (at_step ha (fun t e => hb t (by simp [e])) (fun e => hr (by simp [e])) e1)
        (fun t ht => hb t (List.mem_cons_of_mem _ ht)) (fun ht => hr (List.mem_cons_of_mem _ ht)) e2
      simpa using this
  have hat : At w timed s3 mid := by simpa using key mid [] s2 h0 hb hr h5
  have hrun3 : Run (ls ++ .begin w timed :: mid) s3 := by
    show runSteps _ _ _ = _
    rw [Shpool.run_append, show runSteps step init ls = some s1 from h1]
    simp only [Option.bind_some, runSteps, h3]
    exact h5
  have hslot := (inv_run hrun3).slot
  rw [announced_append] at hslot
  simp only [announced] at hslot
  cases hat with
  | parked h => simp only [step, h] at h7; cases h7
  | woken h a b =>
    left
    simp only [step, h] at h7
    cases h7
    refine ⟨a, b, ?_⟩
    simp only [setPhase, if_pos, hslot]
    obtain ⟨x, hx⟩ : ∃ x, (announced mid).getLast? = some x := ⟨_, List.getLast?_eq_some_getLast b⟩
    rw [List.getLast?_append, hx]
    rfl
  | expired h a b =>
    right
    simp only [step, h] at h7
    cases h7
    exact ⟨a, by simp [setPhase], b⟩
  | done r h => simp only [step, h] at h7; cases h7

example : ∃ s, Run ([.begin 1 false] ++ .begin 0 true :: ([.notify 7, .resume 1, .notify 9] ++ [.resume 0])) s ∧
    s.phase 0 = .returned (some 9) := ⟨_, rfl, rfl⟩
example : ∃ s, Run ([] ++ .begin 0 true :: ([.begin 1 false, .expire 0, .notify 7] ++ [.resume 0])) s ∧ s.phase 0 = .returned none := ⟨_, rfl, rfl⟩

end Shpool.ExitNotify
