import Verif.Vars.Props
/-! # Exactly what an attached client knows of the variables (C43) -/

namespace Shpool.Vars

/-- What has happened at session `x` since a client that knew `m0` attached to it in `s0`. -/
private def Since (x : Nat) (s0 : St) (m0 : Map) (s : St) : Prop :=
  ∃ new seen, s.pushed x = s0.pushed x ++ new ∧ s0.queue x ++ new = seen ++ s.queue x ∧ s.view x = some (seen.getLastD m0)

private theorem since_step {x : Nat} {s0 s s' : St} {m0 : Map} {l : Label} (hI : Since x s0 m0 s) (h1 : l ≠ .detach x) (h2 : l ≠ .remove x)
    (hs : step s l = some s') : Since x s0 m0 s' := by
  have same : s'.pushed x = s.pushed x → s'.queue x = s.queue x → s'.view x = s.view x → Since x s0 m0 s' := by
    intro a b c
    obtain ⟨new, seen, e1, e2, e3⟩ := hI
    exact ⟨new, seen, by rw [a, e1], by rw [b, e2], by rw [c, e3]⟩
  cases l with
  | change i k v => simp only [step] at hs; split at hs <;> cases hs; exact same rfl rfl rfl
  | gather i => simp only [step] at hs; split at hs <;> cases hs; exact same rfl rfl rfl
  | push i =>
    simp only [step] at hs
    split at hs
    · rename_i m y todo hp
      split at hs <;> cases hs
      by_cases hy : x = y
      · subst hy
        obtain ⟨new, seen, e1, e2, e3⟩ := hI
        refine ⟨new ++ [m], seen, by simp [upd, e1], ?_, e3⟩
        simp only [upd, if_true]
        rw [← List.append_assoc, e2, List.append_assoc]
      · exact same (by simp [upd, hy]) (by simp [upd, hy]) rfl
    · cases hs
  | deliver y =>
    simp only [step] at hs
    split at hs
    · rename_i m q hq
      cases hs
      by_cases hy : x = y
      · subst hy
        obtain ⟨new, seen, e1, e2, e3⟩ := hI
        refine ⟨new, seen ++ [m], e1, ?_, ?_⟩
        · simp only [upd, if_true]
          rw [e2, hq]
          simp
        · simp [e3, upd]
      · refine same rfl (by simp [upd, hy]) ?_
        dsimp only
        split
        · simp [upd, hy]
        · rfl
    · cases hs
  | pushFails i => simp only [step] at hs; split at hs <;> cases hs; exact same rfl rfl rfl
  | answer i => simp only [step] at hs; split at hs <;> cases hs; exact same rfl rfl rfl
  | fetch c => cases hs; exact same rfl rfl rfl
  | create y => simp only [step] at hs; split at hs <;> cases hs; exact same rfl rfl rfl
  | attach c y =>
    simp only [step] at hs
    split at hs
    · split at hs
      · rename_i hc
        cases hs
        have hy : x ≠ y := by
          rintro rfl
          obtain ⟨_, _, _, _, e3⟩ := hI
          rw [hc.2.2] at e3
          cases e3
        exact same rfl rfl (by simp [upd, hy])
      · cases hs
    · cases hs
  | detach y =>
    cases hs
    have hy : x ≠ y := fun e => h1 (by rw [e])
    exact same rfl rfl (by simp [upd, hy])
  | exit y =>
    simp only [step] at hs
    split at hs
    · rename_i hv
      cases hs
      have hy : x ≠ y := by
        rintro rfl
        obtain ⟨_, _, _, _, e3⟩ := hI
        rw [hv] at e3
        cases e3
      exact same rfl (by simp [upd, hy]) rfl
    · cases hs
  | remove y =>
    cases hs
    have hy : x ≠ y := fun e => h2 (by rw [e])
    exact same rfl (by simp [upd, hy]) (by simp [upd, hy])

/-- **C43** (exactly what a client knows): from its attach on, however changes, pushes, other clients and its own session's thread are
interleaved, a client knows the state its session's thread took last — of those still waiting there at the attach and of those pushed since,
in that order and without gaps — and, before any, what it had read. -/
theorem C43_view_exact (d : List (Str × Str)) (ls mid : List Label) (c x : Nat) (s0 s : St) (h0 : Run d ls s0)
    (h : Run d (ls ++ .attach c x :: mid) s) (h1 : .detach x ∉ mid) (h2 : .remove x ∉ mid) :
    ∃ m0 new taken, s0.known c = some m0 ∧ s.pushed x = s0.pushed x ++ new ∧ s0.queue x ++ new = taken ++ s.queue x ∧
      s.view x = some (taken.getLastD m0) := by
  obtain ⟨s1, e1, e2⟩ := Shpool.run_append_some h
  rw [show runSteps step (init d) ls = some s0 from h0] at e1
  cases e1
  obtain ⟨s2, e3, e4⟩ := Shpool.run_cons_some e2
  obtain ⟨m0, hm0, hs2⟩ : ∃ m0, s0.known c = some m0 ∧ Since x s0 m0 s2 := by
    simp only [step] at e3
    split at e3
    · rename_i m hm
      split at e3 <;> cases e3
      exact ⟨m, hm, [], [], by simp, by simp, by simp [upd]⟩
    · cases e3
  have key : ∀ (mid : List Label) (s2 : St), Since x s0 m0 s2 → .detach x ∉ mid → .remove x ∉ mid → runSteps step s2 mid = some s → Since x s0 m0 s := by
    intro mid
    induction mid with
    | nil => intro s2 hI _ _ hr; cases hr; exact hI
    | cons l mid ih =>
      intro s2 hI h1 h2 hr
      obtain ⟨s3, f1, f2⟩ := Shpool.run_cons_some hr
      exact ih s3 (since_step hI (fun e => h1 (by simp [e])) (fun e => h2 (by simp [e])) f1) (fun hm => h1 (List.mem_cons_of_mem _ hm))
        (fun hm => h2 (List.mem_cons_of_mem _ hm)) f2
  obtain ⟨new, taken, a, b, c'⟩ := key mid s2 hs2 h1 h2 e4
  exact ⟨m0, new, taken, hm0, a, b, c'⟩

/-- **C43** (what it had read): the variables as they were at the client's last reading. -/
theorem C43_known_exact (d : List (Str × Str)) (ls : List Label) (s : St) (h : Run d ls s) (c : Nat) (m : Map) (hm : s.known c = some m) :
    ∃ a b s1, ls = a ++ .fetch c :: b ∧ Run d a s1 ∧ s1.vars = m ∧ .fetch c ∉ b := by
  have main : Run d ls s ∧ ∀ m, s.known c = some m → ∃ a b s1, ls = a ++ .fetch c :: b ∧ Run d a s1 ∧ s1.vars = m ∧ .fetch c ∉ b := by
    refine run_hist (I := fun ls s => Run d ls s ∧ ∀ m, s.known c = some m → ∃ a b s1, ls = a ++ .fetch c :: b ∧ Run d a s1 ∧ s1.vars = m ∧
      .fetch c ∉ b) (fun ls s l s' hI hs => ?_) ⟨rfl, nofun⟩ h
    obtain ⟨hr, hI⟩ := hI
    have hr' : Run d (ls ++ [l]) s' := by
      show runSteps _ _ _ = _
      rw [Shpool.run_append, show runSteps step (init d) ls = some s from hr]
      simp only [Option.bind_some, runSteps, hs]
    refine ⟨hr', fun m hm => ?_⟩
    have same : l ≠ .fetch c → s.known c = some m → ∃ a b s1, ls ++ [l] = a ++ .fetch c :: b ∧ Run d a s1 ∧ s1.vars = m ∧ .fetch c ∉ b := by
      intro hl hk
      obtain ⟨a, b, s1, e1, e2, e3, e4⟩ := hI m hk
      refine ⟨a, b ++ [l], s1, by rw [e1]; simp, e2, e3, ?_⟩
      simp only [List.mem_append, List.mem_singleton, not_or]
      exact ⟨e4, fun e => hl e.symm⟩
    cases l with
    | fetch c' =>
      cases hs
      by_cases hc : c' = c
      · subst hc
        simp only [upd, if_true, Option.some.injEq] at hm
        exact ⟨ls, [], s, rfl, hr, hm, by simp⟩
      · exact same (fun e => by cases e; exact hc rfl) (by simpa [upd, Ne.symm hc] using hm)
    | attach c' x =>
      refine same nofun ?_
      simp only [step] at hs
      split at hs
      · split at hs <;> cases hs
        by_cases hc : c = c'
        · subst hc; simp [upd] at hm
        · simpa [upd, hc] using hm
      · cases hs
    | detach x => exact same nofun (by cases hs; exact hm)
    | remove x => exact same nofun (by cases hs; exact hm)
    | change i k v => exact same nofun (by simp only [step] at hs; split at hs <;> cases hs; exact hm)
    | gather i => exact same nofun (by simp only [step] at hs; split at hs <;> cases hs; exact hm)
    | push i =>
      refine same nofun ?_
      simp only [step] at hs
      split at hs
      · split at hs <;> cases hs; exact hm
      · cases hs
    | deliver x => exact same nofun (by simp only [step] at hs; split at hs <;> cases hs; exact hm)
    | pushFails i => exact same nofun (by simp only [step] at hs; split at hs <;> cases hs; exact hm)
    | answer i => exact same nofun (by simp only [step] at hs; split at hs <;> cases hs; exact hm)
    | create x => exact same nofun (by simp only [step] at hs; split at hs <;> cases hs; exact hm)
    | exit x => exact same nofun (by simp only [step] at hs; split at hs <;> cases hs; exact hm)
  exact main.2 m hm

/-- A state pushed before the attach and taken after it, and one pushed after it that still waits. -/
example : ∃ s0 s, Run [] [.create 0, .fetch 7, .change 0 ['a'] (some ['1']), .gather 0, .push 0] s0 ∧
    Run [] ([.create 0, .fetch 7, .change 0 ['a'] (some ['1']), .gather 0, .push 0] ++ .attach 7 0 ::
      [.deliver 0, .change 1 ['a'] none, .gather 1, .push 1]) s ∧
    s0.known 7 = some [] ∧ s.view 0 = some [(['a'], ['1'])] ∧ s.queue 0 = [[]] := ⟨_, _, rfl, rfl, rfl, rfl, rfl⟩

end Shpool.Vars
