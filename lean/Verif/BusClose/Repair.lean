import Verif.BusClose.Props

/-!
# A repair of closing the event bus

* C173: the owner is through some time, if the thread looked at the shutdown pipe before it takes an event from the channel.

What it would take is not in /repo; the steps below are those of the code but for this.
-/

namespace Shpool.BusClose
open Events (Event Sub Phase)

/-- The steps of `step`, but for the loop of events.rs 337-359: before it takes the next event the thread looks at the shutdown pipe, and
returns if that is readable. -/
def stepR (wakeCap : Nat) (s : St) : Label → Option St
  | .bus (.recv ws) => if s.nudged = true then none else step wakeCap s (.bus (.recv ws))
  | .shutdown =>
    match s.base.phase with
    | .receiving _ => if s.stage = .running ∧ s.nudged = true then some { s with stage := .returned } else none
    | _ => step wakeCap s .shutdown
  | l => step wakeCap s l

/-- As `Fair`, for other steps. -/
structure FairOf (st : St → Label → Option St) (σ : Nat → St) (lab : Nat → Option Label) : Prop where
  exec : Exec st σ lab
  start : σ 0 = init
  thread : WeakFair st σ lab works
  owner : WeakFair st σ lab joins
  publish : WeakFair st σ lab wakes

/-- The claim of `C173_statement`, for any steps. -/
def C173_statement_of (st : St → Label → Option St) : Prop :=
  ∀ σ lab, FairOf st σ lab → ∀ i, lab i = some (.letGo true) → ∃ j, i ≤ j ∧ (σ j).owner = .through

theorem C173_statement_code (wakeCap : Nat) : C173_statement_of (step wakeCap) ↔ C173_statement wakeCap :=
  ⟨fun h σ lab hF => h σ lab ⟨hF.exec, hF.start, hF.thread, hF.owner, hF.publish⟩,
   fun h σ lab hF => h σ lab ⟨hF.exec, hF.start, hF.thread, hF.owner, hF.publish⟩⟩

/-- A step is one of the code's, or the thread returns while it passes on events. -/
theorem stepR_cases {wakeCap : Nat} {s s' : St} {l : Label} (h : stepR wakeCap s l = some s') :
    (step wakeCap s l = some s' ∧ ∀ ws, l = .bus (.recv ws) → s.nudged = false) ∨
    (l = .shutdown ∧ Passing s ∧ s.nudged = true ∧ s' = { s with stage := .returned }) := by
  unfold stepR at h
  split at h
  · split at h
    · cases h
    · next hn => exact .inl ⟨h, fun _ _ => by simpa using hn⟩
  · split at h
    · next p hp =>
      split at h
      · next hs => simp only [Option.some.injEq] at h; exact .inr ⟨rfl, ⟨hs.1, p, hp⟩, hs.2, h.symm⟩
      · cases h
    · exact .inl ⟨h, nofun⟩
  · next hne _ => exact .inl ⟨h, fun ws e => absurd e (hne ws)⟩

theorem stepR_phase {wakeCap : Nat} {ls : List Label} {s : St} (h : runSteps (stepR wakeCap) init ls = some s) : s.base.phase ≠ .stopped := by
  refine run_inv (I := fun s => s.base.phase ≠ .stopped) (fun s l s' hI h => ?_) (by simp [init, Events.init]) h
  rcases stepR_cases h with ⟨h, _⟩ | ⟨_, _, _, rfl⟩
  · cases l with
    | bus l =>
      rcases bus_step h with ⟨b, h1, h2, rfl⟩ | ⟨_, _, rfl⟩
      · exact base_phase h1 h2 hI
      · exact hI
    | _ =>
      simp only [step] at h
      (repeat' split at h) <;> first | contradiction | (simp only [Option.some.injEq] at h; subst h; exact hI)
  · exact hI

private theorem toldR_step {wakeCap : Nat} {s s' : St} {l : Label} (hT : Told s) (h : stepR wakeCap s l = some s') :
    s'.owner = .through ∨ (Told s' ∧ rank s' ≤ rank s ∧ (works l = true → rank s' < rank s)) := by
  rcases stepR_cases h with ⟨h, hn⟩ | ⟨rfl, hp, _, rfl⟩
  · refine (told_step hT h).imp id fun ⟨h1, h2, h3, _⟩ => ⟨h1, h2, fun hw => (h3 hw).resolve_right ?_⟩
    rintro ⟨⟨ws, e⟩, _⟩
    have := hn ws e
    rw [hT.2.1] at this
    cases this
  · obtain ⟨hr, p, hp⟩ := hp
    exact .inr ⟨hT, by simp [rank, hr, hp], fun _ => by simp [rank, hr, hp]⟩

private theorem toldR_can {wakeCap : Nat} {s : St} (hT : Told s) (hs : s.stage ≠ .finished) : Can (stepR wakeCap) works s := by
  by_cases hp : Passing s
  · obtain ⟨hr, p, hp⟩ := hp
    exact ⟨.shutdown, rfl, by simp [stepR, hr, hp, hT.2.1]⟩
  · obtain ⟨l, hw, hl⟩ := told_can (wakeCap := wakeCap) hT hs
    refine ⟨l, hw, ?_⟩
    obtain ⟨s', hs'⟩ := Option.isSome_iff_exists.mp hl
    have no : ∀ ws, l ≠ .bus (.recv ws) := by
      rintro ws rfl
      refine hp ?_
      simp only [step] at hs'
      split at hs'
      · next hr =>
        simp only [Events.step, Option.map_eq_some_iff] at hs'
        obtain ⟨b, hb, _⟩ := hs'
        split at hb
        · next p hp => exact ⟨hr, p, hp⟩
        · cases hb
      · cases hs'
    unfold stepR
    split
    · next ws => exact absurd rfl (no ws)
    · split
      · next p hp' =>
        simp [step, hp'] at hs'
      · exact hl
    · exact hl

/-- **C173** (repaired).  If the thread looked at the shutdown pipe before it takes an event, who owns the bus could close it, however much others publish. -/
theorem C173_repaired (wakeCap : Nat) : C173_statement_of (stepR wakeCap) := by
  intro σ lab hF i hl
  have hr : runSteps (stepR wakeCap) init (performed lab (i + 1)) = some (σ (i + 1)) := by
    have := exec_run hF.exec (i + 1)
    rwa [hF.start] at this
  have join : ∀ m, (σ m).owner = .joining ∧ (σ m).stage = .finished → ∃ j, m ≤ j ∧ (σ j).owner = .through := fun m hm => by
    refine fair_reaches hF.exec hF.owner (B := fun s => s.owner = .joining ∧ s.stage = .finished) (G := fun s => s.owner = .through) (fun _ => 0) hm
      (fun j _ hB => ⟨.join, rfl, by simp [stepR, step, hB]⟩) (fun j l _ _ hB hs => ?_)
    rcases stepR_cases hs with ⟨hs, _⟩ | ⟨_, hp, _⟩
    · exact (join_step hB hs).imp id fun h => ⟨h.1, Nat.le_refl _, by simp [h.2]⟩
    · rw [hp.1] at hB; cases hB.2
  have told : Told (σ (i + 1)) ∨ ((σ (i + 1)).owner = .joining ∧ (σ (i + 1)).stage = .finished) := by
    have hph := stepR_phase hr
    have h := exec_at hF.exec hl
    generalize σ i = s at h
    generalize σ (i + 1) = s' at h hph ⊢
    simp only [stepR, step] at h
    split at h <;> cases h
    by_cases hs : s.stage = .finished
    · exact .inr ⟨rfl, hs⟩
    · exact .inl ⟨rfl, by simp [hs], hph⟩
  rcases told with h | h
  · by_cases hf : (σ (i + 1)).stage = .finished
    · obtain ⟨j, hj, ho⟩ := join _ ⟨h.1, hf⟩
      exact ⟨j, by omega, ho⟩
    · have := fair_reaches hF.exec hF.thread (B := fun s => Told s ∧ s.stage ≠ .finished)
        (G := fun s => s.owner = .through ∨ (s.owner = .joining ∧ s.stage = .finished)) (m := i + 1) rank ⟨h, hf⟩
        (fun j _ hB => toldR_can hB.1 hB.2) (fun j l _ _ hB hs => by
          rcases toldR_step hB.1 hs with h | ⟨h1, h2, h3⟩
          · exact .inl (.inl h)
          · by_cases hf : (σ (j + 1)).stage = .finished
            · exact .inl (.inr ⟨h1.1, hf⟩)
            · exact .inr ⟨⟨h1, hf⟩, h2, h3⟩)
      obtain ⟨j, hj, ho | ho⟩ := this
      · exact ⟨j, by omega, ho⟩
      · obtain ⟨k, hk, ho⟩ := join j ho
        exact ⟨k, by omega, ho⟩
  · obtain ⟨j, hj, ho⟩ := join _ h
    exact ⟨j, by omega, ho⟩

-- The thread stops in the midst of the events; and in a fair execution somebody does let the bus go.
private def inTheMidst : List Label := [.bus (.send .attached), .bus .wakeWrite, .bus .poll, .bus .accept, .bus .drain, .bus (.send .removed),
  .bus .wakeWrite, .letGo true, .shutdown, .unlink true, .exit, .join]

example : ∃ s, runSteps (stepR 1) init inTheMidst = some s ∧ s.owner = .through ∧ runSteps (step 1) init inTheMidst = none := ⟨_, rfl, rfl, rfl⟩

example : ∃ σ lab, FairOf (stepR 1) σ lab ∧ lab 7 = some (.letGo true) := by
  obtain ⟨s, hs⟩ : ∃ s, runSteps (stepR 1) init inTheMidst = some s := ⟨_, rfl⟩
  obtain ⟨hx, hr⟩ := thenRests_exec hs
  have hrest : ∀ A : Label → Bool, (∀ l, A l = true → stepR 1 s l = none) → WeakFair (stepR 1) _ (fun i => inTheMidst[i]?) A := fun A hA => (fair_at_rest hr hA).1
  refine ⟨_, _, ⟨hx, rfl, hrest _ ?_, hrest _ ?_, hrest _ ?_⟩, rfl⟩ <;>
  · cases hs
    intro l hl
    cases l with
    | bus l => cases l <;> first | rfl | cases hl
    | _ => first | rfl | cases hl

end Shpool.BusClose
