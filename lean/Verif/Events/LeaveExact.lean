import Verif.Events.Leave
/-! # Exactly when the daemon notices that a subscriber has left (C128) -/

namespace Shpool.Events

private def Live (s : St) : Prop :=
  match s.phase with
  | .polling | .accepting _ _ | .draining _ => ∀ u ∈ s.subs, u.dropped = false
  | _ => True

private theorem live_step {wakeCap : Nat} {s s' : St} {l : Label} (hI : Live s) (hs : step wakeCap s l = some s') : Live s' := by
  have new : ∀ (subs : List Sub) (ids : List Nat) (n : Nat), (∀ u ∈ subs, u.dropped = false) →
      ∀ u ∈ subs ++ ids.map (fun id => (⟨id, [], [], 0, false, n, []⟩ : Sub)), u.dropped = false := by
    intro subs ids n h u hu
    rcases List.mem_append.mp hu with hu | hu
    · exact h u hu
    · obtain ⟨i, -, rfl⟩ := List.mem_map.mp hu
      rfl
  cases l with
  | send e => simp only [step] at hs; split at hs <;> cases hs <;> exact hI
  | wakeWrite => simp only [step] at hs; split at hs <;> cases hs; exact hI
  | connect j => simp only [step] at hs; split at hs <;> cases hs; exact hI
  | poll =>
    simp only [step] at hs
    split at hs
    · rename_i hp
      cases hs
      simp only [Live, hp] at hI
      exact hI
    · cases hs
  | accept =>
    simp only [step] at hs
    split at hs
    · rename_i w p hp
      cases hs
      simp only [Live, hp] at hI
      cases w
      · trivial
      · exact new _ _ _ hI
    · cases hs
  | acceptFails got =>
    simp only [step] at hs
    split at hs
    · rename_i w p hp
      cases hs
      simp only [Live, hp] at hI
      cases w
      · trivial
      · exact new _ _ _ hI
    · cases hs
  | drain => simp only [step] at hs; split at hs <;> cases hs; trivial
  | recv ws =>
    simp only [step] at hs
    split at hs
    · rename_i p hp
      split at hs <;> cases hs
      · trivial
      · simp [Live, hp]
    · cases hs
  | finish ev =>
    simp only [step] at hs
    split at hs
    · cases hs
      intro u hu
      simpa using (List.mem_filter.mp hu).2
    · cases hs
  | shutdown => simp only [step] at hs; split at hs <;> cases hs; trivial

/-- In the middle of an iteration that began with `d0` events taken and polled `p`. -/
private def Kept (id d0 : Nat) (p : List Nat) (s : St) : Prop :=
  ((∃ w, s.phase = .accepting w p) ∨ s.phase = .draining p ∨ s.phase = .receiving p ∨ s.phase = .finishing p) ∧ d0 ≤ s.done.length ∧
  (s.done.length = d0 → ∃ u ∈ s.subs, u.id = id ∧ u.dropped = false)

private theorem kept_step {wakeCap id d0 : Nat} {p : List Nat} {s s' : St} {l : Label} (hs : step wakeCap s l = some s')
    (hnp : l.isPoll = false) (hid : id ∉ p) (hk : Kept id d0 p s) :
    Kept id d0 p s' ∨ (s'.phase = .polling ∧ d0 ≤ s'.done.length ∧ (s'.done.length = d0 → s'.holds id)) := by
  obtain ⟨hph, hd, hkeep⟩ := hk
  cases l with
  | poll => cases hnp
  | send e => simp only [step] at hs; split at hs <;> cases hs <;> exact .inl ⟨hph, hd, hkeep⟩
  | wakeWrite => simp only [step] at hs; split at hs <;> cases hs; exact .inl ⟨hph, hd, hkeep⟩
  | connect j => simp only [step] at hs; split at hs <;> cases hs; exact .inl ⟨hph, hd, hkeep⟩
  | shutdown =>
    simp only [step] at hs
    split at hs
    · rename_i hp
      rcases hph with ⟨w, h⟩ | h | h | h <;> rw [hp] at h <;> cases h
    · cases hs
  | accept =>
    simp only [step] at hs
    split at hs
    · rename_i w p' hp
      cases hs
      have hpp : p' = p := by
        rcases hph with ⟨w', h⟩ | h | h | h <;> rw [hp] at h <;> cases h; rfl
      subst hpp
      refine .inl ⟨?_, hd, fun e => ?_⟩
      · cases w
        · exact .inr (.inr (.inr rfl))
        · exact .inr (.inl rfl)
      · obtain ⟨u, hu, h⟩ := hkeep e
        exact ⟨u, List.mem_append_left _ hu, h⟩
    · cases hs
  | acceptFails got =>
    simp only [step] at hs
    split at hs
    · rename_i w p' hp
      cases hs
      have hpp : p' = p := by
        rcases hph with ⟨w', h⟩ | h | h | h <;> rw [hp] at h <;> cases h; rfl
      subst hpp
      refine .inl ⟨?_, hd, fun e => ?_⟩
      · cases w
        · exact .inr (.inr (.inr rfl))
        · exact .inr (.inl rfl)
      · obtain ⟨u, hu, h⟩ := hkeep e
        exact ⟨u, List.mem_append_left _ hu, h⟩
    · cases hs
  | drain =>
    simp only [step] at hs
    split at hs
    · rename_i p' hp
      cases hs
      have hpp : p' = p := by
        rcases hph with ⟨w', h⟩ | h | h | h <;> rw [hp] at h <;> cases h; rfl
      subst hpp
      exact .inl ⟨.inr (.inr (.inl rfl)), hd, hkeep⟩
    · cases hs
  | recv ws =>
    simp only [step] at hs
    split at hs
    · rename_i p' hp
      have hpp : p' = p := by
        rcases hph with ⟨w', h⟩ | h | h | h <;> rw [hp] at h <;> cases h; rfl
      subst hpp
      split at hs <;> cases hs
      · exact .inl ⟨.inr (.inr (.inr rfl)), hd, hkeep⟩
      · refine .inl ⟨.inr (.inr (.inl hp)), ?_, fun e => ?_⟩
        · simp only [List.length_append, List.length_cons, List.length_nil]; omega
        · simp only [List.length_append, List.length_cons, List.length_nil] at e; omega
    · cases hs
  | finish ev =>
    simp only [step] at hs
    split at hs
    · rename_i p' hp
      have hpp : p' = p := by
        rcases hph with ⟨w', h⟩ | h | h | h <;> rw [hp] at h <;> cases h; rfl
      subst hpp
      cases hs
      refine .inr ⟨rfl, hd, fun e => ?_⟩
      obtain ⟨u, hu, h1, h2⟩ := hkeep e
      refine List.mem_map.mpr ⟨u, List.mem_filter.mpr ⟨List.mem_map.mpr ⟨u, hu, ?_⟩, by simp [h2]⟩, h1⟩
      rw [if_neg (by rw [h1]; exact hid)]
    · cases hs

private theorem kept_run {wakeCap id d0 : Nat} {p : List Nat} (hid : id ∉ p) : ∀ (ls : List Label) (s s' : St), runSteps (step wakeCap) s ls = some s' →
    (∀ l ∈ ls, l.isPoll = false) → s'.phase = .polling →
    (Kept id d0 p s ∨ (s.phase = .polling ∧ d0 ≤ s.done.length ∧ (s.done.length = d0 → s.holds id))) → s'.done.length = d0 → s'.holds id := by
  intro ls
  induction ls with
  | nil =>
    intro s s' hr _ hp hk he
    cases hr
    rcases hk with ⟨h, -⟩ | h
    · rcases h with ⟨w, h⟩ | h | h | h <;> rw [hp] at h <;> cases h
    · exact h.2.2 he
  | cons l ls ih =>
    intro s s' hr hnp hp hk he
    obtain ⟨s1, h1, h2⟩ := run_cons_some hr
    have hl := hnp l (by simp)
    refine ih s1 s' h2 (fun l hl => hnp l (List.mem_cons_of_mem _ hl)) hp ?_ he
    rcases hk with hk | ⟨hph, hd, hk⟩
    · exact kept_step h1 hl hid hk
    · cases l with
      | poll => cases hl
      | send e => simp only [step] at h1; split at h1 <;> cases h1 <;> exact .inr ⟨hph, hd, hk⟩
      | wakeWrite => simp only [step] at h1; split at h1 <;> cases h1; exact .inr ⟨hph, hd, hk⟩
      | connect j => simp only [step] at h1; split at h1 <;> cases h1; exact .inr ⟨hph, hd, hk⟩
      | shutdown =>
        exfalso
        simp only [step, hph, Option.some.injEq] at h1
        subst h1
        have stays : ∀ (ls : List Label) (a b : St), a.phase = .stopped → runSteps (step wakeCap) a ls = some b → b.phase = .stopped := by
          intro ls
          induction ls with
          | nil => intro a b ha hr; cases hr; exact ha
          | cons l ls ih =>
            intro a b ha hr
            obtain ⟨c, e1, e2⟩ := run_cons_some hr
            refine ih c b ?_ e2
            cases l <;> simp only [step, ha] at e1 <;> (try split at e1) <;> cases e1 <;> first | exact ha | rfl
        have := stays ls _ s' rfl h2
        rw [hp] at this
        cases this
      | accept => simp only [step, hph] at h1; cases h1
      | acceptFails got => simp only [step, hph] at h1; cases h1
      | drain => simp only [step, hph] at h1; cases h1
      | recv ws => simp only [step, hph] at h1; cases h1
      | finish ev => simp only [step, hph] at h1; cases h1

/-- **C128** (exactly when): in an iteration of its loop the daemon forgets a subscriber that has closed its connection exactly if something
was waiting to be written to it at the start, or an event is taken from the channel. -/
theorem C128_exact {wakeCap id : Nat} (hc : 0 < wakeCap) {before ls : List Label} {s s' : St} (h : Run wakeCap before s)
    (hh : s.holds id) (hi : Iteration wakeCap ls s s') (hcl : ∀ l ∈ ls, Closed id l) :
    ¬ s'.holds id ↔ (∃ u ∈ s.subs, u.id = id ∧ u.pending ≠ []) ∨ s.done.length < s'.done.length := by
  refine ⟨fun hn => Classical.byContradiction fun hno => hn ?_, C128_forgotten_partial hc h hh hi hcl⟩
  simp only [not_or, Nat.not_lt] at hno
  obtain ⟨hno, hlen⟩ := hno
  obtain ⟨hp, hp', mid, rfl, hm, hr⟩ := hi
  obtain ⟨s1, hs, hr⟩ := run_cons_some hr
  simp only [step, hp, Option.some.injEq] at hs
  subst hs
  have hlive : Live s := run_inv (I := Live) (fun _ _ _ => live_step) (by intro u hu; cases hu) h
  simp only [Live, hp] at hlive
  have hid : id ∉ (s.subs.filter (!·.pending.isEmpty)).map Sub.id := by
    intro hm
    obtain ⟨u, hu, hi⟩ := List.mem_map.mp hm
    obtain ⟨hu, hpe⟩ := List.mem_filter.mp hu
    refine hno ⟨u, hu, hi, ?_⟩
    intro e
    rw [e] at hpe
    cases hpe
  have hmono : s.done.length ≤ s'.done.length := by
    have := run_inv (I := fun x : St => s.done.length ≤ x.done.length) (fun a l b ha hb => ?_) (by exact Nat.le_refl _) hr
    · exact this
    · cases l <;> simp only [step] at hb
      case recv ws =>
        split at hb
        · split at hb <;> cases hb
          · exact ha
          · simp only [List.length_append, List.length_cons, List.length_nil]; omega
        · cases hb
      case send e => split at hb <;> cases hb <;> exact ha
      all_goals (split at hb <;> cases hb; exact ha)
  refine kept_run (d0 := s.done.length) hid mid _ s' hr hm hp' (.inl ⟨.inl ⟨_, rfl⟩, Nat.le_refl _, fun _ => ?_⟩) (by omega)
  obtain ⟨u, hu, hi⟩ := List.mem_map.mp hh
  exact ⟨u, hu, hi, hlive u hu⟩

end Shpool.Events
