import Verif.Pager.Model
/-!
# The message pager's control slot (C64)
-/

namespace Shpool.Pager

@[simp] private theorem upd_self {α : Type} (f : Nat → α) (i : Nat) (x : α) : upd f i x i = x := by simp [upd]

private theorem upd_ne {α : Type} (f : Nat → α) {i j : Nat} (x : α) (h : j ≠ i) : upd f i x j = f j := by simp [upd, h]

/-- The code paths. -/
private inductive Eff (s : St) : Label → St → Prop where
  | refused (i init k) : s.thr i = .idle → s.slot = some k → Eff s (.register i init) { s with thr := upd s.thr i .refused }
  | registered (i init) : s.thr i = .idle → s.slot = none →
      Eff s (.register i init) { s with thr := upd s.thr i (.registered init), slot := some i }
  | listen (i init) : s.thr i = .registered init → Eff s (.listen i) { s with thr := upd s.thr i (.running init init) }
  | resizeRun (v i init w) : s.slot = some i → s.thr i = .running init w →
      Eff s (.resize v) { s with thr := upd s.thr i (.running init v), acked := upd s.acked i (s.acked i ++ [v]), last := some v }
  | resizeLate (v i r) : s.slot = some i → s.thr i = .leaving r →
      Eff s (.resize v) { s with thr := upd s.thr i (.leaving r), acked := upd s.acked i (s.acked i ++ [v]), last := some v }
  | resizeSession (v) : s.slot = none → Eff s (.resize v) { s with size := v, last := some v }
  | finish (i init v) : s.thr i = .running init v → Eff s (.finish i) { s with thr := upd s.thr i (.leaving (some v)) }
  | failEarly (i init) : s.thr i = .registered init → Eff s (.fail i) { s with thr := upd s.thr i (.leaving none) }
  | fail (i init v) : s.thr i = .running init v → Eff s (.fail i) { s with thr := upd s.thr i (.leaving none) }
  | clear (i r) : s.thr i = .leaving r → Eff s (.clear i) { s with thr := upd s.thr i (.returned r), slot := none }
  | connect (i v) : s.thr i = .returned (some v) →
      Eff s (.connect i) { s with thr := upd s.thr i (.connected v), size := v }

private theorem step_eff {s s' : St} {l : Label} (h : step s l = some s') : Eff s l s' := by
  cases l with
  | register i init =>
    simp only [step] at h
    split at h
    · rename_i hi
      split at h <;> cases h
      · rename_i k hk; exact .refused i init k hi hk
      · rename_i hk; exact .registered i init hi hk
    · cases h
  | listen i =>
    simp only [step] at h
    split at h <;> cases h
    rename_i init hi
    exact .listen i init hi
  | resize v =>
    simp only [step] at h
    split at h
    · rename_i i hi
      split at h <;> cases h
      · rename_i init w hw; exact .resizeRun v i init w hi hw
      · rename_i r hr; exact .resizeLate v i r hi hr
    · rename_i hi; cases h; exact .resizeSession v hi
  | finish i =>
    simp only [step] at h
    split at h <;> cases h
    rename_i init v hv
    exact .finish i init v hv
  | fail i =>
    simp only [step] at h
    split at h <;> cases h
    · rename_i init hi; exact .failEarly i init hi
    · rename_i init v hv; exact .fail i init v hv
  | clear i =>
    simp only [step] at h
    split at h <;> cases h
    rename_i r hr
    exact .clear i r hr
  | connect i =>
    simp only [step] at h
    split at h <;> cases h
    rename_i v hv
    exact .connect i v hv

/-- The slot names the active call. -/
private def Excl (s : St) : Prop := ∀ i, (s.thr i).active = true ↔ s.slot = some i

private theorem excl_keep {s : St} (h : Excl s) (i : Nat) (p : Phase) (hp : p.active = (s.thr i).active) :
    ∀ j, ((upd s.thr i p) j).active = true ↔ s.slot = some j := by
  intro j
  by_cases hj : j = i
  · subst hj; rw [upd_self, hp]; exact h j
  · rw [upd_ne _ _ hj]; exact h j

private theorem excl {ls : List Label} {s : St} (h : Run ls s) : Excl s := by
  refine run_inv (I := Excl) ?_ ?_ h
  · intro s l s' hI hs
    cases step_eff hs with
    | refused i init k hi hk => exact excl_keep hI i _ (by rw [hi]; rfl)
    | registered i init hi hk =>
      intro j
      by_cases hj : j = i
      · subst hj; simp [Phase.active]
      · have := hI j
        rw [hk] at this
        simp only [upd_ne _ _ hj, this]
        simp [Ne.symm hj]
    | listen i init hi => exact excl_keep hI i _ (by rw [hi]; rfl)
    | resizeRun v i init w hs hi => exact excl_keep hI i _ (by rw [hi]; rfl)
    | resizeLate v i r hs hi => exact excl_keep hI i _ (by rw [hi])
    | resizeSession v hs => exact hI
    | finish i init v hi => exact excl_keep hI i _ (by rw [hi]; rfl)
    | failEarly i init hi => exact excl_keep hI i _ (by rw [hi]; rfl)
    | fail i init v hi => exact excl_keep hI i _ (by rw [hi]; rfl)
    | clear i r hi =>
      have ha := (hI i).1 (by rw [hi]; rfl)
      intro j
      by_cases hj : j = i
      · subst hj; simp [Phase.active]
      · have := hI j
        rw [ha] at this
        simp only [upd_ne _ _ hj, this]
        simp [Ne.symm hj]
    | connect i v hi => exact excl_keep hI i _ (by rw [hi]; rfl)
  · intro i; simp [St.init, Phase.active]

/-- **C64**: at most one pager occupies the session at any time. -/
theorem C64_exclusive {ls : List Label} {s : St} (h : Run ls s) (i j : Nat) (hi : (s.thr i).active = true)
    (hj : (s.thr j).active = true) : i = j := by
  have a := (excl h i).1 hi
  have b := (excl h j).1 hj
  rw [a] at b
  exact Option.some.inj b

/-- **C64**: a second call while a pager is displayed is refused, and the displayed pager is not disturbed. -/
theorem C64_second_refused {ls : List Label} {s s' : St} (h : Run ls s) (i j : Nat) (init : Size) (hi : (s.thr i).active = true)
    (hs : step s (.register j init) = some s') : s'.thr j = .refused ∧ s'.slot = some i ∧ s'.thr i = s.thr i := by
  have hsl := (excl h i).1 hi
  cases step_eff hs with
  | refused _ _ k hj hk =>
    refine ⟨upd_self .., hsl, upd_ne _ _ ?_⟩
    rintro rfl
    rw [hj] at hi
    cases hi
  | registered _ _ hj hk => rw [hsl] at hk; cases hk

/-- **C64**: after a pager has ended, for whatever reason, the slot is not its any more; when none is displayed the slot is free
and the next call is accepted. -/
theorem C64_slot_freed {ls : List Label} {s : St} (h : Run ls s) :
    (∀ i r, s.thr i = .returned r → s.slot ≠ some i) ∧
    ((∀ i, (s.thr i).active = false) → s.slot = none ∧ ∀ j init, s.thr j = .idle →
      ∃ s', step s (.register j init) = some s' ∧ s'.thr j = .registered init) := by
  refine ⟨?_, ?_⟩
  · intro i r hi hs
    have := (excl h i).2 hs
    rw [hi] at this
    cases this
  · intro hn
    have hs : s.slot = none := by
      cases hsl : s.slot with
      | none => rfl
      | some k =>
        have := (excl h k).2 hsl
        rw [hn k] at this
        cases this
    refine ⟨hs, fun j init hj => ⟨{ s with thr := upd s.thr j (.registered init), slot := some j }, ?_, upd_self ..⟩⟩
    simp [step, hj, hs]

/-- **C64**: nothing but its own end keeps a pager in the slot: from every state in which it is displayed it can fail or finish,
and then the slot is cleared. -/
theorem C64_can_end {ls : List Label} {s : St} (_ : Run ls s) (i : Nat) (hi : (s.thr i).active = true) :
    ∃ more s', runSteps step s more = some s' ∧ s'.slot = none ∧ ∃ r, s'.thr i = .returned r := by
  cases hp : s.thr i with
  | registered init =>
    refine ⟨[.fail i, .clear i], ⟨_, none, _, _, _⟩, by simp only [runSteps, step, hp, upd_self]; rfl, rfl, none, by simp only [upd_self]⟩
  | running init v =>
    refine ⟨[.finish i, .clear i], ⟨_, none, _, _, _⟩, by simp only [runSteps, step, hp, upd_self]; rfl, rfl, some v, by simp only [upd_self]⟩
  | leaving r => exact ⟨[.clear i], ⟨_, none, _, _, _⟩, by simp only [runSteps, step, hp]; rfl, rfl, r, by simp only [upd_self]⟩
  | idle => rw [hp] at hi; cases hi
  | returned r => rw [hp] at hi; cases hi
  | refused => rw [hp] at hi; cases hi
  | connected v => rw [hp] at hi; cases hi

/-! ## The final size -/

/-- The full property: the session is connected with the last size acknowledged while the pager was displayed, or with the size
at the start if there was none. -/
def C64_statement : Prop :=
  ∀ ls s, Run ls s → ∀ i v, s.thr i = .connected v →
    ∃ init, Label.register i init ∈ ls ∧ v = (s.acked i).getLastD init

/-- The user quits the pager and resizes the window while the pager process is being waited for. -/
def lateResize : List Label :=
  [.register 0 (80, 24), .listen 0, .finish 0, .resize (100, 50), .clear 0, .connect 0]

/-- **C64 (defect)**: a resize acknowledged after the result was fixed and before the slot is cleared is lost. -/
theorem C64_false : ¬ C64_statement := by
  intro h
  have hr : ∃ s, Run lateResize s ∧ s.thr 0 = .connected (80, 24) ∧ s.acked 0 = [(100, 50)] := ⟨_, rfl, rfl, rfl⟩
  obtain ⟨s, hr, ht, ha⟩ := hr
  obtain ⟨init, hm, hv⟩ := h _ s hr 0 (80, 24) ht
  rw [ha] at hv
  cases hv

/-- The user resizes after the slot was cleared and before the session is connected. -/
def gapResize : List Label :=
  [.register 0 (80, 24), .listen 0, .finish 0, .clear 0, .resize (100, 50), .connect 0]

/-- The full property for the session: once connected and until the next request, it has the last size acknowledged. -/
def C64_session_statement : Prop :=
  ∀ ls s i, Run (ls ++ [.connect i]) s → ∀ v, s.last = some v → s.size = v

/-- **C64 (defect)**: so is one acknowledged by the session itself before the connection carries the old size. -/
theorem C64_false_gap : ¬ C64_session_statement := by
  intro h
  have hr : ∃ s, Run gapResize s ∧ s.size = (80, 24) ∧ s.last = some (100, 50) := ⟨_, rfl, rfl, rfl⟩
  obtain ⟨s, hr, hsz, hl⟩ := hr
  have := h [.register 0 (80, 24), .listen 0, .finish 0, .clear 0, .resize (100, 50)] s 0 hr _ hl
  rw [hsz] at this
  cases this

private def Sizes (ls : List Label) (s : St) : Prop :=
  (∀ i, s.thr i = .idle → s.acked i = []) ∧
  (∀ i init, s.thr i = .registered init → s.acked i = [] ∧ Label.register i init ∈ ls) ∧
  (∀ i init v, s.thr i = .running init v → v = (s.acked i).getLastD init ∧ Label.register i init ∈ ls)

private theorem getLastD_snoc {α : Type} (l : List α) (x d : α) : (l ++ [x]).getLastD d = x := by
  rw [List.getLastD_eq_getLast?, List.getLast?_append]
  rfl

private theorem sizes_upd {ls : List Label} {s : St} {l : Label} (h : Sizes ls s) (i : Nat) (p : Phase) (sl sz la)
    (hid : p ≠ .idle) (hreg : ∀ init, p = .registered init → s.acked i = [] ∧ l = .register i init)
    (hrun : ∀ init v, p = .running init v → s.thr i = .registered init ∧ v = init) :
    Sizes (ls ++ [l]) ⟨upd s.thr i p, sl, s.acked, sz, la⟩ := by
  refine ⟨?_, ?_, ?_⟩
  · intro j hj
    by_cases e : j = i
    · subst e; simp only [upd_self] at hj; exact absurd hj hid
    · exact h.1 j (by simpa only [upd_ne _ _ e] using hj)
  · intro j init hj
    by_cases e : j = i
    · subst e
      simp only [upd_self] at hj
      obtain ⟨a, b⟩ := hreg init hj
      exact ⟨a, by simp [b]⟩
    · obtain ⟨a, b⟩ := h.2.1 j init (by simpa only [upd_ne _ _ e] using hj)
      exact ⟨a, by simp [b]⟩
  · intro j init v hj
    by_cases e : j = i
    · subst e
      simp only [upd_self] at hj
      obtain ⟨a, b⟩ := hrun init v hj
      obtain ⟨c, d⟩ := h.2.1 j init a
      exact ⟨by simp [c, b], by simp [d]⟩
    · obtain ⟨a, b⟩ := h.2.2 j init v (by simpa only [upd_ne _ _ e] using hj)
      exact ⟨a, by simp [b]⟩

private theorem sizes {ls : List Label} {s : St} (h : Run ls s) : Sizes ls s := by
  refine run_hist (I := Sizes) ?_ ?_ h
  · intro ls s l s' hI hs
    cases step_eff hs with
    | refused i init k hi hk => exact sizes_upd hI i _ _ _ _ (by simp) (by simp) (by simp)
    | registered i init hi hk =>
      exact sizes_upd hI i _ _ _ _ (by simp) (fun init' e => ⟨hI.1 i hi, by cases e; rfl⟩) (by simp)
    | listen i init hi =>
      refine sizes_upd hI i _ _ _ _ (by simp) (by simp) ?_
      intro init' v e
      cases e
      exact ⟨hi, rfl⟩
    | resizeRun v i init w hsl hi =>
      refine ⟨?_, ?_, ?_⟩
      · intro j hj
        by_cases e : j = i
        · subst e; simp only [upd_self] at hj; cases hj
        · simp only [upd_ne _ _ e] at hj ⊢; exact hI.1 j hj
      · intro j init' hj
        by_cases e : j = i
        · subst e; simp only [upd_self] at hj; cases hj
        · simp only [upd_ne _ _ e] at hj ⊢
          obtain ⟨a, b⟩ := hI.2.1 j init' hj
          exact ⟨a, by simp [b]⟩
      · intro j init' v' hj
        by_cases e : j = i
        · subst e
          simp only [upd_self] at hj ⊢
          cases hj
          obtain ⟨a, b⟩ := hI.2.2 j init w hi
          exact ⟨(getLastD_snoc _ _ _).symm, by simp [b]⟩
        · simp only [upd_ne _ _ e] at hj ⊢
          obtain ⟨a, b⟩ := hI.2.2 j init' v' hj
          exact ⟨a, by simp [b]⟩
    | resizeLate v i r hsl hi =>
      refine ⟨?_, ?_, ?_⟩
      · intro j hj
        by_cases e : j = i
        · subst e; simp only [upd_self] at hj; cases hj
        · simp only [upd_ne _ _ e] at hj ⊢; exact hI.1 j hj
      · intro j init' hj
        by_cases e : j = i
        · subst e; simp only [upd_self] at hj; cases hj
        · simp only [upd_ne _ _ e] at hj ⊢
          obtain ⟨a, b⟩ := hI.2.1 j init' hj
          exact ⟨a, by simp [b]⟩
      · intro j init' v' hj
        by_cases e : j = i
        · subst e; simp only [upd_self] at hj; cases hj
        · simp only [upd_ne _ _ e] at hj ⊢
          obtain ⟨a, b⟩ := hI.2.2 j init' v' hj
          exact ⟨a, by simp [b]⟩
    | resizeSession v hsl =>
      exact ⟨hI.1, fun i init hi => ⟨(hI.2.1 i init hi).1, by simp [(hI.2.1 i init hi).2]⟩,
        fun i init v hi => ⟨(hI.2.2 i init v hi).1, by simp [(hI.2.2 i init v hi).2]⟩⟩
    | finish i init v hi => exact sizes_upd hI i _ _ _ _ (by simp) (by simp) (by simp)
    | failEarly i init hi => exact sizes_upd hI i _ _ _ _ (by simp) (by simp) (by simp)
    | fail i init v hi => exact sizes_upd hI i _ _ _ _ (by simp) (by simp) (by simp)
    | clear i r hi => exact sizes_upd hI i _ _ _ _ (by simp) (by simp) (by simp)
    | connect i v hi => exact sizes_upd hI i _ _ _ _ (by simp) (by simp) (by simp)
  · exact ⟨fun i _ => rfl, fun i init hi => by simp [St.init] at hi, fun i init v hi => by simp [St.init] at hi⟩

/-- The result is fixed. -/
private def Fixed (i : Nat) (v : Size) (s : St) : Prop :=
  s.thr i = .leaving (some v) ∨ s.thr i = .returned (some v) ∨ s.thr i = .connected v

private theorem fixed_step {i : Nat} {v : Size} {s : St} {l : Label} {s' : St} (hF : Fixed i v s) (hs : step s l = some s') :
    Fixed i v s' := by
  have keep : ∀ k p, k ≠ i → (upd s.thr k p) i = s.thr i := fun k p h => upd_ne _ _ (Ne.symm h)
  cases step_eff hs with
  | resizeSession v hsl => exact hF
  | resizeLate w k r hsl hk =>
    by_cases e : k = i
    · subst e
      rcases hF with h | h | h
      · rw [h] at hk; cases hk; exact .inl (upd_self ..)
      · rw [h] at hk; cases hk
      · rw [h] at hk; cases hk
    · simp only [Fixed, keep _ _ e]; exact hF
  | clear k r hk =>
    by_cases e : k = i
    · subst e
      rcases hF with h | h | h
      · rw [h] at hk; cases hk; exact .inr (.inl (upd_self ..))
      · rw [h] at hk; cases hk
      · rw [h] at hk; cases hk
    · simp only [Fixed, keep _ _ e]; exact hF
  | connect k w hk =>
    by_cases e : k = i
    · subst e
      rcases hF with h | h | h
      · rw [h] at hk; cases hk
      · rw [h] at hk; cases hk; exact .inr (.inr (upd_self ..))
      · rw [h] at hk; cases hk
    · simp only [Fixed, keep _ _ e]; exact hF
  | refused k _ _ hk _ | registered k _ hk _ | listen k _ hk | resizeRun _ k _ _ _ hk | finish k _ _ hk | failEarly k _ hk
  | fail k _ _ hk =>
    by_cases e : k = i
    · subst e
      rcases hF with h | h | h <;> (rw [h] at hk; cases hk)
    · simp only [Fixed, keep _ _ e]; exact hF

/-- **C64 (part)**: the size the session is connected with is the last one acknowledged before the pager decided to end, or the
initial one.  Missing: sizes acknowledged between that moment and the connection. -/
theorem C64_final_size_partial {ls1 ls2 : List Label} {s : St} {i : Nat} {v : Size} (h : Run (ls1 ++ .finish i :: ls2) s)
    (hc : s.thr i = .connected v) :
    ∃ s1 init, Run ls1 s1 ∧ Label.register i init ∈ ls1 ∧ v = (s1.acked i).getLastD init := by
  obtain ⟨s1, h1, h2⟩ := run_append_some h
  unfold runSteps at h2
  cases hs : step s1 (.finish i) with
  | none => rw [hs] at h2; cases h2
  | some s2 =>
    rw [hs] at h2
    cases step_eff hs with
    | finish _ init w hw =>
      obtain ⟨a, b⟩ := (sizes h1).2.2 i init w hw
      have hF : Fixed i w s := run_inv (I := Fixed i w) (fun _ _ _ => fixed_step) (.inl (upd_self ..)) h2
      have : v = w := by
        rcases hF with h | h | h <;> rw [h] at hc <;> cases hc
        rfl
      exact ⟨s1, init, h1, b, this.trans a⟩

/-- **C64 (part)**: if no resize falls between the end of the pager and the connection, the session has the last size
acknowledged. -/
theorem C64_session_size_partial {ls1 : List Label} {s : St} {i : Nat} {v : Size}
    (h : Run (ls1 ++ [.resize v, .finish i, .clear i, .connect i]) s) : s.size = v ∧ s.last = some v := by
  obtain ⟨s1, h1, h2⟩ := run_append_some h
  simp only [runSteps] at h2
  cases hs : step s1 (.resize v) with
  | none => rw [hs] at h2; cases h2
  | some s2 =>
    rw [hs] at h2
    simp only at h2
    have hfin : ∀ w, s2.thr i = .running w v → s2.last = some v → s.size = v ∧ s.last = some v := by
      intro w hw hl
      simp only [step, hw, upd_self] at h2
      cases h2
      exact ⟨rfl, hl⟩
    cases step_eff hs with
    | resizeRun _ k init w hsl hk =>
      by_cases e : k = i
      · subst e; exact hfin init (upd_self ..) rfl
      · exfalso
        have ha := fun ha => C64_exclusive h1 k i (by rw [hk]; rfl) ha
        have hn : upd s1.thr k (.running init v) i = s1.thr i := upd_ne _ _ (Ne.symm e)
        simp only [step, hn] at h2
        cases hp : s1.thr i with
        | running a b => exact e (ha (by rw [hp]; rfl))
        | _ => rw [hp] at h2; cases h2
    | resizeLate _ k r hsl hk =>
      exfalso
      have ha := fun ha => C64_exclusive h1 k i (by rw [hk]; rfl) ha
      by_cases e : k = i
      · subst e
        simp only [step, upd_self] at h2
        cases h2
      · have hn : upd s1.thr k (.leaving r) i = s1.thr i := upd_ne _ _ (Ne.symm e)
        simp only [step, hn] at h2
        cases hp : s1.thr i with
        | running a b => exact e (ha (by rw [hp]; rfl))
        | _ => rw [hp] at h2; cases h2
    | resizeSession _ hsl =>
      exfalso
      simp only [step] at h2
      cases hp : s1.thr i with
      | running a b =>
        have := (excl h1 i).1 (by rw [hp]; rfl)
        rw [hsl] at this
        cases this
      | _ => rw [hp] at h2; cases h2

example : ∃ s, Run [.register 0 (80, 24), .listen 0, .resize (90, 30), .register 1 (1, 1), .resize (100, 50), .finish 0, .clear 0,
    .connect 0] s ∧ s.thr 0 = .connected (100, 50) ∧ s.thr 1 = .refused := ⟨_, rfl, rfl, rfl⟩

/-- `C64_exclusive`, `C64_second_refused`, `C64_can_end`: a pager is shown and another is asked for. -/
example : ∃ s s', Run [.register 0 (80, 24), .listen 0] s ∧ (s.thr 0).active = true ∧ step s (.register 1 (1, 1)) = some s' ∧
    s'.thr 1 = .refused := ⟨_, _, rfl, rfl, rfl, rfl⟩

/-- `C64_slot_freed`: a pager has returned and no other is active. -/
example : ∃ s, Run [.register 0 (80, 24), .listen 0, .finish 0, .clear 0] s ∧ (∃ r, s.thr 0 = .returned r) ∧ s.thr 1 = .idle ∧
    (s.thr 0).active = false := ⟨_, rfl, ⟨_, rfl⟩, rfl, rfl⟩

/-- `C64_session_size_partial`: the size changes while the pager is shown. -/
example : ∃ s, Run ([.register 0 (80, 24), .listen 0] ++ [.resize (100, 50), .finish 0, .clear 0, .connect 0]) s ∧
    s.size = (100, 50) := ⟨_, rfl, rfl⟩

/-! ## Exactly which size the session is connected with -/

/-- The sizes told in `ls`, in order. -/
def toldSizes (ls : List Label) : List Size := ls.filterMap fun | .resize v => some v | _ => none

theorem toldSizes_append (a b : List Label) : toldSizes (a ++ b) = toldSizes a ++ toldSizes b := List.filterMap_append ..

/-- What the call `i` stores, `told` having been told since it registered with the size `init`. -/
private def Stores (i : Nat) (init : Size) (told : List Size) : Phase → Prop
  | .idle => False
  | .registered init' => init' = init ∧ told = []
  | .running _ w => w = told.getLastD init
  | _ => True

private theorem stores_step {i : Nat} {init : Size} {told : List Size} {s s' : St} {l : Label} (hE : Excl s)
    (hS : Stores i init told (s.thr i)) (hs : step s l = some s') : Stores i init (told ++ toldSizes [l]) (s'.thr i) := by
  have keep : ∀ k p, k ≠ i → (upd s.thr k p) i = s.thr i := fun k p h => upd_ne _ _ (Ne.symm h)
  have hid : s.thr i ≠ .idle := fun h => by rw [h] at hS; exact hS
  cases step_eff hs with
  | refused k _ _ hk _ | registered k _ hk _ =>
    have e : k ≠ i := fun e => hid (e ▸ hk)
    simp only [keep _ _ e, toldSizes, List.filterMap_cons, List.filterMap_nil, List.append_nil]; exact hS
  | listen k init' hk =>
    simp only [toldSizes, List.filterMap_cons, List.filterMap_nil, List.append_nil]
    by_cases e : k = i
    · subst e
      rw [hk] at hS
      obtain ⟨rfl, rfl⟩ := hS
      rw [upd_self]; rfl
    · simp only [keep _ _ e]; exact hS
  | resizeRun v k init' w hsl hk =>
    simp only [toldSizes, List.filterMap_cons, List.filterMap_nil]
    by_cases e : k = i
    · subst e
      rw [upd_self]
      exact (getLastD_snoc _ _ _).symm
    · simp only [keep _ _ e]
      cases hp : s.thr i with
      | idle => exact absurd hp hid
      | registered _ => exact absurd (Option.some.inj (hsl.symm.trans ((hE i).mp (by rw [hp]; rfl)))) e
      | running _ _ => exact absurd (Option.some.inj (hsl.symm.trans ((hE i).mp (by rw [hp]; rfl)))) e
      | _ => trivial
  | resizeLate v k r hsl hk =>
    simp only [toldSizes, List.filterMap_cons, List.filterMap_nil]
    by_cases e : k = i
    · subst e; rw [upd_self]; trivial
    · simp only [keep _ _ e]
      cases hp : s.thr i with
      | idle => exact absurd hp hid
      | registered _ => exact absurd (Option.some.inj (hsl.symm.trans ((hE i).mp (by rw [hp]; rfl)))) e
      | running _ _ => exact absurd (Option.some.inj (hsl.symm.trans ((hE i).mp (by rw [hp]; rfl)))) e
      | _ => trivial
  | resizeSession v hsl =>
    simp only [toldSizes, List.filterMap_cons, List.filterMap_nil]
    cases hp : s.thr i with
    | idle => exact absurd hp hid
    | registered _ => have := (hE i).mp (by rw [hp]; rfl); rw [hsl] at this; cases this
    | running _ _ => have := (hE i).mp (by rw [hp]; rfl); rw [hsl] at this; cases this
    | _ => trivial
  | finish k _ _ hk | failEarly k _ hk | fail k _ _ hk | clear k _ hk | connect k _ hk =>
    simp only [toldSizes, List.filterMap_cons, List.filterMap_nil, List.append_nil]
    by_cases e : k = i
    · subst e; rw [upd_self]; trivial
    · simp only [keep _ _ e]; exact hS

private theorem stores_run {i : Nat} {init : Size} {ls0 ls : List Label} {told : List Size} {s s' : St} (h0 : Run ls0 s)
    (hS : Stores i init told (s.thr i)) (h : runSteps step s ls = some s') : Stores i init (told ++ toldSizes ls) (s'.thr i) := by
  induction ls generalizing s ls0 told with
  | nil => cases h; simpa [toldSizes] using hS
  | cons l ls ih =>
    obtain ⟨s1, h1, h2⟩ := run_cons_some h
    have hr : Run (ls0 ++ [l]) s1 := by
      unfold Run; rw [run_append, show runSteps step St.init ls0 = some s from h0]; simp [runSteps, h1]
    have := ih hr (stores_step (excl h0) hS h1) h2
    rw [List.append_assoc, ← toldSizes_append] at this
    exact this

private theorem last_told {ls : List Label} {s : St} (h : Run ls s) : s.last = (toldSizes ls).getLast? := by
  refine run_hist (I := fun ls s => s.last = (toldSizes ls).getLast?) ?_ rfl h
  intro ls s l s' hI hs
  rw [toldSizes_append]
  have h0 : ∀ a : List Size, (a ++ []).getLast? = a.getLast? := fun a => by rw [List.append_nil]
  cases step_eff hs with
  | resizeRun | resizeLate | resizeSession => exact (List.getLast?_concat ..).symm
  | _ => exact hI.trans (h0 _).symm

/-- **C64**, exactly: the session is connected with the last size told between the pager's start and the moment it decided to end, or with the
size at the start if none was; the last size told altogether may be another. -/
theorem C64_connected {ls0 ls1 ls2 : List Label} {s : St} {i : Nat} {init : Size}
    (h : Run (ls0 ++ .register i init :: ls1 ++ .finish i :: ls2 ++ [.connect i]) s) :
    s.size = (toldSizes ls1).getLastD init ∧ s.thr i = .connected s.size ∧ s.last = (toldSizes (ls0 ++ ls1 ++ ls2)).getLast? := by
  have hl : s.last = (toldSizes (ls0 ++ ls1 ++ ls2)).getLast? := by
    rw [last_told h]; simp [toldSizes]
  obtain ⟨t3, h3, h4⟩ := run_append_some h
  obtain ⟨t2, h2, h5⟩ := run_append_some h3
  obtain ⟨t0, h0, h6⟩ := run_append_some h2
  obtain ⟨t1, e1, h7⟩ := run_cons_some h6
  obtain ⟨u, e2, h8⟩ := run_cons_some h5
  obtain ⟨s', e3, e4⟩ := run_cons_some h4
  cases e4
  have hr1 : Run (ls0 ++ [.register i init]) t1 := by
    unfold Run; rw [run_append, h0]; simp [runSteps, e1]
  have hS1 : Stores i init [] (t1.thr i) := by
    cases step_eff e1 with
    | refused => simp only [upd_self]; trivial
    | registered => simp only [upd_self]; exact ⟨rfl, rfl⟩
  have hS2 := stores_run hr1 hS1 h7
  cases step_eff e2 with
  | finish _ init' w hw =>
    rw [hw, List.nil_append] at hS2
    have hS2 : w = (toldSizes ls1).getLastD init := hS2
    have hF : Fixed i w t3 := run_inv (I := Fixed i w) (fun _ _ _ => fixed_step) (.inl (upd_self ..)) h8
    cases step_eff e3 with
    | connect _ v hv =>
      have : v = w := by rcases hF with h | h | h <;> rw [h] at hv <;> cases hv; rfl
      exact ⟨this.trans hS2, upd_self .., hl⟩

/-- **C64**, exactly: the session is connected with the last size told since the pager was started iff nothing was told between the pager's
decision to end and the connection, or what was told last then is the size it has anyway. -/
theorem C64_exact {ls0 ls1 ls2 : List Label} {s : St} {i : Nat} {init : Size}
    (h : Run (ls0 ++ .register i init :: ls1 ++ .finish i :: ls2 ++ [.connect i]) s) :
    s.size = (toldSizes (ls1 ++ ls2)).getLastD init ↔ toldSizes ls2 = [] ∨ (toldSizes ls2).getLast? = some s.size := by
  rw [toldSizes_append]
  rcases List.eq_nil_or_concat (toldSizes ls2) with e | ⟨q, v, e⟩
  · rw [e, List.append_nil]
    exact ⟨fun _ => .inl rfl, fun _ => (C64_connected h).1⟩
  · rw [e, List.concat_eq_append, ← List.append_assoc, getLastD_snoc, List.getLast?_concat]
    constructor
    · intro h; exact .inr (congrArg some h.symm)
    · rintro (h | h)
      · simp at h
      · exact (Option.some.inj h).symm

/-- `lateResize` and `gapResize` from this side. -/
example : ∃ s, Run ([] ++ .register 0 (80, 24) :: [.listen 0, .resize (90, 30)] ++ .finish 0 :: [.resize (100, 50), .clear 0, .resize (7, 7)] ++
    [.connect 0]) s ∧ s.size = (90, 30) ∧ s.last = some (7, 7) := ⟨_, rfl, rfl, rfl⟩

end Shpool.Pager
