import Verif.CfgLock.Props

/-! # C117, exactly: which versions of the configuration a thread has been given -/

namespace Shpool.CfgLock

/-- How often the configuration has been loaded anew. -/
def loads (ls : List Label) : Nat := ls.count (.unlockWrite true)

/-- After `pre`, what thread `i` does next is to take a read guard. -/
def Reads (i : Nat) (pre : List Label) : Prop := ∃ s t r, Run pre s ∧ s.threads[i]? = some t ∧ t.todo = .read :: r

private theorem snoc_split {ls : List Label} {l l' : Label} {pre post : List Label} (h : ls ++ [l] = pre ++ l' :: post) :
    (pre = ls ∧ l' = l ∧ post = []) ∨ ∃ post', post = post' ++ [l] ∧ ls = pre ++ l' :: post' := by
  rcases List.eq_nil_or_concat post with rfl | ⟨post', x, rfl⟩
  · have := List.append_inj' h rfl
    exact .inl ⟨this.1.symm, (by have := this.2; cases this; rfl), rfl⟩
  · have h' : ls ++ [l] = (pre ++ l' :: post') ++ [x] := by rw [h]; simp
    have := List.append_inj' h' rfl
    exact .inr ⟨post', (by have := this.2; cases this; simp), this.1⟩

private theorem run_one {ls : List Label} {s s' : St} (h : Run ls s) (h' : Run ls s') : s = s' := by
  unfold Run at h h'
  rw [h] at h'
  exact Option.some.inj h'

/-- Thread `i` has taken a guard when the version was `v`. -/
private def Took (i v : Nat) (ls : List Label) : Prop := ∃ pre post, ls = pre ++ .go i :: post ∧ Reads i pre ∧ v = loads pre

private theorem took_snoc {i v : Nat} {ls : List Label} {l : Label} :
    Took i v (ls ++ [l]) ↔ Took i v ls ∨ l = .go i ∧ Reads i ls ∧ v = loads ls := by
  constructor
  · rintro ⟨pre, post, e, h1, h2⟩
    rcases snoc_split e with ⟨rfl, rfl, rfl⟩ | ⟨post', rfl, e'⟩
    · exact .inr ⟨rfl, h1, h2⟩
    · exact .inl ⟨pre, post', e', h1, h2⟩
  · rintro (⟨pre, post, e, h1, h2⟩ | ⟨rfl, h1, h2⟩)
    · exact ⟨pre, post ++ [l], by rw [e]; simp, h1, h2⟩
    · exact ⟨ls, [], rfl, h1, h2⟩

private theorem longer {s s' : St} {l : Label} (h : step s l = some s') : s.threads.length ≤ s'.threads.length := by
  cases l with
  | start t => simp only [step] at h; cases h; simp
  | go i =>
    simp only [step] at h
    split at h
    · cases h
    · simp only [Option.map_eq_some_iff] at h; obtain ⟨_, -, rfl⟩ := h; simp
  | fail i =>
    simp only [step] at h
    split at h
    · cases h
    · simp only [Option.map_eq_some_iff] at h; obtain ⟨_, -, rfl⟩ := h; simp
  | edit => simp only [step] at h; split at h <;> cases h; exact Nat.le_refl _
  | lockWrite => simp only [step] at h; split at h <;> cases h; exact Nat.le_refl _
  | unlockWrite b => simp only [step] at h; split at h <;> cases h; exact Nat.le_refl _

/-- Who has taken a guard is there. -/
private theorem took_lt {i v : Nat} {ls : List Label} {s : St} (h : Run ls s) (ht : Took i v ls) : i < s.threads.length := by
  obtain ⟨pre, post, rfl, ⟨s0, t, r, h0, hi, -⟩, -⟩ := ht
  obtain ⟨s1, e1, e2⟩ := run_append_some h
  cases run_one h0 e1
  have := run_inv (step := step) (I := fun s => s0.threads.length ≤ s.threads.length)
    (fun _ _ _ hI hs => Nat.le_trans hI (longer hs)) (Nat.le_refl _) e2
  exact Nat.lt_of_lt_of_le (List.getElem?_eq_some_iff.mp hi).1 this

private def Told (ls : List Label) (s : St) : Prop :=
  Run ls s ∧ s.version = loads ls ∧ ∀ i t, s.threads[i]? = some t → ∀ v, v ∈ t.seen ↔ Took i v ls

private theorem told_other {ls : List Label} {s : St} {l : Label} (hT : Told ls s) (hl : ∀ i, l ≠ .go i) (i : Nat) (t : Thread)
    (hi : s.threads[i]? = some t) (v : Nat) : v ∈ t.seen ↔ Took i v (ls ++ [l]) := by
  rw [hT.2.2 i t hi v, took_snoc]
  exact ⟨.inl, fun h => h.elim id fun h => absurd h.1 (hl i)⟩

private theorem told_step (ls : List Label) (s : St) (l : Label) (s' : St) (hT : Told ls s) (h : step s l = some s') : Told (ls ++ [l]) s' := by
  have hrun : Run (ls ++ [l]) s' := by
    unfold Run; rw [run_append, show runSteps step init ls = some s from hT.1]; simp [runSteps, h]
  refine ⟨hrun, ?_⟩
  clear hrun
  obtain ⟨h1, h2, h3⟩ := hT
  have hT : Told ls s := ⟨h1, h2, h3⟩
  have hload : ∀ l : Label, l ≠ .unlockWrite true → loads (ls ++ [l]) = loads ls := fun l hl => by
    simp [loads, List.count_append, List.count_cons, hl]
  cases l with
  | start t =>
    simp only [step] at h; cases h
    refine ⟨by rw [hload _ (by simp)]; exact h2, fun i t' hi v => ?_⟩
    dsimp only at hi
    by_cases hl : i < s.threads.length
    · rw [List.getElem?_append_left hl] at hi
      exact told_other hT (by simp) i t' hi v
    · rw [List.getElem?_append_right (by omega)] at hi
      have : t'.seen = [] := by
        cases hk : i - s.threads.length with
        | zero => rw [hk] at hi; cases hi; rfl
        | succ k => rw [hk] at hi; cases hi
      rw [this, took_snoc]
      constructor
      · intro h; cases h
      · rintro (h | ⟨h, -⟩)
        · exact absurd (took_lt h1 h) hl
        · cases h
  | go i =>
    simp only [step] at h
    split at h
    · cases h
    next t ht =>
    simp only [Option.map_eq_some_iff] at h
    obtain ⟨t', hgo, rfl⟩ := h
    refine ⟨by rw [hload _ (by simp)]; exact h2, fun j u hj v => ?_⟩
    dsimp only at hj
    by_cases e : j = i
    · subst e
      rw [List.getElem?_set_self (List.getElem?_eq_some_iff.mp ht).1] at hj
      cases hj
      rw [took_snoc, ← h3 j t ht v]
      have hnot : (∀ r, t.todo ≠ .read :: r) → ¬ Reads j ls := by
        rintro hn ⟨s0, t0, r, hs0, ht0, hr0⟩
        cases run_one h1 hs0
        rw [ht] at ht0; cases ht0
        exact hn r hr0
      unfold Thread.go at hgo
      split at hgo
      · cases hgo
      · next r hr =>
        split at hgo
        · cases hgo
          simp only [List.mem_append, List.mem_singleton, h2]
          exact ⟨fun h => h.imp id fun h => ⟨trivial, ⟨s, t, r, h1, ht, hr⟩, h⟩, fun h => h.imp id fun h => h.2.2⟩
        · cases hgo
      · next r hr =>
        cases hgo
        exact ⟨.inl, fun h => h.elim id fun h => absurd h.2.1 (hnot (by rw [hr]; simp))⟩
      · next r hr =>
        cases hgo
        exact ⟨.inl, fun h => h.elim id fun h => absurd h.2.1 (hnot (by rw [hr]; simp))⟩
    · rw [List.getElem?_set_ne (Ne.symm e)] at hj
      rw [took_snoc, ← h3 j u hj v]
      exact ⟨.inl, fun h => h.elim id fun h => absurd (Label.go.inj h.1).symm e⟩
  | fail i =>
    simp only [step] at h
    split at h
    · cases h
    next t ht =>
    simp only [Option.map_eq_some_iff] at h
    obtain ⟨t', hf, rfl⟩ := h
    refine ⟨by rw [hload _ (by simp)]; exact h2, fun j u hj v => ?_⟩
    dsimp only at hj
    by_cases e : j = i
    · subst e
      rw [List.getElem?_set_self (List.getElem?_eq_some_iff.mp ht).1] at hj
      cases hj
      have hs : t'.seen = t.seen := by
        unfold Thread.fail at hf
        split at hf <;> cases hf; rfl
      rw [hs]
      exact told_other hT (by simp) j t ht v
    · rw [List.getElem?_set_ne (Ne.symm e)] at hj
      exact told_other hT (by simp) j u hj v
  | edit =>
    simp only [step] at h; split at h <;> cases h
    exact ⟨by rw [hload _ (by simp)]; exact h2, fun i t hi v => told_other hT (by simp) i t hi v⟩
  | lockWrite =>
    simp only [step] at h; split at h <;> cases h
    exact ⟨by rw [hload _ (by simp)]; exact h2, fun i t hi v => told_other hT (by simp) i t hi v⟩
  | unlockWrite b =>
    simp only [step] at h; split at h <;> cases h
    refine ⟨?_, fun i t hi v => told_other hT (by simp) i t hi v⟩
    cases b with
    | true => simp only [loads, List.count_append, if_true, h2]; rfl
    | false => rw [hload _ (by simp)]; exact h2

private theorem told {ls : List Label} {s : St} (h : Run ls s) : Told ls s :=
  run_hist (I := Told) told_step ⟨rfl, rfl, fun i t hi => by simp [init] at hi⟩ h

/-- C117: the versions of the configuration a thread has been given are those that were loaded when it took its guards: as many as there had been
reloads by then. -/
theorem C117_read {ls : List Label} {s : St} (h : Run ls s) {i : Nat} {t : Thread} (hi : s.threads[i]? = some t) (v : Nat) :
    v ∈ t.seen ↔ ∃ pre post, ls = pre ++ .go i :: post ∧ Reads i pre ∧ v = loads pre := (told h).2.2 i t hi v

/-- C117, exactly: what one thread reads of the configuration is of different versions iff the configuration was loaded anew between two of its
reads. -/
theorem C117_exact {ls : List Label} {s : St} (h : Run ls s) {i : Nat} {t : Thread} (hi : s.threads[i]? = some t) :
    (∃ v ∈ t.seen, ∃ v' ∈ t.seen, v ≠ v') ↔ ∃ pre mid post, ls = pre ++ .go i :: mid ++ .go i :: post ∧ Reads i pre ∧
      Reads i (pre ++ .go i :: mid) ∧ .unlockWrite true ∈ mid := by
  have key : ∀ pre post pre' post', ls = pre ++ .go i :: post → ls = pre' ++ .go i :: post' → loads pre < loads pre' →
      ∃ mid, pre' = pre ++ .go i :: mid ∧ .unlockWrite true ∈ mid := by
    intro pre post pre' post' e1 e2 hl
    rw [e1] at e2
    rcases List.append_eq_append_iff.mp e2 with ⟨a, ha, hb⟩ | ⟨a, ha, hb⟩
    · cases a with
      | nil => rw [List.append_nil] at ha; rw [ha] at hl; exact absurd hl (Nat.lt_irrefl _)
      | cons x a =>
        cases hb
        refine ⟨a, ha, ?_⟩
        rw [ha] at hl
        simp only [loads, List.count_append, List.count_cons] at hl
        simpa using hl
    · exfalso
      rw [ha] at hl
      simp only [loads, List.count_append] at hl
      omega
  constructor
  · rintro ⟨v, hv, v', hv', hne⟩
    obtain ⟨pre, post, e1, r1, rfl⟩ := (C117_read h hi v).mp hv
    obtain ⟨pre', post', e2, r2, rfl⟩ := (C117_read h hi v').mp hv'
    rcases Nat.lt_or_gt_of_ne hne with hl | hl
    · obtain ⟨mid, rfl, hm⟩ := key pre post pre' post' e1 e2 hl
      exact ⟨pre, mid, post', e2, r1, r2, hm⟩
    · obtain ⟨mid, rfl, hm⟩ := key pre' post' pre post e2 e1 hl
      exact ⟨pre', mid, post, e1, r2, r1, hm⟩
  · rintro ⟨pre, mid, post, e, r1, r2, hm⟩
    refine ⟨loads pre, (C117_read h hi _).mpr ⟨pre, mid ++ .go i :: post, by rw [e]; simp, r1, rfl⟩, loads (pre ++ .go i :: mid),
      (C117_read h hi _).mpr ⟨_, post, e, r2, rfl⟩, ?_⟩
    have := List.count_pos_iff.mpr hm
    simp only [loads, List.count_append, List.count_cons]
    simp
    omega

/-- The witness of `C117_false`: the seventh step of the attach is its third read, and a reload comes before it. -/
example : Reads 0 (Label.start (.attach ⟨true, true, true, false, false, false⟩) :: (List.replicate 7 (Label.go 0) ++
    [Label.edit, Label.lockWrite, Label.unlockWrite true])) := ⟨_, _, _, rfl, rfl, rfl⟩

end Shpool.CfgLock
