import Verif.CfgLock.Props
import Verif.Util.Fair

/-! # In every fair execution what was asked for is carried out, unless the watcher and a thread wait for each other -/

namespace Shpool.CfgLock

/-- A step of the thread `j`. -/
def own (j : Nat) : Label → Bool
  | .go i | .fail i => i == j
  | _ => false

def isLock : Label → Bool
  | .lockWrite => true
  | _ => false

def isUnlock : Label → Bool
  | .unlockWrite _ => true
  | _ => false

/-- No thread is put off for ever that can go on again and again; the watcher takes the write guard when it can all the time, and gives it
back. -/
structure Fair (σ : Nat → St) (lab : Nat → Option Label) : Prop where
  threads : ∀ j, StrongFair step σ lab (own j)
  lock : WeakFair step σ lab isLock
  unlock : WeakFair step σ lab isUnlock

/-- What is left to do for the threads that hold guards. -/
def guardsLeft (s : St) : Nat := (s.threads.map fun t => if t.held = 0 then 0 else t.todo.length).sum

theorem sum_set (f : Thread → Nat) {l : List Thread} {i : Nat} {t t' : Thread} (h : l[i]? = some t) :
    ((l.set i t').map f).sum + f t = (l.map f).sum + f t' := by
  induction l generalizing i with
  | nil => simp at h
  | cons a l ih =>
    cases i with
    | zero => simp at h; subst h; simp; omega
    | succ i =>
      have := ih (i := i) (by simpa using h)
      simp only [List.set_cons_succ, List.map_cons, List.sum_cons]
      omega

/-- The steps of one thread leave the others alone; its own shorten what it has to do. -/
theorem thread_step {s s' : St} {l : Label} (h : step s l = some s') {j : Nat} {t : Thread} (ht : s.threads[j]? = some t) :
    ∃ t', s'.threads[j]? = some t' ∧ (own j l = false → t' = t) ∧ (own j l = true → t'.todo.length < t.todo.length) := by
  have hjl : j < s.threads.length := (List.getElem?_eq_some_iff.mp ht).1
  cases l with
  | start x => cases h; exact ⟨t, by rw [List.getElem?_append_left hjl]; exact ht, fun _ => rfl, nofun⟩
  | go i =>
    simp only [step] at h
    split at h
    · cases h
    · rename_i t1 ht1
      rw [Option.map_eq_some_iff] at h
      obtain ⟨t', hg, rfl⟩ := h
      by_cases hij : i = j
      · subst hij
        rw [ht] at ht1; cases ht1
        refine ⟨t', by simp [hjl], by simp [own], fun _ => ?_⟩
        unfold Thread.go at hg
        split at hg
        · cases hg
        · rename_i hr
          split at hg <;> cases hg
          simp [hr]
        · rename_i hr; cases hg; simp [hr]
        · rename_i hr; cases hg; simp [hr]
      · exact ⟨t, by simp [hij, ht], fun _ => rfl, by simp [own, hij]⟩
  | fail i =>
    simp only [step] at h
    split at h
    · cases h
    · rename_i t1 ht1
      rw [Option.map_eq_some_iff] at h
      obtain ⟨t', hg, rfl⟩ := h
      obtain ⟨rfl, r, hr⟩ := fail_eq hg
      by_cases hij : i = j
      · subst hij
        rw [ht] at ht1; cases ht1
        exact ⟨{ t with held := 0, todo := [] }, by simp [hjl], by simp [own], by simp [hr]⟩
      · exact ⟨t, by simp [hij, ht], fun _ => rfl, by simp [own, hij]⟩
  | edit =>
    simp only [step] at h
    split at h <;> cases h
    exact ⟨t, ht, fun _ => rfl, nofun⟩
  | lockWrite =>
    simp only [step] at h
    split at h <;> cases h
    exact ⟨t, ht, fun _ => rfl, nofun⟩
  | unlockWrite b =>
    simp only [step] at h
    split at h <;> cases h
    exact ⟨t, ht, fun _ => rfl, nofun⟩

/-- While the watcher waits nobody takes a guard, and those who hold one come nearer to giving it back. -/
theorem wait_step {s s' : St} {l : Label} (hw : s.writer = .waiting) (h : step s l = some s') :
    (isLock l = true ∧ s'.writer = .writing) ∨ (s'.writer = .waiting ∧ guardsLeft s' ≤ guardsLeft s ∧
      ∀ j t, own j l = true → s.threads[j]? = some t → t.held ≠ 0 → guardsLeft s' < guardsLeft s) := by
  cases l with
  | start x =>
    cases h
    refine .inr ⟨hw, ?_, nofun⟩
    simp [guardsLeft]
  | go i =>
    simp only [step] at h
    split at h
    · cases h
    · rename_i t ht
      rw [Option.map_eq_some_iff] at h
      obtain ⟨t', hg, rfl⟩ := h
      have hsum := sum_set (fun t : Thread => if t.held = 0 then 0 else t.todo.length) (t' := t') ht
      have key : (if t'.held = 0 then 0 else t'.todo.length) ≤ (if t.held = 0 then 0 else t.todo.length) ∧
          (t.held ≠ 0 → (if t'.held = 0 then 0 else t'.todo.length) < (if t.held = 0 then 0 else t.todo.length)) := by
        unfold Thread.go at hg
        split at hg
        · cases hg
        · simp [hw] at hg
        · rename_i r hr
          cases hg
          simp only [hr, List.length_cons]
          constructor
          · split <;> split <;> omega
          · intro h0; split <;> omega
        · rename_i r hr
          cases hg
          simp only [hr, List.length_cons]
          constructor
          · split <;> omega
          · intro h0; rw [if_neg h0, if_neg h0]; omega
      refine .inr ⟨hw, ?_, fun j t1 hj ht1 h0 => ?_⟩
      · simp only [guardsLeft]; omega
      · have : i = j := by simpa [own] using hj
        subst this
        rw [ht] at ht1; cases ht1
        have := key.2 h0
        simp only [guardsLeft]; omega
  | fail i =>
    simp only [step] at h
    split at h
    · cases h
    · rename_i t ht
      rw [Option.map_eq_some_iff] at h
      obtain ⟨t', hg, rfl⟩ := h
      obtain ⟨rfl, r, hr⟩ := fail_eq hg
      have hsum := sum_set (fun t : Thread => if t.held = 0 then 0 else t.todo.length) (t' := { t with held := 0, todo := [] }) ht
      simp only [if_true] at hsum
      refine .inr ⟨hw, ?_, fun j t1 hj ht1 h0 => ?_⟩
      · simp only [guardsLeft]; omega
      · have : i = j := by simpa [own] using hj
        subst this
        rw [ht] at ht1; cases ht1
        rw [if_neg h0, hr] at hsum
        simp only [guardsLeft, List.length_cons] at hsum ⊢; omega
  | edit => simp [step, hw] at h
  | lockWrite =>
    simp only [step] at h
    split at h <;> cases h
    exact .inl ⟨rfl, rfl⟩
  | unlockWrite b => simp [step, hw] at h

/-- While the watcher waits and nobody holds a guard, nobody comes to hold one. -/
theorem none_step {s s' : St} {l : Label} (hw : s.writer = .waiting) (h0 : ∀ t ∈ s.threads, t.held = 0) (h : step s l = some s') :
    ∀ t ∈ s'.threads, t.held = 0 := by
  cases l with
  | start x =>
    cases h
    intro t ht
    rcases List.mem_append.mp ht with ht | ht
    · exact h0 t ht
    · cases List.mem_singleton.mp ht; rfl
  | go i =>
    simp only [step] at h
    split at h
    · cases h
    · rename_i t1 ht1
      rw [Option.map_eq_some_iff] at h
      obtain ⟨t', hg, rfl⟩ := h
      intro t ht
      rcases List.mem_or_eq_of_mem_set ht with ht | rfl
      · exact h0 t ht
      · have hz := h0 t1 (List.mem_of_getElem? ht1)
        unfold Thread.go at hg
        split at hg
        · cases hg
        · simp [hw] at hg
        · cases hg; simp [hz]
        · cases hg; exact hz
  | fail i =>
    simp only [step] at h
    split at h
    · cases h
    · rename_i t1 ht1
      rw [Option.map_eq_some_iff] at h
      obtain ⟨t', hg, rfl⟩ := h
      obtain ⟨rfl, _⟩ := fail_eq hg
      intro t ht
      rcases List.mem_or_eq_of_mem_set ht with ht | rfl
      · exact h0 t ht
      · rfl
  | edit => simp [step, hw] at h
  | lockWrite =>
    simp only [step] at h
    split at h <;> cases h
    exact h0
  | unlockWrite b => simp [step, hw] at h

/-- A thread that holds guards and is not going to take another one can go on. -/
theorem holder_can {s : St} {j : Nat} {t : Thread} (ht : s.threads[j]? = some t) (hb : Balanced t.held t.todo) (h0 : t.held ≠ 0)
    (hn : ¬ Nests t.held t.todo) : Can step (own j) s := by
  refine ⟨.go j, by simp [own], ?_⟩
  simp only [step, ht, Option.isSome_map]
  unfold Thread.go
  cases hr : t.todo with
  | nil => rw [hr] at hb; exact absurd hb h0
  | cons o r =>
    cases o with
    | read =>
      rw [hr] at hn
      cases hh : t.held with
      | zero => exact absurd hh h0
      | succ n => rw [hh] at hn; exact absurd trivial hn
    | release => rfl
    | work => rfl

/-- The watcher does not hold up anybody for ever. -/
theorem writer_idle {σ : Nat → St} {lab : Nat → Option Label} (hx : Exec step σ lab) (h0 : σ 0 = init) (hf : Fair σ lab)
    (hL : ∀ i, ¬ Lost (σ i)) (m : Nat) : ∃ i, m ≤ i ∧ (σ i).writer = .idle := by
  have hB : ∀ i, Bal (σ i) := fun i => by
    have h := exec_run hx i
    rw [h0] at h
    exact bal_run h
  -- from the moment it writes
  have hwriting : ∀ n, (σ n).writer = .writing → ∃ i, n ≤ i ∧ (σ i).writer = .idle := fun n hn => by
    refine fair_reaches hx hf.unlock (B := fun s => s.writer = .writing) (G := fun s => s.writer = .idle) (fun _ => 0) hn
      (fun i _ hb => ⟨.unlockWrite false, rfl, by simp [step, hb]⟩) (fun i l _ hl hb h => ?_)
    cases l with
    | unlockWrite b =>
      refine .inl ?_
      simp only [step, hb, if_true] at h
      generalize σ (i + 1) = s' at h ⊢
      cases h; rfl
    | start x =>
      refine .inr ⟨?_, Nat.le_refl _, nofun⟩
      generalize σ (i + 1) = s' at h ⊢
      cases h; exact hb
    | go k =>
      refine .inr ⟨?_, Nat.le_refl _, nofun⟩
      simp only [step] at h
      split at h
      · cases h
      · rw [Option.map_eq_some_iff] at h
        obtain ⟨t', _, h⟩ := h
        rw [← h]; exact hb
    | fail k =>
      refine .inr ⟨?_, Nat.le_refl _, nofun⟩
      simp only [step] at h
      split at h
      · cases h
      · rw [Option.map_eq_some_iff] at h
        obtain ⟨t', _, h⟩ := h
        rw [← h]; exact hb
    | edit => simp [step, hb] at h
    | lockWrite => simp [step, hb] at h
  cases hw : (σ m).writer with
  | idle => exact ⟨m, Nat.le_refl _, hw⟩
  | writing => exact hwriting m hw
  | waiting =>
    suffices h : ∃ i, m ≤ i ∧ (σ i).writer = .writing by
      obtain ⟨i, hi, h⟩ := h
      obtain ⟨k, hk, h⟩ := hwriting i h
      exact ⟨k, by omega, h⟩
    refine Classical.byContradiction fun hno => ?_
    have hwait : ∀ i, m ≤ i → (σ i).writer = .waiting := exec_stays hx (p := fun s => s.writer = .waiting) (fun i l hi hl hw h => by
      rcases wait_step hw h with ⟨_, h⟩ | h
      · exact absurd ⟨i + 1, by omega, h⟩ hno
      · exact h.1) hw
    have hstep : ∀ i l, m ≤ i → lab i = some l → isLock l = false ∧ guardsLeft (σ (i + 1)) ≤ guardsLeft (σ i) ∧
        ∀ j t, own j l = true → (σ i).threads[j]? = some t → t.held ≠ 0 → guardsLeft (σ (i + 1)) < guardsLeft (σ i) := fun i l hi hl => by
      rcases wait_step (hwait i hi) (exec_at hx hl) with ⟨_, h⟩ | h
      · rw [hwait (i + 1) (by omega)] at h; cases h
      · refine ⟨?_, h.2⟩
        cases hil : isLock l with
        | false => rfl
        | true =>
          cases l <;> simp [isLock] at hil
          have hs := exec_at hx hl
          simp only [step] at hs
          split at hs
          · have hw' := hwait (i + 1) (by omega)
            generalize σ (i + 1) = s' at hs hw'
            cases hs; cases hw'
          · cases hs
    obtain ⟨_, _, h⟩ := reaches (σ := σ) (Goal := fun _ => False) guardsLeft (m := m) (fun i hi _ => by
      rcases hx i with ⟨_, h3⟩ | ⟨l, hli, h3⟩
      · rw [h3]; exact Nat.le_refl _
      · exact (hstep i l hi hli).2.1) (fun k hk hrest => by
      by_cases hh : ∃ t ∈ (σ k).threads, t.held ≠ 0
      · -- a holder would go on
        obtain ⟨t, ht, h0⟩ := hh
        obtain ⟨j, hj⟩ := List.getElem?_of_mem ht
        have hsame : ∀ i, k ≤ i → (σ i).threads[j]? = some t := exec_stays hx (p := fun s => s.threads[j]? = some t) (fun i l hi hl hp h => by
          obtain ⟨t', h1, h2, _⟩ := thread_step h hp
          cases ho : own j l with
          | false => rw [h1, h2 ho]
          | true =>
            have h4 := (hstep i l (by omega) hl).2.2 j t ho hp h0
            have h5 := (hrest i hi).2
            have h6 := (hrest (i + 1) (by omega)).2
            omega) hj
        obtain ⟨i, l, hi, hl, ho⟩ := hf.threads j (fun n => ⟨max n k, by omega, holder_can (hsame _ (by omega))
          ((hB _).1 t (List.mem_of_getElem? (hsame (max n k) (by omega)))) h0
          (fun hn => hL (max n k) ⟨hwait _ (by omega), t, List.mem_of_getElem? (hsame (max n k) (by omega)), hn⟩)⟩) k
        have h4 := (hstep i l (by omega) hl).2.2 j t ho (hsame i hi) h0
        have h5 := (hrest i hi).2
        have h6 := (hrest (i + 1) (by omega)).2
        omega
      · -- nobody holds a guard: the watcher gets its own
        have hnone : ∀ i, k ≤ i → ∀ t ∈ (σ i).threads, t.held = 0 := exec_stays hx (p := fun s => ∀ t ∈ s.threads, t.held = 0)
          (fun i l hi hl hp h => none_step (hwait i (by omega)) hp h)
          (fun t ht => Classical.byContradiction fun h => hh ⟨t, ht, h⟩)
        obtain ⟨i, l, hi, hl, ho⟩ := hf.lock ⟨k, fun i hi => ⟨.lockWrite, rfl, by
          simp only [step]; rw [if_pos ⟨hwait i (by omega), hnone i hi⟩]; rfl⟩⟩ k
        rw [(hstep i l (by omega) hl).1] at ho; cases ho)
    exact h

/-- C116, over time: in every fair execution in which the watcher never waits for a thread that is going to wait for it, whatever the daemon was
asked to do is done, however often the configuration is edited.  Missing: the executions in which that happens (see `C116_forever`). -/
theorem C116_fair_partial {σ : Nat → St} {lab : Nat → Option Label} (hx : Exec step σ lab) (h0 : σ 0 = init) (hf : Fair σ lab)
    (hL : ∀ i, ¬ Lost (σ i)) {m j : Nat} (hj : j < (σ m).threads.length) : ∃ i, m ≤ i ∧ Finished (σ i) j := by
  refine Classical.byContradiction fun hno => ?_
  have hthr : ∀ i, m ≤ i → ∃ t, (σ i).threads[j]? = some t := exec_stays hx (p := fun s => ∃ t, s.threads[j]? = some t)
    (fun i l _ _ ⟨t, ht⟩ h => by obtain ⟨t', h1, _⟩ := thread_step h ht; exact ⟨t', h1⟩) ⟨_, List.getElem?_eq_getElem hj⟩
  let M : St → Nat := fun s => ((s.threads[j]?).map fun t => t.todo.length).getD 0
  have hM : ∀ i l, m ≤ i → lab i = some l → M (σ (i + 1)) ≤ M (σ i) ∧ (own j l = true → M (σ (i + 1)) < M (σ i)) := fun i l hi hl => by
    obtain ⟨t, ht⟩ := hthr i hi
    obtain ⟨t', h1, h2, h3⟩ := thread_step (exec_at hx hl) ht
    simp only [M, ht, h1, Option.map_some, Option.getD_some]
    cases ho : own j l with
    | false => rw [h2 ho]; exact ⟨Nat.le_refl _, nofun⟩
    | true => exact ⟨Nat.le_of_lt (h3 ho), fun _ => h3 ho⟩
  obtain ⟨_, _, h⟩ := reaches (σ := σ) (Goal := fun _ => False) M (m := m) (fun i hi _ => by
    rcases hx i with ⟨_, h3⟩ | ⟨l, hli, h3⟩
    · rw [h3]; exact Nat.le_refl _
    · exact (hM i l hi hli).1) (fun k hk hrest => by
    obtain ⟨i, l, hi, hl, ho⟩ := hf.threads j (fun n => by
      obtain ⟨i, hi, hid⟩ := writer_idle hx h0 hf hL (max n k)
      obtain ⟨t, ht⟩ := hthr i (by omega)
      refine ⟨i, by omega, .go j, by simp [own], ?_⟩
      simp only [step, ht, Option.isSome_map]
      unfold Thread.go
      cases hr : t.todo with
      | nil => exact absurd ⟨i, by omega, t, ht, hr⟩ hno
      | cons o r => cases o <;> simp [hid]) k
    have h1 := (hM i l (by omega) hl).2 ho
    have h2 := (hrest i hi).2
    have h3 := (hrest (i + 1) (by omega)).2
    omega)
  exact h

/-- C116, over time, for the watcher: under the same conditions every change of the configuration files is dealt with. -/
theorem C116_fair_reload_partial {σ : Nat → St} {lab : Nat → Option Label} (hx : Exec step σ lab) (h0 : σ 0 = init) (hf : Fair σ lab)
    (hL : ∀ i, ¬ Lost (σ i)) {m : Nat} (hm : lab m = some .edit) : ∃ i b, m < i ∧ lab i = some (.unlockWrite b) := by
  obtain ⟨k, hk, hid⟩ := writer_idle hx h0 hf hL (m + 1)
  have hs := exec_at hx hm
  have hw : (σ (m + 1)).writer ≠ .idle := by
    simp only [step] at hs
    split at hs
    · generalize σ (m + 1) = s' at hs ⊢
      cases hs; simp
    · cases hs
  refine Classical.byContradiction fun hno => ?_
  have := exec_stays hx (p := fun s => s.writer ≠ .idle) (m := m + 1) (fun i l hi hl hp h => by
    cases l with
    | unlockWrite b => exact absurd ⟨i, b, by omega, hl⟩ hno
    | start x => generalize σ (i + 1) = s' at h ⊢; cases h; exact hp
    | go k | fail k =>
      simp only [step] at h
      split at h
      · cases h
      · rw [Option.map_eq_some_iff] at h
        obtain ⟨t', _, h⟩ := h
        rw [← h]; exact hp
    | edit | lockWrite =>
      simp only [step] at h
      split at h
      · generalize σ (i + 1) = s' at h ⊢
        cases h; simp
      · cases h) hw k hk
  exact this hid

/-- The configuration is edited while the message of the day is put together. -/
def editDuringDump : List Label :=
  [.start .dump, .go 0, .go 0, .go 0, .edit, .start (.attach reattach), .go 0, .go 0, .lockWrite, .unlockWrite true, .fail 0] ++
    List.replicate 16 (.go 1)

set_option maxRecDepth 4000 in
example : Exec step (thenRests step init editDuringDump) (fun i => editDuringDump[i]?) ∧
    Fair (thenRests step init editDuringDump) (fun i => editDuringDump[i]?) ∧ (∀ i, ¬ Lost (thenRests step init editDuringDump i)) ∧
    1 < (thenRests step init editDuringDump 6).threads.length ∧ editDuringDump[4]? = some .edit ∧
    ¬ Finished (thenRests step init editDuringDump 10) 1 ∧ Finished (thenRests step init editDuringDump 27) 1 := by
  obtain ⟨s', hr, hd, hw⟩ : ∃ s', runSteps step init editDuringDump = some s' ∧ (∀ t ∈ s'.threads, t.todo = []) ∧ s'.writer = .idle :=
    ⟨_, rfl, by decide, rfl⟩
  obtain ⟨h1, h2⟩ := thenRests_exec hr
  refine ⟨h1, ⟨fun j => (fair_at_rest h2 fun l hl => ?_).2, (fair_at_rest h2 fun l hl => ?_).1, (fair_at_rest h2 fun l hl => ?_).1⟩,
    fun i => ?_, by decide, rfl, ?_, ?_⟩
  · cases l <;> simp [own] at hl
    · simp only [step]
      split
      · rfl
      · rename_i t ht; simp [Thread.go, hd t (List.mem_of_getElem? ht)]
    · simp only [step]
      split
      · rfl
      · rename_i t ht; simp [Thread.fail, hd t (List.mem_of_getElem? ht)]
  · cases l <;> simp [isLock] at hl
    simp [step, hw]
  · cases l <;> simp [isUnlock] at hl
    simp [step, hw]
  · by_cases hi : i < 27
    · have : ∀ i, i < 27 → ¬ Lost (thenRests step init editDuringDump i) := by unfold Lost; decide
      exact this i hi
    · rw [h2 i (by simp [editDuringDump]; omega)]
      exact fun h => by rw [h.1] at hw; cases hw
  · exact fun ⟨t, ht, h⟩ => by revert h; cases ht; decide
  · exact ⟨_, rfl, rfl⟩

end Shpool.CfgLock
