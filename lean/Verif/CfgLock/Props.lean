import Verif.CfgLock.Model
/-!
# C116: editing the configuration never hangs the daemon
-/

namespace Shpool.CfgLock

/-- The thread `i` has finished what it was started for. -/
def Finished (s : St) (i : Nat) : Prop := ∃ t, s.threads[i]? = some t ∧ t.todo = []

/-- Steps in which nothing new is asked of the daemon and nothing fails. -/
def Label.isOwn : Label → Bool
  | .go _ | .lockWrite | .unlockWrite _ => true
  | _ => false

/-- The thread `i` can finish. -/
def CanFinish (s : St) (i : Nat) : Prop := ∃ ls s', runSteps step s ls = some s' ∧ (∀ l ∈ ls, l.isOwn = true) ∧ Finished s' i

/-- C116: whatever has happened, everything that the daemon was asked to do can still be done. -/
def C116_statement : Prop := ∀ ls s, Run ls s → ∀ i, i < s.threads.length → CanFinish s i

/-! ## Guards are given back -/

/-- With `h` guards held, what is done next gives all of them back. -/
def Balanced : Nat → List Op → Prop
  | h, [] => h = 0
  | h, .read :: r => Balanced (h + 1) r
  | 0, .release :: _ => False
  | h + 1, .release :: r => Balanced h r
  | h, .work :: r => Balanced h r

instance decBalanced : ∀ h l, Decidable (Balanced h l)
  | h, [] => inferInstanceAs (Decidable (h = 0))
  | h, .read :: r => decBalanced (h + 1) r
  | 0, .release :: _ => isFalse id
  | h + 1, .release :: r => decBalanced h r
  | h, .work :: r => decBalanced h r

theorem balanced_prog (t : Task) : Balanced 0 t.prog := by
  cases t with
  | attach a =>
    obtain ⟨a, b, c, d, e, f⟩ := a
    revert a b c d e f
    decide
  | _ => decide

def Bal (s : St) : Prop := (∀ t ∈ s.threads, Balanced t.held t.todo) ∧ (s.writer = .writing → ∀ t ∈ s.threads, t.held = 0)

theorem balanced_go {w : Writer} {v : Nat} {t t' : Thread} (h : t.go w v = some t') (hb : Balanced t.held t.todo) :
    Balanced t'.held t'.todo ∧ (w = .writing → t.held = 0 → t'.held = 0) := by
  obtain ⟨n, _ | ⟨o, r⟩, _, _, _⟩ := t
  · cases h
  · cases o with
    | read =>
      simp only [Thread.go] at h
      split at h
      · rename_i hw
        cases h
        exact ⟨hb, by simp [hw]⟩
      · cases h
    | release =>
      cases n with
      | zero => exact hb.elim
      | succ n => cases h; exact ⟨hb, by simp⟩
    | work => cases h; exact ⟨by cases n <;> exact hb, fun _ h => h⟩

theorem fail_eq {t t' : Thread} (h : t.fail = some t') : t' = { t with held := 0, todo := [] } ∧ ∃ r, t.todo = .work :: r := by
  unfold Thread.fail at h
  split at h
  · rename_i r hr; cases h; exact ⟨rfl, r, hr⟩
  · cases h

theorem bal_step (s : St) (l : Label) (s' : St) (hB : Bal s) (h : step s l = some s') : Bal s' := by
  obtain ⟨h1, h2⟩ := hB
  cases l with
  | start t =>
    cases h
    refine ⟨fun x hx => ?_, fun hw x hx => ?_⟩
    · rcases List.mem_append.mp hx with hx | hx
      · exact h1 x hx
      · cases List.mem_singleton.mp hx; exact balanced_prog t
    · rcases List.mem_append.mp hx with hx | hx
      · exact h2 hw x hx
      · cases List.mem_singleton.mp hx; rfl
  | go i =>
    simp only [step] at h
    split at h
    · cases h
    · rename_i t ht
      have hm := List.mem_of_getElem? ht
      rw [Option.map_eq_some_iff] at h
      obtain ⟨t', hg, rfl⟩ := h
      have hb := balanced_go hg (h1 t hm)
      refine ⟨fun x hx => ?_, fun hw x hx => ?_⟩
      · rcases List.mem_or_eq_of_mem_set hx with hx | rfl
        · exact h1 x hx
        · exact hb.1
      · rcases List.mem_or_eq_of_mem_set hx with hx | rfl
        · exact h2 hw x hx
        · exact hb.2 hw (h2 hw t hm)
  | fail i =>
    simp only [step] at h
    split at h
    · cases h
    · rename_i t ht
      rw [Option.map_eq_some_iff] at h
      obtain ⟨t', hg, rfl⟩ := h
      obtain ⟨rfl, _⟩ := fail_eq hg
      refine ⟨fun x hx => ?_, fun hw x hx => ?_⟩
      · rcases List.mem_or_eq_of_mem_set hx with hx | rfl
        · exact h1 x hx
        · exact rfl
      · rcases List.mem_or_eq_of_mem_set hx with hx | rfl
        · exact h2 hw x hx
        · rfl
  | edit =>
    simp only [step] at h
    split at h
    · cases h; exact ⟨h1, nofun⟩
    · cases h
  | lockWrite =>
    simp only [step] at h
    split at h
    · rename_i hc; cases h; exact ⟨h1, fun _ => hc.2⟩
    · cases h
  | unlockWrite b =>
    simp only [step] at h
    split at h
    · cases h; exact ⟨h1, nofun⟩
    · cases h

theorem bal_run {ls : List Label} {s : St} (h : Run ls s) : Bal s := run_inv bal_step ⟨by simp [init], by simp [init]⟩ h

/-! ## When a thread is lost -/

/-- A thread that holds `h` guards takes another one before it has given all of them back. -/
def Nests : Nat → List Op → Prop
  | 0, _ => False
  | _, [] => False
  | _ + 1, .read :: _ => True
  | h + 1, .release :: r => Nests h r
  | h + 1, .work :: r => Nests (h + 1) r

instance decNests : ∀ h l, Decidable (Nests h l)
  | 0, _ => isFalse (by simp [Nests])
  | _ + 1, [] => isFalse (by simp [Nests])
  | _ + 1, .read :: _ => isTrue trivial
  | h + 1, .release :: r => decNests h r
  | h + 1, .work :: r => decNests (h + 1) r

/-- The watcher waits for a thread that is going to wait for the watcher. -/
def Lost (s : St) : Prop := s.writer = .waiting ∧ ∃ t ∈ s.threads, Nests t.held t.todo

theorem nests_go {v : Nat} {t t' : Thread} (hn : Nests t.held t.todo) (h : t.go .waiting v = some t') : Nests t'.held t'.todo := by
  obtain ⟨_ | n, _ | ⟨o, r⟩, _, _, _⟩ := t
  · simp [Nests] at hn
  · simp [Nests] at hn
  · cases h
  · cases o with
    | read => cases h
    | release => cases h; exact hn
    | work => cases h; exact hn

/-- What is known of thread `i` while it is lost. -/
def LostAt (i : Nat) (s : St) : Prop := s.writer = .waiting ∧ ∃ t, s.threads[i]? = some t ∧ Nests t.held t.todo

theorem nests_held {h : Nat} {l : List Op} (hn : Nests h l) : h ≠ 0 ∧ l ≠ [] := by
  cases h with
  | zero => simp [Nests] at hn
  | succ h => cases l with
    | nil => simp [Nests] at hn
    | cons => exact ⟨by omega, nofun⟩

theorem lostAt_step {i : Nat} {s : St} {l : Label} {s' : St} (hL : LostAt i s) (hl : ∀ i, l ≠ .fail i) (h : step s l = some s') :
    LostAt i s' := by
  obtain ⟨hw, t, ht, hn⟩ := hL
  have hil : i < s.threads.length := (List.getElem?_eq_some_iff.mp ht).1
  cases l with
  | start t' => cases h; exact ⟨hw, t, by rw [List.getElem?_append_left hil]; exact ht, hn⟩
  | go j =>
    simp only [step] at h
    split at h
    · cases h
    · rename_i t1 ht1
      rw [Option.map_eq_some_iff] at h
      obtain ⟨t', hg, rfl⟩ := h
      rw [hw] at hg
      by_cases hij : j = i
      · subst hij
        rw [ht] at ht1; cases ht1
        exact ⟨hw, t', by simp [hil], nests_go hn hg⟩
      · exact ⟨hw, t, by simp [hij, ht], hn⟩
  | fail j => exact absurd rfl (hl j)
  | edit => simp [step, hw] at h
  | lockWrite =>
    simp only [step] at h
    split at h
    · rename_i hc
      exact absurd (hc.2 t (List.mem_of_getElem? ht)) (nests_held hn).1
    · cases h
  | unlockWrite b => simp [step, hw] at h

theorem lostAt_run {i : Nat} {s s' : St} {ls : List Label} (hL : LostAt i s) (hl : ∀ l ∈ ls, ∀ i, l ≠ .fail i)
    (h : runSteps step s ls = some s') : LostAt i s' := by
  induction ls generalizing s with
  | nil => cases h; exact hL
  | cons l ls ih =>
    obtain ⟨s1, h1, h2⟩ := run_cons_some h
    exact ih (lostAt_step hL (hl l (by simp)) h1) (fun l' hl' => hl l' (by simp [hl'])) h2

theorem isOwn_not_fail {l : Label} (h : l.isOwn = true) (i : Nat) : l ≠ .fail i := by
  rintro rfl; cases h

/-! ## The other states -/

theorem set_self {l : List Thread} {i : Nat} {t : Thread} (h : l[i]? = some t) : l.set i t = l := by
  obtain ⟨hl, rfl⟩ := List.getElem?_eq_some_iff.mp h
  simp

/-- Thread `i` alone performs its steps while nobody writes. -/
theorem run_alone {s : St} {i : Nat} {t : Thread} (hw : s.writer = .idle) (ht : s.threads[i]? = some t) :
    ∃ ls t', runSteps step s ls = some { s with threads := s.threads.set i t' } ∧ t'.todo = [] ∧ ∀ l ∈ ls, l.isOwn = true := by
  generalize hr : t.todo = r
  induction r generalizing s t with
  | nil => exact ⟨[], t, by rw [set_self ht]; rfl, hr, by simp⟩
  | cons o r ih =>
    have hil : i < s.threads.length := (List.getElem?_eq_some_iff.mp ht).1
    have hgo : ∃ t', t.go s.writer s.version = some t' ∧ t'.todo = r := by
      unfold Thread.go; rw [hr]
      cases o <;> simp [hw]
    obtain ⟨t', hgo, hr'⟩ := hgo
    have hst : step s (.go i) = some { s with threads := s.threads.set i t' } := by
      simp only [step, ht, hgo, Option.map_some]
    obtain ⟨ls, t'', h1, h2, h3⟩ := ih (s := { s with threads := s.threads.set i t' }) (t := t') hw (by simp [hil]) hr'
    refine ⟨.go i :: ls, t'', ?_, h2, by simpa [Label.isOwn] using h3⟩
    simp only [runSteps, hst, h1]
    simp

theorem idle_finishes {s : St} {i : Nat} (hw : s.writer = .idle) (hi : i < s.threads.length) : CanFinish s i := by
  obtain ⟨ls, t', h1, h2, h3⟩ := run_alone (s := s) (i := i) (t := s.threads[i]) hw (by simp [hi])
  exact ⟨ls, _, h1, h3, t', by simp [hi], h2⟩

/-- A thread that holds guards and takes no further one gives them back even while the watcher waits. -/
theorem run_release {s : St} {i : Nat} {t : Thread} (ht : s.threads[i]? = some t) (hb : Balanced t.held t.todo)
    (hn : ¬ Nests t.held t.todo) :
    ∃ ls t', runSteps step s ls = some { s with threads := s.threads.set i t' } ∧ t'.held = 0 ∧ ∀ l ∈ ls, l.isOwn = true := by
  generalize hr : t.todo = r at hb hn
  induction r generalizing s t with
  | nil => exact ⟨[], t, by rw [set_self ht]; rfl, hb, by simp⟩
  | cons o r ih =>
    have hil : i < s.threads.length := (List.getElem?_eq_some_iff.mp ht).1
    cases h0 : t.held with
    | zero => exact ⟨[], t, by rw [set_self ht]; rfl, h0, by simp⟩
    | succ h =>
      rw [h0] at hb hn
      have key : ∀ t', t.go s.writer s.version = some t' → t'.todo = r → Balanced t'.held r → ¬ Nests t'.held r →
          ∃ ls t'', runSteps step s ls = some { s with threads := s.threads.set i t'' } ∧ t''.held = 0 ∧ ∀ l ∈ ls, l.isOwn = true := by
        intro t' hgo hr' hb' hn'
        have hst : step s (.go i) = some { s with threads := s.threads.set i t' } := by
          simp only [step, ht, hgo, Option.map_some]
        obtain ⟨ls, t'', h1, h2, h3⟩ := ih (s := { s with threads := s.threads.set i t' }) (t := t') (by simp [hil]) hr' hb' hn'
        refine ⟨.go i :: ls, t'', ?_, h2, by simpa [Label.isOwn] using h3⟩
        simp only [runSteps, hst, h1]
        simp
      cases o with
      | read => exact absurd trivial hn
      | release =>
        exact key { t with held := t.held - 1, todo := r, done := t.done ++ [.release] } (by unfold Thread.go; rw [hr]) rfl
          (by rw [h0]; exact hb) (by rw [h0]; exact hn)
      | work =>
        exact key { t with todo := r, done := t.done ++ [.work] } (by unfold Thread.go; rw [hr]) rfl
          (by rw [show t.held = h + 1 from h0]; exact hb) (by rw [show t.held = h + 1 from h0]; exact hn)

/-- All threads up to `n` give their guards back. -/
theorem run_release_all (n : Nat) {s : St} (hB : ∀ t ∈ s.threads, Balanced t.held t.todo) (hn : ∀ t ∈ s.threads, ¬ Nests t.held t.todo) :
    ∃ ls s', runSteps step s ls = some s' ∧ (∀ l ∈ ls, l.isOwn = true) ∧ s'.writer = s.writer ∧ s'.threads.length = s.threads.length ∧
      (∀ j t, j < n → s'.threads[j]? = some t → t.held = 0) ∧ ∀ j, n ≤ j → s'.threads[j]? = s.threads[j]? := by
  induction n with
  | zero => exact ⟨[], s, rfl, by simp, rfl, rfl, by simp, fun _ _ => rfl⟩
  | succ n ih =>
    obtain ⟨ls, s1, h1, h2, h3, h4, h5, h6⟩ := ih
    cases ht : s1.threads[n]? with
    | none =>
      refine ⟨ls, s1, h1, h2, h3, h4, fun j t hj hjt => ?_, fun j hj => h6 j (by omega)⟩
      rcases Nat.lt_succ_iff_lt_or_eq.mp hj with hj | rfl
      · exact h5 j t hj hjt
      · rw [ht] at hjt; cases hjt
    | some t =>
      have hm : t ∈ s.threads := List.mem_of_getElem? (by rw [← h6 n (Nat.le_refl _)]; exact ht)
      have hil : n < s1.threads.length := (List.getElem?_eq_some_iff.mp ht).1
      obtain ⟨ls', t0, h7, h0, h8⟩ := run_release ht (hB t hm) (hn t hm)
      refine ⟨ls ++ ls', { s1 with threads := s1.threads.set n t0 }, ?_, ?_, h3, by simp [h4], fun j t' hj hjt => ?_, fun j hj => ?_⟩
      · rw [run_append, h1]; exact h7
      · intro l hl
        rcases List.mem_append.mp hl with hl | hl
        · exact h2 l hl
        · exact h8 l hl
      · rcases Nat.lt_succ_iff_lt_or_eq.mp hj with hj | rfl
        · simp only [List.getElem?_set, show ¬ n = j by omega, if_false] at hjt
          exact h5 j t' hj hjt
        · simp only [List.getElem?_set, if_true, hil] at hjt
          cases hjt; exact h0
      · simp only [List.getElem?_set, show ¬ n = j by omega, if_false]
        exact h6 j (by omega)

/-! ## The theorems -/

/-- C116, exactly when it holds: everything the daemon was asked to do can still be done, unless the watcher waits for a thread that is
going to take a guard while it holds one; then that thread never finishes by itself. -/
theorem C116_exact_partial {ls : List Label} {s : St} (h : Run ls s) : (∀ i, i < s.threads.length → CanFinish s i) ↔ ¬ Lost s := by
  have hB := bal_run h
  constructor
  · rintro hc ⟨hw, t, ht, hn⟩
    obtain ⟨i, hi, rfl⟩ := List.mem_iff_getElem.mp ht
    obtain ⟨ls', s', h1, h2, t', h3, h4⟩ := hc i hi
    obtain ⟨_, t'', h5, h6⟩ := lostAt_run (i := i) ⟨hw, _, by simp [hi], hn⟩ (fun l hl j => isOwn_not_fail (h2 l hl) j) h1
    rw [h3] at h5; cases h5
    exact (nests_held h6).2 h4
  · intro hL i hi
    cases hw : s.writer with
    | idle => exact idle_finishes hw hi
    | writing =>
      have hst : step s (.unlockWrite false) = some { s with writer := .idle } := by simp [step, hw]
      obtain ⟨ls', s', h1, h2, h3⟩ := idle_finishes (s := { s with writer := .idle }) (i := i) rfl hi
      exact ⟨.unlockWrite false :: ls', s', by simp only [runSteps, hst]; exact h1, by simpa [Label.isOwn] using h2, h3⟩
    | waiting =>
      have hn : ∀ t ∈ s.threads, ¬ Nests t.held t.todo := fun t ht hn => hL ⟨hw, t, ht, hn⟩
      obtain ⟨ls1, s1, h1, h2, h3, h4, h5, _⟩ := run_release_all s.threads.length hB.1 hn
      have hall : ∀ t ∈ s1.threads, t.held = 0 := by
        intro t ht
        obtain ⟨j, hj, rfl⟩ := List.mem_iff_getElem.mp ht
        exact h5 j _ (by omega) (by simp [hj])
      have hst : step s1 .lockWrite = some { s1 with writer := .writing } := by
        simp only [step]; rw [if_pos ⟨h3.trans hw, hall⟩]
      have hst2 : step { s1 with writer := .writing } (.unlockWrite false) = some { s1 with writer := .idle } := by simp [step]
      obtain ⟨ls2, s2, h6, h7, h8⟩ := idle_finishes (s := { s1 with writer := .idle }) (i := i) rfl (by simpa [h4] using hi)
      refine ⟨ls1 ++ .lockWrite :: .unlockWrite false :: ls2, s2, ?_, ?_, h8⟩
      · rw [run_append, h1]
        simp only [Option.bind_some, runSteps, hst, hst2]
        exact h6
      · intro l hl
        simp only [List.mem_append, List.mem_cons] at hl
        rcases hl with hl | rfl | rfl | hl
        · exact h2 l hl
        · rfl
        · rfl
        · exact h7 l hl

/-- An attach to an existing session. -/
def reattach : Attach := ⟨true, false, false, false, false, false⟩

/-- C116 is false: the configuration is edited while an attach request puts together the environment of the shell. -/
theorem C116_false : ¬ C116_statement := by
  intro h
  obtain ⟨s, hs, hl⟩ : ∃ s, Run [Label.start (.attach reattach), Label.go 0, Label.edit] s ∧ Lost s := ⟨_, rfl, by unfold Lost; decide⟩
  exact (C116_exact_partial hs).mp (h _ _ hs) hl

/-- … or while one starts the output thread of a new session. -/
theorem C116_false_new : ∃ ls s, Run ls s ∧ Lost s ∧ Label.go 0 ∈ ls ∧ (∃ a, a.new = true ∧ ls.head? = some (.start (.attach a))) ∧
    ∀ t, s.threads[0]? = some t → ∃ r, startOutput.drop 1 ++ r = t.todo :=
  ⟨Label.start (.attach ⟨true, true, true, false, false, false⟩) :: (List.replicate 19 (Label.go 0) ++ [Label.edit]), _, rfl, by unfold Lost; decide,
    by decide, ⟨_, rfl, rfl⟩, fun t ht => ⟨t.todo.drop 4, by cases ht; rfl⟩⟩

/-- C116: the reason is only that an attach request takes a second guard.  None of the other tasks does. -/
theorem C116_others_flat {t : Task} {pre post : List Op} (h : t.prog = pre ++ post) (ht : ∀ a, t ≠ .attach a) :
    ¬ Nests (pre.count .read - pre.count .release) post := by
  have : ∀ l : List Op, ∀ k, (∀ k < l.length + 1, ¬ Nests ((l.take k).count .read - (l.take k).count .release) (l.drop k)) →
      k < l.length + 1 → ¬ Nests ((l.take k).count .read - (l.take k).count .release) (l.drop k) := fun l k h hk => h k hk
  have key := this t.prog pre.length ?_ (by rw [h]; simp; omega)
  · rw [h] at key
    simpa using key
  · cases t with
    | attach a => exact absurd rfl (ht a)
    | _ => decide

/-- The thread waits for a guard, and has `h` already. -/
def WantsGuard (h : Nat) (t : Thread) : Prop := t.held = h ∧ ∃ r, t.todo = .read :: r

theorem forever_step {i h : Nat} {ti : Thread} (hwant : WantsGuard (h + 1) ti) {s s' : St} {l : Label} (hw : s.writer = .waiting)
    (hi : s.threads[i]? = some ti) (hs : step s l = some s') :
    s'.writer = .waiting ∧ ∀ (j n : Nat) (t : Thread), WantsGuard n t → s.threads[j]? = some t → s'.threads[j]? = some t := by
  have hkeep : ∀ (j n : Nat) (t : Thread), WantsGuard n t → s.threads[j]? = some t → s'.threads[j]? = some t := by
    rintro j n t ⟨_, r, hr⟩ hj
    have hjl := (List.getElem?_eq_some_iff.mp hj).1
    cases l with
    | start t => cases hs; rw [List.getElem?_append_left hjl]; exact hj
    | go k =>
      simp only [step] at hs
      split at hs
      · cases hs
      · rename_i t1 ht
        rw [Option.map_eq_some_iff] at hs
        obtain ⟨t', hg, rfl⟩ := hs
        by_cases hkj : k = j
        · subst hkj; rw [hj] at ht; cases ht
          simp [Thread.go, hr, hw] at hg
        · simp [hkj, hj]
    | fail k =>
      simp only [step] at hs
      split at hs
      · cases hs
      · rename_i t1 ht
        rw [Option.map_eq_some_iff] at hs
        obtain ⟨t', hg, rfl⟩ := hs
        by_cases hkj : k = j
        · subst hkj; rw [hj] at ht; cases ht
          simp [Thread.fail, hr] at hg
        · simp [hkj, hj]
    | edit => simp [step, hw] at hs
    | lockWrite => simp only [step] at hs; split at hs <;> cases hs; exact hj
    | unlockWrite b => simp [step, hw] at hs
  refine ⟨?_, hkeep⟩
  cases l with
  | start t => cases hs; exact hw
  | go k =>
    simp only [step] at hs
    split at hs
    · cases hs
    · rw [Option.map_eq_some_iff] at hs
      obtain ⟨t', hg, rfl⟩ := hs
      exact hw
  | fail k =>
    simp only [step] at hs
    split at hs
    · cases hs
    · rw [Option.map_eq_some_iff] at hs
      obtain ⟨t', hg, rfl⟩ := hs
      exact hw
  | edit => simp [step, hw] at hs
  | lockWrite =>
    simp only [step] at hs
    split at hs
    · rename_i hc
      have := hc.2 _ (List.mem_of_getElem? hi)
      rw [hwant.1] at this
      omega
    · cases hs
  | unlockWrite b => simp [step, hw] at hs

/-- C116: once a thread waits for its second guard while the watcher waits, whatever happens then, failures included: the watcher waits
for ever, and so does each thread that is waiting for a guard or comes to want one.  Everything that is going to look at the configuration
hangs: new attach requests, and the output of running sessions when their size changes. -/
theorem C116_forever {s s' : St} {ls : List Label} {i h : Nat} {ti : Thread} (hw : s.writer = .waiting)
    (hi : s.threads[i]? = some ti) (hwant : WantsGuard (h + 1) ti) (hr : runSteps step s ls = some s') :
    s'.writer = .waiting ∧ ∀ (j n : Nat) (t : Thread), WantsGuard n t → s.threads[j]? = some t → s'.threads[j]? = some t := by
  induction ls generalizing s with
  | nil => cases hr; exact ⟨hw, fun _ _ _ _ h => h⟩
  | cons l ls ih =>
    obtain ⟨s1, h1, h2⟩ := run_cons_some hr
    obtain ⟨h3, h5⟩ := forever_step hwant hw hi h1
    obtain ⟨h6, h8⟩ := ih h3 (h5 i _ ti hwant hi) h2
    exact ⟨h6, fun j n t ht hj => h8 j n t ht (h5 j n t ht hj)⟩

/-- C116: in particular nobody can attach to any session any more, ever: the request is not even begun. -/
theorem C116_forever_attach {s s' : St} {ls : List Label} {i h : Nat} {ti : Thread} {a : Attach} (hw : s.writer = .waiting)
    (hi : s.threads[i]? = some ti) (hwant : WantsGuard (h + 1) ti) (ha : a.nameOk = true)
    (hr : runSteps step s (.start (.attach a) :: ls) = some s') :
    ∃ t, s'.threads[s.threads.length]? = some t ∧ t.task = .attach a ∧ t.done = [] ∧ t.todo ≠ [] := by
  simp only [runSteps, step] at hr
  have hil := (List.getElem?_eq_some_iff.mp hi).1
  obtain ⟨r', hr'⟩ : ∃ r', attachProg a = .read :: r' := ⟨(attachProg a).tail, by unfold attachProg; rw [if_pos ha]; rfl⟩
  have := (C116_forever (s := { s with threads := s.threads ++ [⟨0, attachProg a, .attach a, [], []⟩] }) hw
    (by rw [List.getElem?_append_left hil]; exact hi) hwant hr).2 s.threads.length 0 ⟨0, attachProg a, .attach a, [], []⟩ ⟨rfl, r', hr'⟩ (by simp)
  exact ⟨_, this, rfl, rfl, by simp [hr']⟩

/-- Such a state is reached. -/
example : ∃ s t, Run [.start (.attach reattach), .go 0, .edit, .go 0] s ∧ s.writer = .waiting ∧
    s.threads[0]? = some t ∧ WantsGuard 1 t := ⟨_, _, rfl, rfl, rfl, rfl, _, rfl⟩

/-- C116: requests that do not look at the configuration still work then. -/
theorem C116_other_requests (s : St) : ∃ s', runSteps step s [.start .other, .go s.threads.length] = some s' ∧ Finished s' s.threads.length := by
  refine ⟨{ s with threads := (s.threads ++ [Thread.mk 0 [.work] .other [] []]).set s.threads.length (Thread.mk 0 [] .other [.work] []) },
    ?_, ⟨0, [], .other, [.work], []⟩, ?_, rfl⟩
  · simp [runSteps, step, Task.prog, Thread.go]
  · simp

/-- C116: as long as no configuration file is edited while an attach request is under way, nothing hangs. -/
theorem C116_quiet_partial {ls : List Label} {s : St} (h : Run ls s)
    (hq : ∀ pre post s1, ls = pre ++ .edit :: post → Run pre s1 → ∀ t ∈ s1.threads, t.held = 0) : ¬ Lost s := by
  have : Run ls s ∧ ((∀ pre post s1, ls = pre ++ .edit :: post → Run pre s1 → ∀ t ∈ s1.threads, t.held = 0) →
      s.writer = .waiting → ∀ t ∈ s.threads, t.held = 0) := by
    refine run_hist (I := fun ls s => Run ls s ∧ ((∀ pre post s1, ls = pre ++ .edit :: post → Run pre s1 → ∀ t ∈ s1.threads, t.held = 0) →
      s.writer = .waiting → ∀ t ∈ s.threads, t.held = 0)) ?_ ⟨rfl, fun _ hw => nomatch hw⟩ h
    · rintro ls s1 l s ⟨h1, ih⟩ h3
      refine ⟨by unfold Run at *; rw [run_append, h1]; simp only [Option.bind_some, runSteps, h3], fun hq hw => ?_⟩
      have ih := ih (fun pre post s' he => hq pre (post ++ [l]) s' (by rw [he]; simp))
      cases l with
      | start t =>
        cases h3
        intro x hx
        rcases List.mem_append.mp hx with hx | hx
        · exact ih hw x hx
        · cases List.mem_singleton.mp hx; rfl
      | go k =>
        simp only [step] at h3
        split at h3
        · cases h3
        · rename_i t ht
          rw [Option.map_eq_some_iff] at h3
          obtain ⟨t', hg, rfl⟩ := h3
          have hw' : s1.writer = .waiting := hw
          intro x hx
          rcases List.mem_or_eq_of_mem_set hx with hx | rfl
          · exact ih hw' x hx
          · have h0 := ih hw' t (List.mem_of_getElem? ht)
            rw [hw'] at hg
            obtain ⟨n, _ | ⟨_ | _ | _, r⟩, _, _, _⟩ := t
            · cases hg
            · cases hg
            · cases hg; simp at h0; simp [h0]
            · cases hg; exact h0
      | fail k =>
        simp only [step] at h3
        split at h3
        · cases h3
        · rename_i t ht
          rw [Option.map_eq_some_iff] at h3
          obtain ⟨t', hg, rfl⟩ := h3
          intro x hx
          rcases List.mem_or_eq_of_mem_set hx with hx | rfl
          · exact ih hw x hx
          · rw [(fail_eq hg).1]
      | edit =>
        simp only [step] at h3
        split at h3
        · cases h3; exact hq ls [] s1 rfl h1
        · cases h3
      | lockWrite => simp only [step] at h3; split at h3 <;> cases h3; cases hw
      | unlockWrite b => simp only [step] at h3; split at h3 <;> cases h3; cases hw
  rintro ⟨hw, t, ht, hn⟩
  exact (nests_held hn).1 (this.2 hq hw t ht)

/-- Edits between and during the other tasks. -/
example : ∃ s, Run [.start (.attach reattach), .start .dump, .edit, .lockWrite, .unlockWrite true, .go 0, .go 0] s ∧ ¬ Lost s :=
  ⟨_, rfl, by unfold Lost; decide⟩

/-! ## C117: a session is set up by one configuration -/

/-- C117: all that one attach request reads of the configuration is of the same version. -/
def C117_statement : Prop := ∀ ls s, Run ls s → ∀ t ∈ s.threads, ∀ v ∈ t.seen, ∀ v' ∈ t.seen, v = v'

/-- C117 is false: the configuration is reloaded after the environment of the shell has been put together, and before the shell is chosen. -/
theorem C117_false : ¬ C117_statement := by
  intro h
  obtain ⟨s, t, hs, ht, hv⟩ : ∃ s t, Run (Label.start (.attach ⟨true, true, true, false, false, false⟩) :: (List.replicate 7 (Label.go 0) ++
      [Label.edit, Label.lockWrite, Label.unlockWrite true, Label.go 0])) s ∧ s.threads = [t] ∧ t.seen = [0, 0, 1] := ⟨_, _, rfl, rfl, rfl⟩
  have := h _ _ hs t (by simp [ht]) 0 (by simp [hv]) 1 (by simp [hv])
  cases this

/-- For each time the thread takes a guard: whether it holds one already. -/
def nestedReads : Nat → List Op → List Bool
  | _, [] => []
  | h, .read :: r => decide (0 < h) :: nestedReads (h + 1) r
  | h, .release :: r => nestedReads (h - 1) r
  | h, .work :: r => nestedReads h r

/-- The number of guards after some steps. -/
def heldAfter : Nat → List Op → Nat
  | h, [] => h
  | h, .read :: r => heldAfter (h + 1) r
  | h, .release :: r => heldAfter (h - 1) r
  | h, .work :: r => heldAfter h r

theorem nestedReads_append (h : Nat) (a b : List Op) : nestedReads h (a ++ b) = nestedReads h a ++ nestedReads (heldAfter h a) b := by
  induction a generalizing h with
  | nil => rfl
  | cons o a ih => cases o <;> simp [nestedReads, heldAfter, ih]

theorem heldAfter_append (h : Nat) (a b : List Op) : heldAfter h (a ++ b) = heldAfter (heldAfter h a) b := by
  induction a generalizing h with
  | nil => rfl
  | cons o a ih => cases o <;> simp [heldAfter, ih]

/-- What is known of a thread's record. -/
structure Rec (v : Nat) (t : Thread) : Prop where
  pre : ∃ r, t.done ++ r = t.task.prog
  all : t.todo ≠ [] → t.done ++ t.todo = t.task.prog
  held : t.held ≠ 0 → t.held = heldAfter 0 t.done
  held' : t.todo ≠ [] → t.held = heldAfter 0 t.done
  len : t.seen.length = (nestedReads 0 t.done).length
  last : t.held ≠ 0 → t.seen.getLast? = some v
  le : ∀ x ∈ t.seen, x ≤ v
  mono : t.seen.Pairwise (· ≤ ·)
  same : ∀ k, (nestedReads 0 t.done)[k + 1]? = some true → t.seen[k + 1]? = t.seen[k]?

theorem rec_go {w : Writer} {v : Nat} {t t' : Thread} (h : t.go w v = some t') (hR : Rec v t) : Rec v t' := by
  unfold Thread.go at h
  split at h
  · cases h
  · rename_i r hr
    split at h
    · cases h
      have hne : t.todo ≠ [] := by rw [hr]; nofun
      have hh := hR.held' hne
      have hnr : nestedReads 0 (t.done ++ [.read]) = nestedReads 0 t.done ++ [decide (0 < t.held)] := by
        rw [nestedReads_append, hh]; rfl
      refine ⟨⟨r, by have := hR.all hne; rw [hr] at this; simpa using this⟩, fun _ => by have := hR.all hne; rw [hr] at this; simpa using this,
        fun _ => by rw [heldAfter_append, ← hh]; rfl, fun _ => by rw [heldAfter_append, ← hh]; rfl, by rw [hnr]; simp [hR.len], by simp, ?_, ?_, ?_⟩
      · intro x hx
        rcases List.mem_append.mp hx with hx | hx
        · exact hR.le x hx
        · simp at hx; omega
      · rw [List.pairwise_append]
        exact ⟨hR.mono, List.pairwise_singleton _ _, fun a ha b hb => by simp at hb; subst hb; exact hR.le a ha⟩
      · intro k hk
        rw [hnr] at hk
        show (t.seen ++ [v])[k + 1]? = (t.seen ++ [v])[k]?
        by_cases hlt : k + 1 < (nestedReads 0 t.done).length
        · rw [List.getElem?_append_left hlt] at hk
          rw [List.getElem?_append_left (by rw [hR.len]; omega), List.getElem?_append_left (by rw [hR.len]; omega)]
          exact hR.same k hk
        · rw [List.getElem?_append_right (by omega)] at hk
          have hk0 : k + 1 = (nestedReads 0 t.done).length := by
            have := (List.getElem?_eq_some_iff.mp hk).1
            simp at this; omega
          rw [hk0, Nat.sub_self] at hk
          simp at hk
          have hl := hR.last (by omega)
          rw [List.getLast?_eq_getElem?] at hl
          rw [List.getElem?_append_right (by rw [hR.len]; omega), List.getElem?_append_left (by rw [hR.len]; omega),
            show k + 1 - t.seen.length = 0 by rw [hR.len]; omega, show k = t.seen.length - 1 by rw [hR.len]; omega, hl]
          rfl
    · cases h
  · rename_i r hr
    cases h
    have hne : t.todo ≠ [] := by rw [hr]; nofun
    have hh := hR.held' hne
    have hnr : nestedReads 0 (t.done ++ [.release]) = nestedReads 0 t.done := by
      rw [nestedReads_append]; simp [nestedReads]
    exact ⟨⟨r, by have := hR.all hne; rw [hr] at this; simpa using this⟩, fun _ => by have := hR.all hne; rw [hr] at this; simpa using this,
      fun _ => by rw [heldAfter_append, ← hh]; rfl, fun _ => by rw [heldAfter_append, ← hh]; rfl, by rw [hnr]; exact hR.len,
      fun h => hR.last (by simp at h; omega), hR.le, hR.mono, by rw [hnr]; exact hR.same⟩
  · rename_i r hr
    cases h
    have hne : t.todo ≠ [] := by rw [hr]; nofun
    have hh := hR.held' hne
    have hnr : nestedReads 0 (t.done ++ [.work]) = nestedReads 0 t.done := by
      rw [nestedReads_append]; simp [nestedReads]
    exact ⟨⟨r, by have := hR.all hne; rw [hr] at this; simpa using this⟩, fun _ => by have := hR.all hne; rw [hr] at this; simpa using this,
      fun _ => by rw [heldAfter_append, ← hh]; rfl, fun _ => by rw [heldAfter_append, ← hh]; rfl, by rw [hnr]; exact hR.len,
      hR.last, hR.le, hR.mono, by rw [hnr]; exact hR.same⟩

theorem rec_step (s : St) (l : Label) (s' : St) (hI : Bal s ∧ ∀ t ∈ s.threads, Rec s.version t) (h : step s l = some s') :
    Bal s' ∧ ∀ t ∈ s'.threads, Rec s'.version t := by
  refine ⟨bal_step s l s' hI.1 h, ?_⟩
  obtain ⟨hB, hR⟩ := hI
  cases l with
  | start t =>
    cases h
    intro x hx
    rcases List.mem_append.mp hx with hx | hx
    · exact hR x hx
    · cases List.mem_singleton.mp hx
      exact ⟨⟨_, rfl⟩, fun _ => rfl, fun h => absurd rfl h, fun _ => rfl, rfl, fun h => absurd rfl h, nofun, .nil, nofun⟩
  | go i =>
    simp only [step] at h
    split at h
    · cases h
    · rename_i t ht
      rw [Option.map_eq_some_iff] at h
      obtain ⟨t', hg, rfl⟩ := h
      intro x hx
      rcases List.mem_or_eq_of_mem_set hx with hx | rfl
      · exact hR x hx
      · exact rec_go hg (hR t (List.mem_of_getElem? ht))
  | fail i =>
    simp only [step] at h
    split at h
    · cases h
    · rename_i t ht
      rw [Option.map_eq_some_iff] at h
      obtain ⟨t', hg, rfl⟩ := h
      intro x hx
      rcases List.mem_or_eq_of_mem_set hx with hx | rfl
      · exact hR x hx
      · have := hR t (List.mem_of_getElem? ht)
        rw [(fail_eq hg).1]
        exact ⟨this.pre, fun h => absurd rfl h, fun h => absurd rfl h, fun h => absurd rfl h, this.len, fun h => absurd rfl h, this.le, this.mono,
          this.same⟩
  | edit => simp only [step] at h; split at h <;> cases h; exact hR
  | lockWrite => simp only [step] at h; split at h <;> cases h; exact hR
  | unlockWrite b =>
    simp only [step] at h
    split at h
    · rename_i hw
      cases h
      intro t ht
      have h0 := hB.2 hw t ht
      have := hR t ht
      refine ⟨this.pre, this.all, this.held, this.held', this.len, fun h => absurd h0 h, fun x hx => ?_, this.mono, this.same⟩
      have := this.le x hx
      show x ≤ if b then s.version + 1 else s.version
      split <;> omega
    · cases h

theorem rec_run {ls : List Label} {s : St} (h : Run ls s) : ∀ t ∈ s.threads, Rec s.version t :=
  (run_inv (I := fun s => Bal s ∧ ∀ t ∈ s.threads, Rec s.version t) rec_step ⟨⟨by simp [init], by simp [init]⟩, by simp [init]⟩ h).2

/-- C117: a thread never reads an older configuration after a newer one, nor one that is not loaded yet. -/
theorem C117_forwards {ls : List Label} {s : St} (h : Run ls s) {t : Thread} (ht : t ∈ s.threads) :
    t.seen.Pairwise (· ≤ ·) ∧ ∀ v ∈ t.seen, v ≤ s.version := ⟨(rec_run h t ht).mono, (rec_run h t ht).le⟩

/-- C117: what is read while a guard is held is of the version that the guard was given for. -/
theorem C117_nested {ls : List Label} {s : St} (h : Run ls s) {t : Thread} (ht : t ∈ s.threads) {k : Nat}
    (hk : (nestedReads 0 t.task.prog)[k + 1]? = some true) (hl : k + 1 < t.seen.length) : t.seen[k + 1]? = t.seen[k]? := by
  have hR := rec_run h t ht
  obtain ⟨r, hr⟩ := hR.pre
  refine hR.same k ?_
  rw [← hr, nestedReads_append, List.getElem?_append_left (by rw [← hR.len]; exact hl)] at hk
  exact hk

/-- C117: so the environment of a shell is put together according to one configuration. -/
theorem C117_environment_partial {ls : List Label} {s : St} (h : Run ls s) {t : Thread} (ht : t ∈ s.threads) {a : Attach} (ha : t.task = .attach a)
    {v v' : Nat} {vs : List Nat} (hv : t.seen = v :: v' :: vs) : v = v' := by
  have hn : a.nameOk = true := by
    cases hn : a.nameOk with
    | true => rfl
    | false =>
      have hR := rec_run h t ht
      obtain ⟨r, hr⟩ := hR.pre
      have hl := hR.len
      have : (nestedReads 0 (t.done ++ r)).length = 0 := by rw [hr, ha]; simp [Task.prog, attachProg, hn, nestedReads]
      rw [nestedReads_append, List.length_append] at this
      rw [hv] at hl
      simp at hl; omega
  have := C117_nested h ht (k := 0) (by rw [ha]; simp only [Task.prog, attachProg, hn, if_true]; rfl) (by rw [hv]; simp)
  rw [hv] at this
  simpa using this.symm

/-- C117: the number of lines to keep and the mode that is taken into account for it, server.rs 1148-1149, are of one configuration. -/
theorem C117_scrollback_partial {ls : List Label} {s : St} (h : Run ls s) {t : Thread} (ht : t ∈ s.threads) {a : Attach}
    (ha : t.task = .attach a) (hn : a.nameOk = true) (hnew : a.new = true) :
    let k := 6 + (if a.cmd then 0 else 1) + (if a.sentinels then 1 else 0)
    k + 1 < t.seen.length → t.seen[k + 1]? = t.seen[k]? := by
  intro k hl
  refine C117_nested h ht ?_ hl
  rw [ha]
  obtain ⟨x1, x2, x3, x4, x5, x6⟩ := a
  simp only at hn hnew
  subst hn hnew
  show (nestedReads 0 (attachProg ⟨true, true, x3, x4, x5, x6⟩))[6 + (if x3 then 0 else 1) + (if x4 then 1 else 0) + 1]? = some true
  clear k hl ha ht
  revert x3 x4 x5 x6
  decide

/-- An attach request that has read all of that. -/
example : ∃ s t, Run (.start (.attach ⟨true, true, true, false, false, false⟩) :: List.replicate 20 (.go 0)) s ∧ s.threads = [t] ∧
    t.seen.length = 8 := ⟨_, _, rfl, rfl, rfl⟩

/-- C117, the other way round: the output thread may take its mode from another configuration than the one its number of lines is from;
engine and mode may be of different ones, too. -/
theorem C117_false_spool : ∃ ls s t, Run ls s ∧ s.threads = [t] ∧ t.task = .newSpool ∧ t.seen = [0, 1, 1] :=
  ⟨[.start .newSpool, .go 0, .go 0, .edit, .lockWrite, .unlockWrite true, .go 0, .go 0, .go 0, .go 0], _, _, rfl, rfl, rfl, rfl⟩

end Shpool.CfgLock
