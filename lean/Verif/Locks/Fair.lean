import Verif.Locks.Props
import Verif.Util.Fair
/-!
# Who is attached holds up nobody

C146: every request other than attach is done in the end, and every attach gets as far as being served or refused, however long clients
stay attached, pagers are shown and connections are quiet, as long as no attach that makes a session finds afterwards one that another
attach has to do with (`Apart`).  In every execution in which each thread is treated fairly: a thread that can go on again and again does
so at some time (strong fairness; the mutexes of `parking_lot` hand a lock over to a waiting thread after at most half a millisecond of
others taking it).  Nothing is assumed about when, or whether, what an idle thread waits for happens.
-/

namespace Shpool.Locks

/-- The steps of thread `t` other than what it idles for. -/
def isGo (t : Nat) : Label → Bool
  | .go u _ => u == t
  | .wake _ => false

/-- Each thread is treated fairly. -/
def Fair (σ : Nat → St) (lab : Nat → Option Label) : Prop := ∀ t, StrongFair step σ lab (isGo t)

/-- A thread that is done, idles, joins another, or begins its loop again: it does not wait for a lock. -/
def Resting : Prog → Prop
  | .done | .idle _ | .join _ _ | .again => True
  | _ => False

/-- How many steps a program has at most before it rests. -/
def size : Prog → Nat
  | .done | .idle _ | .join _ _ | .again => 0
  | .acq _ p | .grab _ p | .rel _ p | .work p => size p + 1
  | .attempt _ p q | .choice p q => max (size p) (size q) + 1

theorem least {P : Nat → Prop} {m : Nat} (h : ∃ j, m ≤ j ∧ P j) : ∃ j, m ≤ j ∧ P j ∧ ∀ k, m ≤ k → k < j → ¬ P k := by
  obtain ⟨j, hm, hj⟩ := h
  induction j using Nat.strongRecOn with
  | ind j ih =>
    by_cases hk : ∃ k, m ≤ k ∧ k < j ∧ P k
    · obtain ⟨k, hmk, hkj, hPk⟩ := hk
      exact ih k hkj hmk hPk
    · exact ⟨j, hm, hj, fun k h1 h2 h3 => hk ⟨k, h1, h2, h3⟩⟩

section
variable {f : Nat → Prog} {σ : Nat → St} {lab : Nat → Option Label}

theorem inv_at (hx : Exec step σ lab) (h0 : σ 0 = start f) (hd : Daemon f) (i : Nat) : Inv' f (Owns f) (σ i) := by
  have := exec_run hx i
  rw [h0] at this
  exact inv_run hd (owns_thread hd) this

theorem run_at (hx : Exec step σ lab) (h0 : σ 0 = start f) (i : Nat) : Run f (performed lab i) (σ i) := by
  have := exec_run hx i
  rw [h0] at this
  exact this

/-- A thread that makes no step keeps its program and its locks. -/
theorem same (hx : Exec step σ lab) {v i : Nat} (hl : ∀ l, lab i = some l → who l ≠ v) :
    (σ (i + 1)).thr v = (σ i).thr v ∧ has (σ (i + 1)) v = has (σ i) v := by
  rcases hx i with ⟨_, he⟩ | ⟨l, hli, hs⟩
  · rw [he]; exact ⟨rfl, rfl⟩
  · obtain ⟨p, hm⟩ := step_moves hs
    have hne := hl l hli
    refine ⟨?_, moves_other hm (Ne.symm hne)⟩
    rw [moves_thr hm]
    simp only [if_neg (Ne.symm hne)]

theorem same_until (hx : Exec step σ lab) {v i j : Nat} (hij : i ≤ j) (hl : ∀ k l, i ≤ k → k < j → lab k = some l → who l ≠ v) :
    (σ j).thr v = (σ i).thr v ∧ has (σ j) v = has (σ i) v := by
  induction j with
  | zero => have : i = 0 := by omega
            subst this; exact ⟨rfl, rfl⟩
  | succ j ih =>
    by_cases hj : i = j + 1
    · subst hj; exact ⟨rfl, rfl⟩
    · have h1 := ih (by omega) (fun k l h1 h2 => hl k l h1 (by omega))
      have h2 := same hx (v := v) (i := j) (fun l h => hl j l (by omega) (by omega) h)
      exact ⟨h2.1.trans h1.1, h2.2.trans h1.2⟩

/-- A thread that does not rest and that, as long as it makes no step, can again and again go on, makes its next step. -/
theorem moves_on (hx : Exec step σ lab) (hf : Fair σ lab) {v i : Nat}
    (hcan : ∀ n, i ≤ n → (σ n).thr v = (σ i).thr v → (∀ k l, i ≤ k → lab k = some l → who l ≠ v) → ∃ j, n ≤ j ∧ Shpool.Can step (isGo v) (σ j)) :
    ∃ j p, i ≤ j ∧ (σ j).thr v = (σ i).thr v ∧ has (σ j) v = has (σ i) v ∧ Moves (σ j) v ((σ i).thr v) p (σ (j + 1)) := by
  have hex : ∃ j, i ≤ j ∧ ∃ l, lab j = some l ∧ who l = v := by
    refine Classical.byContradiction fun hn => ?_
    have hno : ∀ k l, i ≤ k → lab k = some l → who l ≠ v := fun k l hk hl hw => hn ⟨k, hk, l, hl, hw⟩
    have hoft : Often lab (isGo v) := by
      refine hf v fun n => ?_
      obtain ⟨j, hj, hc⟩ := hcan (max n i) (by omega) (same_until hx (by omega) (fun k l h1 _ => hno k l h1)).1 hno
      exact ⟨j, by omega, hc⟩
    obtain ⟨j, l, hj, hl, hA⟩ := hoft i
    refine hno j l hj hl ?_
    cases l with
    | go u b => simpa [isGo, who] using hA
    | wake u => simp [isGo] at hA
  obtain ⟨j, hj, ⟨l, hl, hw⟩, hmin⟩ := least hex
  have hs := same_until hx hj (fun k l h1 h2 hl hw => hmin k h1 h2 ⟨l, hl, hw⟩)
  obtain ⟨p, hm⟩ := step_moves (exec_at hx hl)
  rw [hw, hs.1] at hm
  exact ⟨j, p, hj, hs.1, hs.2, hm⟩

end

/-- Who neither rests nor waits for a lock can go on. -/
theorem can_go {f : Nat → Prog} {P : Nat → (Lock → Prop) → Prop} {s : St} (hi : Inv' f P s) {v : Nat} (hj : ¬ Jammed s v)
    (hr : ¬ Resting (s.thr v)) (ha : ∀ l p, s.thr v ≠ .acq l p) : Shpool.Can step (isGo v) s := by
  refine ⟨.go v true, by simp [isGo], ?_⟩
  have ho := hi.ok v
  cases hp : s.thr v with
  | done | idle p | join u p | again => rw [hp] at hr; exact (hr trivial).elim
  | acq l p => exact absurd hp (ha l p)
  | grab l p =>
    rw [hp] at ho
    obtain ⟨⟨⟨x, rfl⟩, _, hs⟩, _⟩ := ho
    cases hl : s.held (.inner x) with
    | none => simp [step, hp, hl]
    | some u => exact (hj ⟨x, p, u, hp, hl, hs⟩).elim
  | attempt l p q => by_cases hl : s.held l = none <;> simp [step, hp, hl]
  | rel l p =>
    rw [hp] at ho
    have hl : s.held l = some v := ho.1
    simp [step, hp, hl]
  | work p => simp [step, hp]
  | choice p q => simp [step, hp]

theorem moves_size {s s' : St} {t : Nat} {p q : Prog} (h : Moves s t p q s') (hr : ¬ Resting p) : size q < size p := by
  cases h with
  | idle | join | again => exact (hr trivial).elim
  | _ => simp only [size]; omega

theorem moves_lock {s s' : St} {t : Nat} {p q : Prog} {l : Lock} (h : Moves s t p q s') (hl : s.held l = some t) :
    s'.held l = some t ∨ s'.held l = none := by
  cases h with
  | @acq k _ hk | @grab k _ hk | @got k _ _ hk =>
    by_cases he : l = k
    · subst he; rw [hl] at hk; cases hk
    · exact .inl (by simp [hand, goOn, he, hl])
  | @rel k _ hk =>
    by_cases he : l = k
    · exact .inr (by simp [hand, he])
    · exact .inl (by simp [hand, goOn, he, hl])
  | _ => exact .inl hl

/-- Who has a lock other than that of a session does not rest. -/
theorem not_resting {f : Nat → Prog} {P : Nat → (Lock → Prop) → Prop} {s : St} (hi : Inv' f P s) {v : Nat} {l : Lock}
    (hl : s.held l = some v) (hr : 1 ≤ rank l) : ¬ Resting (s.thr v) := by
  intro hrest
  have ho := hi.ok v
  cases hp : s.thr v with
  | done | again => rw [hp] at ho; exact ho l hl
  | idle p => rw [hp] at ho; have := ho.1 l hl; omega
  | join u p => rw [hp] at ho; have := ho.1.2 l hl; omega
  | _ => rw [hp] at hrest; exact hrest

section
variable {f : Nat → Prog} {σ : Nat → St} {lab : Nat → Option Label}

/-- Who waits for a lock gets it. -/
theorem gets (hx : Exec step σ lab) (h0 : σ 0 = start f) (hd : Daemon f) (ha : Apart f) (hf : Fair σ lab) :
    ∀ n t i l p, (σ i).thr t = .acq l p → 6 - rank l ≤ n →
      ∃ j q, i ≤ j ∧ (σ j).thr t = (σ i).thr t ∧ has (σ j) t = has (σ i) t ∧ Moves (σ j) t ((σ i).thr t) q (σ (j + 1)) := by
  intro n
  induction n with
  | zero => intro t i l p _ hn; have := rank_le l; omega
  | succ n ih =>
    intro t i l p hp hn
    have hrl : 1 ≤ rank l := by
      have ho := (inv_at hx h0 hd i).ok t
      rw [hp] at ho
      exact ho.1.1
    -- the lock is given back whenever somebody has it
    have freed : ∀ m v k, (σ k).held l = some v → size ((σ k).thr v) ≤ m → ∃ j, k ≤ j ∧ (σ j).held l = none := by
      intro m
      induction m with
      | zero =>
        intro v k hl hm
        have hnr := not_resting (inv_at hx h0 hd k) hl hrl
        cases hq : (σ k).thr v <;> rw [hq] at hm hnr <;> simp only [size, Resting, not_true_eq_false] at hm hnr <;> omega
      | succ m ihm =>
        intro v k hl hm
        have hi := inv_at hx h0 hd k
        have hnr := not_resting hi hl hrl
        have hmv : ∃ j q, k ≤ j ∧ (σ j).thr v = (σ k).thr v ∧ has (σ j) v = has (σ k) v ∧
            Moves (σ j) v ((σ k).thr v) q (σ (j + 1)) := by
          by_cases hacq : ∃ l' p', (σ k).thr v = .acq l' p'
          · obtain ⟨l', p', hq⟩ := hacq
            refine ih v k l' p' hq ?_
            have ho := hi.ok v
            rw [hq] at ho
            have := ho.1.2 l hl
            omega
          · refine moves_on hx hf fun n' _ hsame _ => ⟨n', Nat.le_refl _, ?_⟩
            refine can_go (inv_at hx h0 hd n') (apart_never_jams hd ha (run_at hx h0 n') v) (by rw [hsame]; exact hnr) ?_
            intro l' p' hq
            exact hacq ⟨l', p', hsame ▸ hq⟩
        obtain ⟨j, q, hkj, hthr, hhas, hm'⟩ := hmv
        have hlj : (σ j).held l = some v := by
          have : has (σ j) v l := by rw [hhas]; exact hl
          exact this
        rcases moves_lock hm' hlj with h1 | h1
        · have hsz := moves_size hm' hnr
          have ht' : (σ (j + 1)).thr v = q := by rw [moves_thr hm']; simp
          obtain ⟨j', hj', hnone⟩ := ihm v (j + 1) h1 (by rw [ht']; omega)
          exact ⟨j', by omega, hnone⟩
        · exact ⟨j + 1, by omega, h1⟩
    refine moves_on hx hf fun n' hn' hsame hno => ?_
    have : ∃ j, n' ≤ j ∧ (σ j).held l = none := by
      cases hl : (σ n').held l with
      | none => exact ⟨n', Nat.le_refl _, hl⟩
      | some v => exact freed _ v n' hl (Nat.le_refl _)
    obtain ⟨j, hj, hl⟩ := this
    refine ⟨j, hj, .go t true, by simp [isGo], ?_⟩
    have hthr := (same_until hx (v := t) (i := i) (j := j) (by omega) (fun k l h1 _ => hno k l h1)).1
    rw [hp] at hthr
    simp [step, hthr, hl]

/-- Who does not rest makes its next step. -/
theorem next_step (hx : Exec step σ lab) (h0 : σ 0 = start f) (hd : Daemon f) (ha : Apart f) (hf : Fair σ lab) {t i : Nat}
    (hr : ¬ Resting ((σ i).thr t)) :
    ∃ j q, i ≤ j ∧ (σ j).thr t = (σ i).thr t ∧ has (σ j) t = has (σ i) t ∧ Moves (σ j) t ((σ i).thr t) q (σ (j + 1)) := by
  by_cases hacq : ∃ l p, (σ i).thr t = .acq l p
  · obtain ⟨l, p, hq⟩ := hacq
    exact gets hx h0 hd ha hf _ t i l p hq (Nat.le_refl _)
  · refine moves_on hx hf fun n' _ hsame _ => ⟨n', Nat.le_refl _, ?_⟩
    refine can_go (inv_at hx h0 hd n') (apart_never_jams hd ha (run_at hx h0 n') t) (by rw [hsame]; exact hr) ?_
    intro l' p' hq
    exact hacq ⟨l', p', hsame ▸ hq⟩

/-- C146 for all threads: no thread waits for a lock for ever; whatever it does, it comes to a point where it is done, waits for
something outside, for a thread of its own, or begins its loop again. -/
theorem C146_rests (hx : Exec step σ lab) (h0 : σ 0 = start f) (hd : Daemon f) (ha : Apart f) (hf : Fair σ lab) (t i : Nat) :
    ∃ j, i ≤ j ∧ Resting ((σ j).thr t) := by
  have : ∀ m i, size ((σ i).thr t) ≤ m → ∃ j, i ≤ j ∧ Resting ((σ j).thr t) := by
    intro m
    induction m with
    | zero =>
      intro i hm
      by_cases hr : Resting ((σ i).thr t)
      · exact ⟨i, Nat.le_refl _, hr⟩
      · obtain ⟨j, q, _, _, _, hmv⟩ := next_step hx h0 hd ha hf hr
        have := moves_size hmv hr
        omega
    | succ m ih =>
      intro i hm
      by_cases hr : Resting ((σ i).thr t)
      · exact ⟨i, Nat.le_refl _, hr⟩
      · obtain ⟨j, q, hij, _, _, hmv⟩ := next_step hx h0 hd ha hf hr
        have hsz := moves_size hmv hr
        have ht : (σ (j + 1)).thr t = q := by rw [moves_thr hmv]; simp
        obtain ⟨j', hj', hrest⟩ := ih (j + 1) (by rw [ht]; omega)
        exact ⟨j', by omega, hrest⟩
  exact this _ i (Nat.le_refl _)

end

/-! ### Requests are done -/

/-- The requests other than attach. -/
inductive Request : Prog → Prop
  | detach (xs) : Request (.acq .shells (detach xs))
  | kill (xs) : Request (.acq .shells (kill xs))
  | list (xs) : Request (.acq .shells (list xs))
  | getVars : Request getVars
  | modifyVar (xs) : Request (modifyVar xs)
  | resize (x y) : Request (resize x y)
  | messageDetach (x) : Request (messageDetach x)

/-- A program that does not rest before it is done. -/
def Prompt : Prog → Prop
  | .done => True
  | .acq _ p | .grab _ p | .rel _ p | .work p => Prompt p
  | .attempt _ p q | .choice p q => Prompt p ∧ Prompt q
  | .idle _ | .join _ _ | .again => False

theorem prompt_request {p : Prog} (h : Request p) : Prompt p := by
  cases h with
  | detach xs =>
    simp only [Prompt]
    induction xs with
    | nil => simp [detach, Prompt]
    | cons x xs ih => simp [detach, touch, Prompt, ih]
  | kill xs =>
    simp only [Prompt]
    induction xs with
    | nil => simp [kill, Prompt]
    | cons x xs ih => simp [kill, killOne, touch, Prompt, ih]
  | list xs =>
    simp only [Prompt]
    induction xs with
    | nil => simp [list, Prompt]
    | cons x xs ih => simp [list, touch, Prompt, ih]
  | getVars => simp [getVars, touch, Prompt]
  | modifyVar xs =>
    have : ∀ ys, Prompt (spread ys) := by
      intro ys
      induction ys with
      | nil => simp [spread, Prompt]
      | cons x ys ih => simp [spread, Prompt, ih]
    simp [modifyVar, touch, Prompt, this]
  | resize x y => simp [resize, Prompt]
  | messageDetach x => simp [messageDetach, Prompt]

theorem moves_prompt {s s' : St} {t : Nat} {p q : Prog} (h : Moves s t p q s') (hp : Prompt p) : Prompt q := by
  cases h with
  | acq | grab | rel | work => exact hp
  | got | one => exact hp.1
  | not | two => exact hp.2
  | idle | join | again => exact hp.elim

section
variable {f : Nat → Prog} {σ : Nat → St} {lab : Nat → Option Label}

theorem prompt_at (hx : Exec step σ lab) (h0 : σ 0 = start f) {t : Nat} (hp : Prompt (f t)) (i : Nat) : Prompt ((σ i).thr t) := by
  induction i with
  | zero => rw [h0]; exact hp
  | succ i ih =>
    rcases hx i with ⟨_, he⟩ | ⟨l, _, hs⟩
    · rw [he]; exact ih
    · obtain ⟨q, hm⟩ := step_moves hs
      rw [moves_thr hm]
      by_cases ht : t = who l
      · subst ht; simp only [if_pos]; exact moves_prompt hm ih
      · simp only [if_neg ht]; exact ih

theorem done_stays (hx : Exec step σ lab) {t i j : Nat} (hij : i ≤ j) (hd : (σ i).thr t = .done) : (σ j).thr t = .done := by
  induction j with
  | zero => have : i = 0 := by omega
            subst this; exact hd
  | succ j ih =>
    by_cases hj : i = j + 1
    · subst hj; exact hd
    · have := ih (by omega)
      rcases hx j with ⟨_, he⟩ | ⟨l, _, hs⟩
      · rw [he]; exact this
      · obtain ⟨q, hm⟩ := step_moves hs
        rw [moves_thr hm]
        by_cases ht : t = who l
        · subst ht; rw [this] at hm; cases hm
        · simp only [if_neg ht]; exact this

/-- C146: a detach, kill, list, resize or variable request is done in the end, however long others stay attached. -/
theorem C146_done (hx : Exec step σ lab) (h0 : σ 0 = start f) (hd : Daemon f) (ha : Apart f) (hf : Fair σ lab) {t : Nat}
    (ht : Request (f t)) : ∃ i, ∀ j, i ≤ j → (σ j).thr t = .done := by
  obtain ⟨i, _, hr⟩ := C146_rests hx h0 hd ha hf t 0
  have hp := prompt_at hx h0 (prompt_request ht) i
  have hdone : (σ i).thr t = .done := by
    cases hq : (σ i).thr t <;> rw [hq] at hr hp <;> simp only [Resting, Prompt] at hr hp
  exact ⟨i, fun j hj => done_stays hx hj hdone⟩

end

/-! ### Attaches are served or refused -/

/-- A program that rests only with a session in hand. -/
def Served : (Lock → Prop) → Prog → Prop
  | _, .done => True
  | H, .acq l p | H, .grab l p => Served (plus H l) p
  | H, .attempt l p q => Served (plus H l) p ∧ Served H q
  | H, .rel l p => Served (minus H l) p
  | H, .work p => Served H p
  | H, .idle p | H, .join _ p => (∃ x, H (.inner x)) ∧ Served H p
  | H, .choice p q => Served H p ∧ Served H q
  | _, .again => False

theorem served_attach (i : Ids) : Served nil (attach i) := by
  simp [attach, stale, create, serve, showPager, bidi, tell, joins, ended, left, touch, Served]

theorem moves_served {s s' : St} {t : Nat} {p q : Prog} (h : Moves s t p q s') (hp : Served (has s t) p) : Served (has s' t) q := by
  cases h with
  | acq | grab => rw [has_plus]; exact hp
  | got => rw [has_plus]; exact hp.1
  | rel => rw [has_minus]; exact hp
  | work => exact hp
  | one => exact hp.1
  | not | two | idle | join => exact hp.2
  | again => exact hp.elim

section
variable {f : Nat → Prog} {σ : Nat → St} {lab : Nat → Option Label}

theorem served_at (hx : Exec step σ lab) (h0 : σ 0 = start f) {t : Nat} (hp : Served nil (f t)) (i : Nat) :
    Served (has (σ i) t) ((σ i).thr t) := by
  induction i with
  | zero =>
    rw [h0]
    have : has (start f) t = nil := by funext k; simp [has, start, nil]
    rw [this]; exact hp
  | succ i ih =>
    rcases hx i with ⟨_, he⟩ | ⟨l, _, hs⟩
    · rw [he]; exact ih
    · obtain ⟨q, hm⟩ := step_moves hs
      rw [moves_thr hm]
      by_cases ht : t = who l
      · subst ht; simp only [if_pos]; exact moves_served hm ih
      · simp only [if_neg ht]; rw [moves_other hm ht]; exact ih

/-- C146 for attaches: in the end an attach is over (it was refused, or something failed) or it has the session. -/
theorem C146_attach (hx : Exec step σ lab) (h0 : σ 0 = start f) (hd : Daemon f) (ha : Apart f) (hf : Fair σ lab) {t : Nat} {i : Ids}
    (ht : f t = attach i) :
    ∃ j, (σ j).thr t = .done ∨ (σ j).held (.inner i.found) = some t ∨ (σ j).held (.inner i.third) = some t := by
  obtain ⟨j, _, hr⟩ := C146_rests hx h0 hd ha hf t 0
  have hs := served_at hx h0 (t := t) (ht ▸ served_attach i) j
  have hsess : (∃ x, has (σ j) t (.inner x)) →
      (σ j).held (.inner i.found) = some t ∨ (σ j).held (.inner i.third) = some t := by
    rintro ⟨x, hxx⟩
    have hk : Keeps (Among i.found i.third) nil (f t) := ht ▸ among_attach i
    have hi := inv_run (P := fun u H => u = t → Among i.found i.third H) hd
      (fun u => by
        by_cases hu : u = t
        · subst hu; exact keeps_mono (fun H h _ => h) hk
        · exact keeps_mono (P := fun _ => True) (fun H _ h => absurd h hu) keeps_all) (run_at hx h0 j)
    rcases keeps_now (hi.keeps t) rfl x hxx with rfl | rfl
    · exact .inl hxx
    · exact .inr hxx
  refine ⟨j, ?_⟩
  cases hq : (σ j).thr t <;> rw [hq] at hr hs <;> simp only [Resting] at hr
  · exact .inl rfl
  · exact .inr (hsess hs.1)
  · exact .inr (hsess hs.1)
  · exact hs.elim

end

/-! ### An example -/

/-- Somebody attaches to session 0; somebody else lists the sessions. -/
def attachAndList : Nat → Prog := fun t =>
  if t = 0 then attach { found := 0, fresh := 1, third := 1, last := 0, c2s := 2, heart := 3, sup := 4, out := 5 }
  else if t = 1 then .acq .shells (list [0])
  else c2s 0

/-- The attach gets the session, and its client stays for ever; the list is done. -/
def stays : List Label :=
  [.go 0 false, .go 0 true, .go 0 true, .go 0 true, .go 0 true, .go 0 true, .go 0 true, .go 0 true, .go 0 false, .go 0 true, .go 0 true,
   .go 0 false, .go 0 true, .go 0 true, .go 0 true, .go 0 false, .go 0 true, .go 0 true, .go 0 false, .go 0 true, .go 0 true, .go 0 false,
   .go 0 true, .go 0 false, .go 0 false,
   .go 1 true, .go 1 true, .go 1 true, .go 1 true, .go 1 false, .go 1 true, .go 1 true]

theorem attachAndList_daemon : Daemon attachAndList := by
  have hh : ∀ t, 2 ≤ t → Helper (attachAndList t) := by
    intro t ht
    have : attachAndList t = c2s 0 := by rw [attachAndList, if_neg (by omega), if_neg (by omega)]
    rw [this]
    exact .c2s 0
  intro t
  by_cases h0 : t = 0
  · subst h0; exact .attach _ (hh 2 (by decide)) (hh 3 (by decide)) (hh 4 (by decide)) (hh 5 (by decide))
  · by_cases h1 : t = 1
    · subst h1; exact .list [0]
    · exact .helper (hh t (by omega))

theorem attachAndList_apart : Apart attachAndList := by
  have : ∀ t i, attachAndList t = attach i → t = 0 := by
    intro t i h
    by_cases h0 : t = 0
    · exact h0
    · by_cases h1 : t = 1
      · subst h1; cases h
      · rw [attachAndList, if_neg h0, if_neg h1] at h; cases h
  intro t u i j hne ht hu
  exact absurd ((this t i ht).trans (this u j hu).symm) hne

theorem stays_run : ∃ s, Run attachAndList stays s ∧ (∃ p, s.thr 0 = .idle p) ∧ s.thr 1 = .done ∧ s.held (.inner 0) = some 0 ∧
    ∀ t, 2 ≤ t → s.thr t = c2s 0 := by
  refine ⟨_, rfl, ⟨_, rfl⟩, rfl, rfl, ?_⟩
  intro t ht
  have h0 : t ≠ 0 := by omega
  have h1 : t ≠ 1 := by omega
  simp [hand, goOn, start, attachAndList, h0, h1]

/-- The hypotheses of C146 are met by that execution, in which the client never leaves. -/
example : ∃ σ lab, Exec step σ lab ∧ σ 0 = start attachAndList ∧ Daemon attachAndList ∧ Apart attachAndList ∧ Fair σ lab ∧
    Request (attachAndList 1) ∧ ∃ n, ∀ i, n ≤ i → (σ i).held (.inner 0) = some 0 := by
  obtain ⟨s, hr, ⟨p, h0⟩, h1, hh, h2⟩ := stays_run
  obtain ⟨hx, hrest⟩ := thenRests_exec (step := step) hr
  refine ⟨_, _, hx, rfl, attachAndList_daemon, attachAndList_apart, fun t => ?_, .list [0], stays.length, fun i hi => by
    rw [hrest i hi]; exact hh⟩
  refine (fair_at_rest hrest fun l hl => ?_).2
  cases l with
  | wake u => simp [isGo] at hl
  | go u b =>
    by_cases hu0 : u = 0
    · subst hu0; simp [step, h0]
    · by_cases hu1 : u = 1
      · subst hu1; simp [step, h1]
      · simp [step, h2 u (by omega), c2s]

end Shpool.Locks
