import Verif.Locks.Model
/-!
# No circle of threads that wait for each other's locks

C145: whenever a thread of the daemon has not finished, it can go on, or it waits (for a lock, or for a thread to end) for another that
waits … for one that can go on.  False: an attach that has just made a session waits for it with the table locked, and whoever has
attached in between needs the table to leave.  True with that one place excepted (`C145_circle_partial`), true of everything without
attaches that make sessions on top of each other (`C145_apart`).
-/

namespace Shpool.Locks

/-! ### Specification -/

/-- Thread `t` cannot go on before `u` has done something: `u` holds the lock `t` is about to take, or `t` joins `u`. -/
def Waits (s : St) (t u : Nat) : Prop :=
  (∃ l p, (s.thr t = .acq l p ∨ s.thr t = .grab l p) ∧ s.held l = some u) ∨ (∃ p, s.thr t = .join u p ∧ s.thr u ≠ .done)

/-- `t` waits for one that waits for one … for `u` (or is `u`). -/
inductive Chain (s : St) : Nat → Nat → Prop
  | here (t) : Chain s t t
  | next {t v u} : Waits s t v → Chain s v u → Chain s t u

/-- Thread `u` can go on. -/
def Can (s : St) (u : Nat) : Prop := (∃ b, (step s (.go u b)).isSome) ∨ (step s (.wake u)).isSome

/-- Thread `u` has just made a session, has locked the table, and waits for a session somebody else has. -/
def Jammed (s : St) (u : Nat) : Prop := ∃ x p v, s.thr u = .grab (.inner x) p ∧ s.held (.inner x) = some v ∧ s.held .shells = some u

/-- All threads are programs of the daemon. -/
def Daemon (f : Nat → Prog) : Prop := ∀ t, Thread f (f t)

/-- The state `s` is reached from threads that have not done anything. -/
def Run (f : Nat → Prog) (ls : List Label) (s : St) : Prop := runSteps step (start f) ls = some s

/-- C145 as one would like it. -/
def C145_statement : Prop :=
  ∀ f ls s, Daemon f → Run f ls s → ∀ t, s.thr t ≠ .done → ∃ u, Chain s t u ∧ Can s u

/-! ### The order of the locks -/

/-- The order: session, slot of the pager, table; the rest.  Between the table and what comes after it is the place for joining. -/
def rank : Lock → Nat
  | .inner _ => 0
  | .pager _ => 1
  | .shells => 2
  | .ctl _ => 4
  | .life _ | .slot _ | .size _ | .fired | .vars => 5

/-- No lock. -/
def nil : Lock → Prop := fun _ => False

/-- A set of locks and one more. -/
def plus (H : Lock → Prop) (l : Lock) : Lock → Prop := fun k => k = l ∨ H k

/-- A set of locks and one less. -/
def minus (H : Lock → Prop) (l : Lock) : Lock → Prop := fun k => k ≠ l ∧ H k

/-- A program that, with the locks `H` in hand, waits for locks upwards only and never for a session, gives back what it has, has at most
a session while it idles or joins, and has nothing in the end; at the one exception it has the table. -/
def Ok (f : Nat → Prog) : (Lock → Prop) → Prog → Prop
  | H, .done => ∀ k, ¬ H k
  | H, .acq l p => (1 ≤ rank l ∧ ∀ k, H k → rank k < rank l) ∧ Ok f (plus H l) p
  | H, .grab l p => ((∃ x, l = .inner x) ∧ ¬ H l ∧ H .shells) ∧ Ok f (plus H l) p
  | H, .attempt l p q => ¬ H l ∧ Ok f (plus H l) p ∧ Ok f H q
  | H, .rel l p => H l ∧ Ok f (minus H l) p
  | H, .work p => Ok f H p
  | H, .idle p => (∀ k, H k → rank k < 1) ∧ Ok f H p
  | H, .choice p q => Ok f H p ∧ Ok f H q
  | H, .join u p => (Helper (f u) ∧ ∀ k, H k → rank k < 1) ∧ Ok f H p
  | H, .again => ∀ k, ¬ H k

/-- A program that takes nothing below the place for joining and joins nobody. -/
def Low : Prog → Prop
  | .done => True
  | .acq l p => 3 < rank l ∧ Low p
  | .grab _ _ => False
  | .attempt _ p q => Low p ∧ Low q
  | .rel _ p => Low p
  | .work p => Low p
  | .idle p => Low p
  | .choice p q => Low p ∧ Low q
  | .join _ _ => False
  | .again => True

/-- A program in which the exception is about sessions in `A` only. -/
def Calm (A : Nat → Prop) : Prog → Prop
  | .done | .again => True
  | .grab l p => (∃ x, l = .inner x ∧ A x) ∧ Calm A p
  | .attempt _ p q | .choice p q => Calm A p ∧ Calm A q
  | .acq _ p | .rel _ p | .work p | .idle p | .join _ p => Calm A p

/-- What a program holds always satisfies `P`. -/
def Keeps (P : (Lock → Prop) → Prop) : (Lock → Prop) → Prog → Prop
  | H, .done => P H
  | H, .acq l p => P H ∧ Keeps P (plus H l) p
  | H, .grab l p => P H ∧ Keeps P (plus H l) p
  | H, .attempt l p q => P H ∧ Keeps P (plus H l) p ∧ Keeps P H q
  | H, .rel l p => P H ∧ Keeps P (minus H l) p
  | H, .work p => P H ∧ Keeps P H p
  | H, .idle p => P H ∧ Keeps P H p
  | H, .choice p q => P H ∧ Keeps P H p ∧ Keeps P H q
  | H, .join _ p => P H ∧ Keeps P H p
  | H, .again => P H

theorem keeps_now {P : (Lock → Prop) → Prop} {H : Lock → Prop} {p : Prog} (h : Keeps P H p) : P H := by
  cases p <;> first | exact h | exact h.1

/-- The set of locks of thread `t`. -/
def has (s : St) (t : Nat) : Lock → Prop := fun l => s.held l = some t

/-! ### The invariant -/

structure Inv' (f : Nat → Prog) (P : Nat → (Lock → Prop) → Prop) (s : St) : Prop where
  code : s.code = f
  begins : ∀ t, Ok f nil (f t) ∧ Keeps (P t) nil (f t) ∧ (Helper (f t) → Low (f t)) ∧
    Calm (fun x => ∃ i, f t = attach i ∧ x = i.third) (f t)
  ok : ∀ t, Ok f (has s t) (s.thr t)
  keeps : ∀ t, Keeps (P t) (has s t) (s.thr t)
  low : ∀ u, Helper (f u) → Low (s.thr u)
  calm : ∀ u, Calm (fun x => ∃ i, f u = attach i ∧ x = i.third) (s.thr u)

theorem has_plus {s : St} {l : Lock} {t : Nat} {p : Prog} : has (hand (goOn s t p) l (some t)) t = plus (has s t) l := by
  funext k
  unfold has plus hand goOn
  by_cases hk : k = l <;> simp [hk]

theorem has_plus_other {s : St} {l : Lock} {t u : Nat} {p : Prog} (hl : s.held l = none) (hu : u ≠ t) :
    has (hand (goOn s t p) l (some t)) u = has s u := by
  funext k
  unfold has hand goOn
  by_cases hk : k = l
  · subst hk; simp [hl, Ne.symm hu]
  · simp [hk]

theorem has_minus {s : St} {l : Lock} {t : Nat} {p : Prog} : has (hand (goOn s t p) l none) t = minus (has s t) l := by
  funext k
  unfold has minus hand goOn
  by_cases hk : k = l <;> simp [hk]

theorem has_minus_other {s : St} {l : Lock} {t u : Nat} {p : Prog} (hl : s.held l = some t) (hu : u ≠ t) :
    has (hand (goOn s t p) l none) u = has s u := by
  funext k
  unfold has hand goOn
  by_cases hk : k = l
  · subst hk; simp [hl, Ne.symm hu]
  · simp [hk]

/-- What a step of thread `t` amounts to: from which program to which, and the new state. -/
inductive Moves (s : St) (t : Nat) : Prog → Prog → St → Prop
  | acq {l p} : s.held l = none → Moves s t (.acq l p) p (hand (goOn s t p) l (some t))
  | grab {l p} : s.held l = none → Moves s t (.grab l p) p (hand (goOn s t p) l (some t))
  | got {l p q} : s.held l = none → Moves s t (.attempt l p q) p (hand (goOn s t p) l (some t))
  | not {l p q} : s.held l ≠ none → Moves s t (.attempt l p q) q (goOn s t q)
  | rel {l p} : s.held l = some t → Moves s t (.rel l p) p (hand (goOn s t p) l none)
  | work {p} : Moves s t (.work p) p (goOn s t p)
  | idle {p} : Moves s t (.idle p) p (goOn s t p)
  | one {p q} : Moves s t (.choice p q) p (goOn s t p)
  | two {p q} : Moves s t (.choice p q) q (goOn s t q)
  | join {u p} : s.thr u = .done → Moves s t (.join u p) p (goOn s t p)
  | again : Moves s t .again (s.code t) (goOn s t (s.code t))

/-- The thread whose step it is. -/
def who : Label → Nat
  | .go t _ => t
  | .wake t => t

theorem step_moves {s s' : St} {l : Label} (h : step s l = some s') : ∃ p, Moves s (who l) (s.thr (who l)) p s' := by
  cases l with
  | wake t =>
    simp only [step] at h
    simp only [who]
    cases hp : s.thr t <;> rw [hp] at h <;> cases h
    exact ⟨_, .idle⟩
  | go t b =>
    simp only [step] at h
    simp only [who]
    cases hp : s.thr t with
    | done => rw [hp] at h; cases h
    | idle p => rw [hp] at h; cases h
    | acq l p =>
      rw [hp] at h
      simp only at h
      split at h <;> cases h
      exact ⟨p, .acq ‹_›⟩
    | grab l p =>
      rw [hp] at h
      simp only at h
      split at h <;> cases h
      exact ⟨p, .grab ‹_›⟩
    | attempt l p q =>
      rw [hp] at h
      simp only at h
      split at h <;> cases h
      · exact ⟨p, .got ‹_›⟩
      · exact ⟨q, .not ‹_›⟩
    | rel l p =>
      rw [hp] at h
      simp only at h
      split at h <;> cases h
      exact ⟨p, .rel ‹_›⟩
    | work p => rw [hp] at h; cases h; exact ⟨p, .work⟩
    | choice p q =>
      rw [hp] at h
      cases h
      cases b
      · exact ⟨q, .two⟩
      · exact ⟨p, .one⟩
    | join u p =>
      rw [hp] at h
      simp only at h
      split at h <;> cases h
      exact ⟨p, .join ‹_›⟩
    | again => rw [hp] at h; cases h; exact ⟨_, .again⟩

theorem moves_thr {s s' : St} {t : Nat} {p q : Prog} (h : Moves s t p q s') : s'.thr = fun u => if u = t then q else s.thr u := by
  cases h <;> rfl

theorem moves_code {s s' : St} {t : Nat} {p q : Prog} (h : Moves s t p q s') : s'.code = s.code := by
  cases h <;> rfl

/-- After a step of `t`, the locks of the others are what they were. -/
theorem moves_other {s s' : St} {t u : Nat} {p q : Prog} (h : Moves s t p q s') (hu : u ≠ t) : has s' u = has s u := by
  cases h with
  | acq hl | grab hl | got hl => exact has_plus_other hl hu
  | rel hl => exact has_minus_other hl hu
  | _ => rfl

theorem not_any {H : Lock → Prop} (h : ∀ k, ¬ H k) : H = nil := by
  funext k; simp [nil, h k]

theorem moves_ok {f : Nat → Prog} {s s' : St} {t : Nat} {p q : Prog} (h : Moves s t p q s') (hc : Ok f nil (s.code t))
    (ho : Ok f (has s t) p) : Ok f (has s' t) q := by
  cases h with
  | acq hl | grab hl => rw [has_plus]; exact ho.2
  | got hl => rw [has_plus]; exact ho.2.1
  | not hl => exact ho.2.2
  | rel hl => rw [has_minus]; exact ho.2
  | work => exact ho
  | idle => exact ho.2
  | one => exact ho.1
  | two => exact ho.2
  | join hl => exact ho.2
  | again =>
    have : has (goOn s t (s.code t)) t = nil := not_any ho
    rw [this]; exact hc

theorem moves_keeps {f : Nat → Prog} {P : (Lock → Prop) → Prop} {s s' : St} {t : Nat} {p q : Prog} (h : Moves s t p q s')
    (hc : Keeps P nil (s.code t)) (hok : Ok f (has s t) p) (ho : Keeps P (has s t) p) : Keeps P (has s' t) q := by
  cases h with
  | acq hl | grab hl => rw [has_plus]; exact ho.2
  | got hl => rw [has_plus]; exact ho.2.1
  | not hl => exact ho.2.2
  | rel hl => rw [has_minus]; exact ho.2
  | work | idle => exact ho.2
  | one => exact ho.2.1
  | two => exact ho.2.2
  | join hl => exact ho.2
  | again =>
    have : has (goOn s t (s.code t)) t = nil := not_any hok
    rw [this]; exact hc

theorem moves_low {s s' : St} {t : Nat} {p q : Prog} (h : Moves s t p q s') (hc : Low (s.code t)) (ho : Low p) : Low q := by
  cases h with
  | acq hl | got hl | one => first | exact ho.2 | exact ho.1
  | grab hl | join hl => exact ho.elim
  | not hl | two => exact ho.2
  | rel hl | work | idle => exact ho
  | again => exact hc

theorem moves_calm {A : Nat → Prop} {s s' : St} {t : Nat} {p q : Prog} (h : Moves s t p q s') (hc : Calm A (s.code t))
    (ho : Calm A p) : Calm A q := by
  cases h with
  | got hl | one => exact ho.1
  | grab hl | not hl | two => exact ho.2
  | acq hl | rel hl | work | idle | join => exact ho
  | again => exact hc

theorem inv_step {f : Nat → Prog} {P : Nat → (Lock → Prop) → Prop} {s s' : St} {l : Label} (hi : Inv' f P s)
    (h : step s l = some s') : Inv' f P s' := by
  obtain ⟨p, hm⟩ := step_moves h
  have ht := moves_thr hm
  have hb := hi.begins (who l)
  rw [← hi.code] at hb
  refine ⟨(moves_code hm).trans hi.code, hi.begins, fun u => ?_, fun u => ?_, fun u hu => ?_, fun u => ?_⟩ <;> rw [ht] <;>
    by_cases hut : u = who l
  · subst hut; simp only [if_pos]; rw [← hi.code] at *; exact moves_ok hm hb.1 (hi.code ▸ hi.ok _)
  · simp only [if_neg hut]; rw [moves_other hm hut]; exact hi.ok u
  · subst hut; simp only [if_pos]; exact moves_keeps hm hb.2.1 (hi.ok _) (hi.keeps _)
  · simp only [if_neg hut]; rw [moves_other hm hut]; exact hi.keeps u
  · subst hut; simp only [if_pos]; exact moves_low hm (hb.2.2.1 (hi.code ▸ hu)) (hi.low _ hu)
  · simp only [if_neg hut]; exact hi.low u hu
  · subst hut; simp only [if_pos]; exact moves_calm hm (hi.code ▸ (hi.begins _).2.2.2) (hi.calm _)
  · simp only [if_neg hut]; exact hi.calm u

/-! ### The programs of the daemon keep to the order -/

@[simp] theorem nil_at {k : Lock} : nil k = False := rfl

@[simp] theorem plus_at {H : Lock → Prop} {l k : Lock} : plus H l k = (k = l ∨ H k) := rfl

@[simp] theorem minus_nil {l : Lock} : minus nil l = nil := by
  funext k; simp [minus]

@[simp] theorem minus_plus {H : Lock → Prop} {l : Lock} : minus (plus H l) l = minus H l := by
  funext k
  unfold minus plus
  by_cases hk : k = l <;> simp [hk]

@[simp] theorem minus_plus_ne {H : Lock → Prop} {l k : Lock} (h : l ≠ k) : minus (plus H l) k = plus (minus H k) l := by
  funext j
  unfold minus plus
  by_cases hj : j = l
  · subst hj; simp [h]
  · simp [hj]

theorem ok_left (f : Nat → Prog) (x : Nat) (i : Ids) : Ok f (plus nil (.inner x)) (left x i) := by
  simp [left, touch, Ok, rank]

theorem ok_joins {f : Nat → Prog} (x : Nat) {i : Ids} (h1 : Helper (f i.c2s)) (h2 : Helper (f i.heart)) (h3 : Helper (f i.sup))
    (h4 : Helper (f i.out)) : Ok f (plus nil (.inner x)) (joins x i) := by
  simp [joins, ended, touch, Ok, rank, h1, h2, h3, h4, ok_left]

theorem ok_bidi {f : Nat → Prog} (x : Nat) {i : Ids} (h1 : Helper (f i.c2s)) (h2 : Helper (f i.heart)) (h3 : Helper (f i.sup))
    (h4 : Helper (f i.out)) : Ok f (plus nil (.inner x)) (bidi x i) := by
  simp [bidi, tell, touch, Ok, rank, ok_joins x h1 h2 h3 h4, ok_left]

theorem ok_serve {f : Nat → Prog} (x : Nat) {i : Ids} (h1 : Helper (f i.c2s)) (h2 : Helper (f i.heart)) (h3 : Helper (f i.sup))
    (h4 : Helper (f i.out)) : Ok f (plus nil (.inner x)) (serve x i) := by
  simp [serve, showPager, touch, Ok, rank, ok_bidi x h1 h2 h3 h4]

theorem ok_create {f : Nat → Prog} {i : Ids} (h1 : Helper (f i.c2s)) (h2 : Helper (f i.heart)) (h3 : Helper (f i.sup))
    (h4 : Helper (f i.out)) : Ok f nil (create i) := by
  simp [create, touch, Ok, rank, ok_serve i.third h1 h2 h3 h4]

theorem ok_attach {f : Nat → Prog} {i : Ids} (h1 : Helper (f i.c2s)) (h2 : Helper (f i.heart)) (h3 : Helper (f i.sup))
    (h4 : Helper (f i.out)) : Ok f nil (attach i) := by
  simp [attach, stale, touch, Ok, rank, ok_serve i.found h1 h2 h3 h4, ok_create h1 h2 h3 h4]

theorem ok_helper {f : Nat → Prog} {p : Prog} (h : Helper p) : Ok f nil p := by
  cases h with
  | c2s x => simp [c2s, Ok, rank]
  | heart x => simp [heart, Ok, rank]
  | sup x => simp [sup, touch, Ok, rank]
  | output x => simp [output, touch, Ok, rank]

theorem low_helper {p : Prog} (h : Helper p) : Low p := by
  cases h with
  | c2s x => simp [c2s, Low, rank]
  | heart x => simp [heart, Low, rank]
  | sup x => simp [sup, touch, Low, rank]
  | output x => simp [output, touch, Low, rank]

theorem ok_thread {f : Nat → Prog} {p : Prog} (h : Thread f p) : Ok f nil p := by
  cases h with
  | none => simp [Ok]
  | helper h => exact ok_helper h
  | attach i h1 h2 h3 h4 => exact ok_attach h1 h2 h3 h4
  | detach xs =>
    refine ⟨by simp [rank], ?_⟩
    induction xs with
    | nil => simp [detach, Ok]
    | cons x xs ih => simp [detach, touch, Ok, rank, ih]
  | kill xs =>
    refine ⟨by simp [rank], ?_⟩
    induction xs with
    | nil => simp [kill, Ok]
    | cons x xs ih => simp [kill, killOne, touch, Ok, rank, ih]
  | list xs =>
    refine ⟨by simp [rank], ?_⟩
    induction xs with
    | nil => simp [list, Ok]
    | cons x xs ih => simp [list, touch, Ok, rank, ih]
  | getVars => simp [getVars, touch, Ok, rank]
  | modifyVar xs =>
    have : ∀ ys, Ok f nil (spread ys) := by
      intro ys
      induction ys with
      | nil => simp [spread, Ok]
      | cons x ys ih => simp [spread, Ok, rank, ih]
    simp [modifyVar, touch, Ok, rank, this]
  | resize x y => simp [resize, Ok, rank]
  | messageDetach x => simp [messageDetach, Ok, rank]
  | reaper xs =>
    induction xs with
    | nil => simp [reaper, Ok]
    | cons x xs ih => simp [reaper, killOne, touch, Ok, rank, ih]
  | pagerSize x => simp [pagerSize, touch, Ok, rank]
  | shellExit x => simp [shellExit, touch, Ok, rank]

theorem calm_thread {f : Nat → Prog} {A : Nat → Prop} {p : Prog} (h : Thread f p) (hA : ∀ i, p = attach i → A i.third) : Calm A p := by
  cases h with
  | none => simp [Calm]
  | helper h =>
    clear hA
    cases h with
    | c2s x => simp [c2s, Calm]
    | heart x => simp [heart, Calm]
    | sup x => simp [sup, touch, Calm]
    | output x => simp [output, touch, Calm]
  | attach i h1 h2 h3 h4 =>
    have := hA i rfl
    simp [attach, stale, create, serve, showPager, bidi, tell, joins, ended, left, touch, Calm, this]
  | detach xs =>
    clear hA
    simp only [Calm]
    induction xs with
    | nil => simp [detach, Calm]
    | cons x xs ih => simp [detach, touch, Calm, ih]
  | kill xs =>
    clear hA
    simp only [Calm]
    induction xs with
    | nil => simp [kill, Calm]
    | cons x xs ih => simp [kill, killOne, touch, Calm, ih]
  | list xs =>
    clear hA
    simp only [Calm]
    induction xs with
    | nil => simp [list, Calm]
    | cons x xs ih => simp [list, touch, Calm, ih]
  | getVars => simp [getVars, touch, Calm]
  | modifyVar xs =>
    have : ∀ ys, Calm A (spread ys) := by
      intro ys
      induction ys with
      | nil => simp [spread, Calm]
      | cons x ys ih => simp [spread, Calm, ih]
    simp [modifyVar, touch, Calm, this]
  | resize x y => simp [resize, Calm]
  | messageDetach x => simp [messageDetach, Calm]
  | reaper xs =>
    clear hA
    induction xs with
    | nil => simp [reaper, Calm]
    | cons x xs ih => simp [reaper, killOne, touch, Calm, ih]
  | pagerSize x => simp [pagerSize, touch, Calm]
  | shellExit x => simp [shellExit, touch, Calm]

theorem inv_run {f : Nat → Prog} {P : Nat → (Lock → Prop) → Prop} {ls : List Label} {s : St} (hd : Daemon f)
    (hk : ∀ t, Keeps (P t) nil (f t)) (h : Run f ls s) : Inv' f P s := by
  have h0 : ∀ t, has (start f) t = nil := by
    intro t; funext k; simp [has, start]
  have hb : ∀ t, Ok f nil (f t) ∧ Keeps (P t) nil (f t) ∧ (Helper (f t) → Low (f t)) ∧
      Calm (fun x => ∃ i, f t = attach i ∧ x = i.third) (f t) := fun t =>
    ⟨ok_thread (hd t), hk t, low_helper, calm_thread (hd t) (fun i hi => ⟨i, hi, rfl⟩)⟩
  refine run_inv (I := fun s => Inv' f P s) (fun s l s' hi hs => inv_step hi hs)
    ⟨rfl, hb, fun t => ?_, fun t => ?_, fun u hu => ?_, fun u => ?_⟩ h
  · rw [h0]; exact ok_thread (hd t)
  · rw [h0]; exact hk t
  · exact low_helper hu
  · exact calm_thread (hd u) (fun i hi => ⟨i, hi, rfl⟩)

theorem keeps_all {H : Lock → Prop} {p : Prog} : Keeps (fun _ => True) H p := by
  induction p generalizing H <;> simp_all [Keeps]

/-! ### Chains end -/

/-- A thread that has not finished: it can go on, or it waits for one that has not finished either. -/
theorem can_or_waits {f : Nat → Prog} {P : Nat → (Lock → Prop) → Prop} {s : St} (hi : Inv' f P s) {t : Nat} (ht : s.thr t ≠ .done) :
    Can s t ∨ (∃ x p v, s.thr t = .grab (.inner x) p ∧ s.held (.inner x) = some v ∧ s.held .shells = some t) ∨
      (∃ l p v, s.thr t = .acq l p ∧ s.held l = some v) ∨ (∃ u p, s.thr t = .join u p ∧ s.thr u ≠ .done ∧ Helper (f u)) := by
  have ho := hi.ok t
  cases hp : s.thr t with
  | done => exact absurd hp ht
  | acq l p =>
    cases hl : s.held l with
    | none => exact .inl (.inl ⟨true, by simp [step, hp, hl]⟩)
    | some v => exact .inr (.inr (.inl ⟨l, p, v, rfl, hl⟩))
  | grab l p =>
    rw [hp] at ho
    obtain ⟨⟨⟨x, rfl⟩, _, hs⟩, _⟩ := ho
    cases hl : s.held (.inner x) with
    | none => exact .inl (.inl ⟨true, by simp [step, hp, hl]⟩)
    | some v => exact .inr (.inl ⟨x, p, v, rfl, hl, hs⟩)
  | attempt l p q =>
    refine .inl (.inl ⟨true, ?_⟩)
    by_cases hl : s.held l = none <;> simp [step, hp, hl]
  | rel l p =>
    rw [hp] at ho
    have hl : s.held l = some t := ho.1
    exact .inl (.inl ⟨true, by simp [step, hp, hl]⟩)
  | work p => exact .inl (.inl ⟨true, by simp [step, hp]⟩)
  | idle p => exact .inl (.inr (by simp [step, hp]))
  | again => exact .inl (.inl ⟨true, by simp [step, hp]⟩)
  | choice p q => exact .inl (.inl ⟨true, by simp [step, hp]⟩)
  | join u p =>
    rw [hp] at ho
    by_cases hu : s.thr u = .done
    · exact .inl (.inl ⟨true, by simp [step, hp, hu]⟩)
    · exact .inr (.inr (.inr ⟨u, p, rfl, hu, ho.1.1⟩))

/-- Who holds a lock has not finished. -/
theorem holder_busy {f : Nat → Prog} {P : Nat → (Lock → Prop) → Prop} {s : St} (hi : Inv' f P s) {l : Lock} {v : Nat}
    (hl : s.held l = some v) : s.thr v ≠ .done := by
  intro hd
  have ho := hi.ok v
  rw [hd] at ho
  exact ho l hl

/-- What a thread waits for, as a number. -/
def level : Prog → Nat
  | .acq l _ => rank l
  | .join _ _ => 3
  | _ => 6

theorem rank_le (l : Lock) : rank l ≤ 5 := by cases l <;> simp [rank]

theorem chain_ends {f : Nat → Prog} {P : Nat → (Lock → Prop) → Prop} {s : St} (hi : Inv' f P s) :
    ∀ n t, s.thr t ≠ .done → 6 - level (s.thr t) ≤ n → ∃ u, Chain s t u ∧ (Can s u ∨ Jammed s u) := by
  intro n
  induction n with
  | zero =>
    intro t ht hn
    rcases can_or_waits hi ht with hc | hj | ⟨l, p, v, hp, hl⟩ | ⟨u, p, hp, hu, hh⟩
    · exact ⟨t, .here t, .inl hc⟩
    · exact ⟨t, .here t, .inr hj⟩
    · rw [hp] at hn; simp only [level] at hn; have := rank_le l; omega
    · rw [hp] at hn; simp only [level] at hn; omega
  | succ n ih =>
    intro t ht hn
    rcases can_or_waits hi ht with hc | hj | ⟨l, p, v, hp, hl⟩ | ⟨u, p, hp, hu, hh⟩
    · exact ⟨t, .here t, .inl hc⟩
    · exact ⟨t, .here t, .inr hj⟩
    · have hb := holder_busy hi hl
      have hlt : rank l < level (s.thr v) := by
        have ho := hi.ok v
        cases hv : s.thr v with
        | done => exact absurd hv hb
        | acq k q => rw [hv] at ho; exact ho.1.2 l hl
        | join k q => rw [hv] at ho; have := ho.1.2 l hl; simp only [level]; omega
        | _ => simp only [level]; have := rank_le l; omega
      rw [hp] at hn
      simp only [level] at hn
      obtain ⟨u, hc, hu⟩ := ih v hb (by omega)
      exact ⟨u, .next (.inl ⟨l, p, .inl hp, hl⟩) hc, hu⟩
    · have hlt : 3 < level (s.thr u) := by
        have hlow := hi.low u hh
        cases hv : s.thr u with
        | done => exact absurd hv hu
        | acq k q => rw [hv] at hlow; exact hlow.1
        | join k q => rw [hv] at hlow; exact hlow.elim
        | _ => simp [level]
      rw [hp] at hn
      simp only [level] at hn
      obtain ⟨w, hc, hw⟩ := ih u hu (by omega)
      exact ⟨w, .next (.inr ⟨p, hp, hu⟩) hc, hw⟩

/-- C145, what holds of every execution: who cannot go on waits, directly or through others, for a thread that can, or for an attach that
has just made a session and waits for it with the table locked.  Missing: that place. -/
theorem C145_circle_partial {f : Nat → Prog} {ls : List Label} {s : St} (hd : Daemon f) (h : Run f ls s) {t : Nat}
    (ht : s.thr t ≠ .done) : ∃ u, Chain s t u ∧ (Can s u ∨ Jammed s u) :=
  chain_ends (inv_run (P := fun _ _ => True) hd (fun _ => keeps_all) h) _ t ht (Nat.le_refl _)

/-! ### The place that is missing -/

/-- Two attaches: the first makes session 0, the second finds it. -/
def twoAttach : Nat → Prog := fun t =>
  if t = 0 then attach { found := 1, fresh := 0, third := 0, last := 0, c2s := 2, heart := 3, sup := 4, out := 5 }
  else if t = 1 then attach { found := 0, fresh := 1, third := 1, last := 0, c2s := 2, heart := 3, sup := 4, out := 5 }
  else c2s 0

/-- The first makes the session; before it looks into the table again, the second attaches, and its client goes. -/
def jam : List Label :=
  [.go 0 false, .go 0 true, .go 0 true, .go 0 false, .go 0 true, .go 0 true, .go 0 false, .go 0 true, .go 0 true, .go 0 true, .go 0 true,
   .go 1 false, .go 1 true, .go 1 true, .go 1 true, .go 1 true, .go 1 true, .go 1 true, .go 1 true, .go 1 false, .go 1 true, .go 1 true, .go 1 false,
   .go 1 true, .go 1 true, .go 1 true, .go 1 false, .go 1 true, .go 1 true, .go 1 true, .go 0 true, .go 0 true]

theorem twoAttach_daemon : Daemon twoAttach := by
  have hh : ∀ t, 2 ≤ t → Helper (twoAttach t) := by
    intro t ht
    have : twoAttach t = c2s 0 := by rw [twoAttach, if_neg (by omega), if_neg (by omega)]
    rw [this]
    exact .c2s 0
  intro t
  by_cases h0 : t = 0
  · subst h0; exact .attach _ (hh 2 (by decide)) (hh 3 (by decide)) (hh 4 (by decide)) (hh 5 (by decide))
  · by_cases h1 : t = 1
    · subst h1; exact .attach _ (hh 2 (by decide)) (hh 3 (by decide)) (hh 4 (by decide)) (hh 5 (by decide))
    · exact .helper (hh t (by omega))

theorem jam_run : ∃ s, Run twoAttach jam s ∧ (∃ p, s.thr 0 = .grab (.inner 0) p) ∧ (∃ p, s.thr 1 = .acq .shells p) ∧
    s.held .shells = some 0 ∧ s.held (.inner 0) = some 1 := by
  refine ⟨_, rfl, ⟨_, rfl⟩, ⟨_, rfl⟩, rfl, rfl⟩

/-- C145 is false: the attach that has made the session has the table and waits for the session; the attach that has the session waits
for the table to leave it. -/
theorem C145_false : ¬ C145_statement := by
  intro hs
  obtain ⟨s, hr, ⟨p, h0⟩, ⟨q, h1⟩, ht, hi⟩ := jam_run
  obtain ⟨u, hc, hb⟩ := hs _ _ _ twoAttach_daemon hr 0 (by rw [h0]; nofun)
  have hw : ∀ t v, t = 0 ∨ t = 1 → Waits s t v → v = 0 ∨ v = 1 := by
    intro t v ht' hw
    rcases ht' with rfl | rfl
    · rcases hw with ⟨l, r, h | h, hl⟩ | ⟨r, h, _⟩ <;> rw [h0] at h <;> cases h
      rw [hi] at hl; cases hl; exact .inr rfl
    · rcases hw with ⟨l, r, h | h, hl⟩ | ⟨r, h, _⟩ <;> rw [h1] at h <;> cases h
      rw [ht] at hl; cases hl; exact .inl rfl
  have hu : ∀ t v, Chain s t v → t = 0 ∨ t = 1 → v = 0 ∨ v = 1 := by
    intro t v hc
    induction hc with
    | here t => exact id
    | next hw' _ ih => exact fun h => ih (hw _ _ h hw')
  rcases hu 0 u hc (.inl rfl) with rfl | rfl
  · simp [Can, step, h0, hi] at hb
  · simp [Can, step, h1, ht] at hb

/-- Two threads in a circle stay in it. -/
theorem circle_stays {s s' : St} {l : Label} {p q : Prog} (h0 : s.thr 0 = .grab (.inner 0) p) (h1 : s.thr 1 = .acq .shells q)
    (ht : s.held .shells = some 0) (hi : s.held (.inner 0) = some 1) (h : step s l = some s') :
    s'.thr 0 = .grab (.inner 0) p ∧ s'.thr 1 = .acq .shells q ∧ s'.held .shells = some 0 ∧ s'.held (.inner 0) = some 1 := by
  obtain ⟨r, hm⟩ := step_moves h
  have hw0 : who l ≠ 0 := by
    intro hw; rw [hw, h0] at hm; cases hm with | grab hl => rw [hi] at hl; cases hl
  have hw1 : who l ≠ 1 := by
    intro hw; rw [hw, h1] at hm; cases hm with | acq hl => rw [ht] at hl; cases hl
  have hthr := moves_thr hm
  have e0 : has s' 0 .shells := by rw [moves_other hm (Ne.symm hw0)]; exact ht
  have e1 : has s' 1 (.inner 0) := by rw [moves_other hm (Ne.symm hw1)]; exact hi
  refine ⟨?_, ?_, e0, e1⟩ <;> rw [hthr]
  · simp only [if_neg (Ne.symm hw0)]; exact h0
  · simp only [if_neg (Ne.symm hw1)]; exact h1

/-- And the two wait for ever: in every continuation, whatever other threads do, the table stays locked. -/
theorem C145_false_for_ever : ∃ s, Run twoAttach jam s ∧ ∀ ls s', runSteps step s ls = some s' →
    s'.held .shells = some 0 ∧ s'.thr 0 ≠ .done ∧ s'.thr 1 ≠ .done := by
  obtain ⟨s, hr, ⟨p, h0⟩, ⟨q, h1⟩, ht, hi⟩ := jam_run
  refine ⟨s, hr, fun ls s' h => ?_⟩
  have := run_inv (I := fun s => s.thr 0 = .grab (.inner 0) p ∧ s.thr 1 = .acq .shells q ∧ s.held .shells = some 0 ∧
    s.held (.inner 0) = some 1) (fun s l s' hI hs => circle_stays hI.1 hI.2.1 hI.2.2.1 hI.2.2.2 hs) ⟨h0, h1, ht, hi⟩ h
  exact ⟨this.2.2.1, by rw [this.1]; nofun, by rw [this.2.1]; nofun⟩

/-! ### Attaches for different sessions -/

/-- No attach that makes a session finds, when it looks for it, one that another attach has to do with.  (Several attaches may find the
same session, and any number of other requests may be about it.) -/
def Apart (f : Nat → Prog) : Prop :=
  ∀ t u i j, t ≠ u → f t = attach i → f u = attach j → i.third ≠ j.found ∧ i.third ≠ j.third

/-- Who has a session has the table as well, or is an attach for that session. -/
def Owns (f : Nat → Prog) (t : Nat) (H : Lock → Prop) : Prop :=
  ∀ x, H (.inner x) → H .shells ∧ (∀ i, f t ≠ attach i) ∨ ∃ i, f t = attach i ∧ (x = i.found ∨ x = i.third)

theorem keeps_mono {P Q : (Lock → Prop) → Prop} (hpq : ∀ H, P H → Q H) {H : Lock → Prop} {p : Prog} (h : Keeps P H p) : Keeps Q H p := by
  induction p generalizing H with
  | done => exact hpq _ h
  | acq l p ih | grab l p ih | rel l p ih => exact ⟨hpq _ h.1, ih h.2⟩
  | attempt l p q ihp ihq | choice p q ihp ihq => exact ⟨hpq _ h.1, ihp h.2.1, ihq h.2.2⟩
  | work p ih | idle p ih | join u p ih => exact ⟨hpq _ h.1, ih h.2⟩
  | again => exact hpq _ h

/-- Who never takes a session. -/
def NoInner (H : Lock → Prop) : Prop := ∀ x, ¬ H (.inner x)

/-- Who has a session has the table. -/
def Under (H : Lock → Prop) : Prop := ∀ x, H (.inner x) → H .shells

/-- The sessions somebody has are among two. -/
def Among (a b : Nat) (H : Lock → Prop) : Prop := ∀ x, H (.inner x) → x = a ∨ x = b

@[simp] theorem under_nil : Under nil := by simp [Under]
@[simp] theorem under_shells {H : Lock → Prop} : Under (plus H .shells) := by simp [Under]
@[simp] theorem under_shells' {H : Lock → Prop} {l : Lock} : Under (plus (plus H .shells) l) := by simp [Under]
@[simp] theorem under_shells'' {H : Lock → Prop} {l k : Lock} : Under (plus (plus (plus H .shells) l) k) := by simp [Under]
@[simp] theorem under_ctl {H : Lock → Prop} {x : Nat} : Under (plus H (.ctl x)) = Under H := by simp [Under]
@[simp] theorem under_life {H : Lock → Prop} {x : Nat} : Under (plus H (.life x)) = Under H := by simp [Under]
@[simp] theorem under_slot {H : Lock → Prop} {x : Nat} : Under (plus H (.slot x)) = Under H := by simp [Under]
@[simp] theorem under_size {H : Lock → Prop} {x : Nat} : Under (plus H (.size x)) = Under H := by simp [Under]
@[simp] theorem under_pager {H : Lock → Prop} {x : Nat} : Under (plus H (.pager x)) = Under H := by simp [Under]
@[simp] theorem under_vars {H : Lock → Prop} : Under (plus H .vars) = Under H := by simp [Under]

theorem under_thread {f : Nat → Prog} {p : Prog} (h : Thread f p) (hn : ∀ i, p ≠ attach i) : Keeps Under nil p := by
  cases h with
  | none => simp [Keeps]
  | helper h =>
    clear hn
    cases h with
    | c2s x => simp [c2s, Keeps]
    | heart x => simp [heart, Keeps]
    | sup x => simp [sup, touch, Keeps]
    | output x => simp [output, touch, Keeps]
  | attach i h1 h2 h3 h4 => exact absurd rfl (hn i)
  | detach xs =>
    clear hn
    refine ⟨by simp, ?_⟩
    induction xs with
    | nil => simp [detach, Keeps]
    | cons x xs ih => simp [detach, touch, Keeps, ih]
  | kill xs =>
    clear hn
    refine ⟨by simp, ?_⟩
    induction xs with
    | nil => simp [kill, Keeps]
    | cons x xs ih => simp [kill, killOne, touch, Keeps, ih]
  | list xs =>
    clear hn
    refine ⟨by simp, ?_⟩
    induction xs with
    | nil => simp [list, Keeps]
    | cons x xs ih => simp [list, touch, Keeps, ih]
  | getVars => simp [getVars, touch, Keeps]
  | modifyVar xs =>
    have : ∀ ys, Keeps Under nil (spread ys) := by
      intro ys
      induction ys with
      | nil => simp [spread, Keeps]
      | cons x ys ih => simp [spread, Keeps, ih]
    simp [modifyVar, touch, Keeps, this]
  | resize x y => simp [resize, Keeps]
  | messageDetach x => simp [messageDetach, Keeps]
  | reaper xs =>
    clear hn
    induction xs with
    | nil => simp [reaper, Keeps]
    | cons x xs ih => simp [reaper, killOne, touch, Keeps, ih]
  | pagerSize x => simp [pagerSize, touch, Keeps]
  | shellExit x => simp [shellExit, touch, Keeps]

theorem among_attach (i : Ids) : Keeps (Among i.found i.third) nil (attach i) := by
  have hb : ∀ x, x = i.found ∨ x = i.third → Keeps (Among i.found i.third) (plus nil (.inner x)) (serve x i) := by
    intro x hx
    simp [serve, showPager, bidi, tell, joins, ended, left, touch, Keeps, Among, hx]
  have hc : Keeps (Among i.found i.third) nil (create i) := by
    have := hb i.third (.inr rfl)
    simp [create, touch, Keeps, this]
    simp [Among]
  have := hb i.found (.inl rfl)
  simp [attach, stale, touch, Keeps, hc, this]
  simp [Among]

theorem owns_thread {f : Nat → Prog} (hd : Daemon f) (t : Nat) : Keeps (Owns f t) nil (f t) := by
  by_cases h : ∃ i, f t = attach i
  · obtain ⟨i, hi⟩ := h
    have := among_attach i
    rw [← hi] at this
    exact keeps_mono (fun H hH x hx => .inr ⟨i, hi, hH x hx⟩) this
  · have hn : ∀ i, f t ≠ attach i := fun i hi => h ⟨i, hi⟩
    exact keeps_mono (fun H hH x hx => .inl ⟨hH x hx, hn⟩) (under_thread (hd t) hn)

theorem apart_never_jams {f : Nat → Prog} {ls : List Label} {s : St} (hd : Daemon f) (ha : Apart f) (h : Run f ls s) (u : Nat) :
    ¬ Jammed s u := by
  rintro ⟨x, p, v, hp, hx, hs⟩
  have hi := inv_run (P := Owns f) hd (owns_thread hd) h
  have hc := hi.calm u
  rw [hp] at hc
  obtain ⟨⟨_, he, i, hu, rfl⟩, _⟩ := hc
  cases he
  have hne : v ≠ u := by
    rintro rfl
    have ho := hi.ok v
    rw [hp] at ho
    exact ho.1.2.1 hx
  rcases keeps_now (hi.keeps v) _ hx with ⟨hsh, _⟩ | ⟨j, hj, hx⟩
  · have : s.held .shells = some v := hsh
    rw [hs] at this
    cases this
    exact hne rfl
  · have := ha u v i j (Ne.symm hne) hu hj
    omega

/-- C145 for attaches none of which finds, after making a session, one of another attach, next to any number of other requests for any sessions, their connections'
threads, pagers and the reaper: who cannot go on waits, directly or through others, for a thread that can. -/
theorem C145_apart {f : Nat → Prog} {ls : List Label} {s : St} (hd : Daemon f) (ha : Apart f) (h : Run f ls s) {t : Nat}
    (ht : s.thr t ≠ .done) : ∃ u, Chain s t u ∧ Can s u := by
  obtain ⟨u, hc, hu | hj⟩ := C145_circle_partial hd h ht
  · exact ⟨u, hc, hu⟩
  · exact (apart_never_jams hd ha h u hj).elim

/-! ### When nothing can go on -/

/-- When nothing can go on any more, every thread has finished, or an attach sits at that one place. -/
theorem C145_rest_partial {f : Nat → Prog} {ls : List Label} {s : St} (hd : Daemon f) (h : Run f ls s) (hq : ∀ u, ¬ Can s u) :
    (∀ t, s.thr t = .done) ∨ ∃ u, Jammed s u := by
  refine Classical.byContradiction fun hn => ?_
  have : ∃ t, s.thr t ≠ .done := Classical.byContradiction fun h' => hn (.inl fun t => Classical.byContradiction fun ht => h' ⟨t, ht⟩)
  obtain ⟨t, ht⟩ := this
  obtain ⟨u, _, hc | hj⟩ := C145_circle_partial hd h ht
  · exact hq u hc
  · exact hn (.inr ⟨u, hj⟩)

/-- With such attaches: when nothing can go on any more, every thread has finished and every lock is free. -/
theorem C145_rest {f : Nat → Prog} {ls : List Label} {s : St} (hd : Daemon f) (ha : Apart f) (h : Run f ls s)
    (hq : ∀ u, ¬ Can s u) : (∀ t, s.thr t = .done) ∧ ∀ l, s.held l = none := by
  have hall : ∀ t, s.thr t = .done := by
    rcases C145_rest_partial hd h hq with hall | ⟨u, hj⟩
    · exact hall
    · exact (apart_never_jams hd ha h u hj).elim
  refine ⟨hall, fun l => ?_⟩
  cases hl : s.held l with
  | none => rfl
  | some v => exact (holder_busy (inv_run (P := fun _ _ => True) hd (fun _ => keeps_all) h) hl (hall v)).elim

/-! ### Examples -/

/-- Two attaches that find session 0 (one of them will hear that it is busy), next to a kill, a list and two other messages about that
session, the reaper and the threads of a connection. -/
def crowd : Nat → Prog
  | 0 => attach { found := 0, fresh := 10, third := 10, last := 0, c2s := 2, heart := 3, sup := 4, out := 5 }
  | 1 => attach { found := 0, fresh := 11, third := 11, last := 0, c2s := 2, heart := 3, sup := 4, out := 5 }
  | 2 => c2s 0
  | 3 => heart 0
  | 4 => sup 0
  | 5 => output 0
  | 6 => .acq .shells (kill [0])
  | 7 => .acq .shells (list [0])
  | 8 => resize 0 0
  | 9 => messageDetach 0
  | 10 => reaper [0]
  | _ => .done

theorem crowd_daemon : Daemon crowd := by
  intro t
  match t with
  | 0 => exact .attach _ (.c2s 0) (.heart 0) (.sup 0) (.output 0)
  | 1 => exact .attach _ (.c2s 0) (.heart 0) (.sup 0) (.output 0)
  | 2 => exact .helper (.c2s 0)
  | 3 => exact .helper (.heart 0)
  | 4 => exact .helper (.sup 0)
  | 5 => exact .helper (.output 0)
  | 6 => exact .kill [0]
  | 7 => exact .list [0]
  | 8 => exact .resize 0 0
  | 9 => exact .messageDetach 0
  | 10 => exact .reaper [0]
  | _ + 11 => exact .none

/-- The first attach has the session and waits for the table that the list has; the list can go on. -/
example : ∃ s, Run crowd
    ([.go 0 false, .go 0 true, .go 0 true, .go 0 true, .go 0 true, .go 0 true, .go 0 true, .go 0 true, .go 0 false, .go 0 true, .go 0 true, .go 0 false,
      .go 0 true, .go 0 true, .go 0 true, .go 0 false, .go 0 true, .go 0 true, .go 0 true] ++ [.go 7 true]) s ∧
    Waits s 0 7 ∧ s.held (.inner 0) = some 0 ∧ Can s 7 ∧ Waits s 6 7 := by
  refine ⟨_, rfl, .inl ⟨.shells, _, .inl rfl, rfl⟩, rfl, .inl ⟨true, rfl⟩, .inl ⟨.shells, _, .inl rfl, rfl⟩⟩

/-- The circle of `C145_false` meets the hypotheses of `C145_circle_partial`. -/
example : ∃ s, Run twoAttach jam s ∧ s.thr 1 ≠ .done ∧ Chain s 1 0 ∧ Jammed s 0 := by
  obtain ⟨s, hr, ⟨p, h0⟩, ⟨q, h1⟩, ht, hi⟩ := jam_run
  exact ⟨s, hr, by rw [h1]; nofun, .next (.inl ⟨_, _, .inl h1, ht⟩) (.here 0), 0, p, 1, h0, hi, ht⟩

theorem crowd_apart : Apart crowd := by
  have hat : ∀ t i, crowd t = attach i → (t = 0 ∧ i.found = 0 ∧ i.third = 10) ∨ (t = 1 ∧ i.found = 0 ∧ i.third = 11) := by
    intro t i h
    have key : ∀ j k : Ids, attach j = attach k → j.found = k.found ∧ j.third = k.third := by
      intro j k hjk
      simp only [attach, Prog.choice.injEq, Prog.work.injEq, Prog.acq.injEq, Prog.attempt.injEq, Lock.inner.injEq, Prog.rel.injEq, create,
        touch, Prog.grab.injEq] at hjk
      simp_all
    match t with
    | 0 => have := key _ _ h; exact .inl ⟨rfl, this.1.symm, this.2.symm⟩
    | 1 => have := key _ _ h; exact .inr ⟨rfl, this.1.symm, this.2.symm⟩
    | 2 | 3 | 4 | 5 | 6 | 7 | 8 | 9 | 10 => cases h
    | _ + 11 => cases h
  intro t u i j hne ht hu
  rcases hat t i ht with ⟨_, _, _⟩ | ⟨_, _, _⟩ <;> rcases hat u j hu with ⟨_, _, _⟩ | ⟨_, _, _⟩ <;> omega

/-- A list on its own: when it can go no further it has finished. -/
example : ∃ s, Run (fun t => if t = 0 then .acq .shells (list [4]) else .done)
    [.go 0 true, .go 0 true, .go 0 true, .go 0 true, .go 0 true, .go 0 false, .go 0 true, .go 0 true] s ∧ (∀ u, ¬ Can s u) ∧ s.held .shells = none := by
  refine ⟨_, rfl, ?_, rfl⟩
  intro u hu'
  by_cases hu : u = 0
  · subst hu; rcases hu' with ⟨b, hb⟩ | hb <;> cases hb
  · simp [Can, step, start, hand, goOn, hu] at hu'

end Shpool.Locks
