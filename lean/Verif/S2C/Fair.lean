import Verif.S2C.Props
import Verif.Util.Fair

/-!
# The shell-to-client thread in every fair execution

Fairness here means that the thread is scheduled and that the arm of the `select!` for switch hints, which may go back to the `select!`
without reaching `poll` (shell.rs 445-480), does not win for ever against the other arms (crossbeam chooses among ready arms at random).
-/

namespace Shpool.S2C

/-- The steps with which the thread goes on. -/
def isTurn : Label → Bool
  | .select (.maybeSwitch _) => false
  | .select _ => true
  | .settle => true
  | .poll _ => true
  | _ => false

/-- The thread is in its loop. -/
def Going (s : St) : Prop := s.pc = .select ∨ (∃ r, s.pc = .settle r) ∨ s.pc = .poll

theorem going_of {s : St} (hr : Running s) (hw : s.pc ≠ .waitInitial) : Going s := by
  cases hpc : s.pc with
  | waitInitial => exact absurd hpc hw
  | select => exact .inl hpc
  | settle r => exact .inr (.inl ⟨r, hpc⟩)
  | poll => exact .inr (.inr hpc)
  | ended e => exact absurd hpc (hr e)

theorem going_can (P : Params) {s : St} (h : Going s) : Can (step P) isTurn s := by
  rcases h with h | ⟨r, h⟩ | h
  · exact ⟨.select .default, rfl, by simp [step, h]⟩
  · exact ⟨.settle, rfl, by simp [step, h]⟩
  · exact ⟨.poll .error, rfl, by simp [step, h, pollStep]⟩

/-- How far the thread is from the next `poll`. -/
def toPoll (s : St) : Nat :=
  match s.pc with
  | .poll => 0
  | .settle _ => 1
  | _ => 2

/-- How far the thread is from the next execution of a pending resize. -/
def toSettle (s : St) : Nat :=
  match s.pc with
  | .settle _ => 0
  | .select => 1
  | _ => 2

theorem step_going {P : Params} {s s' : St} {l : Label} (h : step P s l = some s') (hg : Going s) (hr : Running s') : Going s' := by
  refine going_of hr fun hw => ?_
  have hn : s.pc ≠ .waitInitial := by rcases hg with h | ⟨r, h⟩ | h <;> rw [h] <;> simp
  cases step_eff P s s' l h <;> first | exact hn hw | cases hw

theorem step_read {P : Params} {s s' : St} {l : Label} (h : step P s l = some s') (hr : Running s') (hp : s.pending ≠ []) (hg : Going s) :
    s.read.length ≤ s'.read.length ∧ (s'.read.length = s.read.length → toPoll s' ≤ toPoll s ∧ (isTurn l = true → toPoll s' < toPoll s)) := by
  have hn : s.pc ≠ .waitInitial := by rcases hg with h | ⟨r, h⟩ | h <;> rw [h] <;> simp
  cases step_eff P s s' l h with
  | initNew _ _ he => exact absurd he hn
  | initOther _ he => exact absurd he hn
  | timeout _ he => exact absurd he hp
  | hidden n _ _ _ h1 _ h2 =>
    have : (s.read ++ s.pending.take n).length = s.read.length + n := by simp; omega
    exact ⟨by dsimp only; omega, fun h => by dsimp only at h; omega⟩
  | noClient n _ _ _ _ h1 _ h2 =>
    have : (s.read ++ s.pending.take n).length = s.read.length + n := by simp; omega
    exact ⟨by dsimp only; omega, fun h => by dsimp only at h; omega⟩
  | relay n _ _ _ _ _ h1 _ h2 =>
    have : (s.read ++ s.pending.take n).length = s.read.length + n := by simp; omega
    exact ⟨by dsimp only; omega, fun h => by dsimp only at h; omega⟩
  | broken n _ _ _ _ _ h1 _ h2 =>
    have : (s.read ++ s.pending.take n).length = s.read.length + n := by simp; omega
    exact ⟨by dsimp only; omega, fun h => by dsimp only at h; omega⟩
  | _ => first
    | exact absurd rfl (hr _)
    | (refine ⟨Nat.le_refl _, fun _ => ⟨?_, ?_⟩⟩ <;> simp [toPoll, isTurn, *])

/-- C19 over time: in every fair execution in which the thread goes on, whatever clients come and go, all that the shell has written at
some moment is later read, and the history then is its visible part. -/
theorem C19_fair {P : Params} {σ : Nat → St} {lab : Nat → Option Label} (hx : Exec (step P) σ lab) (h0 : σ 0 = init P)
    (hf : WeakFair (step P) σ lab isTurn) {j : Nat} (hw : (σ j).pc ≠ .waitInitial) (hr : ∀ i, j ≤ i → Running (σ i)) :
    ∃ i, j ≤ i ∧ written (performed lab j) <+: (σ i).read ∧
      processed (σ i).spool = Sentinel.shownOf P.supportsSentinels [(σ i).read] := by
  have run : ∀ i, Run P (performed lab i) (σ i) := fun i => by have h := exec_run hx i; rw [h0] at h; exact h
  have pre : ∀ i, j ≤ i → written (performed lab j) <+: (σ i).read ++ (σ i).pending := by
    intro i hi
    obtain ⟨ls, h1, _⟩ := exec_between hx hi
    rw [← run_written (run i), h1]
    exact ⟨written ls, by simp [written]⟩
  have hg : ∀ i, j ≤ i → Going (σ i) :=
    exec_stays hx (p := Going) (fun i l hi _ hp h => step_going h hp (hr _ (by omega))) (going_of (hr j (Nat.le_refl _)) hw)
  by_cases hd : (written (performed lab j)).length ≤ (σ j).read.length
  · exact ⟨j, Nat.le_refl _, List.prefix_of_prefix_length_le (pre j (Nat.le_refl _)) (List.prefix_append _ _) hd, C19_history P _ _ (run j)⟩
  obtain ⟨i, hi, h⟩ := fair_reaches hx hf (B := fun s => (written (performed lab j)).length > s.read.length)
    (G := fun s => (written (performed lab j)).length ≤ s.read.length)
    (fun s => 3 * ((written (performed lab j)).length - s.read.length) + toPoll s) (m := j) (by omega)
    (fun i hi _ => going_can P (hg i hi))
    (fun i l hi _ hb h => by
      have hp : (σ i).pending ≠ [] := by
        intro hp
        have := (pre i hi).length_le
        simp only [hp, List.append_nil] at this
        omega
      obtain ⟨h1, h2⟩ := step_read h (hr _ (by omega)) hp (hg i hi)
      by_cases hc : (written (performed lab j)).length ≤ (σ (i + 1)).read.length
      · exact .inl hc
      · refine .inr ⟨by omega, ?_⟩
        have h3 : toPoll (σ (i + 1)) ≤ 2 := by unfold toPoll; split <;> omega
        by_cases he : (σ (i + 1)).read.length = (σ i).read.length
        · have := h2 he
          rw [he]
          exact ⟨by omega, fun ha => by have := this.2 ha; omega⟩
        · exact ⟨by omega, fun _ => by omega⟩)
  exact ⟨i, hi, List.prefix_of_prefix_length_le (pre i hi) (List.prefix_append _ _) h, C19_history P _ _ (run i)⟩

theorem ended_no_client {P : Params} {ls : List Label} {s : St} (h : Run P ls s) : ∀ {e}, s.pc = .ended e → s.client = none := by
  intro e
  refine run_inv (I := fun s => s.pc = .ended e → s.client = none) ?_ (fun he => by cases he) h
  intro s l s' hI h he
  cases step_eff P s s' l h with
  | breaks h c hc => rw [hI he] at hc; cases hc
  | _ => first | exact hI he | rfl | cases he

theorem step_now {P : Params} {s s' : St} {l : Label} (h : step P s l = some s') : s.now ≤ s'.now := by
  cases step_eff P s s' l h <;> first | exact Nat.le_refl _ | exact Nat.le_add_right _ _

/-- C18 over time, without prompt injection: in every fair execution a client that stays attached and working receives, after what it had
received and the message of the day if due, all that the shell had written and that was still unread, and what follows it. -/
theorem C18_fair_partial {P : Params} {σ : Nat → St} {lab : Nat → Option Label} (hx : Exec (step P) σ lab) (h0 : σ 0 = init P)
    (hf : WeakFair (step P) σ lab isTurn) (hp : P.supportsSentinels = false) {j : Nat} {c : Conn}
    (hpc : (σ j).pc ≠ .settle true ∧ (σ j).pc ≠ .waitInitial) (hc : ∀ i, j ≤ i → (σ i).client = some c) (hok : c.health = .ok) :
    ∃ i m rest, j ≤ i ∧ dataTo (σ i).out c.id = dataTo (σ j).out c.id ++ m ++ (σ j).pending ++ rest ∧
      ((σ j).needsMotd = false → m = []) := by
  have run : ∀ i, Run P (performed lab i) (σ i) := fun i => by have h := exec_run hx i; rw [h0] at h; exact h
  have hr : ∀ i, j ≤ i → Running (σ i) := by
    intro i hi e he
    have := ended_no_client (run i) he
    rw [hc i hi] at this
    cases this
  obtain ⟨i, hi, hpre, -⟩ := C19_fair hx h0 hf hpc.2 hr
  obtain ⟨ls, -, h⟩ := exec_between hx hi
  obtain ⟨ops, m, h1, h2, h3, -, -⟩ := C18_relay_partial P _ ls _ _ c c (run j) (hc j (Nat.le_refl _)) hpc h (hc i hi) rfl hok
  have e1 := C19_complete P _ _ (run i) hp
  have e2 := C19_complete P _ _ (run j) hp
  rw [h1, processed_append, e2] at e1
  rw [run_written (run j), ← e1] at hpre
  obtain ⟨rest, hrest⟩ := hpre
  rw [List.append_assoc] at hrest
  have := List.append_cancel_left hrest
  exact ⟨i, m, rest, hi, by rw [h2, ← this]; simp, h3⟩

theorem requested_going {P : Params} {ls : List Label} {s : St} (h : Run P ls s) : s.pc = .waitInitial → lastRequested ls = none := by
  refine run_hist (I := fun ls s => s.pc = .waitInitial → lastRequested ls = none) ?_ (fun _ => rfl) h
  intro ls s l s' hI h hw
  cases step_eff P s s' l h <;> first | (rw [lastRequested_none rfl]; exact hI hw) | cases hw

theorem step_resize {P : Params} {s s' : St} {l : Label} {z : TtySize} {due : Nat} (h : step P s l = some s') (hr : Running s') (hg : Going s)
    (hq : request l = none) (hz : s.resize = some (z, due)) :
    s'.resize = none ∨ (s'.resize = some (z, due) ∧ s.now ≤ s'.now ∧
      (due ≤ s.now → toSettle s' ≤ toSettle s ∧ (isTurn l = true → toSettle s' < toSettle s))) := by
  have hn : s.pc ≠ .waitInitial := by rcases hg with h | ⟨r, h⟩ | h <;> rw [h] <;> simp
  cases step_eff P s s' l h with
  | initNew _ _ he => exact absurd he hn
  | initOther _ he => exact absurd he hn
  | newOk => cases hq
  | size => cases hq
  | settleDue => exact .inl rfl
  | settleLate r _ he => exact .inr ⟨hz, Nat.le_refl _, fun hd => absurd (he z due hz) (by omega)⟩
  | tick ms => exact .inr ⟨hz, Nat.le_add_right _ _, fun _ => ⟨Nat.le_refl _, nofun⟩⟩
  | _ => first
    | exact absurd rfl (hr _)
    | (refine .inr ⟨hz, Nat.le_refl _, fun _ => ⟨?_, ?_⟩⟩ <;> simp [toSettle, isTurn, *])

theorem step_no_resize {P : Params} {s s' : St} {l : Label} (h : step P s l = some s') (hq : request l = none) (hz : s.resize = none) :
    s'.resize = none := by
  cases step_eff P s s' l h <;> first | exact hz | rfl | cases hq

/-- C23 over time: in every fair execution in which time goes on and the thread too, after the last attach or resize request the pty comes
to have the size asked for and keeps it. -/
theorem C23_fair {P : Params} {σ : Nat → St} {lab : Nat → Option Label} (hx : Exec (step P) σ lab) (h0 : σ 0 = init P)
    (hf : WeakFair (step P) σ lab isTurn) (ht : ∀ t, ∃ i, t ≤ (σ i).now) {j : Nat} {z : TtySize}
    (hz : lastRequested (performed lab j) = some z) (hq : ∀ i l, j ≤ i → lab i = some l → request l = none)
    (hr : ∀ i, j ≤ i → Running (σ i)) : ∃ k, ∀ i, k ≤ i → (σ i).pty = z ∧ (σ i).resize = none := by
  have run : ∀ i, Run P (performed lab i) (σ i) := fun i => by have h := exec_run hx i; rw [h0] at h; exact h
  have hw : (σ j).pc ≠ .waitInitial := fun hw => by rw [requested_going (run j) hw] at hz; cases hz
  have hg : ∀ i, j ≤ i → Going (σ i) :=
    exec_stays hx (p := Going) (fun i l hi _ hp h => step_going h hp (hr _ (by omega))) (going_of (hr j (Nat.le_refl _)) hw)
  have last : ∀ i, j ≤ i → lastRequested (performed lab i) = some z := by
    intro i hi
    obtain ⟨d, rfl⟩ := Nat.le.dest hi
    clear hi
    induction d with
    | zero => exact hz
    | succ d ih =>
      show lastRequested (performed lab (j + d) ++ (lab (j + d)).toList) = some z
      cases hl : lab (j + d) with
      | none => simpa using ih
      | some l => rw [Option.toList, lastRequested_none (hq _ l (by omega) hl)]; exact ih
  have done : ∀ k, j ≤ k → (σ k).resize = none → ∀ i, k ≤ i → (σ i).pty = z ∧ (σ i).resize = none := by
    intro k hk hn i hi
    have := exec_stays hx (p := fun s => s.resize = none) (fun i l hi hl hp h => step_no_resize h (hq i l (by omega) hl) hp) hn i hi
    exact ⟨C23_settled P _ _ (run i) (hr i (by omega)) this z (last i (by omega)), this⟩
  refine Classical.byContradiction fun hno => ?_
  have hne : ∀ i, j ≤ i → (σ i).resize ≠ none := fun i hi hn => hno ⟨i, done i hi hn⟩
  obtain ⟨⟨z', due⟩, hzd⟩ := Option.ne_none_iff_exists'.mp (hne j (Nat.le_refl _))
  have keep : ∀ i, j ≤ i → (σ i).resize = some (z', due) :=
    exec_stays hx (p := fun s => s.resize = some (z', due)) (fun i l hi hl hp h =>
      ((step_resize h (hr _ (by omega)) (hg i hi) (hq i l hi hl) hp).resolve_left (hne _ (by omega))).1) hzd
  have hnow : ∃ k, j ≤ k ∧ due ≤ (σ k).now := by
    obtain ⟨i, hi⟩ := ht due
    by_cases hij : j ≤ i
    · exact ⟨i, hij, hi⟩
    · refine ⟨j, Nat.le_refl _, ?_⟩
      exact exec_stays hx (p := fun s => due ≤ s.now) (m := i) (fun _ l _ _ hp h => Nat.le_trans hp (step_now h)) hi j (by omega)
  obtain ⟨k, hk, hdk⟩ := hnow
  obtain ⟨i, hi, hG⟩ := fair_reaches hx hf (B := fun s => due ≤ s.now) (G := fun s => s.resize = none) toSettle (m := k) hdk
    (fun i hi _ => going_can P (hg i (by omega)))
    (fun i l hi hl hb h => by
      rcases step_resize h (hr _ (by omega)) (hg i (by omega)) (hq i l (by omega) hl) (keep i (by omega)) with h1 | ⟨-, h2, h3⟩
      · exact .inl h1
      · exact .inr ⟨by omega, h3 hb⟩)
  exact hne i (by omega) hG

/-- An execution: a client attaches, the shell writes, the thread goes round and time goes on. -/
def rounds (i : Nat) : Label :=
  match i with
  | 0 => .initial (some (.new 1 z0))
  | 1 => .shellWrite [104, 105]
  | 2 => .select .default
  | 3 => .settle
  | 4 => .poll (.read 2)
  | i + 5 => match i % 4 with
    | 0 => .tick 50
    | 1 => .select .default
    | 2 => .settle
    | _ => .poll .timeout

def roundsAt : Nat → St := follow (step P0) (init P0) rounds

theorem rounds_label (n : Nat) : rounds (5 + 4 * n) = .tick 50 ∧ rounds (5 + 4 * n + 1) = .select .default ∧
    rounds (5 + 4 * n + 2) = .settle ∧ rounds (5 + 4 * n + 3) = .poll .timeout := by
  have e : ∀ i, rounds (i + 5) = match i % 4 with | 0 => .tick 50 | 1 => .select .default | 2 => .settle | _ => .poll .timeout := fun _ => rfl
  refine ⟨?_, ?_, ?_, ?_⟩
  · rw [show 5 + 4 * n = (4 * n) + 5 by omega, e, show 4 * n % 4 = 0 by omega]; rfl
  · rw [show 5 + 4 * n + 1 = (4 * n + 1) + 5 by omega, e, show (4 * n + 1) % 4 = 1 by omega]; rfl
  · rw [show 5 + 4 * n + 2 = (4 * n + 2) + 5 by omega, e, show (4 * n + 2) % 4 = 2 by omega]; rfl
  · rw [show 5 + 4 * n + 3 = (4 * n + 3) + 5 by omega, e, show (4 * n + 3) % 4 = 3 by omega]; rfl

theorem rounds_round (n : Nat) (h : roundsAt (5 + 4 * n) = { roundsAt 5 with now := 50 * n }) :
    roundsAt (5 + 4 * n + 1) = { roundsAt 5 with now := 50 * n + 50 } ∧
    roundsAt (5 + 4 * n + 2) = { roundsAt 5 with now := 50 * n + 50, pc := .settle false } ∧
    roundsAt (5 + 4 * n + 3) = { roundsAt 5 with now := 50 * n + 50, pc := .poll } ∧
    roundsAt (5 + 4 * n + 4) = { roundsAt 5 with now := 50 * n + 50 } := by
  obtain ⟨e0, e1, e2, e3⟩ := rounds_label n
  have f0 : roundsAt (5 + 4 * n + 1) = { roundsAt 5 with now := 50 * n + 50 } := by
    show (step P0 (roundsAt (5 + 4 * n)) (rounds (5 + 4 * n))).getD _ = _
    rw [e0, h]; rfl
  have f1 : roundsAt (5 + 4 * n + 2) = { roundsAt 5 with now := 50 * n + 50, pc := .settle false } := by
    show (step P0 (roundsAt (5 + 4 * n + 1)) (rounds (5 + 4 * n + 1))).getD _ = _
    rw [e1, f0]; rfl
  have f2 : roundsAt (5 + 4 * n + 3) = { roundsAt 5 with now := 50 * n + 50, pc := .poll } := by
    show (step P0 (roundsAt (5 + 4 * n + 2)) (rounds (5 + 4 * n + 2))).getD _ = _
    rw [e2, f1]; rfl
  refine ⟨f0, f1, f2, ?_⟩
  show (step P0 (roundsAt (5 + 4 * n + 3)) (rounds (5 + 4 * n + 3))).getD _ = _
  rw [e3, f2]; rfl

theorem rounds_at (n : Nat) : roundsAt (5 + 4 * n) = { roundsAt 5 with now := 50 * n } := by
  induction n with
  | zero => rfl
  | succ n ih => exact (rounds_round n ih).2.2.2

theorem rounds_cases (i : Nat) : i < 5 ∨ ∃ n, i = 5 + 4 * n ∨ i = 5 + 4 * n + 1 ∨ i = 5 + 4 * n + 2 ∨ i = 5 + 4 * n + 3 := by
  by_cases h : i < 5
  · exact .inl h
  · exact .inr ⟨(i - 5) / 4, by omega⟩

theorem rounds_exec : Exec (step P0) roundsAt (fun i => some (rounds i)) := by
  refine follow_exec fun i => ?_
  show (step P0 (roundsAt i) (rounds i)).isSome = true
  rcases rounds_cases i with h | ⟨n, h⟩
  · match i, h with
    | 0, _ => rfl
    | 1, _ => rfl
    | 2, _ => rfl
    | 3, _ => rfl
    | 4, _ => decide
  · obtain ⟨e0, e1, e2, e3⟩ := rounds_label n
    obtain ⟨f0, f1, f2, -⟩ := rounds_round n (rounds_at n)
    rcases h with rfl | rfl | rfl | rfl
    · rw [e0]; rfl
    · rw [e1, f0]; rfl
    · rw [e2, f1]; rfl
    · rw [e3, f2]; rfl

/-- The hypotheses of `C19_fair`, `C18_fair_partial` and `C23_fair`: output waits to be read when `j = 2`. -/
example : Exec (step P0) roundsAt (fun i => some (rounds i)) ∧ roundsAt 0 = init P0 ∧
    WeakFair (step P0) roundsAt (fun i => some (rounds i)) isTurn ∧ (∀ t, ∃ i, t ≤ (roundsAt i).now) ∧
    lastRequested (performed (fun i => some (rounds i)) 2) = some z0 ∧ (∀ i l, 2 ≤ i → some (rounds i) = some l → request l = none) ∧
    (∀ i, 2 ≤ i → (roundsAt i).client = some ⟨1, z0, .ok⟩ ∧ Running (roundsAt i)) ∧ (roundsAt 2).pending = [104, 105] ∧
    (roundsAt 2).pc = .select := by
  refine ⟨rounds_exec, rfl, fun _ n => ?_, fun t => ⟨5 + 4 * t, ?_⟩, by decide, ?_, ?_, by decide, by decide⟩
  · exact ⟨5 + 4 * n + 1, .select .default, by omega, congrArg some (rounds_label n).2.1, rfl⟩
  · rw [rounds_at]; show t ≤ 50 * t; omega
  · intro i l hi hl
    cases hl
    rcases rounds_cases i with h | ⟨n, h⟩
    · match i, h, hi with
      | 2, _, _ => rfl
      | 3, _, _ => rfl
      | 4, _, _ => rfl
    · obtain ⟨e0, e1, e2, e3⟩ := rounds_label n
      rcases h with rfl | rfl | rfl | rfl
      · rw [e0]; rfl
      · rw [e1]; rfl
      · rw [e2]; rfl
      · rw [e3]; rfl
  · intro i hi
    rcases rounds_cases i with h | ⟨n, h⟩
    · match i, h, hi with
      | 2, _, _ => exact ⟨rfl, fun e => by intro h; cases h⟩
      | 3, _, _ => exact ⟨rfl, fun e => by intro h; cases h⟩
      | 4, _, _ => exact ⟨rfl, fun e => by intro h; cases h⟩
    · obtain ⟨f0, f1, f2, -⟩ := rounds_round n (rounds_at n)
      have h5 : (roundsAt 5).client = some ⟨1, z0, .ok⟩ ∧ (roundsAt 5).pc = .select := by decide
      rcases h with rfl | rfl | rfl | rfl
      · rw [rounds_at]; exact ⟨h5.1, fun e he => by rw [show ({ roundsAt 5 with now := 50 * n } : St).pc = _ from h5.2] at he; cases he⟩
      · rw [f0]; exact ⟨h5.1, fun e he => by rw [show ({ roundsAt 5 with now := 50 * n + 50 } : St).pc = _ from h5.2] at he; cases he⟩
      · rw [f1]; exact ⟨h5.1, fun e he => by cases he⟩
      · rw [f2]; exact ⟨h5.1, fun e he => by cases he⟩

end Shpool.S2C
