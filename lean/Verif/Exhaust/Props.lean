import Verif.Exhaust.Model
import Verif.Util.Fair
/-!
# C159: running out of descriptors
-/

namespace Shpool.Exhaust

/-- The claim: left alone, the two threads come to rest. -/
def C159_statement : Prop := ∀ (limit k : Nat) (ls : List Label) (s : St), k ≤ limit → Run limit k ls s →
  ∃ n, ∀ ws s', (∀ l ∈ ws, l.outside = false) → runSteps (step limit) s ws = some s' → ws.length ≤ n

/-- What the waiting connections and the next `accept` want of the limit. -/
def St.need (s : St) : Nat := s.used + s.qm.length + s.qs.length + (if s.main = .calling then 1 else 0)

/-- What is left to do, failed accepts aside. -/
private def todo (s : St) : Nat :=
  2 * s.qm.length + (if s.main = .calling then 1 else 0) +
  match s.sink with
  | .polling => if s.qs = [] ∧ s.wake = false then 0 else s.qs.length + 3
  | .accepting w => s.qs.length + 2 + (if w = false ∧ s.wake = true then 3 else 0)
  | .rest w => 1 + (if s.qs = [] ∧ ¬ (w = false ∧ s.wake = true) then 0 else s.qs.length + 3)

private theorem todo_le (s : St) : todo s ≤ 2 * s.qm.length + s.qs.length + 6 := by
  unfold todo
  split <;> split <;> split <;> omega

private theorem need_step {limit : Nat} {s s' : St} {l : Label} (ho : l.outside = false) (h : step limit s l = some s') : s'.need = s.need := by
  cases l with
  | connect c => cases ho
  | subscribe c => cases ho
  | opens => cases ho
  | closes => cases ho
  | publish => cases ho
  | mainCall =>
    simp only [step] at h
    split at h
    · rename_i hm
      split at h <;> cases h <;> simp [St.need, hm] <;> omega
    · cases h
  | mainTake =>
    simp only [step] at h
    split at h
    · rename_i hm hq
      cases h; simp [St.need, hm, hq]; omega
    · cases h
  | sinkPoll =>
    simp only [step] at h
    split at h
    · split at h <;> cases h; rfl
    · cases h
  | sinkAccept =>
    simp only [step] at h
    split at h
    · split at h
      · cases h; rfl
      · split at h
        · cases h; rfl
        · rename_i hq
          cases h; simp only [St.need, hq, List.length_cons]; omega
    · cases h
  | sinkRest =>
    simp only [step] at h
    split at h <;> cases h; rfl

private theorem used_step {limit : Nat} {s s' : St} {l : Label} (hu : s.used ≤ limit) (h : step limit s l = some s') : s'.used ≤ limit := by
  cases l <;> simp only [step] at h <;> (repeat' split at h) <;> cases h <;> simp_all <;> omega

private theorem used_le {limit k : Nat} {ls : List Label} {s : St} (hk : k ≤ limit) (h : Run limit k ls s) : s.used ≤ limit :=
  run_inv (I := fun s => s.used ≤ limit) (fun _ _ _ hI hs => used_step hI hs) hk h

private theorem todo_step {limit : Nat} {s s' : St} {l : Label} (ho : l.outside = false) (h : step limit s l = some s') :
    s.log ≤ s'.log ∧ todo s' + 1 ≤ todo s + 3 * (s'.log - s.log) := by
  cases l with
  | connect c => cases ho
  | subscribe c => cases ho
  | opens => cases ho
  | closes => cases ho
  | publish => cases ho
  | mainCall =>
    simp only [step] at h
    split at h
    · rename_i hm
      split at h <;> cases h
      · refine ⟨Nat.le_refl _, ?_⟩
        simp only [todo, hm]; simp <;> omega
      · refine ⟨by simp, ?_⟩
        simp only [todo, hm]; simp <;> omega
    · cases h
  | mainTake =>
    simp only [step] at h
    split at h
    · rename_i hm hq
      cases h
      refine ⟨Nat.le_refl _, ?_⟩
      simp only [todo, hm, hq]; simp; omega
    · cases h
  | sinkPoll =>
    simp only [step] at h
    split at h
    · rename_i hp
      split at h <;> cases h
      rename_i hc
      refine ⟨Nat.le_refl _, ?_⟩
      simp only [todo, hp]
      rw [if_neg (c := s.qs = [] ∧ s.wake = false) (by rintro ⟨a, b⟩; simp [a, b] at hc), if_neg (c := s.wake = false ∧ s.wake = true) (by rintro ⟨a, b⟩; simp [a] at b)]
      omega
    · cases h
  | sinkAccept =>
    simp only [step] at h
    split at h
    · rename_i w hp
      split at h
      · cases h
        refine ⟨by simp, ?_⟩
        simp only [todo, hp]
        split <;> split <;> simp_all <;> omega
      · split at h
        · rename_i hq
          cases h
          refine ⟨by simp, ?_⟩
          simp only [todo, hp, hq]
          split <;> split <;> simp_all <;> omega
        · rename_i hq
          cases h
          refine ⟨by simp, ?_⟩
          simp only [todo, hp, hq, List.length_cons]
          omega
    · cases h
  | sinkRest =>
    simp only [step] at h
    split at h
    · rename_i w hp
      cases h
      refine ⟨Nat.le_refl _, ?_⟩
      simp only [todo, hp]
      cases w <;> cases hw : s.wake <;> simp <;> split <;> omega
    · cases h

private theorem todo_run {limit : Nat} {s s' : St} {ws : List Label} (ho : ∀ l ∈ ws, l.outside = false)
    (h : runSteps (step limit) s ws = some s') : s.log ≤ s'.log ∧ todo s' + ws.length ≤ todo s + 3 * (s'.log - s.log) := by
  induction ws generalizing s with
  | nil => cases h; simp
  | cons l ws ih =>
    obtain ⟨s1, h1, h2⟩ := run_cons_some h
    have a := todo_step (ho l (by simp)) h1
    have b := ih (fun l hl => ho l (by simp [hl])) h2
    simp only [List.length_cons]
    omega

/-- **C159**, how much is done: from whatever state, the two threads, left alone, take no more than a few steps for each connection that
waits, but for failed accepts, each of which is told to the log (and leads to no more than three steps). -/
theorem C159_work_partial {limit : Nat} {s s' : St} {ws : List Label} (ho : ∀ l ∈ ws, l.outside = false)
    (h : runSteps (step limit) s ws = some s') :
    s.log ≤ s'.log ∧ ws.length ≤ 2 * s.qm.length + s.qs.length + 6 + 3 * (s'.log - s.log) := by
  have := todo_run ho h
  have := todo_le s
  omega

private theorem need_run {limit : Nat} {s s' : St} {ws : List Label} (ho : ∀ l ∈ ws, l.outside = false)
    (h : runSteps (step limit) s ws = some s') : s'.need = s.need := by
  induction ws generalizing s with
  | nil => cases h; rfl
  | cons l ws ih =>
    obtain ⟨s1, h1, h2⟩ := run_cons_some h
    rw [ih (fun l hl => ho l (by simp [hl])) h2, need_step (ho l (by simp)) h1]

private theorem quiet_step {limit : Nat} {s s' : St} {l : Label} (hn : s.need ≤ limit) (ho : l.outside = false)
    (h : step limit s l = some s') : todo s' + 1 ≤ todo s := by
  cases l with
  | mainCall =>
    have := (todo_step ho h).2
    simp only [step] at h
    split at h
    · rename_i hm
      rw [if_pos (by simp [St.need, hm] at hn; omega)] at h
      cases h
      simpa using this
    · cases h
  | sinkAccept =>
    have hd := (todo_step ho h).2
    simp only [step] at h
    split at h
    · rename_i w hp
      split at h
      · cases h
        have hq : s.qs = [] := by
          apply List.length_eq_zero_iff.1
          simp only [St.need] at hn; omega
        simp only [todo, hp, hq]
        split <;> split <;> simp_all <;> (try omega)
      · split at h <;> cases h <;> simpa using hd
    · cases h
  | connect c => cases ho
  | subscribe c => cases ho
  | opens => cases ho
  | closes => cases ho
  | publish => cases ho
  | mainTake =>
    have hd := (todo_step ho h).2
    simp only [step] at h
    split at h <;> cases h; simpa using hd
  | sinkPoll =>
    have hd := (todo_step ho h).2
    simp only [step] at h
    split at h
    · split at h <;> cases h; simpa using hd
    · cases h
  | sinkRest =>
    have hd := (todo_step ho h).2
    simp only [step] at h
    split at h <;> cases h; simpa using hd

/-- **C159** if there are numbers enough for the connections that wait and one `accept`: the threads come to rest, after so many steps. -/
theorem C159_rests_partial {limit : Nat} {s s' : St} {ws : List Label} (hn : s.need ≤ limit) (ho : ∀ l ∈ ws, l.outside = false)
    (h : runSteps (step limit) s ws = some s') : ws.length ≤ 2 * s.qm.length + s.qs.length + 6 := by
  have : todo s' + ws.length ≤ todo s := by
    induction ws generalizing s with
    | nil => cases h; simp
    | cons l ws ih =>
      obtain ⟨s1, h1, h2⟩ := run_cons_some h
      have a := quiet_step hn (ho l (by simp)) h1
      have b := ih (by rw [need_step (ho l (by simp)) h1]; exact hn) (fun l hl => ho l (by simp [hl])) h2
      simp only [List.length_cons]
      omega
  have := todo_le s
  omega

private theorem goes_on {limit : Nat} {s : St} (hu : s.used ≤ limit) (hn : limit < s.need) :
    ∃ l s', l.outside = false ∧ step limit s l = some s' := by
  cases hm : s.main with
  | calling =>
    by_cases h : s.used < limit
    · exact ⟨.mainCall, _, rfl, by simp only [step, hm]; rw [if_pos h]⟩
    · exact ⟨.mainCall, _, rfl, by simp only [step, hm]; rw [if_neg h]⟩
  | waiting =>
    cases hq : s.qm with
    | cons c q => exact ⟨.mainTake, _, rfl, by simp only [step, hm, hq]; rfl⟩
    | nil =>
      have hqs : s.qs ≠ [] := by
        intro e
        simp [St.need, hm, hq, e] at hn
        omega
      cases hp : s.sink with
      | polling => exact ⟨.sinkPoll, _, rfl, by simp only [step, hp]; rw [if_pos (.inl hqs)]⟩
      | accepting w =>
        by_cases h : limit ≤ s.used
        · exact ⟨.sinkAccept, _, rfl, by simp only [step, hp]; rw [if_pos h]⟩
        · cases hqq : s.qs with
          | nil => exact absurd hqq hqs
          | cons c q => exact ⟨.sinkAccept, _, rfl, by simp only [step, hp, hqq]; rw [if_neg h]⟩
      | rest w => exact ⟨.sinkRest, _, rfl, by simp only [step, hp]; rfl⟩

private theorem used_run {limit : Nat} {s s' : St} {ws : List Label} (hu : s.used ≤ limit)
    (h : runSteps (step limit) s ws = some s') : s'.used ≤ limit :=
  run_inv (I := fun s => s.used ≤ limit) (fun _ _ _ hI hs => used_step hI hs) hu h

/-- **C159**, what happens if there are not: the threads never come to rest as long as nothing else happens, wherever they have got to; and
they write to the log all the time: among any so many steps there are `n` lines. -/
theorem C159_for_ever {limit k : Nat} {ls ws : List Label} {s s' : St} (hk : k ≤ limit) (hr : Run limit k ls s) (hn : limit < s.need)
    (ho : ∀ l ∈ ws, l.outside = false) (h : runSteps (step limit) s ws = some s') :
    (∃ l s'', l.outside = false ∧ step limit s' l = some s'') ∧
    ∀ n, 2 * s.qm.length + s.qs.length + 6 + 3 * n ≤ ws.length → s.log + n ≤ s'.log := by
  refine ⟨goes_on (used_run (used_le hk hr) h) (by rw [need_run ho h]; exact hn), fun n hl => ?_⟩
  have := C159_work_partial ho h
  omega

private theorem long {limit : Nat} {s : St} (hu : s.used ≤ limit) (hn : limit < s.need) (n : Nat) :
    ∃ ws s', (∀ l ∈ ws, l.outside = false) ∧ runSteps (step limit) s ws = some s' ∧ ws.length = n := by
  induction n generalizing s with
  | zero => exact ⟨[], s, by simp, rfl, rfl⟩
  | succ n ih =>
    obtain ⟨l, s1, ho, h1⟩ := goes_on hu hn
    obtain ⟨ws, s', h2, h3, h4⟩ := ih (used_step hu h1) (by rw [need_step ho h1]; exact hn)
    refine ⟨l :: ws, s', ?_, by simp [runSteps, h1, h3], by simp [h4]⟩
    intro x hx
    simp only [List.mem_cons] at hx
    rcases hx with rfl | hx
    · exact ho
    · exact h2 x hx

/-- **C159** exactly: the threads come to rest if and only if there are numbers enough for the connections that wait and for one
`accept`. -/
theorem C159_exact_partial {limit k : Nat} {ls : List Label} {s : St} (hk : k ≤ limit) (hr : Run limit k ls s) :
    (∃ n, ∀ ws s', (∀ l ∈ ws, l.outside = false) → runSteps (step limit) s ws = some s' → ws.length ≤ n) ↔
    s.used + s.qm.length + s.qs.length + (if s.main = .calling then 1 else 0) ≤ limit := by
  constructor
  · rintro ⟨n, hb⟩
    refine Nat.le_of_not_lt fun hn => ?_
    obtain ⟨ws, s', h1, h2, h3⟩ := long (used_le hk hr) (s := s) hn (n + 1)
    have := hb ws s' h1 h2
    omega
  · intro hn
    exact ⟨_, fun ws s' ho h => C159_rests_partial hn ho h⟩

/-- **C159** is false: at the limit `accept` fails at once, again and again, and no client needs to wait for that. -/
theorem C159_false : ¬ C159_statement := by
  intro h
  have := (C159_exact_partial (limit := 4) (k := 3) (ls := [.mainCall, .connect 1, .mainTake])
    (s := ⟨4, .calling, .polling, [], [], [1], [], false, 0⟩) (by decide) rfl).1
    (h 4 3 [.mainCall, .connect 1, .mainTake] _ (by decide) rfl)
  revert this
  decide

/-- The sink too: a subscriber waits, the thread of `serve` waits with the last number, as it always does. -/
theorem C159_false_events : ∃ (ls : List Label) (s : St), Run 4 3 ls s ∧ s.main = .waiting ∧ s.qm = [] ∧ s.qs = [1] ∧
    ∀ n, ∃ ws s', (∀ l ∈ ws, l.outside = false) ∧ runSteps (step 4) s ws = some s' ∧ s'.log ≥ n := by
  refine ⟨[.mainCall, .subscribe 1], ⟨4, .waiting, .polling, [], [1], [], [], false, 0⟩, rfl, rfl, rfl, rfl, fun n => ?_⟩
  have hn : 4 < (⟨4, .waiting, .polling, [], [1], [], [], false, 0⟩ : St).need := by decide
  obtain ⟨ws, s', h1, h2, h3⟩ := long (limit := 4) (by decide) hn (7 + 3 * n)
  exact ⟨ws, s', h1, h2, by
    have := (C159_for_ever (ls := [.mainCall, .subscribe 1]) (s := ⟨4, .waiting, .polling, [], [1], [], [], false, 0⟩) (limit := 4) (k := 3)
      (by decide) rfl hn h1 h2).2 n (by rw [h3]; simp)
    omega⟩

/-- The clients among the steps. -/
def clients (ls : List Label) : List Nat := ls.filterMap fun | .connect c => some c | _ => none
/-- The subscribers among the steps. -/
def subscribers (ls : List Label) : List Nat := ls.filterMap fun | .subscribe c => some c | _ => none

/-- **C159**, nobody is lost: whatever fails in between, those who have connected are accepted in that order or wait in that order. -/
theorem C159_none_lost {limit k : Nat} {ls : List Label} {s : St} (h : Run limit k ls s) :
    s.gotM ++ s.qm = clients ls ∧ s.gotS ++ s.qs = subscribers ls := by
  refine run_hist (step := step limit) (I := fun ls s => s.gotM ++ s.qm = clients ls ∧ s.gotS ++ s.qs = subscribers ls) ?_ ⟨rfl, rfl⟩ h
  intro ls s l s' ⟨h1, h2⟩ hs
  simp only [clients, subscribers, List.filterMap_append] at h1 h2 ⊢
  rw [← h1, ← h2]
  clear h1 h2
  cases l <;> simp only [step] at hs <;> (repeat' split at hs) <;> cases hs <;> simp_all

/-- The steps of the thread of `serve`. -/
def ofMain : Label → Bool
  | .mainCall | .mainTake => true
  | _ => false

/-- **C159**, over time: once numbers are free whenever the thread of `serve` calls `accept`, it accepts all clients that wait, in order. -/
theorem C159_fair {limit : Nat} {σ : Nat → St} {lab : Nat → Option Label} (hx : Exec (step limit) σ lab)
    (hf : WeakFair (step limit) σ lab ofMain) {m : Nat} (hfree : ∀ i, m ≤ i → (σ i).main = .calling → (σ i).used < limit) :
    ∃ i, m ≤ i ∧ ((σ m).gotM ++ (σ m).qm) <+: (σ i).gotM := by
  have hpre : ∀ i, m ≤ i → ((σ m).gotM ++ (σ m).qm) <+: ((σ i).gotM ++ (σ i).qm) := by
    intro i hi
    refine exec_stays hx (p := fun s => ((σ m).gotM ++ (σ m).qm) <+: (s.gotM ++ s.qm)) (m := m) ?_ (List.prefix_refl _) i hi
    intro j l _ _ hp hs
    refine hp.trans ?_
    cases l <;> simp only [step] at hs <;> (repeat' split at hs) <;> first | cases hs | skip <;> simp_all <;>
      (rw [← hs]; simp_all [List.prefix_append])
  have hlen : ∃ i, m ≤ i ∧ ((σ m).gotM ++ (σ m).qm).length ≤ (σ i).gotM.length := by
    by_cases h0 : ((σ m).gotM ++ (σ m).qm).length ≤ (σ m).gotM.length
    · exact ⟨m, Nat.le_refl _, h0⟩
    refine fair_reaches hx hf (B := fun s => s.gotM.length < ((σ m).gotM ++ (σ m).qm).length ∧
        ((σ m).gotM ++ (σ m).qm).length ≤ s.gotM.length + s.qm.length)
      (G := fun s => ((σ m).gotM ++ (σ m).qm).length ≤ s.gotM.length)
      (fun s => 2 * (((σ m).gotM ++ (σ m).qm).length - s.gotM.length) + (if s.main = .calling then 1 else 0)) (m := m) ?_ ?_ ?_
    · exact ⟨by omega, by simp⟩
    · intro i hi hB
      cases hm : (σ i).main with
      | calling => exact ⟨.mainCall, rfl, by simp only [step, hm]; rw [if_pos (hfree i hi hm)]; rfl⟩
      | waiting =>
        cases hq : (σ i).qm with
        | nil => rw [hq] at hB; simp at hB; omega
        | cons c q => exact ⟨.mainTake, rfl, by simp only [step, hm, hq]; rfl⟩
    · intro i l hi _ hB hs
      generalize ((σ m).gotM ++ (σ m).qm).length = N at *
      have hfr := hfree i hi
      generalize σ i = s at *
      generalize σ (i + 1) = s' at *
      cases l with
      | connect c => cases hs; right; refine ⟨⟨hB.1, by simp; omega⟩, Nat.le_refl _, fun h => by cases h⟩
      | subscribe c => cases hs; right; exact ⟨hB, Nat.le_refl _, fun h => by cases h⟩
      | publish => cases hs; right; exact ⟨hB, Nat.le_refl _, fun h => by cases h⟩
      | opens => simp only [step] at hs; split at hs <;> cases hs; right; exact ⟨hB, Nat.le_refl _, fun h => by cases h⟩
      | closes => simp only [step] at hs; split at hs <;> split at hs <;> cases hs <;> (right; exact ⟨hB, Nat.le_refl _, fun h => by cases h⟩)
      | mainCall =>
        simp only [step] at hs
        split at hs
        · rename_i hm
          rw [if_pos (hfr hm)] at hs
          cases hs
          right
          refine ⟨hB, ?_, fun _ => ?_⟩ <;> simp [hm]
        · cases hs
      | mainTake =>
        simp only [step] at hs
        split at hs
        · rename_i hm hq
          cases hs
          rw [hq] at hB
          simp only [List.length_cons] at hB
          by_cases hg : N ≤ s.gotM.length + 1
          · left; simpa using hg
          · right
            refine ⟨⟨by simp; omega, by simp; omega⟩, ?_, fun _ => ?_⟩ <;> simp [hm] <;> omega
        · cases hs
      | sinkPoll =>
        simp only [step] at hs
        split at hs
        · split at hs <;> cases hs; right; exact ⟨hB, Nat.le_refl _, fun h => by cases h⟩
        · cases hs
      | sinkAccept =>
        simp only [step] at hs
        split at hs
        · split at hs
          · cases hs; right; exact ⟨hB, Nat.le_refl _, fun h => by cases h⟩
          · split at hs <;> cases hs <;> (right; exact ⟨hB, Nat.le_refl _, fun h => by cases h⟩)
        · cases hs
      | sinkRest =>
        simp only [step] at hs
        split at hs <;> cases hs; right; exact ⟨hB, Nat.le_refl _, fun h => by cases h⟩
  obtain ⟨i, hi, hl⟩ := hlen
  exact ⟨i, hi, List.prefix_of_prefix_length_le (hpre i hi) (List.prefix_append _ _) hl⟩

/-- The limit is reached, a client has to wait, a descriptor is closed, the client is accepted. -/
def outAndBack : List Label :=
  [.mainCall, .connect 1, .opens, .mainTake, .connect 2, .mainCall, .mainCall, .closes, .mainCall, .closes, .mainTake, .mainCall]

/-- With two connections waiting (one at each socket) there are just enough numbers: the bound of `C159_rests_partial` is met. -/
example : ∃ s, Run 6 3 [.connect 1, .subscribe 2] s ∧ s.need ≤ 6 ∧ ∃ ws s', (∀ l ∈ ws, l.outside = false) ∧
    runSteps (step 6) s ws = some s' ∧ ws.length = 7 ∧ s'.gotM = [1] ∧ s'.gotS = [2] ∧ s'.log = 1 :=
  ⟨_, rfl, by decide, [.sinkPoll, .mainCall, .sinkAccept, .mainTake, .mainCall, .sinkAccept, .sinkRest], _, by decide, rfl, rfl, rfl, rfl, rfl⟩

/-- With one less there are not (the hypotheses of `C159_for_ever`). -/
example : ∃ s, Run 5 3 [.connect 1, .subscribe 2] s ∧ 5 < s.need := ⟨_, rfl, by decide⟩

/-- An execution as in `C159_fair`, from its step 8 on. -/
example : Exec (step 5) (thenRests (step 5) (init 3) outAndBack) (fun i => outAndBack[i]?) ∧
    WeakFair (step 5) (thenRests (step 5) (init 3) outAndBack) (fun i => outAndBack[i]?) ofMain ∧
    (∀ i, 8 ≤ i → (thenRests (step 5) (init 3) outAndBack i).main = .calling → (thenRests (step 5) (init 3) outAndBack i).used < 5) ∧
    (thenRests (step 5) (init 3) outAndBack 8).qm = [2] ∧ (thenRests (step 5) (init 3) outAndBack 8).log = 2 := by
  have hrun : ∃ s', runSteps (step 5) (init 3) outAndBack = some s' ∧ s'.main = .waiting ∧ s'.qm = [] := ⟨_, rfl, rfl, rfl⟩
  obtain ⟨s', hr, hm, hq⟩ := hrun
  obtain ⟨h1, h2⟩ := thenRests_exec hr
  refine ⟨h1, (fair_at_rest h2 (fun l hl => ?_)).1, fun i hi hc => ?_, rfl, rfl⟩
  · cases l <;> cases hl <;> simp [step, hm, hq]
  · rcases Nat.lt_or_ge i outAndBack.length with h | h
    · have h : i < 12 := h
      rcases (by omega : i = 8 ∨ i = 9 ∨ i = 10 ∨ i = 11) with rfl | rfl | rfl | rfl <;> revert hc <;> decide
    · rw [h2 i h, hm] at hc; cases hc

end Shpool.Exhaust
