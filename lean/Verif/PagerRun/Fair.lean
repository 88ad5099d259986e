import Verif.PagerRun.Props
import Verif.Util.Fair

/-! # In every fair execution the attach goes on once the pager has exited or the client has gone -/

namespace Shpool.PagerRun

def isMain : Label → Bool
  | .wake _ | .pollFails | .beatDone _ | .readPty _ | .readPtyFails | .showDone _ | .readClient _ | .readClientFails | .feedDone | .feedFails _
  | .guard | .look => true
  | _ => false

def isReap : Label → Bool
  | .reap => true
  | _ => false

def isFlag : Label → Bool
  | .setFlag => true
  | _ => false

/-- The thread of the request is not put off for ever.  For its writes to the client this says that the client reads, or they fail;
for its writes to the pager, that the pager reads, or has gone. -/
def FairMain (σ : Nat → St) (lab : Nat → Option Label) : Prop := WeakFair step σ lab isMain

/-- Neither is the thread that waits for the pager. -/
structure FairMonitor (σ : Nat → St) (lab : Nat → Option Label) : Prop where
  reap : WeakFair step σ lab isReap
  flag : WeakFair step σ lab isFlag

def Main.done : Main → Bool
  | .returned _ => true
  | _ => false

/-- The thread has something to do until `display` has returned. -/
theorem main_can {s : St} (h : s.main.done = false) : Can step isMain s := by
  cases hm : s.main with
  | poll =>
    refine ⟨.wake false, rfl, ?_⟩
    simp only [step, hm, if_true]
    repeat' split
    all_goals rfl
  | beat => exact ⟨.beatDone (some .error), rfl, by simp [step, hm]⟩
  | readPty c => exact ⟨.readPtyFails, rfl, by simp [step, hm]⟩
  | «show» b c => exact ⟨.showDone (some .error), rfl, by simp [step, hm]⟩
  | readClient => exact ⟨.readClientFails, rfl, by simp [step, hm]⟩
  | feed b => exact ⟨.feedDone, rfl, by simp [step, hm]⟩
  | guard r =>
    refine ⟨.guard, rfl, ?_⟩
    simp only [step, hm]
    repeat' split
    all_goals rfl
  | killing n r =>
    refine ⟨.look, rfl, ?_⟩
    simp only [step, hm]
    cases n
    · simp only; split <;> rfl
    · simp only; split <;> rfl
  | returned r => rw [hm] at h; cases h

/-- Steps of the others leave the thread where it is, and take nothing away from what it reads. -/
theorem other_step {s s' : St} {l : Label} (hl : isMain l = false) (h : step s l = some s') :
    s'.main = s.main ∧ (s.flag = true → s'.flag = true) ∧ (s.closed = true → s'.closed = true ∧ s'.sock = s.sock) := by
  cases l with
  | print b | press n | exit | reap | reuse | setFlag =>
    simp only [step] at h
    split at h <;> cases h
    exact ⟨rfl, by simp, fun h => ⟨h, rfl⟩⟩
  | type b | close =>
    simp only [step] at h
    split at h
    · rename_i hc; cases h
      exact ⟨rfl, by simp, fun h => by rw [hc] at h; cases h⟩
    · cases h
  | _ => simp [isMain] at hl

/-- How far the way out still is. -/
def Main.way : Main → Nat
  | .returned _ => 0
  | .killing n _ => n + 1
  | .guard _ => 9
  | _ => 10

/-- Once `display` is ending, every step of the thread brings the end nearer. -/
theorem ending_step {s s' : St} {l : Label} (he : s.main.ended = true) (hl : isMain l = true)
    (h : step s l = some s') : s'.main.way < s.main.way := by
  cases l with
  | guard =>
    simp only [step] at h
    split at h
    · rename_i r hm
      rw [hm]
      split at h
      · cases h; simp [Main.way]
      · split at h <;> cases h <;> simp [Main.way]
    · cases h
  | look =>
    simp only [step] at h
    split at h
    · rename_i r hm
      rw [hm]
      split at h <;> cases h <;> simp [Main.way]
    · rename_i n r hm
      rw [hm]
      split at h <;> cases h <;> simp [Main.way]
    · cases h
  | wake _ | pollFails | beatDone _ | readClient _ | readClientFails =>
    simp only [step] at h
    split at h
    · rename_i hm; rw [hm] at he; cases he
    · cases h
  | readPty _ | readPtyFails | showDone _ | feedDone | feedFails _ =>
    simp only [step] at h
    split at h
    · rename_i hm; rw [hm] at he; cases he
    · cases h
  | _ => simp [isMain] at hl

/-- C141: once `display` is ending, for whatever reason, it returns. -/
theorem C141_fair_ending {σ : Nat → St} {lab : Nat → Option Label} (hx : Exec step σ lab) (hf : FairMain σ lab) {m : Nat}
    (he : (σ m).main.ended = true) : ∃ i r, m ≤ i ∧ (σ i).main = .returned r := by
  suffices h : ∃ i, m ≤ i ∧ (σ i).main.done = true by
    obtain ⟨i, hi, h⟩ := h
    cases hm : (σ i).main <;> rw [hm] at h <;> cases h
    exact ⟨i, _, hi, hm⟩
  cases hd : (σ m).main.done with
  | true => exact ⟨m, Nat.le_refl _, hd⟩
  | false =>
    refine fair_reaches hx hf (B := fun s => s.main.ended = true ∧ s.main.done = false) (G := fun s => s.main.done = true) (fun s => s.main.way)
      ⟨he, hd⟩ (fun i _ hb => main_can hb.2) (fun i l _ hl hb h => ?_)
    have hend := (ended_step hb.1 h).1
    by_cases hd' : (σ (i + 1)).main.done = true
    · exact .inl hd'
    · refine .inr ⟨⟨hend, by simpa using hd'⟩, ?_⟩
      cases hm : isMain l with
      | true =>
        have := ending_step hb.1 hm h
        exact ⟨Nat.le_of_lt this, fun _ => this⟩
      | false => rw [(other_step hm h).1]; exact ⟨Nat.le_refl _, nofun⟩

/-- How far it is to the next look at the flag. -/
def Main.round : Main → Nat
  | .poll => 1
  | .beat | .feed _ => 2
  | .readClient => 3
  | .show _ _ => 4
  | .readPty _ => 5
  | _ => 0

/-- When it is known that the pager has exited, every step of the thread leads to the way out. -/
theorem flag_step {s s' : St} {l : Label} (hf : s.flag = true) (he : s.main.ended = false) (hl : isMain l = true) (h : step s l = some s') :
    s'.flag = true ∧ (s'.main.ended = true ∨ s'.main.round < s.main.round) := by
  cases l with
  | wake b =>
    simp only [step] at h
    rw [if_pos hf] at h
    split at h <;> cases h
    exact ⟨hf, .inl rfl⟩
  | pollFails | readClientFails =>
    simp only [step] at h
    split at h <;> cases h
    exact ⟨hf, .inl rfl⟩
  | beatDone r =>
    simp only [step] at h
    split at h
    · rename_i hm
      split at h
      · split at h <;> cases h
        exact ⟨hf, .inr (by simp [hm, Main.round])⟩
      · cases h
      · split at h <;> cases h
        exact ⟨hf, .inl rfl⟩
      · cases h; exact ⟨hf, .inl rfl⟩
    · cases h
  | readPty n =>
    simp only [step] at h
    split at h
    · rename_i c hm
      split at h
      · split at h <;> cases h
        exact ⟨hf, .inl rfl⟩
      · split at h <;> cases h
        exact ⟨hf, .inr (by simp [hm, Main.round])⟩
    · cases h
  | readPtyFails =>
    simp only [step] at h
    split at h <;> cases h
    exact ⟨hf, .inl rfl⟩
  | showDone r =>
    simp only [step] at h
    split at h
    · rename_i b c hm
      split at h
      · split at h <;> cases h
        exact ⟨hf, .inr (by cases c <;> simp [hm, Main.round])⟩
      · cases h
      · split at h <;> cases h
        exact ⟨hf, .inl rfl⟩
      · cases h; exact ⟨hf, .inl rfl⟩
    · cases h
  | readClient n =>
    simp only [step] at h
    split at h
    · rename_i hm
      split at h
      · split at h <;> cases h
        exact ⟨hf, .inl rfl⟩
      · split at h <;> cases h
        exact ⟨hf, .inr (by simp [hm, Main.round])⟩
    · cases h
  | feedDone =>
    simp only [step] at h
    split at h <;> cases h
    rename_i hm
    exact ⟨hf, .inr (by simp [hm, Main.round])⟩
  | feedFails n =>
    simp only [step] at h
    split at h
    · split at h <;> cases h
      exact ⟨hf, .inl rfl⟩
    · cases h
  | guard =>
    simp only [step] at h
    split at h
    · rename_i hm; rw [hm] at he; cases he
    · cases h
  | look =>
    simp only [step] at h
    split at h
    · rename_i hm; rw [hm] at he; cases he
    · rename_i hm; rw [hm] at he; cases he
    · cases h
  | _ => simp [isMain] at hl

theorem not_done {m : Main} (h : m.ended = false) : m.done = false := by cases m <;> simp_all [Main.ended, Main.done]

theorem exited_step {s s' : St} {l : Label} (hp : s.proc = .exited) (hl : isReap l = false) (h : step s l = some s') : s'.proc = .exited := by
  cases l with
  | reap => simp [isReap] at hl
  | print _ | exit | setFlag | reuse | press _ => simp [step, hp] at h
  | type _ | close =>
    simp only [step] at h
    split at h <;> cases h
    exact hp
  | wake _ | pollFails | beatDone _ | readClientFails | readPty _ | readPtyFails | showDone _ | feedDone | feedFails _ | readClient _ =>
    simp only [step] at h
    repeat' split at h
    all_goals cases h
    all_goals exact hp
  | guard =>
    simp only [step, St.signal, hp] at h
    split at h
    · split at h <;> cases h <;> first | rfl | exact hp
    · cases h
  | look =>
    simp only [step, St.signal, hp] at h
    split at h
    · cases h; rfl
    · split at h <;> cases h <;> first | rfl | exact hp
    · cases h

theorem reaped_step {s s' : St} {l : Label} (hp : s.proc = .reaped ∨ s.proc = .reused) (h : step s l = some s') :
    s'.proc = .reaped ∨ s'.proc = .reused := by
  have hne : s.proc ≠ .running := by rcases hp with h | h <;> simp [h]
  have hne' : s.proc ≠ .exited := by rcases hp with h | h <;> simp [h]
  cases l with
  | reap | print _ | exit | press _ => simp [step, hne, hne'] at h
  | reuse =>
    simp only [step] at h
    split at h <;> cases h
    exact .inr rfl
  | type _ | close | setFlag =>
    simp only [step] at h
    split at h <;> cases h
    exact hp
  | wake _ | pollFails | beatDone _ | readClientFails | readPty _ | readPtyFails | showDone _ | feedDone | feedFails _ | readClient _ =>
    simp only [step] at h
    repeat' split at h
    all_goals cases h
    all_goals exact hp
  | guard =>
    simp only [step] at h
    split at h
    · split at h
      · cases h; exact hp
      · split at h
        · cases h; exact hp
        · rename_i s1 hs
          obtain ⟨p, sg, rfl, hq, _⟩ := signal_eq hs
          cases h
          rw [← hq hne] at hp; exact hp
    · cases h
  | look =>
    simp only [step] at h
    split at h
    · split at h
      · cases h; exact hp
      · rename_i s1 hs
        obtain ⟨p, sg, rfl, hq, _⟩ := signal_eq hs
        cases h
        rw [← hq hne] at hp; exact hp
    · split at h <;> cases h <;> exact hp
    · cases h

/-- C141: once the pager has exited the attach goes on, whatever the client types. -/
theorem C141_fair_exit {σ : Nat → St} {lab : Nat → Option Label} (hx : Exec step σ lab) (hf : FairMain σ lab) (hm : FairMonitor σ lab) {m : Nat}
    (he : (σ m).proc ≠ .running) : ∃ i r, m ≤ i ∧ (σ i).main = .returned r := by
  -- it is reaped
  have h1 : ∃ i, m ≤ i ∧ ((σ i).proc = .reaped ∨ (σ i).proc = .reused) := by
    cases hp : (σ m).proc with
    | running => exact absurd hp he
    | reaped => exact ⟨m, Nat.le_refl _, .inl hp⟩
    | reused => exact ⟨m, Nat.le_refl _, .inr hp⟩
    | exited =>
      refine fair_reaches hx hm.reap (B := fun s => s.proc = .exited) (G := fun s => s.proc = .reaped ∨ s.proc = .reused) (fun _ => 0) hp
        (fun i _ hb => ⟨.reap, rfl, by simp [step, hb]⟩) (fun i l _ hl hb h => ?_)
      cases hr : isReap l with
      | true =>
        cases l <;> simp [isReap] at hr
        simp only [step, hb, if_true] at h
        generalize σ (i + 1) = s' at h ⊢
        cases h
        exact .inl (.inl rfl)
      | false => exact .inr ⟨exited_step hb hr h, Nat.le_refl _, nofun⟩
  obtain ⟨n, hn, hp⟩ := h1
  -- the flag is set
  have h2 : ∃ i, n ≤ i ∧ (σ i).flag = true := by
    by_cases hfl : (σ n).flag = true
    · exact ⟨n, Nat.le_refl _, hfl⟩
    · refine fair_reaches hx hm.flag (B := fun s => (s.proc = .reaped ∨ s.proc = .reused) ∧ s.flag = false) (G := fun s => s.flag = true) (fun _ => 0)
        ⟨hp, by simpa using hfl⟩ (fun i _ hb => ⟨.setFlag, rfl, by simp [step, hb]⟩) (fun i l _ hl hb h => ?_)
      by_cases hfl' : (σ (i + 1)).flag = true
      · exact .inl hfl'
      · refine .inr ⟨⟨reaped_step hb.1 h, by simpa using hfl'⟩, Nat.le_refl _, fun hr => absurd ?_ hfl'⟩
        cases l <;> simp [isFlag] at hr
        simp only [step, hb, and_self, if_true] at h
        generalize σ (i + 1) = s' at h ⊢
        cases h
        rfl
  obtain ⟨k, hk, hflag⟩ := h2
  -- and noticed
  have h3 : ∃ i, k ≤ i ∧ (σ i).main.ended = true := by
    by_cases hd : (σ k).main.ended = true
    · exact ⟨k, Nat.le_refl _, hd⟩
    · refine fair_reaches hx hf (B := fun s => s.flag = true ∧ s.main.ended = false) (G := fun s => s.main.ended = true)
        (fun s => s.main.round) ⟨hflag, by simpa using hd⟩ (fun i _ hb => main_can (not_done hb.2)) (fun i l _ hl hb h => ?_)
      by_cases hd' : (σ (i + 1)).main.ended = true
      · exact .inl hd'
      · cases hm : isMain l with
        | true =>
          obtain ⟨h4, h5⟩ := flag_step hb.1 hb.2 hm h
          rcases h5 with h5 | h5
          · exact .inl h5
          · exact .inr ⟨⟨h4, by simpa using hd'⟩, Nat.le_of_lt h5, fun _ => h5⟩
        | false =>
          obtain ⟨h4, h5, _⟩ := other_step hm h
          refine .inr ⟨⟨h5 hb.1, by simpa using hd'⟩, by rw [h4]; exact Nat.le_refl _, nofun⟩
  obtain ⟨j, hj, h⟩ := h3
  obtain ⟨i, r, hi, h⟩ := C141_fair_ending hx hf h
  exact ⟨i, r, by omega, h⟩

/-- How far the way out is when the client has gone. -/
def Main.leave : Main → Nat
  | .poll => 3
  | .beat | .show _ _ => 1
  | .readPty _ | .readClient => 2
  | .feed _ => 4
  | _ => 0

theorem closed_step {s s' : St} {l : Label} (hc : s.closed = true) (he : s.main.ended = false) (hl : isMain l = true) (h : step s l = some s') :
    s'.closed = true ∧ (s'.main.ended = true ∨ s'.sock.length * 5 + s'.main.leave < s.sock.length * 5 + s.main.leave) := by
  cases l with
  | wake b =>
    simp only [step] at h
    split at h
    · rename_i hm
      split at h
      · cases h; exact ⟨hc, .inl rfl⟩
      · split at h
        · cases h; exact ⟨hc, .inr (by simp [hm, Main.leave])⟩
        · split at h
          · cases h; exact ⟨hc, .inr (by simp [hm, Main.leave])⟩
          · rename_i hn; exact absurd (.inr hc) hn
    · cases h
  | pollFails | readClientFails =>
    simp only [step] at h
    split at h <;> cases h
    exact ⟨hc, .inl rfl⟩
  | beatDone r =>
    simp only [step] at h
    split at h
    · cases r with
      | none => simp [hc] at h
      | some r =>
        cases r with
        | ok => cases h
        | hangup => simp only [hc, if_true] at h; cases h; exact ⟨by first | exact hc | rfl, .inl rfl⟩
        | error => cases h; exact ⟨hc, .inl rfl⟩
    · cases h
  | readPty n =>
    simp only [step] at h
    split at h
    · rename_i c hm
      split at h
      · split at h <;> cases h
        exact ⟨hc, .inl rfl⟩
      · split at h <;> cases h
        exact ⟨hc, .inr (by simp [hm, Main.leave])⟩
    · cases h
  | readPtyFails =>
    simp only [step] at h
    split at h <;> cases h
    exact ⟨hc, .inl rfl⟩
  | showDone r =>
    simp only [step] at h
    split at h
    · cases r with
      | none => simp [hc] at h
      | some r =>
        cases r with
        | ok => cases h
        | hangup => simp only [hc, if_true] at h; cases h; exact ⟨by first | exact hc | rfl, .inl rfl⟩
        | error => cases h; exact ⟨hc, .inl rfl⟩
    · cases h
  | readClient n =>
    simp only [step] at h
    split at h
    · rename_i hm
      split at h
      · cases h
        exact ⟨hc, .inl rfl⟩
      · rename_i hne
        split at h
        · rename_i hn
          cases h
          refine ⟨hc, .inr ?_⟩
          have : 0 < s.sock.length := List.length_pos_iff.mpr hne
          simp only [hm, Main.leave, List.length_drop]
          omega
        · cases h
    · cases h
  | feedDone =>
    simp only [step] at h
    split at h <;> cases h
    rename_i hm
    exact ⟨hc, .inr (by simp [hm, Main.leave])⟩
  | feedFails n =>
    simp only [step] at h
    split at h
    · split at h <;> cases h
      exact ⟨hc, .inl rfl⟩
    · cases h
  | guard =>
    simp only [step] at h
    split at h
    · rename_i hm; rw [hm] at he; cases he
    · cases h
  | look =>
    simp only [step] at h
    split at h
    · rename_i hm; rw [hm] at he; cases he
    · rename_i hm; rw [hm] at he; cases he
    · cases h
  | _ => simp [isMain] at hl

/-- C141: once the client has gone the request goes on (and finds that it has), and the pager is gone then, even if it ignores SIGTERM. -/
theorem C141_fair_gone {σ : Nat → St} {lab : Nat → Option Label} (hx : Exec step σ lab) (h0 : σ 0 = init) (hf : FairMain σ lab) {m : Nat}
    (hc : (σ m).closed = true) : ∃ i r, m ≤ i ∧ (σ i).main = .returned r ∧ (σ i).proc ≠ .running := by
  have h3 : ∃ i, m ≤ i ∧ (σ i).main.ended = true := by
    by_cases hd : (σ m).main.ended = true
    · exact ⟨m, Nat.le_refl _, hd⟩
    · refine fair_reaches hx hf (B := fun s => s.closed = true ∧ s.main.ended = false) (G := fun s => s.main.ended = true)
        (fun s => s.sock.length * 5 + s.main.leave) ⟨hc, by simpa using hd⟩ (fun i _ hb => main_can (not_done hb.2)) (fun i l _ hl hb h => ?_)
      by_cases hd' : (σ (i + 1)).main.ended = true
      · exact .inl hd'
      · cases hm : isMain l with
        | true =>
          obtain ⟨h4, h5⟩ := closed_step hb.1 hb.2 hm h
          rcases h5 with h5 | h5
          · exact .inl h5
          · exact .inr ⟨⟨h4, by simpa using hd'⟩, Nat.le_of_lt h5, fun _ => h5⟩
        | false =>
          obtain ⟨h4, _, h6⟩ := other_step hm h
          obtain ⟨h6, h7⟩ := h6 hb.1
          refine .inr ⟨⟨h6, by simpa using hd'⟩, by rw [h4, h7]; exact Nat.le_refl _, nofun⟩
  obtain ⟨j, hj, h⟩ := h3
  obtain ⟨i, r, hi, h⟩ := C141_fair_ending hx hf h
  have hr := exec_run hx i
  rw [h0] at hr
  exact ⟨i, r, by omega, h, C140_gone hr h⟩

/-- The user quits the pager while the thread relays. -/
def quits : List Label := reading ++ [.exit, .reap, .wake false, .readPty 1, .setFlag, .guard]

example : Exec step (thenRests step init quits) (fun i => quits[i]?) ∧ FairMain (thenRests step init quits) (fun i => quits[i]?) ∧
    FairMonitor (thenRests step init quits) (fun i => quits[i]?) ∧ (thenRests step init quits 17).proc ≠ .running ∧
    (thenRests step init quits 17).main = .poll ∧ (thenRests step init quits 22).main = .returned .ok := by
  obtain ⟨s', hr, hm, hp, hf⟩ : ∃ s', runSteps step init quits = some s' ∧ s'.main = .returned .ok ∧ s'.proc = .reaped ∧ s'.flag = true :=
    ⟨_, rfl, rfl, rfl, rfl⟩
  obtain ⟨h1, h2⟩ := thenRests_exec hr
  refine ⟨h1, (fair_at_rest h2 fun l hl => ?_).1, ⟨(fair_at_rest h2 fun l hl => ?_).1, (fair_at_rest h2 fun l hl => ?_).1⟩, by decide, by decide, by decide⟩
  · cases l <;> simp [isMain] at hl <;> simp [step, hm]
  · cases l <;> simp [isReap] at hl
    simp [step, hp]
  · cases l <;> simp [isFlag] at hl
    simp [step, hf]

end Shpool.PagerRun
