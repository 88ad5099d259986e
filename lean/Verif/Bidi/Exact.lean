import Verif.Bidi.Props

/-!
# When the client is not told the status of its shell

Exactly which disturbances of an attachment are needed for C94 and C108 to fail.
-/

namespace Shpool.Bidi

/-- Somebody asked for the client to be detached. -/
def Asked (ls : List Label) : Prop := ∃ l ∈ ls, asked l = true

/-- What a state still shows of what happened: `A` somebody asked for the client to be detached, `B` the client-to-shell thread failed, `K` somebody
waited in vain for an acknowledgement, `C` the client closed its end. -/
structure Shows (A B K C : Prop) (s : St) : Prop where
  bad : B → s.c2s = .done .err
  late : K → A ∨ s.hb = .done .err ∨ s.main = .leaving ∨ s.main = .returned none
  closed : C → s.closed = true
  det : s.c2s = .detaching → A
  ext : ∀ t m b, s.ctl = some (.ext t, m, b) → A

/-- The client-to-shell thread fails. -/
def breaks : Label → Bool
  | .c2sCompiles good => !good
  | .c2sReadFails => true
  | .c2sWriteFails => true
  | _ => false

def closes : Label → Bool
  | .clientCloses => true
  | .c2sReadFails => true
  | _ => false

set_option maxHeartbeats 2000000 in
theorem shows_step {A B K C A' B' K' C' : Prop} {s s' : St} {l : Label} (hI : Inv s) (hS : Shows A B K C s) (ha : A → A') (ha' : asked l = true → A')
    (hb : B' → B ∨ breaks l = true) (hk : K' → K ∨ l = .ackTimeout) (hc : C' → C ∨ closes l = true) (h : step s l = some s') :
    Shows A' B' K' C' s' := by
  obtain ⟨s1, s2, s3, s4, s5⟩ := hS
  have hoff := hI.off
  have hcc := hI.ctlc
  have hcm := hI.ctlm
  have hch := hI.ctlh
  by_cases hl : l = .sendTimeout ∨ l = .ackTimeout ∨ l = .noticeGone
  · obtain ⟨w, m, b, o, hct, rfl, ho, hlo, _⟩ := step_noack hl h
    have hfin := finish_fin o hI hct
    have hb' : B' → B := fun h => (hb h).resolve_right (by rcases hl with rfl | rfl | rfl <;> simp [breaks])
    have hc' : C' → C := fun h => (hc h).resolve_right (by rcases hl with rfl | rfl | rfl <;> simp [closes])
    have hk' : K' → K ∨ o = .ackTimeout := fun h => (hk h).imp id hlo.mp
    generalize s.finish w o = s' at *
    cases hfin <;> constructor <;> grind
  have hk' : K' → K := fun h => (hk h).resolve_right (fun e => hl (by simp [e]))
  cases l
  case meet =>
    obtain ⟨w, m, hc, hs, rfl⟩ := step_meet h
    constructor <;> grind [breaks, closes]
  case s2cWorks =>
    obtain ⟨w, m, hs, rfl⟩ := step_works h
    rw [perform_eq]
    constructor <;> grind [breaks, closes]
  case ack =>
    obtain ⟨w, m, p, x, hct, hs, hx, rfl⟩ := step_ack h
    have hfin := finish_fin (s := { s with s2c := x }) (.acked p) (inv_s2c x hI) hct
    generalize { s with s2c := x }.finish w (.acked p) = s' at *
    cases hfin <;> constructor <;> grind [breaks, closes]
  all_goals
    simp only [step] at h <;> (repeat' split at h) <;> (try cases h) <;> (try (simp only [Option.some.injEq] at h; subst h))
  all_goals first
    | (exfalso; simp at hl; done)
    | (rw [tell_frame]; constructor <;> grind [breaks, closes, asked])
    | (constructor <;> grind [breaks, closes, asked])

def Broke (ls : List Label) : Prop := ∃ l ∈ ls, breaks l = true

def Closed (ls : List Label) : Prop := ∃ l ∈ ls, closes l = true

theorem shows_run {ls : List Label} {s : St} (h : Run ls s) : Inv s ∧ Shows (Asked ls) (Broke ls) (.ackTimeout ∈ ls) (Closed ls) s := by
  refine run_hist (I := fun (ls : List Label) (s : St) => Inv s ∧ Shows (Asked ls) (Broke ls) (.ackTimeout ∈ ls) (Closed ls) s)
    (fun ls s l s' hI h => ⟨inv_step s l s' hI.1 h, ?_⟩) ⟨inv_init, ?_⟩ h
  · refine shows_step hI.1 hI.2 (fun ⟨x, hx, hf⟩ => ⟨x, by simp [hx], hf⟩) (fun hf => ⟨l, by simp, hf⟩) ?_ ?_ ?_ h
    · rintro ⟨x, hx, hf⟩
      rcases List.mem_append.mp hx with hx | hx
      · exact .inl ⟨x, hx, hf⟩
      · rw [List.mem_singleton] at hx; exact .inr (hx ▸ hf)
    · intro hx
      rcases List.mem_append.mp hx with hx | hx
      · exact .inl hx
      · rw [List.mem_singleton] at hx; exact .inr hx.symm
    · rintro ⟨x, hx, hf⟩
      rcases List.mem_append.mp hx with hx | hx
      · exact .inl ⟨x, hx, hf⟩
      · rw [List.mem_singleton] at hx; exact .inr (hx ▸ hf)
  · constructor <;> simp [init, Broke, Closed]

/-- **C94** (cause).  When a request is over whose client stayed to the end and whom nobody asked to detach, the client was told the status of the
shell; else the shell-to-client thread did not get to a message within its time limit, or ended by an error, or the shell's terminal was closed
500 ms before the shell exited.  Other failures (malformed keybindings, a failing write to the shell, a late acknowledgement) cannot be
the reason. -/
theorem C94_cause {ls : List Label} {s : St} {r : Bool} (h : Run ls s) (hr : s.main = .returned (some r)) (hc : s.closed = false)
    (ha : ∀ l ∈ ls, asked l = false) :
    (∃ c, s.exited = some c ∧ s.told = [c]) ∨ .sendTimeout ∈ ls ∨ .s2cFails ∈ ls ∨ .hangupAlone ∈ ls := by
  refine Classical.byContradiction fun hno => ?_
  obtain ⟨hI, hS⟩ := shows_run h
  obtain ⟨e1, e2, _⟩ := hI.retb r hr
  have hA : ¬ Asked ls := fun ⟨x, hx, hf⟩ => by rw [ha x hx] at hf; cases hf
  have hB : ¬ Broke ls := fun hb => by have := hS.bad hb; rw [e1] at this; cases this
  have hC : ¬ Closed ls := fun hb => by have := hS.closed hb; rw [hc] at this; cases this
  have hK : Label.ackTimeout ∉ ls := fun hk => by
    rcases hS.late hk with h | h | h | h
    · exact hA h
    · rw [e2] at h; cases h
    · rw [hr] at h; cases h
    · rw [hr] at h; cases h
  refine hno (.inl (C94_told_partial h hr fun l hl => ?_))
  have h1 := ha l hl
  have h2 : breaks l = false := by simpa using fun e => hB ⟨l, hl, e⟩
  have h3 : closes l = false := by simpa using fun e => hC ⟨l, hl, e⟩
  cases l <;> simp_all [Clean, Cause, Failing, asked, breaks, closes]

/-- The shell-to-client thread fails before the shell exits. -/
def failRun : List Label := connect ++ [.s2cFails, .shellExits 3, .supSees, .mainPolls, .mainLooks, .mainLock, .noticeGone, .c2sEof, .mainJoins,
  .hbPolls, .mainJoins, .mainJoins, .mainJoins]

/-- The shell closes its terminal and exits later. -/
def aloneRun : List Label := connect ++ [.ptyCloses, .hangupAlone, .shellExits 3, .supSees, .mainPolls, .mainLooks, .mainLock, .noticeGone, .c2sEof,
  .mainJoins, .hbPolls, .mainJoins, .mainJoins, .mainJoins]

/-- **C94** (each).  Each of the three can be the only one. -/
theorem C94_each : ∀ x ∈ [Label.sendTimeout, .s2cFails, .hangupAlone], ∃ ls s r, Run ls s ∧ s.main = .returned (some r) ∧ s.closed = false ∧
    (∀ l ∈ ls, asked l = false) ∧ s.exited = some 3 ∧ s.told = [] ∧ x ∈ ls ∧ (∀ y ∈ [Label.sendTimeout, .s2cFails, .hangupAlone], y ∈ ls → y = x) ∧
    ∀ l ∈ ls, breaks l = false ∧ l ≠ .ackTimeout := by
  intro x hx
  simp only [List.mem_cons, List.not_mem_nil, or_false] at hx
  rcases hx with rfl | rfl | rfl
  · exact ⟨slowRun, _, true, rfl, by decide, by decide, by decide, by decide, by decide, by decide, by decide, by decide⟩
  · exact ⟨failRun, _, true, rfl, by decide, by decide, by decide, by decide, by decide, by decide, by decide, by decide⟩
  · exact ⟨aloneRun, _, true, rfl, by decide, by decide, by decide, by decide, by decide, by decide, by decide, by decide⟩

/-! ## C108 -/

theorem deaf_step {s s' : St} {l : Label} (hc : s.closed = true) (h : step s l = some s') : s'.closed = true ∧ s'.told = s.told := by
  have hf : ∀ (s : St) w o, (s.finish w o).closed = s.closed ∧ (s.finish w o).told = s.told := by
    intro s w o; unfold St.finish; dsimp only; (repeat' split) <;> exact ⟨rfl, rfl⟩
  have ht : ∀ c, s.tell c = s := fun c => by simp [St.tell, hc]
  cases l
  case s2cWorks =>
    obtain ⟨w, m, hs, rfl⟩ := step_works h
    cases m <;> simp only [St.perform, ht] <;> (repeat' split) <;> simp [hc]
  all_goals
    simp only [step] at h <;> (repeat' split at h) <;> (try cases h) <;> (try (simp only [Option.some.injEq] at h; subst h))
  all_goals first
    | exact ⟨hc, rfl⟩
    | (rw [(hf _ _ _).1, (hf _ _ _).2]; exact ⟨hc, rfl⟩)
    | (rw [ht]; exact ⟨hc, rfl⟩)
    | (simp only [ht]; exact ⟨hc, rfl⟩)
    | rfl

theorem exited_step {s s' : St} {l : Label} {c : Nat} (hc : s.exited = some c) (h : step s l = some s') : s'.exited = some c := by
  have hf : ∀ (s : St) w o, (s.finish w o).exited = s.exited := by
    intro s w o; unfold St.finish; dsimp only; (repeat' split) <;> rfl
  step_cases
  all_goals first
    | exact hc
    | (rw [hf]; exact hc)
    | (rw [perform_frame]; exact hc)
    | (rw [tell_frame]; exact hc)
    | (simp_all; done)

/-- **C108** (cause).  A status the client is told is the shell's, or it is 0 and somebody asked for the client to be detached, the configuration has
malformed keybindings, or writing to the shell's terminal failed since it is closed.  (That reading from the client fails is no reason: such
a client is gone.) -/
theorem C108_cause {ls : List Label} {s : St} (h : Run ls s) {c : Nat} (hc : c ∈ s.told) :
    s.exited = some c ∨ (c = 0 ∧ ∃ l ∈ ls, asked l = true ∨ l = .c2sCompiles false ∨ l = .c2sWriteFails) := by
  have key : ∀ c ∈ s.told, s.exited = some c ∨ (c = 0 ∧ ∃ l ∈ ls, asked l = true ∨ l = .c2sCompiles false ∨ l = .c2sWriteFails) := by
    refine (run_hist (I := fun (ls : List Label) (s : St) => Run ls s ∧
      ∀ c ∈ s.told, s.exited = some c ∨ (c = 0 ∧ ∃ l ∈ ls, asked l = true ∨ l = .c2sCompiles false ∨ l = .c2sWriteFails))
      (fun ls s l s' hI h => ?_) ⟨rfl, by simp [init]⟩ h).2
    have hr : Run (ls ++ [l]) s' := by
      have := hI.1
      unfold Run at *
      rw [run_append, this]
      simp [runSteps, h]
    refine ⟨hr, fun c hc => ?_⟩
    by_cases hcl : s.closed = true
    · rw [(deaf_step hcl h).2] at hc
      rcases hI.2 c hc with e | ⟨e, x, hx, hx'⟩
      · exact .inl (exited_step e h)
      · exact .inr ⟨e, x, by simp [hx], hx'⟩
    · rcases C108_true_partial hr hc with e | ⟨e, x, hx, hx'⟩
      · exact .inl e
      · refine .inr ⟨e, x, hx, ?_⟩
        rcases hx' with h1 | h1 | h1 | h1
        · exact .inl h1
        · exact .inr (.inl h1)
        · exfalso
          subst h1
          rcases List.mem_append.mp hx with hx | hx
          · exact hcl ((shows_run hI.1).2.closed ⟨_, hx, rfl⟩)
          · rw [List.mem_singleton] at hx
            subst hx
            simp only [step] at h
            split at h
            · next hc => exact hcl hc.2
            · cases h
        · exact .inr (.inr h1)
  exact key c hc

/-- Malformed keybindings: the client is detached at once. -/
def bindRun : List Label := [.mainLock, .meet, .s2cWorks, .ack, .c2sCompiles false, .mainPolls, .mainLooks, .mainLock, .meet, .s2cWorks, .ack]

/-- **C108** (each).  Malformed keybindings alone, and a failing write alone, make the client be told 0 although its shell runs or failed. -/
theorem C108_each : (∃ s, Run bindRun s ∧ s.told = [0] ∧ s.exited = none ∧ (∀ l ∈ bindRun, asked l = false ∧ l ≠ .c2sWriteFails)) ∧
    ∃ s, Run falseZeroRun s ∧ s.told = [0] ∧ s.exited = some 3 ∧ ∀ l ∈ falseZeroRun, asked l = false ∧ l ≠ .c2sCompiles false :=
  ⟨⟨_, rfl, by decide, by decide, by decide⟩, ⟨_, rfl, by decide, by decide, by decide⟩⟩

end Shpool.Bidi
