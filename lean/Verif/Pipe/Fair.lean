import Verif.Pipe.Props
import Verif.Util.Fair

/-! # In every fair execution the attach client ends once it has to -/

namespace Shpool.Pipe
open Chunk (Chunk Kind)

/-- A step of the socket-to-stdout thread. -/
def ofOut : Label → Bool
  | .outCheck | .outTimeout | .outRecv _ | .outError | .outHandle .. => true
  | _ => false

/-- The client has ended. -/
def Ended (s : St) : Prop := (∃ r, s.main = .done r) ∨ ∃ c, s.main = .hardExit c

/-- How far the main thread is from the end. -/
def mainLeft (s : St) : Nat :=
  match s.main with
  | .waiting => 4
  | .grace => 3
  | .stamp => 2
  | .wait2 => 1
  | _ => 0

/-- How far the socket side is from its end once the outcome is decided. -/
def outLeft (s : St) : Nat :=
  match s.out with
  | .reading => 3
  | .got _ => 2
  | .top => 1
  | .finished => 0

theorem handle_same (s : St) (f : Chunk) (accept : Bool) (written : Option Nat) (bad : Bool) :
    (handle s f accept written bad).main = s.main ∧ (handle s f accept written bad).inp = s.inp ∧
    ((handle s f accept written bad).out = .top ∨ (handle s f accept written bad).out = .finished) ∧
    (s.slot.isSome = true → (handle s f accept written bad).slot.isSome = true) := by
  simp only [handle]
  cases hk : f.kind <;> simp only
  · cases written <;> simp
  · simp
  · cases ho : Chunk.ofLe32 (f.buf.take 4) <;> simp
  · cases bad <;> cases accept <;> simp

/-- What a step does: only the main thread's own steps move it, and towards the end; a thread that has finished stays so; what is decided
stays decided, and then the socket side only moves towards its end. -/
theorem any_step {s s' : St} {l : Label} (h : step s l = some s') :
    (ofMain l = false → s'.main = s.main) ∧ (ofMain l = true → mainLeft s' < mainLeft s) ∧ (s.main ≠ .waiting → s'.main ≠ .waiting) ∧
    (s.inp = .finished → s'.inp = .finished) ∧ (s.out = .finished → s'.out = .finished) ∧
    (s.slot.isSome = true → s'.slot.isSome = true) ∧ (ofOut l = false → s'.out = s.out ∧ s'.handled = s.handled) ∧
    (ofOut l = true → s.slot.isSome = true → outLeft s' < outLeft s) := by
  cases l <;> simp only [step] at h
  case outHandle accept written bad =>
    split at h
    · rename_i f ho
      cases h
      obtain ⟨h1, h2, h3, h4⟩ := handle_same s f accept written bad
      refine ⟨fun _ => h1, nofun, by rw [h1]; exact id, by rw [h2]; exact id, by simp [ho], h4, nofun, fun _ _ => ?_⟩
      rcases h3 with h3 | h3 <;> simp [outLeft, h3, ho]
    · cases h
  case inData b acc =>
    split at h
    · rename_i hc
      split at h <;> cases h <;> simp [ofMain, ofOut, hc]
    · cases h
  case wait2End t =>
    split at h
    · rename_i hm
      split at h
      · cases h; simp [ofMain, ofOut, mainLeft, hm]
      · split at h
        · cases h; simp [ofMain, ofOut, mainLeft, hm]
        · cases h
    · cases h
  case mainWake =>
    split at h <;> cases h
    rename_i hc
    have : ∀ p : Prop, ∀ _ : Decidable p, mainLeft { s with main := if p then MainPC.grace else .stamp } < mainLeft s ∧
        (if p then MainPC.grace else MainPC.stamp) ≠ .waiting := by
      intro p _
      by_cases hp : p <;> simp [mainLeft, hc.1, hp]
    exact ⟨nofun, fun _ => (this _ _).1, fun _ => (this _ _).2, id, id, id, fun _ => ⟨rfl, rfl⟩, nofun⟩
  case graceEnd t =>
    split at h <;> cases h
    rename_i hc
    simp [ofMain, ofOut, mainLeft, hc.1]
  case stamp =>
    split at h <;> cases h
    rename_i hc
    simp [ofMain, ofOut, mainLeft, hc]
  case outCheck =>
    split at h <;> cases h
    rename_i hc
    refine ⟨fun _ => rfl, nofun, id, id, by simp [hc], id, nofun, fun _ hs => ?_⟩
    simp [outLeft, hs, hc]
  all_goals (split at h <;> cases h; rename_i hc; simp [ofMain, ofOut, hc, outLeft])

/-- **C24**, over time: in every execution in which the main thread is not put off for ever the client ends once stdin has ended or the
connection has; what the other thread does then does not matter, it may be stuck for ever. -/
theorem C24_fair_one {σ : Nat → St} {lab : Nat → Option Label} (hx : Exec step σ lab) (hm : WeakFair step σ lab ofMain) {m : Nat}
    (h : (σ m).inp = .finished ∨ (σ m).out = .finished) : ∃ i, m ≤ i ∧ Ended (σ i) := by
  by_cases he : Ended (σ m)
  · exact ⟨m, Nat.le_refl _, he⟩
  exact fair_reaches hx hm (B := fun s => (s.inp = .finished ∨ s.out = .finished) ∧ ¬ Ended s) (G := Ended) mainLeft
    ⟨h, he⟩ (fun i _ hb => by
      cases hmain : (σ i).main with
      | waiting => exact ⟨.mainWake, rfl, by simp [step, hmain, hb.1]⟩
      | grace => exact ⟨.graceEnd true, rfl, by simp [step, hmain]⟩
      | stamp => exact ⟨.stamp, rfl, by simp [step, hmain]⟩
      | wait2 => exact ⟨.wait2End true, rfl, by by_cases hbf : bothFinished (σ i) = true <;> simp [step, hmain, hbf]⟩
      | done r => exact absurd (.inl ⟨r, hmain⟩) hb.2
      | hardExit c => exact absurd (.inr ⟨c, hmain⟩) hb.2) (fun i l _ _ hb hs => by
      by_cases hg : Ended (σ (i + 1))
      · exact .inl hg
      obtain ⟨h1, h2, -, h4, h5, -⟩ := any_step hs
      refine .inr ⟨⟨hb.1.imp h4 h5, hg⟩, ?_, h2⟩
      cases hl : ofMain l with
      | true => exact Nat.le_of_lt (h2 hl)
      | false => simp [mainLeft, h1 hl])

/-- **C24**, over time: in every execution in which neither the main thread nor the socket side is put off for ever (waiting is limited for
both), the client ends once the outcome is decided. -/
theorem C24_fair {σ : Nat → St} {lab : Nat → Option Label} (hx : Exec step σ lab) (hm : WeakFair step σ lab ofMain)
    (ho : WeakFair step σ lab ofOut) {m : Nat} (h : (σ m).slot.isSome = true) : ∃ i, m ≤ i ∧ Ended (σ i) := by
  obtain ⟨n, hn, hone⟩ : ∃ n, m ≤ n ∧ (σ n).out = .finished := by
    by_cases hf : (σ m).out = .finished
    · exact ⟨m, Nat.le_refl _, hf⟩
    exact fair_reaches hx ho (B := fun s => s.slot.isSome = true ∧ s.out ≠ .finished) (G := fun s => s.out = .finished) outLeft
      ⟨h, hf⟩ (fun i _ hb => by
        cases hout : (σ i).out with
        | top => exact ⟨.outCheck, rfl, by simp [step, hout]⟩
        | reading => exact ⟨.outTimeout, rfl, by simp [step, hout]⟩
        | got f => exact ⟨.outHandle false none false, rfl, by simp [step, hout]⟩
        | finished => exact absurd hout hb.2) (fun i l _ _ hb hs => by
        by_cases hg : (σ (i + 1)).out = .finished
        · exact .inl hg
        obtain ⟨-, -, -, -, -, h6, h7, h8⟩ := any_step hs
        refine .inr ⟨⟨h6 hb.1, hg⟩, ?_, fun hl => h8 hl hb.1⟩
        cases hl : ofOut l with
        | true => exact Nat.le_of_lt (h8 hl hb.1)
        | false => simp [outLeft, (h7 hl).1])
  obtain ⟨i, hi, hg⟩ := C24_fair_one hx hm (.inr hone)
  exact ⟨i, by omega, hg⟩

/-- What has been handled stays handled. -/
theorem handled_step {s s' : St} {l : Label} (h : step s l = some s') : s.handled <+: s'.handled := by
  cases l <;> simp only [step] at h
  case outHandle accept written bad =>
    split at h
    · rename_i f ho
      cases h
      simp only [handle]
      cases hk : f.kind <;> simp only
      · cases written <;> simp
      · simp
      · cases ho : Chunk.ofLe32 (f.buf.take 4) <;> simp
      · cases bad <;> cases accept <;> simp
    · cases h
  case inData b acc =>
    split at h
    · split at h <;> cases h <;> exact List.prefix_refl _
    · cases h
  case wait2End t =>
    split at h
    · split at h
      · cases h; exact List.prefix_refl _
      · split at h
        · cases h; exact List.prefix_refl _
        · cases h
    · cases h
  all_goals (split at h <;> cases h; exact List.prefix_refl _)

theorem findSome_prefix {a b : List (Chunk × Bool)} {r : Result} (h : a <+: b) (hr : a.findSome? decides = some r) :
    b.findSome? decides = some r := by
  obtain ⟨c, rfl⟩ := h
  simp [List.findSome?_append, hr]

/-- Only the last wait ends in a hard exit. -/
theorem hard_step {s s' : St} {l : Label} {c : Nat} (h : step s l = some s') (hc : s'.main = .hardExit c) :
    s.main = .hardExit c ∨ ∃ t, l = .wait2End t := by
  cases hl : ofMain l with
  | false => exact .inl ((any_step h).1 hl ▸ hc)
  | true =>
    cases l <;> simp only [ofMain, Bool.false_eq_true] at hl <;> simp only [step] at h
    · split at h <;> cases h
      simp only at hc
      split at hc <;> cases hc
    · split at h <;> cases h
      cases hc
    · split at h <;> cases h
      cases hc
    · exact .inr ⟨_, rfl⟩

/-- **C24**, over time: once the client has handled an exit-status frame and no switch was accepted before it, it ends with that status, in every
such execution; whether stdin ends as well, what else arrives and how long the threads take does not matter. -/
theorem C24_fair_status {σ : Nat → St} {lab : Nat → Option Label} (hx : Exec step σ lab) (h0 : σ 0 = init) (hm : WeakFair step σ lab ofMain)
    (ho : WeakFair step σ lab ofOut) {m st : Nat} (hne : ¬ Ended (σ m)) (hst : (σ m).handled.findSome? decides = some (.exit st)) :
    ∃ i, m ≤ i ∧ ((σ i).main = .done (.exit st) ∨ (σ i).main = .hardExit st) := by
  have hrun : ∀ i, Run (performed lab i) (σ i) := fun i => by
    have h := exec_run hx i
    rw [h0] at h
    exact h
  have hkeep : ∀ i, m ≤ i → (σ i).handled.findSome? decides = some (.exit st) ∧ ∀ c, (σ i).main = .hardExit c → c = st :=
    exec_stays hx (p := fun s => s.handled.findSome? decides = some (.exit st) ∧ ∀ c, s.main = .hardExit c → c = st)
      (fun i l _ _ hp h => ⟨findSome_prefix (handled_step h) hp.1, fun c hc => by
        rcases hard_step h hc with hc' | ⟨t, rfl⟩
        · exact hp.2 c hc'
        · exact (C24_hard_exit (hrun i) h hc).1 st (by simp [outcome, hp.1])⟩)
      ⟨hst, fun c hc => absurd (.inr ⟨c, hc⟩) hne⟩
  have hslot : (σ m).slot.isSome = true := by rw [decided_slot (hrun m) hst]; rfl
  obtain ⟨i, hi, ⟨r, hr⟩ | ⟨c, hc⟩⟩ := C24_fair hx hm ho hslot
  · refine ⟨i, hi, .inl ?_⟩
    rw [hr, C24_result (hrun i) hr]
    simp [outcome, (hkeep i hi).1]
  · exact ⟨i, hi, .inr (by rw [hc, (hkeep i hi).2 c hc])⟩

/-- **C24**, over time: a client whose stdin stays open, whose stdout takes what is written and whose connection works ends with the status of
the first exit-status frame that arrives (unless it accepted a switch before), in every such execution. -/
theorem C24_fair_received {σ : Nat → St} {lab : Nat → Option Label} (hx : Exec step σ lab) (h0 : σ 0 = init) (hm : WeakFair step σ lab ofMain)
    (ho : WeakFair step σ lab ofOut) (hq : ∀ i l, lab i = some l → disturbs l = false)
    (hwf : ∀ i f, lab i = some (.outRecv f) → f.kind = .exitStatus → 4 ≤ f.buf.length)
    {m st : Nat} {f : Chunk} (hl : lab m = some (.outRecv f)) (hk : f.kind = .exitStatus) (hst : Chunk.ofLe32 (f.buf.take 4) = some st)
    (hfirst : (σ m).handled.findSome? decides = none) :
    ∃ i, m ≤ i ∧ ((σ i).main = .done (.exit st) ∨ (σ i).main = .hardExit st) := by
  have hrun : ∀ i, Run (performed lab i) (σ i) := fun i => by
    have h := exec_run hx i
    rw [h0] at h
    exact h
  have hwait : ∀ i, (σ i).handled.findSome? decides = none → (σ i).main = .waiting := fun i hn =>
    C24_stays (hrun i) (fun l h => by obtain ⟨j, _, hj⟩ := mem_performed h; exact hq j l hj) hn
      (fun g h => by obtain ⟨j, _, hj⟩ := mem_performed h; exact hwf j g hj)
  have hgot : (σ (m + 1)).out = .got f ∧ (σ (m + 1)).handled.findSome? decides = none := by
    have hs := exec_at hx hl
    simp only [step] at hs
    split at hs
    · generalize σ (m + 1) = s' at hs ⊢
      cases hs
      exact ⟨rfl, hfirst⟩
    · cases hs
  obtain ⟨i, hi, hg⟩ := fair_reaches hx ho (B := fun s => s.out = .got f ∧ s.handled.findSome? decides = none)
    (G := fun s => s.handled.findSome? decides = some (.exit st) ∧ s.main = .waiting) (fun _ => 0) hgot
    (fun i _ hb => ⟨.outHandle false none false, rfl, by simp [step, hb.1]⟩) (fun i l _ _ hb hs => by
      have hw := hwait i hb.2
      cases hlo : ofOut l with
      | false =>
        obtain ⟨h1, h2⟩ := (any_step hs).2.2.2.2.2.2.1 hlo
        exact .inr ⟨⟨by rw [h1]; exact hb.1, by rw [h2]; exact hb.2⟩, Nat.le_refl _, nofun⟩
      | true =>
        cases l <;> simp only [ofOut, Bool.false_eq_true] at hlo
        case outHandle accept written bad =>
          simp only [step, hb.1] at hs
          generalize σ (i + 1) = s' at hs ⊢
          cases hs
          refine .inl ⟨?_, by rw [(handle_same _ _ _ _ _).1]; exact hw⟩
          simp [handle, hk, hst, List.findSome?_append, hb.2, decides]
        all_goals (simp only [step, hb.1, reduceCtorEq, if_false] at hs))
  obtain ⟨j, hj, h⟩ := C24_fair_status hx h0 hm ho (m := i) (st := st) (by rintro (⟨r, h⟩ | ⟨c, h⟩) <;> (rw [hg.2] at h; cases h)) hg.1
  exact ⟨j, by omega, h⟩

/-- The shell prints "hi" and exits with status 7 while the user has not typed anything; the threads time out now and then. -/
def lastOutput : List Label :=
  [.inCheck, .outCheck, .outRecv ⟨.data, [104, 105]⟩, .outHandle false none false, .inTimeout, .outCheck, .outRecv ⟨.exitStatus, [7, 0, 0, 0]⟩,
   .outHandle false none false, .outCheck, .mainWake, .stamp, .inCheck, .wait2End false]

example : Exec step (thenRests step init lastOutput) (fun i => lastOutput[i]?) ∧
    WeakFair step (thenRests step init lastOutput) (fun i => lastOutput[i]?) ofMain ∧
    WeakFair step (thenRests step init lastOutput) (fun i => lastOutput[i]?) ofOut ∧
    (∀ (i : Nat) l, lastOutput[i]? = some l → disturbs l = false) ∧ lastOutput[6]? = some (.outRecv ⟨.exitStatus, [7, 0, 0, 0]⟩) ∧
    (thenRests step init lastOutput 6).handled.findSome? decides = none ∧ (thenRests step init lastOutput 13).main = .done (.exit 7) ∧
    (thenRests step init lastOutput 13).stdout = [104, 105] := by
  obtain ⟨s', hr, hs1, hs2⟩ : ∃ s', runSteps step init lastOutput = some s' ∧ s'.main = .done (.exit 7) ∧ s'.out = .finished := ⟨_, rfl, rfl, rfl⟩
  obtain ⟨h1, h2⟩ := thenRests_exec hr
  refine ⟨h1, (fair_at_rest h2 fun l hl => ?_).1, (fair_at_rest h2 fun l hl => ?_).1, fun i l h => ?_, rfl, rfl, rfl, rfl⟩
  · cases l <;> simp [ofMain] at hl <;> simp [step, hs1]
  · cases l <;> simp [ofOut] at hl <;> simp [step, hs2]
  · have : ∀ l ∈ lastOutput, disturbs l = false := by decide
    exact this l (List.mem_of_getElem? h)

/-- stdin ends although the socket side is stuck for ever: the client ends nevertheless. -/
def stuckSocket : List Label := [.inCheck, .outCheck, .inEof, .mainWake, .graceEnd true, .stamp, .wait2End true]

example : Exec step (thenRests step init stuckSocket) (fun i => stuckSocket[i]?) ∧
    WeakFair step (thenRests step init stuckSocket) (fun i => stuckSocket[i]?) ofMain ∧ (thenRests step init stuckSocket 3).inp = .finished ∧
    (thenRests step init stuckSocket 7).main = .hardExit 1 := by
  obtain ⟨s', hr, hs1⟩ : ∃ s', runSteps step init stuckSocket = some s' ∧ s'.main = .hardExit 1 := ⟨_, rfl, rfl⟩
  obtain ⟨h1, h2⟩ := thenRests_exec hr
  refine ⟨h1, (fair_at_rest h2 fun l hl => ?_).1, rfl, rfl⟩
  cases l <;> simp [ofMain] at hl <;> simp [step, hs1]

end Shpool.Pipe
