import Verif.Pipe.Model
import Verif.Util.List
/-!
# What the attach client prints and how it ends (C24)
-/

namespace Shpool.Pipe
open Chunk (Chunk Kind)

/-! ## Specification -/

/-- The bytes a sequence of received frames makes the client print: the payloads of the data frames, in order. -/
def printed (fs : List (Chunk × Bool)) : List UInt8 :=
  (fs.map fun p => if p.1.kind = .data then p.1.buf else []).flatten

/-- What a received frame decides: an exit-status frame the exit code in its first four bytes (little endian), a switch hint
the client's callback accepted a switch, anything else nothing. -/
def decides (p : Chunk × Bool) : Option Result :=
  match p.1.kind with
  | .exitStatus => (Chunk.ofLe32 (p.1.buf.take 4)).map .exit
  | .maybeSwitch => if p.2 then some (.switch p.1.buf) else none
  | _ => none

/-- How a client that handled these frames ends: as the first deciding frame says, and with code 1 without one. -/
def outcome (fs : List (Chunk × Bool)) : Result := (fs.findSome? decides).getD (.exit 1)

/-! ## Printing -/

/-- What is printed is what was received, unless writing to stdout failed. -/
private def InvOut (s : St) : Prop :=
  (s.stdoutFailed = none → s.stdout = printed s.handled) ∧
  (∀ f, s.stdoutFailed = some f →
    s.out = .finished ∧ f.kind = .data ∧ ∃ k, s.stdout = printed s.handled ++ f.buf.take k)

private theorem printed_snoc (fs : List (Chunk × Bool)) (p : Chunk × Bool) :
    printed (fs ++ [p]) = printed fs ++ (if p.1.kind = .data then p.1.buf else []) := by
  simp [printed]

private theorem step_failed {s s' : St} {l : Label} (h : step s l = some s') (hf : s.out = .finished) :
    s'.out = .finished ∧ s'.stdout = s.stdout ∧ s'.handled = s.handled ∧ s'.stdoutFailed = s.stdoutFailed := by
  cases l <;> simp only [step] at h
  case outHandle => rw [hf] at h; cases h
  case outCheck | outTimeout | outRecv | outError => simp [hf] at h
  case inData b acc =>
    split at h
    · split at h <;> (cases h; exact ⟨hf, rfl, rfl, rfl⟩)
    · cases h
  case wait2End t =>
    split at h
    · split at h
      · cases h; exact ⟨hf, rfl, rfl, rfl⟩
      · split at h
        · cases h; exact ⟨hf, rfl, rfl, rfl⟩
        · cases h
    · cases h
  all_goals (split at h <;> cases h; exact ⟨hf, rfl, rfl, rfl⟩)

private theorem step_out (s : St) (l : Label) (s' : St) (hI : InvOut s) (h : step s l = some s') : InvOut s' := by
  rcases hf : s.stdoutFailed with _ | g
  rotate_left
  · obtain ⟨hfin, hd, k, hk⟩ := hI.2 g hf
    obtain ⟨h1, h2, h3, h4⟩ := step_failed h hfin
    refine ⟨fun h => ?_, fun f hf' => ?_⟩
    · rw [h4, hf] at h; cases h
    · rw [h4, hf] at hf'; cases hf'
      exact ⟨h1, hd, k, by rw [h2, h3]; exact hk⟩
  ·
    have hp := hI.1 hf
    cases l <;> simp only [step] at h
    case outHandle accept written bad =>
      split at h
      · rename_i f ho
        cases h
        simp only [handle]
        cases hk : f.kind <;> simp only
        · cases written <;> simp only
          · exact ⟨fun _ => by simp [printed_snoc, hp, hk], fun _ h => by simp [hf] at h⟩
          · exact ⟨(fun h => by cases h), fun _ h => by cases h; exact ⟨rfl, hk, _, by rw [hp]⟩⟩
        · exact ⟨fun _ => by simp [printed_snoc, hp, hk], fun _ h => by simp [hf] at h⟩
        · cases Chunk.ofLe32 (f.buf.take 4) <;> simp only
          · exact ⟨fun _ => hp, fun _ h => by simp [hf] at h⟩
          · exact ⟨fun _ => by simp [printed_snoc, hp, hk], fun _ h => by simp [hf] at h⟩
        · cases bad <;> cases accept <;> simp only [if_true, Bool.false_eq_true, if_false]
          · exact ⟨fun _ => by simp [printed_snoc, hp, hk], fun _ h => by simp [hf] at h⟩
          · exact ⟨fun _ => by simp [printed_snoc, hp, hk], fun _ h => by simp [hf] at h⟩
          · exact ⟨fun _ => hp, fun _ h => by simp [hf] at h⟩
          · exact ⟨fun _ => hp, fun _ h => by simp [hf] at h⟩
      · cases h
    case inData b acc =>
      split at h
      · split at h <;> (cases h; exact ⟨fun _ => hp, fun _ h => by simp [hf] at h⟩)
      · cases h
    case wait2End t =>
      split at h
      · split at h
        · cases h; exact ⟨fun _ => hp, fun _ h => by simp [hf] at h⟩
        · split at h
          · cases h; exact ⟨fun _ => hp, fun _ h => by simp [hf] at h⟩
          · cases h
      · cases h
    all_goals (split at h <;> cases h; exact ⟨fun _ => hp, fun _ h => by simp [hf] at h⟩)

private theorem run_out {ls : List Label} {s : St} (h : Run ls s) : InvOut s :=
  run_inv step_out ⟨fun _ => rfl, fun _ h => by cases h⟩ h

/-- **C24**: as long as writing to stdout does not fail, at every moment what the client has printed is exactly the
concatenation of the data frames it handled: nothing lost, nothing added, nothing from frames of other kinds. -/
theorem C24_prints_exactly {ls : List Label} {s : St} (h : Run ls s) (hok : s.stdoutFailed = none) :
    s.stdout = printed s.handled := (run_out h).1 hok

/-- **C24**: a failing write to stdout ends the output: what was printed is the concatenation of the frames before it and a
beginning of the failing one. -/
theorem C24_prints_until_failure {ls : List Label} {s : St} {f : Chunk} (h : Run ls s) (hbad : s.stdoutFailed = some f) :
    s.out = .finished ∧ f.kind = .data ∧ ∃ k, s.stdout = printed s.handled ++ f.buf.take k := (run_out h).2 f hbad

/-! ## Forwarding -/

private def InvIn (s : St) : Prop :=
  (s.sockFailed = false → s.sent = s.typed) ∧
  (s.sockFailed = true → s.inp = .finished ∧ s.sent <+: s.typed)

private theorem step_in (s : St) (l : Label) (s' : St) (hI : InvIn s) (h : step s l = some s') : InvIn s' := by
  cases l <;> simp only [step] at h
  case outHandle accept written bad =>
    split at h
    · rename_i f ho
      cases h
      simp only [handle]
      (repeat' split) <;> exact hI
    · cases h
  case inData b acc =>
    split at h
    · rename_i hr
      have hsf : s.sockFailed = false := by
        cases hs : s.sockFailed
        · rfl
        · have := (hI.2 hs).1; rw [hr.1] at this; cases this
      split at h
      · cases h
        exact ⟨fun _ => by simp [hI.1 hsf], fun h => by simp [hsf] at h⟩
      · cases h
        refine ⟨(fun h => by cases h), fun _ => ⟨rfl, ?_⟩⟩
        simp only
        rw [hI.1 hsf]
        exact List.prefix_append_right_inj _ |>.2 (List.take_prefix _ _)
    · cases h
  case inCheck | inTimeout | inEof | inError =>
    split at h
    · rename_i hr
      cases h
      refine ⟨fun hs => hI.1 hs, fun hs => ?_⟩
      have := (hI.2 hs).1; rw [hr] at this; cases this
    · cases h
  case wait2End t =>
    split at h
    · split at h
      · cases h; exact hI
      · split at h
        · cases h; exact hI
        · cases h
    · cases h
  all_goals (split at h <;> cases h; exact hI)

/-- **C24**: at every moment what the client has sent to the daemon is exactly what was typed so far, in order; a failing
write ends the forwarding, and what was sent is a beginning of what was typed. -/
theorem C24_forwards_exactly {ls : List Label} {s : St} (h : Run ls s) :
    (s.sockFailed = false → s.sent = s.typed) ∧ (s.sockFailed = true → s.inp = .finished ∧ s.sent <+: s.typed) :=
  (run_inv step_in ⟨fun _ => rfl, (fun h => by cases h)⟩ h : InvIn s)

/-! ## The result -/

private theorem handle_decides (s : St) (f : Chunk) (accept : Bool) (written : Option Nat) (bad : Bool) :
    let s' := handle s f accept written bad
    s'.main = s.main ∧ s'.inp = s.inp ∧
    ((s'.handled = s.handled ∧ s'.slot = s.slot ∧ s'.out = .finished) ∨
     (s'.handled = s.handled ++ [(f, accept)] ∧ s'.out = .top ∧
       ((decides (f, accept) = none ∧ s'.slot = s.slot) ∨
        (∃ r, decides (f, accept) = some r ∧ s'.slot = some r)))) := by
  simp only [handle]
  cases hk : f.kind <;> simp only
  · cases written <;> simp [decides, hk]
  · simp [decides, hk]
  · cases ho : Chunk.ofLe32 (f.buf.take 4) <;> simp [decides, hk, ho]
  · cases bad <;> cases accept <;> simp [decides, hk]

/-- What has been decided is in the slot; without a decision the slot holds nothing or the fallback. -/
private def InvSlot (s : St) : Prop :=
  (∀ r, s.handled.findSome? decides = some r → s.slot = some r ∧ (s.out = .top ∨ s.out = .finished)) ∧
  (s.handled.findSome? decides = none → s.slot = none ∨ s.slot = some (.exit 1))

private theorem invSlot_of {s s' : St} (hI : InvSlot s) (h1 : s'.handled = s.handled) (h2 : s'.slot = s.slot)
    (h3 : s'.out = s.out ∨ (s.slot.isSome → s'.out = .top ∨ s'.out = .finished)) : InvSlot s' := by
  refine ⟨fun r hr => ?_, fun hr => ?_⟩
  · rw [h1] at hr
    obtain ⟨ha, hb⟩ := hI.1 r hr
    rw [h2]
    refine ⟨ha, ?_⟩
    rcases h3 with h3 | h3
    · rw [h3]; exact hb
    · exact h3 (by rw [ha]; rfl)
  · rw [h1] at hr; rw [h2]; exact hI.2 hr

private theorem step_slot (s : St) (l : Label) (s' : St) (hI : InvSlot s) (h : step s l = some s') : InvSlot s' := by
  have hI0 := hI
  cases l <;> simp only [step] at h
  case outHandle accept written bad =>
    split at h
    · rename_i f ho
      cases h
      have hn : s.handled.findSome? decides = none := by
        cases hd : s.handled.findSome? decides with
        | none => rfl
        | some r => have := (hI.1 r hd).2; rw [ho] at this; simp at this
      obtain ⟨_, _, hc⟩ := handle_decides s f accept written bad
      rcases hc with ⟨h1, h2, h3⟩ | ⟨h1, h2, h3⟩
      · exact invSlot_of hI h1 h2 (.inr fun _ => .inr h3)
      · refine ⟨fun r hr => ?_, fun hr => ?_⟩
        · rw [h1, List.findSome?_append, hn] at hr
          simp at hr
          rcases h3 with ⟨h3, _⟩ | ⟨r', h3, h4⟩
          · rw [h3] at hr; cases hr
          · rw [h3] at hr; cases hr
            exact ⟨h4, .inl h2⟩
        · rw [h1, List.findSome?_append, hn] at hr
          simp at hr
          rcases h3 with ⟨_, h4⟩ | ⟨r', h3, _⟩
          · rw [h4]; exact hI.2 hn
          · rw [h3] at hr; cases hr
    · cases h
  case outCheck =>
    split at h <;> cases h
    exact invSlot_of hI rfl rfl (.inr fun hs => by simp [hs])
  case outTimeout =>
    split at h <;> cases h
    exact invSlot_of hI rfl rfl (.inr fun _ => .inl rfl)
  case outError =>
    split at h <;> cases h
    exact invSlot_of hI rfl rfl (.inr fun _ => .inr rfl)
  case outRecv f =>
    split at h
    · rename_i hr
      cases h
      refine ⟨fun r hd => ?_, hI.2⟩
      have := (hI.1 r hd).2; rw [hr] at this; simp at this
    · cases h
  case inData b acc =>
    split at h
    · split at h <;> (cases h; exact hI)
    · cases h
  case stamp =>
    split at h
    · cases h
      refine ⟨fun r hr => ?_, fun hr => ?_⟩
      · obtain ⟨ha, hb⟩ := hI.1 r hr
        exact ⟨by simp [ha], hb⟩
      · rcases hI.2 hr with h | h <;> simp [h]
    · cases h
  case wait2End t =>
    split at h
    · split at h
      · cases h; exact hI
      · split at h
        · cases h; exact hI
        · cases h
    · cases h
  all_goals (split at h <;> cases h; exact hI)

private theorem run_slot {ls : List Label} {s : St} (h : Run ls s) : InvSlot s :=
  run_inv step_slot ⟨(fun _ h => by cases h), fun _ => .inl rfl⟩ h

/-- What is decided is in the slot. -/
theorem decided_slot {ls : List Label} {s : St} {r : Result} (h : Run ls s) (hr : s.handled.findSome? decides = some r) : s.slot = some r :=
  ((run_slot h).1 r hr).1

private theorem final_outcome {s : St} (hI : InvSlot s) : final s = outcome s.handled := by
  simp only [final, outcome]
  cases hd : s.handled.findSome? decides with
  | some r => rw [(hI.1 r hd).1]
  | none => rcases hI.2 hd with h | h <;> rw [h] <;> rfl

/-- The result was computed when both threads had finished, and nothing changes afterwards. -/
private def InvDone (s : St) : Prop :=
  (∀ r, s.main = .done r → r = outcome s.handled ∧ s.out = .finished ∧ s.inp = .finished)


private theorem step_done (s : St) (l : Label) (s' : St) (hS : InvSlot s) (hI : InvDone s) (h : step s l = some s') :
    InvDone s' := by
  intro r hr
  cases l <;> simp only [step] at h
  case outHandle accept written bad =>
    split at h
    · rename_i f ho
      cases h
      obtain ⟨hm, _⟩ := handle_decides s f accept written bad
      rw [hm] at hr
      have := (hI r hr).2.1; rw [ho] at this; cases this
    · cases h
  case outCheck | outTimeout | outRecv | outError =>
    split at h
    · rename_i ho
      cases h
      have := (hI r hr).2.1; rw [ho] at this; cases this
    · cases h
  case inCheck | inTimeout | inEof | inError =>
    split at h
    · rename_i ho
      cases h
      have := (hI r hr).2.2; rw [ho] at this; cases this
    · cases h
  case inData b acc =>
    split at h
    · rename_i ho
      have hm : s.main = .done r := by split at h <;> (cases h; exact hr)
      have := (hI r hm).2.2; rw [ho.1] at this; cases this
    · cases h
  case wait2End t =>
    split at h
    · split at h
      · rename_i hb
        cases h
        simp only [MainPC.done.injEq] at hr
        subst hr
        simp only [bothFinished, decide_eq_true_eq] at hb
        exact ⟨final_outcome hS, hb.2, hb.1⟩
      · split at h
        · cases h; cases hr
        · cases h
    · cases h
  case mainWake =>
    split at h
    · cases h
      simp only at hr
      split at hr <;> cases hr
    · cases h
  case graceEnd | stamp =>
    split at h <;> cases h
    cases hr

/-- **C24**: when the main loop returns, its result is the one the received frames decide: the exit status in the first
exit-status frame (or the accepted switch hint, whichever came first), and code 1 when there was none — whatever the
interleaving of the three threads, the fallback and the timeouts. -/
theorem C24_result {ls : List Label} {s : St} {r : Result} (h : Run ls s) (hd : s.main = .done r) :
    r = outcome s.handled := by
  have : InvSlot s ∧ InvDone s :=
    run_inv (I := fun s => InvSlot s ∧ InvDone s)
      (fun s l s' hI h => ⟨step_slot s l s' hI.1 h, step_done s l s' hI.1 hI.2 h⟩)
      ⟨run_slot (ls := []) rfl, (fun _ h => by cases h)⟩ h
  exact (this.2 r hd).1

/-- **C24**: a client that has to give up on a stuck thread exits with the status decided so far when that is an exit
status, and with 1 otherwise (also when a switch had been accepted). -/
theorem C24_hard_exit {ls : List Label} {s s' : St} {t : Bool} {c : Nat} (h : Run ls s) (hs : step s (.wait2End t) = some s')
    (hc : s'.main = .hardExit c) :
    (∀ st, outcome s.handled = .exit st → c = st) ∧ (∀ p, outcome s.handled = .switch p → c = 1) := by
  have hf := final_outcome (run_slot h)
  have hcode : c = hardCode s := by
    simp only [step] at hs
    split at hs
    · split at hs
      · cases hs; cases hc
      · split at hs
        · cases hs; simp only [MainPC.hardExit.injEq] at hc; exact hc.symm
        · cases hs
    · cases hs
  subst hcode
  refine ⟨fun st ho => ?_, fun p ho => ?_⟩
  · rw [← hf] at ho
    simp only [final, hardCode] at ho ⊢
    cases hsl : s.slot with
    | none => rw [hsl] at ho; cases ho; rfl
    | some r => rw [hsl] at ho; simp only [Option.getD_some] at ho; subst ho; rfl
  · rw [← hf] at ho
    simp only [final, hardCode] at ho ⊢
    cases hsl : s.slot with
    | none => rw [hsl] at ho
    | some r => rw [hsl] at ho; simp only [Option.getD_some] at ho; subst ho; rfl

/-- **C24**: at most one frame decides: nothing is printed or handled after an exit-status frame or an accepted switch. -/
theorem C24_nothing_after_decision {ls : List Label} {s : St} (h : Run ls s) {a b : List (Chunk × Bool)} {p : Chunk × Bool}
    (hp : s.handled = a ++ p :: b) (hd : (decides p).isSome) : b = [] := by
  let I : St → Prop := fun s => InvSlot s ∧ ∀ a b p, s.handled = a ++ p :: b → (decides p).isSome → b = []
  have : I s := by
    refine run_inv (I := I) (fun s l s' hI h => ⟨step_slot s l s' hI.1 h, ?_⟩)
      ⟨run_slot (ls := []) rfl, (fun a b p h => by simp [init] at h)⟩ h
    obtain ⟨hS, hU⟩ := hI
    cases l <;> simp only [step] at h
    case outHandle accept written bad =>
      split at h
      · rename_i f ho
        cases h
        have hn : s.handled.findSome? decides = none := by
          cases hd : s.handled.findSome? decides with
          | none => rfl
          | some r => have := (hS.1 r hd).2; rw [ho] at this; simp at this
        obtain ⟨_, _, hc⟩ := handle_decides s f accept written bad
        rcases hc with ⟨h1, _⟩ | ⟨h1, _⟩
        · rw [h1]; exact hU
        · rw [h1]
          intro a b p hab hp
          cases b using snocInd with
          | nil => rfl
          | snoc b x =>
            exfalso
            have hab' : s.handled ++ [(f, accept)] = (a ++ p :: b) ++ [x] := by rw [hab]; simp
            have := List.append_inj_left' hab' rfl
            rw [this] at hn
            have := List.findSome?_eq_none_iff.1 hn p (by simp)
            rw [this] at hp; cases hp
      · cases h
    case inData b acc =>
      split at h
      · split at h <;> (cases h; exact hU)
      · cases h
    case wait2End t =>
      split at h
      · split at h
        · cases h; exact hU
        · split at h
          · cases h; exact hU
          · cases h
      · cases h
    all_goals (split at h <;> cases h; exact hU)
  exact this.2 a b p hp hd

/-! ## The client does not leave by itself -/

/-- The steps by which something ends on its own: the end of stdin, an error, a failing write, an undecodable frame. -/
def disturbs : Label → Bool
  | .inEof | .inError | .outError => true
  | .inData _ (some _) => true
  | .outHandle _ (some _) _ => true
  | .outHandle _ _ true => true
  | _ => false

private def InvStay (s : St) : Prop :=
  s.main = .waiting ∧ s.slot = none ∧ s.inp ≠ .finished ∧ s.out ≠ .finished

/-- **C24**: the client stays attached: as long as stdin is open, the connection delivers frames, stdout takes them and no
frame decided (and every exit-status frame has its four bytes), the main loop goes on waiting. -/
theorem C24_stays {ls : List Label} {s : St} (h : Run ls s) (hq : ∀ l ∈ ls, disturbs l = false)
    (hn : s.handled.findSome? decides = none)
    (hwf : ∀ f, .outRecv f ∈ ls → f.kind = .exitStatus → 4 ≤ f.buf.length) : s.main = .waiting := by
  let I : List Label → St → Prop := fun ls s =>
    (∀ l ∈ ls, disturbs l = false) → s.handled.findSome? decides = none →
      (∀ f, .outRecv f ∈ ls → f.kind = .exitStatus → 4 ≤ f.buf.length) →
      InvStay s ∧ (∀ f, s.out = .got f → f.kind = .exitStatus → 4 ≤ f.buf.length)
  have hI : I ls s := by
    refine run_hist (I := I) (fun ls s l s' hI h => ?_)
      (fun _ _ _ => ⟨⟨rfl, rfl, (by simp [init]), (by simp [init])⟩, fun f hf => by simp [init] at hf⟩) h
    intro hq hn hwf
    have hq' : ∀ l ∈ ls, disturbs l = false := fun x hx => hq x (by simp [hx])
    have hql : disturbs l = false := hq l (by simp)
    have hwf' : ∀ f, .outRecv f ∈ ls → f.kind = .exitStatus → 4 ≤ f.buf.length := fun f hf => hwf f (by simp [hf])
    cases l <;> simp only [step] at h <;> try (simp [disturbs] at hql; done)
    case outHandle accept written bad =>
      split at h
      · rename_i f ho
        have h := (Option.some.inj h).symm
        subst h
        obtain ⟨hm, hi, hc⟩ := handle_decides s f accept written bad
        have hw : written = none := by
          cases written with
          | none => rfl
          | some k => simp [disturbs] at hql
        have hb : bad = false := by
          subst hw; cases bad with
          | false => rfl
          | true => simp [disturbs] at hql
        rcases hc with ⟨h1, h2, h3⟩ | ⟨h1, h2, h3⟩
        · exfalso
          rw [h1] at hn
          obtain ⟨_, hg⟩ := hI hq' hn hwf'
          subst hw; subst hb
          simp only [handle] at h3
          cases hk : f.kind <;> simp only [hk] at h3
          · cases h3
          · cases h3
          · have hlen := hg f ho hk
            rcases hf : f.buf with _ | ⟨a, _ | ⟨b, _ | ⟨c, _ | ⟨d, t⟩⟩⟩⟩ <;> rw [hf] at hlen <;> simp at hlen
            rw [hf] at h3
            simp [Chunk.ofLe32] at h3
          · cases accept <;> simp at h3
        · rw [h1, List.findSome?_append] at hn
          simp at hn
          obtain ⟨hst, hg⟩ := hI hq' (List.findSome?_eq_none_iff.2 (by simpa using hn.1)) hwf'
          obtain ⟨a1, a2, a3, a4⟩ := hst
          refine ⟨⟨by rw [hm]; exact a1, ?_, by rw [hi]; exact a3, by rw [h2]; simp⟩, fun f hf => by rw [h2] at hf; cases hf⟩
          rcases h3 with ⟨_, h4⟩ | ⟨r, h4, _⟩
          · rw [h4]; exact a2
          · rw [hn.2] at h4; cases h4
      · cases h
    case outRecv f =>
      split at h <;> cases h
      obtain ⟨⟨a1, a2, a3, a4⟩, hg⟩ := hI hq' hn hwf'
      exact ⟨⟨a1, a2, a3, by simp⟩, fun g hg => by cases hg; exact hwf _ (by simp)⟩
    case inData b acc =>
      cases acc with
      | some k => simp [disturbs] at hql
      | none =>
        split at h <;> cases h
        obtain ⟨⟨a1, a2, a3, a4⟩, hg⟩ := hI hq' hn hwf'
        exact ⟨⟨a1, a2, by simp, a4⟩, hg⟩
    case inCheck =>
      split at h <;> cases h
      obtain ⟨⟨a1, a2, a3, a4⟩, hg⟩ := hI hq' hn hwf'
      exact ⟨⟨a1, a2, by simp [a2], a4⟩, hg⟩
    case inTimeout =>
      split at h <;> cases h
      obtain ⟨⟨a1, a2, a3, a4⟩, hg⟩ := hI hq' hn hwf'
      exact ⟨⟨a1, a2, by simp, a4⟩, hg⟩
    case outCheck =>
      split at h <;> cases h
      obtain ⟨⟨a1, a2, a3, a4⟩, hg⟩ := hI hq' hn hwf'
      exact ⟨⟨a1, a2, a3, by simp [a2]⟩, fun f hf => by simp [a2] at hf⟩
    case outTimeout =>
      split at h <;> cases h
      obtain ⟨⟨a1, a2, a3, a4⟩, hg⟩ := hI hq' hn hwf'
      exact ⟨⟨a1, a2, a3, by simp⟩, fun f hf => by simp at hf⟩
    case mainWake =>
      split at h
      · rename_i hc
        cases h
        obtain ⟨⟨a1, a2, a3, a4⟩, hg⟩ := hI hq' hn hwf'
        exact absurd hc.2 (by simp [a3, a4])
      · cases h
    case wait2End t =>
      split at h
      · rename_i hc
        have hh : s'.handled = s.handled := by
          split at h
          · cases h; rfl
          · split at h
            · cases h; rfl
            · cases h
        rw [hh] at hn
        obtain ⟨⟨a1, _⟩, _⟩ := hI hq' hn hwf'
        rw [a1] at hc; cases hc
      · cases h
    case graceEnd t =>
      split at h
      · rename_i hc
        cases h
        obtain ⟨⟨a1, _⟩, _⟩ := hI hq' hn hwf'
        rw [a1] at hc; simp at hc
      · cases h
    case stamp =>
      split at h
      · rename_i hc
        cases h
        obtain ⟨⟨a1, _⟩, _⟩ := hI hq' hn hwf'
        rw [a1] at hc; cases hc
      · cases h
  exact (hI hq hn hwf).1.1

/-- **C24**: the end of stdin alone does not cut off an exit status: with the socket side still at work the main thread
fills the slot with the fallback only after a decision is there, the socket side has finished, or the waiting time is up. -/
theorem C24_grace {s s' : St} {l : Label} (hm : s.main = .waiting) (hi : s.inp = .finished) (ho : s.out ≠ .finished)
    (h : step s l = some s') : s'.main = .waiting ∨ s'.main = .grace := by
  cases l <;> simp only [step] at h
  case outHandle accept written bad =>
    split at h
    · rename_i f _
      cases h
      left; rw [(handle_decides s f accept written bad).1]; exact hm
    · cases h
  case mainWake =>
    split at h <;> cases h
    right; simp [hi, ho]
  case inData b acc =>
    split at h
    · rename_i hc; rw [hi] at hc; simp at hc
    · cases h
  case wait2End =>
    split at h
    · rename_i hc; rw [hm] at hc; cases hc
    · cases h
  case graceEnd | stamp =>
    split at h
    · rename_i hc; rw [hm] at hc; simp at hc
    · cases h
  all_goals (split at h <;> cases h; exact .inl hm)

/-- **C24**: in the grace period no fallback is written: without a timeout the slot is filled by a frame or the socket side
has finished. -/
theorem C24_grace_end {s s' : St} (h : step s (.graceEnd false) = some s') : s.out = .finished ∨ s.slot.isSome := by
  simp only [step] at h
  split at h
  · rename_i hc; simpa using hc.2
  · cases h

/-- A step of the main thread. -/
def ofMain : Label → Bool
  | .mainWake | .graceEnd _ | .stamp | .wait2End _ => true
  | _ => false

/-- **C24**: the client always ends once either side has: from every state in which one of the two threads has finished, or in
which the main thread has noticed it, the main thread alone gets to the end in at most four steps, whatever the other thread
does (it may be stuck in a system call for ever; the waiting times run out). -/
theorem C24_ends (s : St) (h : s.main ≠ .waiting ∨ s.inp = .finished ∨ s.out = .finished) :
    ∃ ls s', runSteps step s ls = some s' ∧ ls.length ≤ 4 ∧ (∀ l ∈ ls, ofMain l = true) ∧
      ((∃ r, s'.main = .done r) ∨ (∃ c, s'.main = .hardExit c)) := by
  have hw2 : ∀ t : St, t.main = .wait2 → ∃ s', step t (.wait2End true) = some s' ∧
      ((∃ r, s'.main = .done r) ∨ (∃ c, s'.main = .hardExit c)) := by
    intro t ht
    by_cases hb : bothFinished t = true
    · exact ⟨{ t with main := .done (final t) }, by simp [step, ht, hb], .inl ⟨_, rfl⟩⟩
    · exact ⟨{ t with main := .hardExit (hardCode t) }, by simp [step, ht, hb], .inr ⟨_, rfl⟩⟩
  have hst : ∀ t : St, t.main = .stamp → ∃ s', runSteps step t [.stamp, .wait2End true] = some s' ∧
      ((∃ r, s'.main = .done r) ∨ (∃ c, s'.main = .hardExit c)) := by
    intro t ht
    obtain ⟨s', h1, h2⟩ := hw2 { t with slot := some (t.slot.getD (.exit 1)), main := .wait2 } rfl
    refine ⟨s', ?_, h2⟩
    have : step t .stamp = some { t with slot := some (t.slot.getD (.exit 1)), main := .wait2 } := by simp [step, ht]
    simp only [runSteps, this, h1, Option.bind_some]
  have hgr : ∀ t : St, t.main = .grace → ∃ s', runSteps step t [.graceEnd true, .stamp, .wait2End true] = some s' ∧
      ((∃ r, s'.main = .done r) ∨ (∃ c, s'.main = .hardExit c)) := by
    intro t ht
    obtain ⟨s', h1, h2⟩ := hst { t with main := .stamp } rfl
    refine ⟨s', ?_, h2⟩
    have : step t (.graceEnd true) = some { t with main := .stamp } := by simp [step, ht]
    rw [runSteps, this]
    exact h1
  cases hm : s.main with
  | done r => exact ⟨[], s, rfl, by simp, by simp, .inl ⟨r, hm⟩⟩
  | hardExit c => exact ⟨[], s, rfl, by simp, by simp, .inr ⟨c, hm⟩⟩
  | wait2 =>
    obtain ⟨s', h1, h2⟩ := hw2 s hm
    exact ⟨[.wait2End true], s', by simp [runSteps, h1], by simp, by simp [ofMain], h2⟩
  | stamp =>
    obtain ⟨s', h1, h2⟩ := hst s hm
    exact ⟨_, s', h1, by simp, by simp [ofMain], h2⟩
  | grace =>
    obtain ⟨s', h1, h2⟩ := hgr s hm
    exact ⟨_, s', h1, by simp, by simp [ofMain], h2⟩
  | waiting =>
    have hor : s.inp = .finished ∨ s.out = .finished := h.resolve_left (fun hc => hc hm)
    by_cases hc : s.inp = .finished ∧ s.out ≠ .finished
    · obtain ⟨s', h1, h2⟩ := hgr { s with main := .grace } rfl
      refine ⟨[.mainWake, .graceEnd true, .stamp, .wait2End true], s', ?_, by simp, by simp [ofMain], h2⟩
      have : step s .mainWake = some { s with main := .grace } := by simp [step, hm, hor, hc]
      rw [runSteps, this]
      exact h1
    · obtain ⟨s', h1, h2⟩ := hst { s with main := .stamp } rfl
      refine ⟨[.mainWake, .stamp, .wait2End true], s', ?_, by simp, by simp [ofMain], h2⟩
      have : step s .mainWake = some { s with main := .stamp } := by simp [step, hm, hor, hc]
      rw [runSteps, this]
      exact h1

/-- **C24**: once the outcome is decided both threads end at their next look at it: nothing more is read from stdin or from the
socket. -/
theorem C24_stops {s s' : St} (hd : s.slot.isSome) :
    (step s .inCheck = some s' → s'.inp = .finished) ∧ (step s .outCheck = some s' → s'.out = .finished) := by
  constructor <;> intro h <;> simp only [step] at h <;> split at h <;> cases h <;> simp [hd]

/-! ## Examples -/

private def hi : Chunk := ⟨.data, [104, 105]⟩
private def exit7 : Chunk := ⟨.exitStatus, [7, 0, 0, 0]⟩

/-- stdin closes, then the shell's output and its exit status arrive: the output is printed and the code is 7. -/
private def sample : List Label :=
  [.inCheck, .outCheck, .outRecv hi, .inEof, .mainWake, .outHandle false none false, .outCheck, .outRecv exit7,
   .outHandle false none false, .graceEnd false, .stamp, .outCheck, .wait2End false]

example : ∃ s, Run sample s ∧ s.main = .done (.exit 7) ∧ s.stdout = [104, 105] := ⟨_, rfl, by decide⟩

/-- The fallback is written while the exit-status frame is being handled: the frame still wins. -/
example : ∃ s, Run [.inCheck, .outCheck, .outRecv exit7, .inEof, .mainWake, .graceEnd true, .stamp,
    .outHandle false none false, .outCheck, .wait2End false] s ∧ s.main = .done (.exit 7) := ⟨_, rfl, by decide⟩

/-- The connection is lost: code 1. -/
example : ∃ s, Run [.inCheck, .outCheck, .outError, .mainWake, .stamp, .inTimeout, .inCheck, .wait2End false] s ∧
    s.main = .done (.exit 1) := ⟨_, rfl, by decide⟩

/-- A stuck stdin side: hard exit with the shell's status. -/
example : ∃ s, Run [.inCheck, .outCheck, .outRecv exit7, .outHandle false none false, .outCheck, .mainWake, .stamp,
    .wait2End true] s ∧ s.main = .hardExit 7 := ⟨_, rfl, by decide⟩

/-- A quiet session: the hypotheses of `C24_stays` hold. -/
example : ∃ s, Run [.inCheck, .inData [97] none, .outCheck, .outRecv hi, .outHandle false none false] s ∧
    s.handled.findSome? decides = none ∧ s.handled ≠ [] ∧ s.sent = [97] := ⟨_, rfl, by decide⟩

end Shpool.Pipe
