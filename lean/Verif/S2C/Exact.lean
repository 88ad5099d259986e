import Verif.S2C.Props
/-! # Exactly which frames a client takes (C05), what is lost at the end (C18), and when a detach is misreported (C22) -/

namespace Shpool.S2C
open Chunk (Chunk Kind)

/-! ### C05 -/

/-- The frame carries a message of the day there was. -/
def IsMotd (P : Params) (ls : List Label) (f : Chunk) : Prop :=
  ∃ m, (P.motd = .text m ∨ .setMotd (.text m) ∈ ls) ∧ f = ⟨.data, m⟩

/-- The frame carries a switch hint that was asked for. -/
def IsHint (ls : List Label) (f : Chunk) : Prop := ∃ p, .select (.maybeSwitch (some p)) ∈ ls ∧ f = ⟨.maybeSwitch, p⟩

private def Kinds (P : Params) (ls : List Label) (f : Chunk) : Prop := Fits f ∨ IsMotd P ls f ∨ IsHint ls f

private theorem Kinds.more {P : Params} {ls : List Label} {l : Label} {f : Chunk} (h : Kinds P ls f) : Kinds P (ls ++ [l]) f := by
  rcases h with h | ⟨m, h, e⟩ | ⟨p, h, e⟩
  · exact .inl h
  · exact .inr (.inl ⟨m, h.imp id (List.mem_append_left _), e⟩)
  · exact .inr (.inr ⟨p, List.mem_append_left _ h, e⟩)

private theorem kinds_toClient {P : Params} {ls : List Label} {out : List (Nat × Chunk)} {s : St} {f : Chunk} (h : ∀ p ∈ out, Kinds P ls p.2)
    (hf : Kinds P ls f) : ∀ p ∈ out ++ toClient s f, Kinds P ls p.2 := by
  intro p hp
  rcases List.mem_append.mp hp with hp | hp
  · exact h p hp
  · obtain ⟨c, -, rfl⟩ := mem_toC (cl := s.client) hp
    exact hf

private theorem kinds_restore {P : Params} {ls : List Label} {s : St} (h : ∀ p ∈ s.out, Kinds P ls p.2) :
    ∀ p ∈ s.out ++ restoreOut P s, Kinds P ls p.2 := by
  intro p hp
  rcases List.mem_append.mp hp with hp | hp
  · exact h p hp
  · unfold restoreOut at hp
    obtain ⟨b, hb, hp⟩ := List.mem_flatMap.mp hp
    obtain ⟨c, -, rfl⟩ := mem_toC (cl := s.client) hp
    exact .inl (fits_data (chunks_length _ _ b hb).1)

private theorem step_kinds (P : Params) (ls : List Label) (s s' : St) (l : Label)
    (hI : (s.motd = P.motd ∨ .setMotd s.motd ∈ ls) ∧ ∀ p ∈ s.out, Kinds P ls p.2) (h : step P s l = some s') :
    (s'.motd = P.motd ∨ .setMotd s'.motd ∈ ls ++ [l]) ∧ ∀ p ∈ s'.out, Kinds P (ls ++ [l]) p.2 := by
  obtain ⟨hm0, hI0⟩ := hI
  have hm : s.motd = P.motd ∨ .setMotd s.motd ∈ ls ++ [l] := hm0.imp id (List.mem_append_left _)
  have hI : ∀ p ∈ s.out, Kinds P (ls ++ [l]) p.2 := fun p hp => (hI0 p hp).more
  have hexit : ∀ st, Kinds P (ls ++ [l]) (exitFrame st) := fun st => .inl (fits_exit st)
  cases step_eff P s s' l h with
  | newFail => exact ⟨hm, kinds_toClient hI (hexit _)⟩
  | newPanic => exact ⟨hm, kinds_toClient hI (hexit _)⟩
  | newOk => exact ⟨hm, kinds_toClient hI (hexit _)⟩
  | discFail => exact ⟨hm, kinds_toClient hI (hexit _)⟩
  | discOk => exact ⟨hm, kinds_toClient hI (hexit _)⟩
  | dexitFail => exact ⟨hm, kinds_toClient hI (hexit _)⟩
  | dexitOk => exact ⟨hm, kinds_toClient hI (hexit _)⟩
  | heartbeatOk => exact ⟨hm, kinds_toClient hI (.inl ⟨⟨(fun h => by cases h), by simp⟩, by simp⟩)⟩
  | switchOk p => exact ⟨hm, kinds_toClient hI (.inr (.inr ⟨p, by simp, rfl⟩))⟩
  | settleLate r =>
    cases r
    · exact ⟨hm, by simpa using hI⟩
    · exact ⟨hm, kinds_restore hI⟩
  | settleDue r =>
    cases r
    · exact ⟨hm, by simpa using hI⟩
    · exact ⟨hm, kinds_restore hI⟩
  | hangup st =>
    cases st
    · exact ⟨hm, by simpa using hI⟩
    · exact ⟨hm, kinds_toClient hI (hexit _)⟩
  | relay n f v c _ _ _ hn _ hf =>
    have hv : v.length ≤ 16384 := by
      have := read_length hf
      simp only [List.length_take] at this
      unfold bufSize at hn
      omega
    refine ⟨hm, ?_⟩
    dsimp only
    rw [← List.append_assoc]
    refine kinds_toClient ?_ (.inl (fits_data hv))
    unfold motdOut
    split
    · next mo hmo =>
      refine kinds_toClient hI (.inr (.inl ⟨_, ?_, rfl⟩))
      rw [hmo] at hm
      exact hm.imp Eq.symm id
    · simpa using hI
  | setMotd m => exact ⟨.inr (by simp), hI⟩
  | _ => exact ⟨hm, hI⟩

/-- **C05** (exactly which): a client with a 16384 byte buffer takes exactly the frames of at most 16384 bytes; and only frames that carry a message of the
day or a switch hint can be longer. -/
theorem C05_exact (P : Params) (ls : List Label) (s : St) (h : Run P ls s) (id : Nat) (f : Chunk) (hf : (id, f) ∈ s.out) (rest : List UInt8) :
    ((∃ bytes, Chunk.writeTo f = .ok bytes ∧ Chunk.readInto Chunk.flat 16384 (bytes ++ rest) = .ok (f, rest)) ↔ f.buf.length ≤ 16384) ∧
    (16384 < f.buf.length → IsMotd P ls f ∨ IsHint ls f) := by
  have hI := run_hist (I := fun ls s => (s.motd = P.motd ∨ .setMotd s.motd ∈ ls) ∧ ∀ p ∈ s.out, Kinds P ls p.2)
    (fun ls s l s' hI hs => step_kinds P ls s s' l hI hs) ⟨.inl rfl, (fun p hp => by cases hp)⟩ h
  have hk := hI.2 _ hf
  refine ⟨⟨fun ⟨bytes, _, hr⟩ => (Chunk.C03_reader_sound 16384 _ _ _ hr).2.1, fun hlen => ?_⟩, fun hlen => ?_⟩
  · refine Chunk.C01_frame_round_trip f 16384 rest ?_ hlen
    rcases hk with hk | ⟨m, _, rfl⟩ | ⟨p, _, rfl⟩
    · exact hk.1
    · exact ⟨(fun h => by cases h), by dsimp only at hlen ⊢; omega⟩
    · exact ⟨(fun h => by cases h), by dsimp only at hlen ⊢; omega⟩
  · rcases hk with hk | hk | hk
    · have : f.buf.length ≤ 16384 := hk.2
      omega
    · exact .inl hk
    · exact .inr hk

/-! ### C18 -/

private def Stays (c : Conn) (s : St) : Prop := s.pc ≠ .waitInitial ∧ (Running s → s.client = some c)

private theorem step_stays {P : Params} {c : Conn} {s s' : St} {l : Label} (hok : c.health = .ok) (hI : Stays c s) (ha : attaches l = false)
    (hd : detaches l = false) (hb : ∀ h, l ≠ .breaks h) (h : step P s l = some s') : Stays c s' := by
  obtain ⟨hw, hI⟩ := hI
  have hsel : s.pc = .select → s.client = some c := fun hp => hI (running_of_pc hp (by simp))
  have hpoll : s.pc = .poll → s.client = some c := fun hp => hI (running_of_pc hp (by simp))
  have hset : ∀ r, s.pc = .settle r → s.client = some c := fun r hp => hI (running_of_pc hp (by simp))
  have he := step_eff P s s' l h
  clear h
  cases he
  case initClosed => exact absurd ‹_› hw
  case initNew => exact absurd ‹s.pc = _› hw
  case initOther => exact absurd ‹s.pc = _› hw
  case newFail => cases ha
  case newPanic => cases ha
  case newOk => cases ha
  case discFail => cases hd
  case discOk => cases hd
  case broken hpc _ _ _ _ _ hc hh hn =>
    have := hpoll hpc
    rw [hc] at this
    cases this
    exact absurd hok hh
  case breaks => exact absurd rfl (hb _)
  all_goals first
    | exact ⟨hw, hI⟩
    | exact ⟨by simp, fun _ => hsel ‹_›⟩
    | exact ⟨by simp, fun _ => hpoll ‹_›⟩
    | exact ⟨by simp, fun _ => hset _ ‹_›⟩
    | exact ⟨by simp, fun hr => absurd rfl (hr _)⟩

private theorem run_stays {P : Params} {c : Conn} {ls : List Label} {s s' : St} (hok : c.health = .ok) (hI : Stays c s)
    (hl : ∀ l ∈ ls, attaches l = false ∧ detaches l = false ∧ ∀ h, l ≠ .breaks h) (h : runSteps (step P) s ls = some s') : Stays c s' := by
  induction ls generalizing s with
  | nil => cases h; exact hI
  | cons l ls ih =>
    obtain ⟨s1, h1, h2⟩ := run_cons_some h
    obtain ⟨k1, k2, k3⟩ := hl l (by simp)
    exact ih (step_stays hok hI k1 k2 k3 h1) (fun l hl' => hl l (List.mem_cons_of_mem _ hl')) h2

/-- **C18** (exactly what): in the simplest session, with one client attached from the start to the end of the shell, the client is told the exit status, and has
received all that the shell wrote but what was still unread when the end was noticed. -/
theorem C18_exact (P : Params) (ls : List Label) (s : St) (id : Nat) (z : TtySize) (st : UInt32)
    (hp : P.supportsSentinels = false) (hm : P.needsMotd = false)
    (hl : ∀ l ∈ ls, attaches l = false ∧ detaches l = false ∧ ∀ h, l ≠ .breaks h)
    (h : Run P (.initial (some (.new id z)) :: ls ++ [.poll (.hangup (some st))]) s) :
    (id, exitFrame st) ∈ s.out ∧ dataTo s.out id ++ s.pending = written ls ∧ (dataTo s.out id = written ls ↔ s.pending = []) := by
  obtain ⟨s0, h0, h1⟩ := run_append_some h
  obtain ⟨s1, hi, h2⟩ := run_cons_some h0
  have hs1 : Stays ⟨id, z, .ok⟩ s1 := by
    simp only [step, initialStep] at hi
    split at hi
    · split at hi <;> cases hi
      exact ⟨by simp, fun _ => rfl⟩
    · cases hi
  have hs0 := run_stays rfl hs1 hl h2
  obtain ⟨s2, h3, h4⟩ := run_cons_some h1
  cases h4
  cases step_eff P s0 _ _ h3
  rename_i hpc hup hex
  have hc : s0.client = some ⟨id, z, .ok⟩ := hs0.2 (running_of_pc hpc (by simp))
  obtain ⟨m, d1, d2, _, _⟩ := C18_first_client_partial P ls s0 id z _ h0 hc rfl rfl
  have hwr : written ls = s0.read ++ s0.pending := by
    have := C18_nothing_skipped P _ s0 h0
    simpa [written] using this
  have hproc : processed s0.spool = s0.read := C19_complete P _ s0 h0 hp
  have hdata : dataTo (s0.out ++ toClient s0 (exitFrame st)) id = s0.read := by
    rw [noData (by simp [exitFrame]), d1, d2 hm, hproc]; rfl
  refine ⟨List.mem_append_right _ (by simp [toClient, hc]), ?_, ?_⟩
  · show dataTo (s0.out ++ toClient s0 (exitFrame st)) id ++ s0.pending = written ls
    rw [hdata, hwr]
  · show dataTo (s0.out ++ toClient s0 (exitFrame st)) id = written ls ↔ s0.pending = []
    rw [hdata, hwr]
    constructor
    · intro he
      have := congrArg List.length he
      rw [List.length_append] at this
      exact List.eq_nil_of_length_eq_zero (by omega)
    · intro he; rw [he, List.append_nil]

/-- The end is noticed with three bytes unread, and with none. -/
example : ∃ s, Run P0 (.initial (some (.new 1 z0)) :: [.select .default, .settle, .shellWrite [98, 121, 101], .poll (.read 2), .select .default, .settle, .shellClose]
    ++ [.poll (.hangup (some 7))]) s ∧ dataTo s.out 1 = [98, 121] ∧ s.pending = [101] := ⟨_, rfl, by decide, by decide⟩

/-! ### C22 -/

/-- **C22** (exactly when): a detach request is reported wrongly exactly if it is handled before the session has had its first client. -/
theorem C22_exact (P : Params) (ls : List Label) (s s' : St) (l : Label) (h : Run P ls s) (hd : detaches l = true) (hs : step P s l = some s')
    (a : Ack) (ha : s'.acks = s.acks ++ [a]) : (reportedDetached a ↔ s.client.isSome) ↔ s.pc ≠ .waitInitial := by
  have hI : s.pc = .waitInitial → s.client = none := run_inv (I := fun s => s.pc = .waitInitial → s.client = none)
    (fun s l s' hI hs hw => by
      cases step_eff P s s' l hs
      case breaks hc _ => rw [hI hw] at hc; cases hc
      all_goals first
        | exact hI hw
        | (exfalso; simp at hw; done)) (fun _ => rfl) h
  have he := step_eff P s s' l hs
  clear hs
  cases he
  case initOther m hw hm =>
    have : a = .new := by simpa using ha.symm
    subst this
    rw [hI hw, hw]
    simp [reportedDetached]
  case discFail hpc => simp at ha
  case discOk hpc =>
    have := List.append_cancel_left ha
    simp only [List.cons.injEq, and_true] at this
    subst this
    rw [hpc]
    cases s.client <;> simp [reportedDetached]
  all_goals (simp [detaches] at hd; done)

end Shpool.S2C
