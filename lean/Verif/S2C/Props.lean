import Verif.S2C.Invariants
import Verif.Chunk.Props
/-!
# Properties C05, C18, C19, C21, C22, C23, C75: the shell-to-client thread
-/

namespace Shpool.S2C
open Chunk (Chunk Kind)

/-! ### Blocks -/

theorem chunksUpTo_flatten (n : Nat) (hn : 0 < n) (k : Nat) (b : List UInt8) (h : b.length ≤ k) :
    (chunksUpTo n k b).flatten = b := by
  induction k generalizing b with
  | zero => simpa [chunksUpTo] using (List.length_eq_zero_iff.mp (Nat.le_zero.mp h)).symm
  | succ k ih =>
    unfold chunksUpTo
    split
    · next hb =>
      rcases hb with hb | hb
      · simp [hb]
      · omega
    · next hb =>
      simp only [not_or] at hb
      have : 0 < b.length := List.length_pos_iff.mpr hb.1
      rw [List.flatten_cons, ih _ (by rw [List.length_drop]; omega), List.take_append_drop]

/-- The blocks put together are the buffer. -/
theorem chunks_flatten (n : Nat) (hn : 0 < n) (b : List UInt8) : (chunks n b).flatten = b :=
  chunksUpTo_flatten n hn _ b (Nat.le_refl _)

/-- No block is empty or longer than `n`. -/
theorem chunks_length (n : Nat) (b : List UInt8) : ∀ c ∈ chunks n b, c.length ≤ n ∧ c ≠ [] := by
  unfold chunks
  generalize b.length = k
  induction k generalizing b with
  | zero => intro c hc; cases hc
  | succ k ih =>
    unfold chunksUpTo
    split
    · intro c hc; cases hc
    · next h =>
      intro c hc
      rcases List.mem_cons.mp hc with rfl | hc
      · refine ⟨by simp; omega, ?_⟩
        intro he
        simp only [List.take_eq_nil_iff] at he
        exact h he.symm
      · exact ih _ c hc

theorem scanLoop_length (whole bs : List UInt8) (i : Nat) (sc : Sentinel.Scanner) (seen : Bool) (buf : List UInt8)
    (h : buf.length ≤ whole.length) : (Sentinel.scanLoop whole bs i sc seen buf).2.2.length ≤ whole.length := by
  induction bs generalizing i sc seen buf with
  | nil => exact h
  | cons b bs ih =>
    unfold Sentinel.scanLoop
    split
    · exact ih _ _ _ _ (by simp)
    · exact ih _ _ _ _ h

theorem read_length {f f' : Sentinel.Filter} {buf v : List UInt8} (h : f.read buf = (f', some v)) : v.length ≤ buf.length := by
  unfold Sentinel.Filter.read at h
  split at h
  · cases h; exact Nat.le_refl _
  · have := scanLoop_length buf buf 0 f.scan false buf (Nat.le_refl _)
    split at h
    · next sc rest he => cases h; rw [he] at this; exact this
    · cases h

/-! ### C05 -/

/-- A frame the shipped client can read: legal, and its payload fits the 16384 byte buffer. -/
def Fits (f : Chunk) : Prop := Chunk.Legal f ∧ f.buf.length ≤ 16384

/-- The variable-length texts taken from outside (message of the day, encoded switch hint) are at most 16384 bytes. -/
def Small : Label → Prop
  | .select (.maybeSwitch (some p)) => p.length ≤ 16384
  | .setMotd (.text m) => m.length ≤ 16384
  | _ => True

/-- The message of the day is at most 16384 bytes. -/
def SmallMotd : Motd → Prop
  | .text m => m.length ≤ 16384
  | _ => True

theorem fits_data {b : List UInt8} (h : b.length ≤ 16384) : Fits ⟨.data, b⟩ :=
  ⟨⟨(fun h => by cases h), by dsimp only; omega⟩, h⟩

theorem fits_exit (st : UInt32) : Fits (exitFrame st) :=
  ⟨⟨fun _ => rfl, by simp [exitFrame, Chunk.le32]⟩, by simp [exitFrame, Chunk.le32]⟩

theorem fits_toClient {out : List (Nat × Chunk)} {s : St} {f : Chunk} (h : ∀ p ∈ out, Fits p.2) (hf : Fits f) :
    ∀ p ∈ out ++ toClient s f, Fits p.2 := by
  intro p hp
  rcases List.mem_append.mp hp with hp | hp
  · exact h p hp
  · obtain ⟨c, -, rfl⟩ := mem_toC (cl := s.client) hp
    exact hf

theorem fits_restore (P : Params) {s : St} (h : ∀ p ∈ s.out, Fits p.2) :
    ∀ p ∈ s.out ++ restoreOut P s, Fits p.2 := by
  intro p hp
  rcases List.mem_append.mp hp with hp | hp
  · exact h p hp
  · unfold restoreOut at hp
    obtain ⟨b, hb, hp⟩ := List.mem_flatMap.mp hp
    obtain ⟨c, -, rfl⟩ := mem_toC (cl := s.client) hp
    exact fits_data (chunks_length _ _ b hb).1

theorem step_fits (P : Params) (s s' : St) (l : Label) (hl : Small l) (hI : SmallMotd s.motd ∧ ∀ p ∈ s.out, Fits p.2)
    (h : step P s l = some s') : SmallMotd s'.motd ∧ ∀ p ∈ s'.out, Fits p.2 := by
  obtain ⟨hm, hI⟩ := hI
  cases step_eff P s s' l h with
  | newFail => exact ⟨hm, fits_toClient hI (fits_exit _)⟩
  | newPanic => exact ⟨hm, fits_toClient hI (fits_exit _)⟩
  | newOk => exact ⟨hm, fits_toClient hI (fits_exit _)⟩
  | discFail => exact ⟨hm, fits_toClient hI (fits_exit _)⟩
  | discOk => exact ⟨hm, fits_toClient hI (fits_exit _)⟩
  | dexitFail => exact ⟨hm, fits_toClient hI (fits_exit _)⟩
  | dexitOk => exact ⟨hm, fits_toClient hI (fits_exit _)⟩
  | heartbeatOk => exact ⟨hm, fits_toClient hI ⟨⟨(fun h => by cases h), by simp⟩, by simp⟩⟩
  | switchOk p => exact ⟨hm, fits_toClient hI ⟨⟨(fun h => by cases h), Nat.lt_of_le_of_lt hl (by decide)⟩, hl⟩⟩
  | settleLate r =>
    cases r
    · exact ⟨hm, by simpa using hI⟩
    · exact ⟨hm, fits_restore P hI⟩
  | settleDue r =>
    cases r
    · exact ⟨hm, by simpa using hI⟩
    · exact ⟨hm, fits_restore P hI⟩
  | hangup st =>
    cases st
    · exact ⟨hm, by simpa using hI⟩
    · exact ⟨hm, fits_toClient hI (fits_exit _)⟩
  | relay n f v c _ _ _ hn _ hf =>
    have hv : v.length ≤ 16384 := by
      have := read_length hf
      simp only [List.length_take] at this
      unfold bufSize at hn
      omega
    refine ⟨hm, ?_⟩
    dsimp only
    rw [← List.append_assoc]
    refine fits_toClient ?_ (fits_data hv)
    unfold motdOut
    split
    · next mo hmo => rw [hmo] at hm; exact fits_toClient hI (fits_data hm)
    · simpa using hI
  | setMotd m =>
    refine ⟨?_, hI⟩
    cases m with
    | text t => exact hl
    | _ => trivial
  | _ => exact ⟨hm, hI⟩

/-- C05, the part that holds: as long as the message of the day and the encoded switch hints are at most 16384 bytes, every
frame delivered to any client, whatever the shell prints and however large the restore buffer is, is written without
panicking and read back by a client with a 16384 byte buffer. -/
theorem C05_accepted_partial (P : Params) (ls : List Label) (s : St) (hm : SmallMotd P.motd) (hl : ∀ l ∈ ls, Small l)
    (h : Run P ls s) (id : Nat) (f : Chunk) (hf : (id, f) ∈ s.out) (rest : List UInt8) :
    ∃ bytes, Chunk.writeTo f = .ok bytes ∧ Chunk.readInto Chunk.flat 16384 (bytes ++ rest) = .ok (f, rest) := by
  have hI := run_hist (I := fun ls s => (∀ l ∈ ls, Small l) → SmallMotd s.motd ∧ ∀ p ∈ s.out, Fits p.2)
    (fun ls s l s' hI hs hall =>
      step_fits P s s' l (hall l (by simp)) (hI (fun l hl => hall l (List.mem_append_left _ hl))) hs)
    (fun _ => ⟨hm, (fun p hp => by cases hp)⟩) h hl
  obtain ⟨h1, h2⟩ := hI.2 _ hf
  exact Chunk.C01_frame_round_trip f 16384 rest h1 h2

/-- C05, full statement. -/
def C05_statement : Prop :=
  ∀ (P : Params) (ls : List Label) (s : St), Run P ls s → ∀ id f, (id, f) ∈ s.out → ∀ rest,
    ∃ bytes, Chunk.writeTo f = .ok bytes ∧ Chunk.readInto Chunk.flat 16384 (bytes ++ rest) = .ok (f, rest)

/-- Example parameters: no prompt injection, no message of the day, a restore engine that repeats everything. -/
def P0 : Params :=
  { supportsSentinels := false, needsMotd := false, overflowChecks := false, restore := processed,
    ptySize := ⟨24, 80, 0, 0⟩, motd := .notDump }

def z0 : TtySize := ⟨24, 80, 0, 0⟩

theorem too_big_rejected (k : Kind) (hk : k ≠ .exitStatus) (b : List UInt8) (h1 : 16384 < b.length) (h2 : b.length < 2 ^ 32) :
    ¬ ∃ bytes, Chunk.writeTo ⟨k, b⟩ = .ok bytes ∧ Chunk.readInto Chunk.flat 16384 (bytes ++ []) = .ok (⟨k, b⟩, []) := by
  rintro ⟨bytes, hw, hr⟩
  have : bytes = k.toByte :: (Chunk.le32 b.length ++ b) := by
    cases k with
    | exitStatus => exact absurd rfl hk
    | data => cases hw; rfl
    | heartbeat => cases hw; rfl
    | maybeSwitch => cases hw; rfl
  rw [this, List.append_nil, Chunk.le32, List.cons_append, List.cons_append, List.cons_append, List.cons_append, List.nil_append,
    Chunk.C03_oversize_rejected 16384 k _ _ _ _ b hk (by simp only [UInt8.toNat_ofNat']; omega)] at hr
  cases hr

/-- C05 is false as stated: a message of the day of more than 16384 bytes is sent as a single frame (and so is a switch
hint, `C05_false_switch_hint`). -/
theorem C05_false : ¬ C05_statement := by
  intro h
  have hbig : (List.replicate 16385 (65 : UInt8)).length = 16385 := List.length_replicate
  let ls : List Label := [.initial (some (.new 1 z0)), .select .default, .settle, .shellWrite [36], .poll (.read 1)]
  let P : Params := { P0 with needsMotd := true, motd := .text (List.replicate 16385 65) }
  obtain ⟨s, hs, hmem⟩ : ∃ s, Run P ls s ∧ (1, (⟨.data, List.replicate 16385 65⟩ : Chunk)) ∈ s.out := by
    refine ⟨_, rfl, ?_⟩
    exact List.mem_cons_self
  refine too_big_rejected .data (by simp) (List.replicate 16385 65) ?_ ?_ (h P ls s hs 1 _ hmem [])
  · rw [hbig]; decide
  · rw [hbig]; decide

theorem C05_false_switch_hint : ¬ C05_statement := by
  intro h
  have hbig : (List.replicate 16385 (65 : UInt8)).length = 16385 := List.length_replicate
  let ls : List Label := [.initial (some (.new 1 z0)), .select (.maybeSwitch (some (List.replicate 16385 65)))]
  obtain ⟨s, hs, hmem⟩ : ∃ s, Run P0 ls s ∧ (1, (⟨.maybeSwitch, List.replicate 16385 65⟩ : Chunk)) ∈ s.out := by
    refine ⟨_, rfl, ?_⟩
    exact List.mem_cons_self
  refine too_big_rejected .maybeSwitch (by simp) (List.replicate 16385 65) ?_ ?_ (h P0 ls s hs 1 _ hmem [])
  · rw [hbig]; decide
  · rw [hbig]; decide

/-! ### C18 -/

/-- C18. Nothing the shell writes is skipped: it is either read, in order, or still waiting to be read. -/
theorem C18_nothing_skipped (P : Params) (ls : List Label) (s : St) (h : Run P ls s) : written ls = s.read ++ s.pending :=
  run_written h

/-- C18, the part that holds, from any moment `s0` at which a client is attached (and its restore snapshot has been sent)
to any later moment `s` at which it is still attached and working: what it received in between is, in order, the message of
the day if it was due, followed by exactly the text shown in between (the text also fed to the restore engine).  Resizes,
heartbeats, switch hints and time make no difference. -/
theorem C18_relay_partial (P : Params) (ls0 ls : List Label) (s0 s : St) (c0 c : Conn) (h0 : Run P ls0 s0)
    (hc0 : s0.client = some c0) (hpc : s0.pc ≠ .settle true ∧ s0.pc ≠ .waitInitial)
    (h : runSteps (step P) s0 ls = some s) (hc : s.client = some c) (hid : c.id = c0.id) (hok : c.health = .ok) :
    ∃ ops m, s.spool = s0.spool ++ ops ∧ dataTo s.out c.id = dataTo s0.out c.id ++ m ++ processed ops ∧
      (s0.needsMotd = false → m = []) ∧
      (s0.needsMotd = true → s.needsMotd = true → m = [] ∧ processed ops = []) ∧
      (s0.needsMotd = true → s.needsMotd = false →
        ∃ mo, (mo = s0.motd ∨ .setMotd mo ∈ ls) ∧ mo ≠ .notDump ∧ m = motdText mo) := by
  have hu := ((run_J h0).client c0 hc0).1
  obtain ⟨-, -, ops, m, e1, e2, e3, e4, e5⟩ := (run_relay hc0 hu hpc h).rel c hc hid hok
  rw [hid]
  exact ⟨ops, m, e1, e2, fun h => (e3 h).2, e4, e5⟩

theorem dataTo_fresh {P : Params} {ls : List Label} {s : St} (h : Run P ls s) {id : Nat} (hid : id ∉ s.used) :
    dataTo s.out id = [] := by
  have : framesTo s.out id = [] := by
    unfold framesTo
    rw [List.map_eq_nil_iff, List.filter_eq_nil_iff]
    intro p hp he
    have := (run_J h).mem p hp
    simp only [decide_eq_true_eq] at he
    rw [he] at this
    exact hid this
  simp [dataTo, this]

/-- C18. A reattaching client first receives the restore snapshot taken at attach time, then (as long as it stays attached
and working) the message of the day if due and exactly the text shown from then on. -/
theorem C18_reattach_partial (P : Params) (ls0 ls : List Label) (s0 s1 s : St) (id : Nat) (z : TtySize) (ok : Bool) (cfg : Nat)
    (c : Conn) (h0 : Run P ls0 s0) (h1 : step P s0 (.select (.connection (some (.new id z)) ok cfg)) = some s1)
    (h : runSteps (step P) s1 (.settle :: ls) = some s) (hc : s.client = some c) (hid : c.id = id) (hok : c.health = .ok) :
    ∃ ops m, s.spool = s0.spool ++ [.resize z cfg] ++ ops ∧
      dataTo s.out id = P.restore (s0.spool ++ [.resize z cfg]) ++ m ++ processed ops ∧
      (s0.needsMotd = false → m = []) ∧
      (s0.needsMotd = true → s.needsMotd = true → m = [] ∧ processed ops = []) ∧
      (s0.needsMotd = true → s.needsMotd = false →
        ∃ mo, (mo = s0.motd ∨ .setMotd mo ∈ ls) ∧ mo ≠ .notDump ∧ m = motdText mo) := by
  obtain ⟨s2, h2, h3⟩ := run_cons_some h
  have hrun1 : Run P (ls0 ++ [.select (.connection (some (.new id z)) ok cfg)]) s1 := by
    unfold Run; rw [run_append, h0]; simp [runSteps, h1]
  have hrun2 : Run P (ls0 ++ [.select (.connection (some (.new id z)) ok cfg)] ++ [.settle]) s2 := by
    unfold Run; rw [run_append, hrun1]; simp [runSteps, h2]
  have hsettle : ∀ r, s1.pc = .settle r → s2.spool = s1.spool ∧ s2.client = s1.client ∧ s2.pc = .poll ∧
      s2.needsMotd = s1.needsMotd ∧ s2.motd = s1.motd ∧ s2.out = s1.out ++ (if r then restoreOut P s1 else []) := by
    intro r hr
    cases step_eff P s1 s2 .settle h2 with
    | settleLate r' hr' => rw [hr] at hr'; cases hr'; exact ⟨rfl, rfl, rfl, rfl, rfl, rfl⟩
    | settleDue r' z' d hr' => rw [hr] at hr'; cases hr'; exact ⟨rfl, rfl, rfl, rfl, rfl, rfl⟩
  have hended : ∀ e, s1.pc ≠ .ended e := by
    intro e he
    simp only [step, he] at h2
    cases h2
  cases step_eff P s0 s1 _ h1 with
  | newFail => exact absurd rfl (hended .err)
  | newPanic => exact absurd rfl (hended .panic)
  | newOk i z' ok' cfg' hp hfresh =>
    obtain ⟨e1, e2, e3, e4, e5, e6⟩ := hsettle true rfl
    obtain ⟨ops, m, f1, f2, f3, f4, f5⟩ := C18_relay_partial P _ ls s2 s ⟨id, z, .ok⟩ c hrun2 e2 (by rw [e3]; simp) h3 hc hid hok
    dsimp only at e1 e4 e5 e6
    rw [e1] at f1
    rw [e4] at f3 f4 f5
    rw [e5] at f5
    refine ⟨ops, m, f1, ?_, f3, f4, f5⟩
    rw [hid] at f2
    rw [f2, e6, dataTo_append, dataTo_append, dataTo_fresh h0 hfresh]
    have hex : dataTo (toClient s0 (exitFrame 0)) id = [] := by
      rw [toClient_toC, dataTo_toC]
      cases s0.client with
      | none => rfl
      | some c => simp [Data, exitFrame]
    rw [hex]
    have hre : ∀ bs : List (List UInt8), dataTo (bs.flatMap (fun b => toC (some ⟨id, z, .ok⟩) ⟨.data, b⟩)) id = bs.flatten := by
      intro bs
      induction bs with
      | nil => rfl
      | cons b bs ih =>
        rw [List.flatMap_cons, dataTo_append, dataTo_toC, ih]
        simp [Data]
    have := hre (chunks bufSize (P.restore (s0.spool ++ [.resize z cfg])))
    rw [chunks_flatten bufSize (by decide)] at this
    simp only [if_true, List.nil_append]
    exact congrArg (· ++ m ++ processed ops) this

/-- C18. The first client of a session receives the message of the day if due and then exactly the text shown since the
session started. -/
theorem C18_first_client_partial (P : Params) (ls : List Label) (s : St) (id : Nat) (z : TtySize) (c : Conn)
    (h : Run P (.initial (some (.new id z)) :: ls) s) (hc : s.client = some c) (hid : c.id = id) (hok : c.health = .ok) :
    ∃ m, dataTo s.out id = m ++ processed s.spool ∧ (P.needsMotd = false → m = []) ∧
      (P.needsMotd = true → s.needsMotd = true → m = [] ∧ processed s.spool = []) ∧
      (P.needsMotd = true → s.needsMotd = false →
        ∃ mo, (mo = P.motd ∨ .setMotd mo ∈ ls) ∧ mo ≠ .notDump ∧ m = motdText mo) := by
  obtain ⟨s1, h1, h2⟩ := run_cons_some h
  have hr : Run P [.initial (some (.new id z))] s1 := by unfold Run; simp [runSteps, h1]
  cases step_eff P _ _ _ h1 with
  | initNew =>
    obtain ⟨ops, m, f1, f2, f3, f4, f5⟩ :=
      C18_relay_partial P _ ls _ s ⟨id, z, .ok⟩ c hr rfl (by simp) h2 hc hid hok
    have hs : s.spool = ops := by simpa [init] using f1
    rw [hid] at f2
    refine ⟨m, ?_, f3, ?_, f5⟩
    · rw [hs]; simpa [init, dataTo, framesTo] using f2
    · rw [hs]; exact f4
  | initOther m _ hm => exact absurd rfl (hm id z)

/-- C18, full statement for the simplest session, no prompt injection and no message of the day, with one client attached
from the start whose connection keeps working until the shell has exited and the client is told so: it received
everything the shell wrote. -/
def C18_statement : Prop :=
  ∀ (P : Params) (ls : List Label) (s : St) (id : Nat) (z : TtySize) (st : UInt32),
    P.supportsSentinels = false → P.needsMotd = false →
    (∀ l ∈ ls, attaches l = false ∧ detaches l = false ∧ ∀ h, l ≠ .breaks h) →
    Run P (.initial (some (.new id z)) :: ls ++ [.poll (.hangup (some st))]) s →
    (id, exitFrame st) ∈ s.out → dataTo s.out id = written ls

/-- C18 is false as stated: `POLLHUP` is acted upon before `POLLIN`, so output the shell wrote just before exiting is
dropped if the thread notices the hangup before it has read it; the client gets the exit status without the output. -/
theorem C18_false : ¬ C18_statement := by
  intro h
  have := h P0 [.select .default, .settle, .shellWrite [98, 121, 101], .shellClose] _ 1 z0 7 rfl rfl (by simp [attaches, detaches]) rfl (by decide)
  exact absurd this (by decide)

/-! ### C19 -/

/-- C19. The text fed to the restore engine is exactly the visible part (C20) of what was read from the pty: a function of
the bytes read alone. -/
theorem C19_history (P : Params) (ls : List Label) (s : St) (h : Run P ls s) :
    processed s.spool = Sentinel.shownOf P.supportsSentinels [s.read] := by
  have := run_filterInv h
  unfold FilterInv at this
  cases hs : P.supportsSentinels with
  | true =>
    rw [hs, if_pos rfl] at this
    rw [Sentinel.shownOf_eq, this.2]
    simp
  | false =>
    rw [hs] at this
    rw [Sentinel.C20_no_injection]
    simpa using this.2

/-- C19. Two sessions whose ptys delivered the same bytes have the same history, whatever their clients did and however the
bytes were cut into reads. -/
theorem C19_independent_of_clients (P₁ P₂ : Params) (ls₁ ls₂ : List Label) (s₁ s₂ : St) (h₁ : Run P₁ ls₁ s₁)
    (h₂ : Run P₂ ls₂ s₂) (hp : P₁.supportsSentinels = P₂.supportsSentinels) (hr : s₁.read = s₂.read) :
    processed s₁.spool = processed s₂.spool := by rw [C19_history P₁ ls₁ s₁ h₁, C19_history P₂ ls₂ s₂ h₂, hp, hr]

/-- C19. Without prompt injection nothing that was read is missing from the history. -/
theorem C19_complete (P : Params) (ls : List Label) (s : St) (h : Run P ls s) (hp : P.supportsSentinels = false) :
    processed s.spool = s.read := by
  rw [C19_history P ls s h, hp, Sentinel.C20_no_injection]
  simp

/-- C19. Reading goes on without any client: at the poll, pending output is read up to the size of the buffer whether or not
a client is attached, as long as the shell's side of the pty is open. -/
theorem C19_reads_without_client (P : Params) (s : St) (hpc : s.pc = .poll) (hh : s.hup = false) (hp : s.pending ≠ [])
    (hc : s.client = none) :
    ∃ s', step P s (.poll (.read (min 16384 s.pending.length))) = some s' ∧
      s'.read = s.read ++ s.pending.take 16384 ∧ s'.pc = .select := by
  have hl : 0 < s.pending.length := List.length_pos_iff.mpr hp
  change ∃ s', step P s (.poll (.read (min bufSize s.pending.length))) = some s' ∧
    s'.read = s.read ++ s.pending.take bufSize ∧ s'.pc = .select
  have hb : 0 < bufSize := by decide
  have hcond : s.hup = false ∧ 0 < min bufSize s.pending.length ∧ min bufSize s.pending.length ≤ bufSize ∧
      min bufSize s.pending.length ≤ s.pending.length := ⟨hh, by omega, by omega, by omega⟩
  have ht : s.pending.take (min bufSize s.pending.length) = s.pending.take bufSize := by
    rw [List.take_eq_take_iff]; omega
  simp only [step, hpc, if_true, pollStep]
  rw [if_pos hcond]
  cases hf : s.filter.read (s.pending.take (min bufSize s.pending.length)) with
  | mk f v =>
    cases v with
    | none => exact ⟨_, rfl, by rw [ht], rfl⟩
    | some v => exact ⟨_, rfl, by simp [showStep, hc, ht], by simp [showStep, hc]⟩

/-! ### C21 -/

/-- C21. On every connection, an exit-status frame is the last frame (hence there is at most one). -/
theorem C21_exit_frame_last (P : Params) (ls : List Label) (s : St) (h : Run P ls s) (id : Nat) (pre post : List Chunk) (f : Chunk)
    (hf : framesTo s.out id = pre ++ f :: post) (hk : f.kind = .exitStatus) : post = [] := (run_J h).last id pre f post hf hk

/-- C21. At most one. -/
theorem C21_at_most_one (P : Params) (ls : List Label) (s : St) (h : Run P ls s) (id : Nat) :
    ((framesTo s.out id).filter (fun f => f.kind = .exitStatus)).length ≤ 1 := by
  have hl := (run_J h).last id
  generalize framesTo s.out id = fs at hl
  induction fs with
  | nil => simp
  | cons f fs ih =>
    by_cases hk : f.kind = .exitStatus
    · have := hl [] f fs rfl hk
      subst this
      simp [hk]
    · rw [List.filter_cons_of_neg (by simpa using hk)]
      exact ih (fun pre g post he hg => hl (f :: pre) g post (by rw [he]; rfl) hg)

/-- C21. A client that is still attached has not been sent an exit status. -/
theorem C21_attached_not_told (P : Params) (ls : List Label) (s : St) (h : Run P ls s) (c : Conn) (hc : s.client = some c) :
    ∀ f ∈ framesTo s.out c.id, f.kind ≠ .exitStatus := ((run_J h).client c hc).2

/-- C21. A working client that is replaced or detached is sent exit status 0, and one whose shell has exited is sent the
shell's status. -/
theorem C21_told (P : Params) (ls : List Label) (s s' : St) (c : Conn) (m : Msg) (ok : Bool) (cfg : Nat) (_h : Run P ls s)
    (hc : s.client = some c) (hok : c.health = .ok)
    (hs : step P s (.select (.connection (some m) ok cfg)) = some s') :
    ∃ b0 b1 b2 b3 : UInt8, framesTo s'.out c.id = framesTo s.out c.id ++ [⟨.exitStatus, [b0, b1, b2, b3]⟩] ∧
      b0.toNat + 256 * b1.toNat + 65536 * b2.toNat + 16777216 * b3.toNat =
        (match m with | .disconnectExit st => st | _ => 0).toNat := by
  have key : ∀ st : UInt32, ∃ b0 b1 b2 b3 : UInt8,
      framesTo (s.out ++ toClient s (exitFrame st)) c.id = framesTo s.out c.id ++ [⟨.exitStatus, [b0, b1, b2, b3]⟩] ∧
        b0.toNat + 256 * b1.toNat + 65536 * b2.toNat + 16777216 * b3.toNat = st.toNat := by
    intro st
    have h4 : ∃ b0 b1 b2 b3 : UInt8, Chunk.le32 st.toNat = [b0, b1, b2, b3] ∧
        b0.toNat + 256 * b1.toNat + 65536 * b2.toNat + 16777216 * b3.toNat = st.toNat := by
      refine ⟨_, _, _, _, rfl, ?_⟩
      have := st.toNat_lt
      simp only [UInt8.toNat_ofNat']
      omega
    obtain ⟨b0, b1, b2, b3, h4, h5⟩ := h4
    refine ⟨b0, b1, b2, b3, ?_, h5⟩
    rw [framesTo_append, toClient_toC, framesTo_toC, hc]
    simp [hok, exitFrame, h4]
  cases step_eff P s s' _ hs with
  | newFail => exact key 0
  | newPanic => exact key 0
  | newOk => exact key 0
  | discFail => exact key 0
  | discOk => exact key 0
  | dexitFail st => exact key st
  | dexitOk st => exact key st

/-! ### C22 -/

/-- C22. A detach request handled while the session is up is acknowledged `detached` exactly when a client is attached,
`not attached` otherwise; afterwards no client is attached and neither the history nor unread output has changed. -/
theorem C22_detach_partial (P : Params) (s s' : St) (ok : Bool) (cfg : Nat)
    (h : step P s (.select (.connection (some .disconnect) ok cfg)) = some s') (hr : Running s') :
    ∃ a, s'.acks = s.acks ++ [a] ∧ (reportedDetached a ↔ s.client.isSome) ∧ (a = .detached ↔ s.client.isSome) ∧
      s'.client = none ∧ s'.spool = s.spool ∧ s'.read = s.read ∧ s'.pending = s.pending ∧ s'.filter = s.filter ∧
      s'.pty = s.pty := by
  cases step_eff P s s' _ h with
  | discFail => exact absurd rfl (hr .err)
  | discOk =>
    refine ⟨_, rfl, ?_, ?_, rfl, rfl, rfl, rfl, rfl, rfl⟩
    · cases s.client <;> simp [reportedDetached]
    · cases s.client <;> simp

/-- C22. The thread can only fail here if shutting down the client's socket fails. -/
theorem C22_survives (P : Params) (s s' : St) (cfg : Nat)
    (h : step P s (.select (.connection (some .disconnect) true cfg)) = some s') : s'.pc = .settle false := by
  simp only [step] at h
  split at h
  · simp only [connectionStep, dismiss_eq, Bool.or_true] at h
    cases h
    rfl
  · cases h

theorem client_stays_none (P : Params) (ls : List Label) (s s' : St) (hn : s.client = none) (hl : ∀ l ∈ ls, attaches l = false)
    (h : runSteps (step P) s ls = some s') : s'.client = none := by
  induction ls generalizing s with
  | nil => cases h; exact hn
  | cons l ls ih =>
    obtain ⟨s1, h1, h2⟩ := run_cons_some h
    refine ih s1 ?_ (fun l hl' => hl l (List.mem_cons_of_mem _ hl')) h2
    have ha := hl l (by simp)
    cases step_eff P s s1 l h1 with
    | initNew => cases ha
    | newOk => cases ha
    | breaks hh c hc => rw [hn] at hc; cases hc
    | _ => first | rfl | exact hn

/-- C22. Repeating the request, with no attach in between, is answered `not attached`. -/
theorem C22_repeat (P : Params) (ls : List Label) (s s1 s2 s3 : St) (ok ok' : Bool) (cfg cfg' : Nat)
    (h1 : step P s (.select (.connection (some .disconnect) ok cfg)) = some s1) (hl : ∀ l ∈ ls, attaches l = false)
    (h2 : runSteps (step P) s1 ls = some s2)
    (h3 : step P s2 (.select (.connection (some .disconnect) ok' cfg')) = some s3) :
    s3.acks = s2.acks ++ [.detachNone] := by
  have hc1 : s1.client = none := by
    cases step_eff P s s1 _ h1 with
    | discFail => rfl
    | discOk => rfl
  have hc2 := client_stays_none P ls s1 s2 hc1 hl h2
  have ha : (if s2.client.isSome then Ack.detached else .detachNone) = .detachNone := by rw [hc2]; rfl
  simp only [step] at h3
  split at h3
  · simp only [connectionStep, dismiss_eq, hc2, Option.isNone_none, Bool.true_or] at h3
    cases h3
    rfl
  · cases h3

/-- C22, full statement: every detach request the thread handles is reported `detached` exactly when a client is
attached. -/
def C22_statement : Prop :=
  ∀ (P : Params) (ls : List Label) (s s' : St) (l : Label), Run P ls s → detaches l = true → step P s l = some s' →
    ∀ a, s'.acks = s.acks ++ [a] → (reportedDetached a ↔ s.client.isSome)

/-- C22 is false as stated: a detach request that arrives before the first client of a new session has been handed over is
taken for that client and acknowledged as a new connection, which is reported as detached although nothing was
attached. -/
theorem C22_false : ¬ C22_statement := by
  intro h
  have := h P0 [] (init P0) _ (.initial (some .disconnect)) rfl rfl rfl .new rfl
  exact absurd (this.mp (by simp [reportedDetached])) (by decide)

/-! ### C23 -/

/-- C23. With no resize pending, the pty has the size in the most recent attach or resize request. -/
theorem C23_settled (P : Params) (ls : List Label) (s : St) (h : Run P ls s) (hr : Running s) (hn : s.resize = none) (z : TtySize)
    (hz : lastRequested ls = some z) : s.pty = z := by
  have := run_sizeInv h hr
  rw [hn] at this
  exact this z hz

/-- C23. A pending resize is always the most recent request and is due at most 50ms from now. -/
theorem C23_pending (P : Params) (ls : List Label) (s : St) (h : Run P ls s) (hr : Running s) (z : TtySize) (due : Nat)
    (hp : s.resize = some (z, due)) : lastRequested ls = some z ∧ due ≤ s.now + 50 := by
  have := run_sizeInv h hr
  rw [hp] at this
  exact this

/-- C23. Convergence: after 50ms the next pass of the loop leaves the pty at the requested size with nothing pending. -/
theorem C23_converges (P : Params) (ls : List Label) (s s' : St) (z : TtySize) (h : Run P ls s) (hz : lastRequested ls = some z)
    (hs : runSteps (step P) s [.tick 50, .settle] = some s') : s'.pty = z ∧ s'.resize = none := by
  obtain ⟨s1, h1, h2⟩ := run_cons_some hs
  obtain ⟨s2, h3, h4⟩ := run_cons_some h2
  cases h4
  cases h1
  have hr : Running s := by
    intro e he
    simp only [step, he] at h3
    cases h3
  have hI := run_sizeInv h hr
  cases step_eff P _ s' _ h3 with
  | settleLate r hpc hlate =>
    dsimp only at hlate ⊢
    cases hp : s.resize with
    | none => rw [hp] at hI; exact ⟨hI z hz, rfl⟩
    | some zd =>
      obtain ⟨z', due⟩ := zd
      rw [hp] at hI
      have := hlate z' due hp
      have h2 := hI.2
      unfold reattachResizeDelay at h2
      omega
  | settleDue r z' due hpc hp hd =>
    dsimp only at hp ⊢
    rw [hp] at hI
    rw [hz] at hI
    exact ⟨(Option.some.inj hI.1).symm, rfl⟩

/-! ### C75 -/

/-- C75, full statement: changing the configuration (here: the message of the day) never makes the thread of a running
session panic (no overflow checks, so that the arithmetic on sizes cannot panic either). -/
def C75_statement : Prop :=
  ∀ (P : Params) (ls : List Label) (s : St), P.overflowChecks = false → P.motd ≠ .notDump → Run P ls s → s.pc ≠ .ended .panic

/-- C75 is false: a session created while the message of the day is to be dumped panics on its first output if the
configuration was changed to another mode in between. -/
theorem C75_false : ¬ C75_statement := by
  intro h
  have := h { P0 with needsMotd := true, motd := .text [] }
    [.initial (some (.new 1 z0)), .select .default, .settle, .setMotd .notDump, .shellWrite [36], .poll (.read 1)] _ rfl
    (by simp) rfl
  exact this rfl

theorem step_noPanic (P : Params) (s s' : St) (l : Label) (ho : P.overflowChecks = false)
    (hI : s.needsMotd = false ∧ s.pc ≠ .ended .panic) (h : step P s l = some s') :
    s'.needsMotd = false ∧ s'.pc ≠ .ended .panic := by
  obtain ⟨hm, hp⟩ := hI
  cases step_eff P s s' l h with
  | newPanic _ _ _ _ _ _ hc => rw [ho] at hc; cases hc
  | motdPanic _ _ _ _ _ _ _ _ _ _ _ hn => rw [hm] at hn; cases hn
  | switchSkip => exact ⟨hm, hp⟩
  | tick => exact ⟨hm, hp⟩
  | write => exact ⟨hm, hp⟩
  | close => exact ⟨hm, hp⟩
  | exitKnown => exact ⟨hm, hp⟩
  | breaks => exact ⟨hm, hp⟩
  | setMotd => exact ⟨hm, hp⟩
  | relay => exact ⟨rfl, by simp⟩
  | broken => exact ⟨rfl, by simp⟩
  | _ => exact ⟨hm, by simp⟩

/-- C75, the part that holds: a session that does not dump the message of the day never panics, whatever the configuration is
changed to. -/
theorem C75_no_panic_partial (P : Params) (ls : List Label) (s : St) (ho : P.overflowChecks = false) (hn : P.needsMotd = false)
    (h : Run P ls s) : s.pc ≠ .ended .panic :=
  (run_inv (I := fun s => s.needsMotd = false ∧ s.pc ≠ .ended .panic) (fun s l s' => step_noPanic P s s' l ho)
    ⟨hn, by simp [init]⟩ h).2

/-- In a build with overflow checks, attaching from a terminal with 65535 rows kills the session's output thread. -/
theorem C75_false_overflow : ∃ s, Run { P0 with overflowChecks := true }
    [.initial (some (.new 1 z0)), .select (.connection (some (.new 2 ⟨65535, 80, 0, 0⟩)) true 0)] s ∧ s.pc = .ended .panic :=
  ⟨_, rfl, rfl⟩

/-! ### A concrete history -/

/-- A client attaches, the shell prints, a second client takes over, more output, a resize, a detach, output without a
client. -/
def demo : List Label :=
  [.initial (some (.new 1 z0)), .select .default, .settle, .shellWrite [104, 105], .poll (.read 2),
   .select (.connection (some (.new 2 ⟨30, 90, 0, 0⟩)) true 0), .settle, .shellWrite [33, 34, 35], .poll (.read 1),
   .tick 60, .select .heartbeat, .settle, .poll (.read 2), .select (.sizeChange (some ⟨31, 91, 0, 0⟩) 0), .settle,
   .shellWrite [10], .poll (.read 1), .select (.connection (some .disconnect) true 0), .settle, .shellWrite [11],
   .poll (.read 1)]

example : ∃ s, Run P0 demo s ∧ s.read = [104, 105, 33, 34, 35, 10, 11] ∧ processed s.spool = [104, 105, 33, 34, 35, 10, 11] ∧
    s.pty = ⟨31, 91, 0, 0⟩ ∧ s.resize = none ∧ s.acks = [.new, .replaced, .detached] ∧ s.client = none :=
  ⟨_, rfl, by decide, by decide, by decide, by decide, by decide, by decide⟩
example : lastRequested demo = some ⟨31, 91, 0, 0⟩ := by decide
/-- The first client got "hi" and an exit frame, the second client the snapshot and the rest. -/
example : ∃ s, Run { P0 with restore := fun _ => [1, 2] } demo s ∧ framesTo s.out 1 = [⟨.data, [104, 105]⟩, exitFrame 0] ∧
    (framesTo s.out 2).getLast? = some (exitFrame 0) ∧ (framesTo s.out 2).length = 6 := by
  exact ⟨_, rfl, by decide, by decide, by decide⟩

/-- The hypotheses of `C05_accepted_partial`. -/
example : SmallMotd P0.motd ∧ ∀ l ∈ demo, Small l := by simp [P0, SmallMotd, demo, Small]
/-- The hypotheses of `C18_reattach_partial`, with a message of the day that is due. -/
example : ∃ s0 s1 s, Run { P0 with restore := fun _ => [1, 2], needsMotd := true, motd := .text [7, 8] }
      [.initial (some .disconnect), .select .default, .settle, .shellWrite [104], .poll (.read 1)] s0 ∧
    step { P0 with restore := fun _ => [1, 2], needsMotd := true, motd := .text [7, 8] } s0
      (.select (.connection (some (.new 5 z0)) true 3)) = some s1 ∧
    runSteps (step { P0 with restore := fun _ => [1, 2], needsMotd := true, motd := .text [7, 8] }) s1
      [.settle, .shellWrite [33], .poll (.read 1)] = some s ∧
    s.client = some ⟨5, z0, .ok⟩ ∧ dataTo s.out 5 = [1, 2, 7, 8, 33] :=
  ⟨_, _, _, rfl, rfl, rfl, by decide, by decide⟩
/-- The hypotheses of `C22_detach_partial` and `C22_repeat`. -/
example : ∃ s s1 s2 s3, Run P0 [.initial (some (.new 1 z0))] s ∧
    step P0 s (.select (.connection (some .disconnect) true 0)) = some s1 ∧ s1.pc = .settle false ∧
    runSteps (step P0) s1 [.settle, .poll .timeout] = some s2 ∧
    step P0 s2 (.select (.connection (some .disconnect) true 0)) = some s3 ∧ s3.acks = [.new, .detached, .detachNone] :=
  ⟨_, _, _, _, rfl, rfl, rfl, rfl, rfl, by decide⟩
/-- The hypotheses of `C23_converges`. -/
example : ∃ s s', Run P0 (demo.take 6) s ∧ lastRequested (demo.take 6) = some ⟨30, 90, 0, 0⟩ ∧ s.pty = ⟨31, 91, 0, 0⟩ ∧
    runSteps (step P0) s [.tick 50, .settle] = some s' ∧ s'.pty = ⟨30, 90, 0, 0⟩ :=
  ⟨_, _, rfl, by decide, by decide, rfl, by decide⟩

end Shpool.S2C
