import Verif.S2C.Model
import Verif.Sentinel.Props
/-!
# Effects of the steps of the shell-to-client thread
-/

namespace Shpool.S2C
open Chunk (Chunk Kind)

/-- What writing `f` to the current client adds to the delivered frames. -/
def toClient (s : St) (f : Chunk) : List (Nat × Chunk) :=
  match s.client with
  | some c => if c.health = .ok then [(c.id, f)] else []
  | none => []

theorem send_eq (s : St) (c : Conn) (f : Chunk) :
    send s c f = { s with out := s.out ++ (if c.health = .ok then [(c.id, f)] else []) } := by
  unfold send; split <;> simp

theorem send_client (s : St) (c : Conn) (f : Chunk) (h : s.client = some c) :
    send s c f = { s with out := s.out ++ toClient s f } := by
  rw [send_eq, toClient, h]

theorem dismiss_eq (s : St) (st : UInt32) (ok : Bool) :
    dismiss s st ok = ({ s with out := s.out ++ toClient s (exitFrame st), client := none }, s.client.isNone || ok) := by
  unfold dismiss
  cases h : s.client with
  | none => simp [toClient, h]; cases s; simp_all
  | some c => simp [send_eq, toClient, h]

theorem foldl_send (s : St) (c : Conn) (bs : List (List UInt8)) :
    bs.foldl (fun s b => send s c ⟨.data, b⟩) s =
      { s with out := s.out ++ bs.flatMap (fun b => if c.health = .ok then [(c.id, ⟨.data, b⟩)] else []) } := by
  induction bs generalizing s with
  | nil => simp
  | cons b bs ih =>
    rw [List.foldl_cons, ih, send_eq]
    simp [List.flatMap_cons]

/-- The frames of the restore buffer. -/
def restoreOut (P : Params) (s : St) : List (Nat × Chunk) :=
  (chunks bufSize (P.restore s.spool)).flatMap (fun b => toClient s ⟨.data, b⟩)

theorem doRestore_eq (P : Params) (s : St) : doRestore P s = { s with out := s.out ++ restoreOut P s } := by
  unfold doRestore restoreOut toClient
  rcases s with ⟨pc, _ | c, _⟩
  · simp [List.flatMap_eq_nil_iff]
  · exact foldl_send _ _ _

/-- The message of the day as far as it is delivered. -/
def motdOut (s : St) : List (Nat × Chunk) :=
  match s.needsMotd, s.motd with
  | true, .text m => toClient s ⟨.data, m⟩
  | _, _ => []

/-- The effect of a step, one constructor per way through the loop. -/
inductive Eff (P : Params) (s : St) : Label → St → Prop
  | initClosed : s.pc = .waitInitial → Eff P s (.initial none) { s with client := none, pc := .ended .err }
  | initNew (id : Nat) (z : TtySize) : s.pc = .waitInitial → id ∉ s.used → Eff P s (.initial (some (.new id z)))
      { s with pc := .select, client := some ⟨id, z, .ok⟩, used := s.used ++ [id], resize := some (z, s.now),
               acks := s.acks ++ [.new] }
  | initOther (m : Msg) : s.pc = .waitInitial → (∀ id z, m ≠ .new id z) →
      Eff P s (.initial (some m)) { s with pc := .select, client := none, acks := s.acks ++ [.new] }
  | default : s.pc = .select → Eff P s (.select .default) { s with pc := .settle false }
  | connClosed (ok : Bool) (cfg : Nat) : s.pc = .select → Eff P s (.select (.connection none ok cfg)) { s with client := none, pc := .ended .ok }
  | newFail (id : Nat) (z : TtySize) (ok : Bool) (cfg : Nat) : s.pc = .select → id ∉ s.used →
      Eff P s (.select (.connection (some (.new id z)) ok cfg))
        { s with out := s.out ++ toClient s (exitFrame 0), client := none, pc := .ended .err }
  | newPanic (id : Nat) (z : TtySize) (ok : Bool) (cfg : Nat) : s.pc = .select → id ∉ s.used → P.overflowChecks = true →
      (z.rows = 65535 ∨ z.cols = 65535) →
      Eff P s (.select (.connection (some (.new id z)) ok cfg))
        { s with out := s.out ++ toClient s (exitFrame 0), client := none, spool := s.spool ++ [.resize z cfg],
                 pc := .ended .panic, used := s.used ++ [id] }
  | newOk (id : Nat) (z : TtySize) (ok : Bool) (cfg : Nat) : s.pc = .select → id ∉ s.used →
      Eff P s (.select (.connection (some (.new id z)) ok cfg))
        { s with out := s.out ++ toClient s (exitFrame 0), spool := s.spool ++ [.resize z cfg],
                 pty := { z with rows := z.rows + 1, cols := z.cols + 1 },
                 resize := some (z, s.now + reattachResizeDelay), client := some ⟨id, z, .ok⟩, used := s.used ++ [id],
                 acks := s.acks ++ [if s.client.isSome then .replaced else .new], pc := .settle true }
  | discFail (ok : Bool) (cfg : Nat) : s.pc = .select → Eff P s (.select (.connection (some .disconnect) ok cfg))
      { s with out := s.out ++ toClient s (exitFrame 0), client := none, pc := .ended .err }
  | discOk (ok : Bool) (cfg : Nat) : s.pc = .select → Eff P s (.select (.connection (some .disconnect) ok cfg))
      { s with out := s.out ++ toClient s (exitFrame 0), client := none,
               acks := s.acks ++ [if s.client.isSome then .detached else .detachNone], pc := .settle false }
  | dexitFail (st : UInt32) (ok : Bool) (cfg : Nat) : s.pc = .select →
      Eff P s (.select (.connection (some (.disconnectExit st)) ok cfg))
        { s with out := s.out ++ toClient s (exitFrame st), client := none, pc := .ended .err }
  | dexitOk (st : UInt32) (ok : Bool) (cfg : Nat) : s.pc = .select →
      Eff P s (.select (.connection (some (.disconnectExit st)) ok cfg))
        { s with out := s.out ++ toClient s (exitFrame st), client := none,
                 acks := s.acks ++ [if s.client.isSome then .detached else .detachNone], pc := .ended .ok }
  | sizeClosed (cfg : Nat) : s.pc = .select → Eff P s (.select (.sizeChange none cfg)) { s with client := none, pc := .ended .ok }
  | size (z : TtySize) (cfg : Nat) : s.pc = .select → Eff P s (.select (.sizeChange (some z) cfg))
      { s with spool := s.spool ++ [.resize z cfg], resize := some (z, s.now), pc := .settle false }
  | heartbeatNo : s.pc = .select → (∀ c, s.client = some c → c.health = .pipe) → Eff P s (.select .heartbeat)
      { s with heartbeatAcks := s.heartbeatAcks ++ [false], pc := .settle false }
  | heartbeatOk (c : Conn) : s.pc = .select → s.client = some c → c.health = .ok → Eff P s (.select .heartbeat)
      { s with out := s.out ++ toClient s ⟨.heartbeat, []⟩, heartbeatAcks := s.heartbeatAcks ++ [true],
               pc := .settle false }
  | heartbeatErr (c : Conn) : s.pc = .select → s.client = some c → c.health = .other →
      Eff P s (.select .heartbeat) { s with client := none, pc := .ended .err }
  | switchSkip (p : Option (List UInt8)) : s.pc = .select → Eff P s (.select (.maybeSwitch p)) s
  | switchPipe (p : List UInt8) (c : Conn) : s.pc = .select → s.client = some c → c.health = .pipe →
      Eff P s (.select (.maybeSwitch (some p))) { s with pc := .settle false }
  | switchErr (p : List UInt8) (c : Conn) : s.pc = .select → s.client = some c → c.health = .other →
      Eff P s (.select (.maybeSwitch (some p))) { s with client := none, pc := .ended .err }
  | switchOk (p : List UInt8) (c : Conn) : s.pc = .select → s.client = some c → c.health = .ok →
      Eff P s (.select (.maybeSwitch (some p)))
        { s with out := s.out ++ toClient s ⟨.maybeSwitch, p⟩, pc := .settle false }
  | settleLate (r : Bool) : s.pc = .settle r → (∀ z due, s.resize = some (z, due) → s.now < due) →
      Eff P s .settle { s with out := s.out ++ (if r then restoreOut P s else []), pc := .poll }
  | settleDue (r : Bool) (z : TtySize) (due : Nat) : s.pc = .settle r → s.resize = some (z, due) → due ≤ s.now →
      Eff P s .settle { s with out := s.out ++ (if r then restoreOut P s else []), pc := .poll, pty := z, resize := none }
  | pollErr : s.pc = .poll → Eff P s (.poll .error) { s with client := none, pc := .ended .err }
  | timeout : s.pc = .poll → s.pending = [] → s.hup = false → Eff P s (.poll .timeout) { s with pc := .select }
  | hangup (st : Option UInt32) : s.pc = .poll → s.hup = true → (s.exited.isSome → st = s.exited) →
      Eff P s (.poll (.hangup st))
        { s with out := s.out ++ (match st with | some st => toClient s (exitFrame st) | none => []), client := none,
                 pc := .ended .ok }
  | readErr : s.pc = .poll → s.hup = false → Eff P s (.poll .readError) { s with client := none, pc := .ended .err }
  | hidden (n : Nat) (f : Sentinel.Filter) : s.pc = .poll → s.hup = false → 0 < n → n ≤ bufSize → n ≤ s.pending.length →
      s.filter.read (s.pending.take n) = (f, none) →
      Eff P s (.poll (.read n))
        { s with pending := s.pending.drop n, read := s.read ++ s.pending.take n, filter := f, pc := .select }
  | noClient (n : Nat) (f : Sentinel.Filter) (v : List UInt8) : s.pc = .poll → s.hup = false → 0 < n → n ≤ bufSize →
      n ≤ s.pending.length → s.filter.read (s.pending.take n) = (f, some v) → s.client = none →
      Eff P s (.poll (.read n))
        { s with pending := s.pending.drop n, read := s.read ++ s.pending.take n, filter := f,
                 spool := s.spool ++ [.process v], pc := .select }
  | motdPanic (n : Nat) (f : Sentinel.Filter) (v : List UInt8) (c : Conn) : s.pc = .poll → s.hup = false → 0 < n →
      n ≤ bufSize → n ≤ s.pending.length → s.filter.read (s.pending.take n) = (f, some v) → s.client = some c →
      s.needsMotd = true → s.motd = .notDump →
      Eff P s (.poll (.read n))
        { s with pending := s.pending.drop n, read := s.read ++ s.pending.take n, filter := f,
                 spool := s.spool ++ [.process v], needsMotd := false, client := none, pc := .ended .panic }
  | relay (n : Nat) (f : Sentinel.Filter) (v : List UInt8) (c : Conn) : s.pc = .poll → s.hup = false → 0 < n →
      n ≤ bufSize → n ≤ s.pending.length → s.filter.read (s.pending.take n) = (f, some v) → s.client = some c →
      c.health = .ok → ¬ (s.needsMotd = true ∧ s.motd = .notDump) →
      Eff P s (.poll (.read n))
        { s with pending := s.pending.drop n, read := s.read ++ s.pending.take n, filter := f,
                 spool := s.spool ++ [.process v], needsMotd := false,
                 out := s.out ++ (motdOut s ++ toClient s ⟨.data, v⟩), pc := .select }
  | broken (n : Nat) (f : Sentinel.Filter) (v : List UInt8) (c : Conn) : s.pc = .poll → s.hup = false → 0 < n →
      n ≤ bufSize → n ≤ s.pending.length → s.filter.read (s.pending.take n) = (f, some v) → s.client = some c →
      c.health ≠ .ok → ¬ (s.needsMotd = true ∧ s.motd = .notDump) →
      Eff P s (.poll (.read n))
        { s with pending := s.pending.drop n, read := s.read ++ s.pending.take n, filter := f,
                 spool := s.spool ++ [.process v], needsMotd := false, client := none, pc := .select }
  | tick (ms : Nat) : Eff P s (.tick ms) { s with now := s.now + ms }
  | write (b : List UInt8) : s.hup = false → Eff P s (.shellWrite b) { s with pending := s.pending ++ b }
  | close : Eff P s .shellClose { s with hup := true }
  | exitKnown (st : UInt32) : s.exited = none → Eff P s (.exitKnown st) { s with exited := some st }
  | breaks (h : Health) (c : Conn) : s.client = some c → c.health = .ok →
      Eff P s (.breaks h) { s with client := some { c with health := h } }
  | setMotd (m : Motd) : Eff P s (.setMotd m) { s with motd := m }

theorem succU16_some {b : Bool} {n m : UInt16} (h : succU16 b n = some m) : m = n + 1 := by
  unfold succU16 at h
  split at h
  · cases h
  · cases h; rfl

theorem succU16_none {b : Bool} {n : UInt16} (h : succU16 b n = none) : b = true ∧ n = 65535 := by
  unfold succU16 at h
  split at h
  · next hc => simpa using hc
  · cases h

theorem pollStep_eff (P : Params) (s s' : St) (p : Poll) (hpc : s.pc = .poll) (h : pollStep s p = some s') :
    Eff P s (.poll p) s' := by
  cases p with
  | error => cases h; exact .pollErr hpc
  | timeout =>
    simp only [pollStep] at h
    split at h
    · next hc => cases h; exact .timeout hpc hc.1 hc.2
    · cases h
  | hangup st =>
    simp only [pollStep] at h
    split at h
    · next hc =>
      have := Eff.hangup (P := P) st hpc hc.1 hc.2
      cases hcl : s.client with
      | none =>
        rw [hcl] at h
        cases h
        cases st <;> simpa [toClient, hcl, finish] using this
      | some c =>
        cases st with
        | none => rw [hcl] at h; cases h; simpa [finish] using this
        | some st =>
          rw [hcl] at h
          simp only [Option.some.injEq] at h
          rw [send_client s c _ hcl] at h
          subst h
          exact this
    · cases h
  | readError =>
    simp only [pollStep] at h
    split at h
    · next hc => cases h; exact .readErr hpc hc
    · cases h
  | read n =>
    simp only [pollStep] at h
    split at h
    · next hc =>
      obtain ⟨h1, h2, h3, h4⟩ := hc
      split at h
      · next f hf => cases h; exact .hidden n f hpc h1 h2 h3 h4 hf
      · next f v hf =>
        cases hcl : s.client with
        | none =>
          cases h
          have := Eff.noClient (P := P) n f v hpc h1 h2 h3 h4 hf hcl
          simpa [showStep, hcl] using this
        | some c =>
          cases hm : s.needsMotd with
          | false =>
            by_cases hh : c.health = .ok
            · have := Eff.relay (P := P) n f v c hpc h1 h2 h3 h4 hf hcl hh (by simp [hm])
              cases h
              simpa [showStep, hcl, motdStep, hm, hpc, hh, send_eq, motdOut, toClient] using this
            · have := Eff.broken (P := P) n f v c hpc h1 h2 h3 h4 hf hcl hh (by simp [hm])
              cases h
              cases hhe : c.health with
              | ok => exact absurd hhe hh
              | pipe => simpa [showStep, hcl, motdStep, hm, hpc, hhe] using this
              | other => simpa [showStep, hcl, motdStep, hm, hpc, hhe] using this
          | true =>
            cases hmo : s.motd with
            | notDump =>
              have := Eff.motdPanic (P := P) n f v c hpc h1 h2 h3 h4 hf hcl hm hmo
              cases h
              simpa [showStep, hcl, motdStep, hm, hmo, finish] using this
            | fails =>
              by_cases hh : c.health = .ok
              · have := Eff.relay (P := P) n f v c hpc h1 h2 h3 h4 hf hcl hh (by simp [hmo])
                cases h
                simpa [showStep, hcl, motdStep, hm, hmo, hpc, hh, send_eq, motdOut, toClient] using this
              · have := Eff.broken (P := P) n f v c hpc h1 h2 h3 h4 hf hcl hh (by simp [hmo])
                cases h
                cases hhe : c.health with
                | ok => exact absurd hhe hh
                | pipe => simpa [showStep, hcl, motdStep, hm, hmo, hpc, hhe] using this
                | other => simpa [showStep, hcl, motdStep, hm, hmo, hpc, hhe] using this
            | text m =>
              by_cases hh : c.health = .ok
              · have := Eff.relay (P := P) n f v c hpc h1 h2 h3 h4 hf hcl hh (by simp [hmo])
                cases h
                simpa [showStep, hcl, motdStep, hm, hmo, hpc, hh, send_eq, motdOut, toClient] using this
              · have := Eff.broken (P := P) n f v c hpc h1 h2 h3 h4 hf hcl hh (by simp [hmo])
                cases h
                cases hhe : c.health with
                | ok => exact absurd hhe hh
                | pipe => simpa [showStep, hcl, motdStep, hm, hmo, hpc, hhe, send_eq] using this
                | other => simpa [showStep, hcl, motdStep, hm, hmo, hpc, hhe, send_eq] using this
    · cases h

theorem connectionStep_eff (P : Params) (s s' : St) (m : Option Msg) (ok : Bool) (cfg : Nat) (hpc : s.pc = .select)
    (h : connectionStep P s m ok cfg = some s') : Eff P s (.select (.connection m ok cfg)) s' := by
  unfold connectionStep at h
  split at h
  · next id z =>
    split at h
    · cases h
    · next hid =>
      rw [dismiss_eq] at h
      dsimp only at h
      cases hb : s.client.isNone || ok with
      | false => rw [hb] at h; cases h; exact .newFail id z ok cfg hpc hid
      | true =>
        rw [hb] at h
        dsimp only at h
        cases h1 : succU16 P.overflowChecks z.rows with
        | none =>
          rw [h1] at h
          obtain ⟨ho, hz⟩ := succU16_none h1
          cases h
          exact .newPanic id z ok cfg hpc hid ho (.inl hz)
        | some r =>
          cases h2 : succU16 P.overflowChecks z.cols with
          | none =>
            rw [h1, h2] at h
            obtain ⟨ho, hz⟩ := succU16_none h2
            cases h
            exact .newPanic id z ok cfg hpc hid ho (.inr hz)
          | some cc =>
            rw [h1, h2] at h
            cases succU16_some h1
            cases succU16_some h2
            cases h
            exact .newOk id z ok cfg hpc hid
  · rw [dismiss_eq] at h
    dsimp only at h
    cases hb : s.client.isNone || ok with
    | false => rw [hb] at h; cases h; exact .discFail ok cfg hpc
    | true => rw [hb] at h; cases h; exact .discOk ok cfg hpc
  · next st =>
    rw [dismiss_eq] at h
    dsimp only at h
    cases hb : s.client.isNone || ok with
    | false => rw [hb] at h; cases h; exact .dexitFail st ok cfg hpc
    | true => rw [hb] at h; cases h; exact .dexitOk st ok cfg hpc
  · cases h; exact .connClosed ok cfg hpc

theorem settleStep_eff (P : Params) (s : St) (r : Bool) (hpc : s.pc = .settle r) : Eff P s .settle (settleStep P s r) := by
  have hcase : (∃ z due, s.resize = some (z, due) ∧ due ≤ s.now ∧ doResize s = { s with pty := z, resize := none }) ∨
      ((∀ z due, s.resize = some (z, due) → s.now < due) ∧ doResize s = s) := by
    unfold doResize
    cases hr : s.resize with
    | none => exact .inr ⟨(fun z due h => by cases h), rfl⟩
    | some zd =>
      obtain ⟨z, due⟩ := zd
      by_cases hd : due ≤ s.now
      · exact .inl ⟨z, due, rfl, hd, if_pos hd⟩
      · refine .inr ⟨fun z' due' h => ?_, if_neg hd⟩
        cases h; omega
  unfold settleStep
  rcases hcase with ⟨z, due, h1, h2, h3⟩ | ⟨h1, h2⟩
  · have := Eff.settleDue (P := P) r z due hpc h1 h2
    rw [h3]
    cases r with
    | false => simpa using this
    | true => simpa [doRestore_eq, restoreOut, toClient] using this
  · have := Eff.settleLate (P := P) r hpc h1
    rw [h2]
    cases r with
    | false => simpa using this
    | true => simpa [doRestore_eq, restoreOut, toClient] using this

/-- Every step is one of the listed effects. -/
theorem step_eff (P : Params) (s s' : St) (l : Label) (h : step P s l = some s') : Eff P s l s' := by
  cases l with
  | initial m =>
    simp only [step] at h
    split at h
    · next hpc =>
      rcases m with _ | m
      · cases h; exact .initClosed hpc
      · cases m with
        | new id z =>
          simp only [initialStep] at h
          split at h
          · cases h
          · next hid => cases h; exact .initNew id z hpc hid
        | disconnect => cases h; exact .initOther _ hpc (fun _ _ => by simp)
        | disconnectExit st => cases h; exact .initOther _ hpc (fun _ _ => by simp)
    · cases h
  | select sel =>
    simp only [step] at h
    split at h
    · next hpc =>
      cases sel with
      | default => cases h; exact .default hpc
      | connection m ok cfg => exact connectionStep_eff P s s' m ok cfg hpc h
      | sizeChange z cfg =>
        cases z with
        | none => cases h; exact .sizeClosed cfg hpc
        | some z => cases h; exact .size z cfg hpc
      | heartbeat =>
        cases hcl : s.client with
        | none =>
          have := Eff.heartbeatNo (P := P) hpc (fun c hc => by rw [hcl] at hc; cases hc)
          cases h
          simpa [heartbeatStep, hcl] using this
        | some c =>
          cases hh : c.health with
          | ok =>
            have := Eff.heartbeatOk (P := P) c hpc hcl hh
            cases h
            simpa [heartbeatStep, hcl, hh, send_eq, toClient] using this
          | pipe =>
            have := Eff.heartbeatNo (P := P) hpc (fun c' hc => by rw [hcl] at hc; cases hc; exact hh)
            cases h
            simpa [heartbeatStep, hcl, hh, finish] using this
          | other =>
            have := Eff.heartbeatErr (P := P) c hpc hcl hh
            cases h
            simpa [heartbeatStep, hcl, hh, finish] using this
      | maybeSwitch p =>
        rcases p with _ | p
        · cases h; exact .switchSkip none hpc
        · cases hcl : s.client with
          | none =>
            have := Eff.switchSkip (P := P) (some p) hpc
            cases h
            simpa [maybeSwitchStep, hcl] using this
          | some c =>
            cases hh : c.health with
            | ok =>
              have := Eff.switchOk (P := P) p c hpc hcl hh
              cases h
              simpa [maybeSwitchStep, hcl, hh, send_eq, toClient] using this
            | pipe =>
              have := Eff.switchPipe (P := P) p c hpc hcl hh
              cases h
              simpa [maybeSwitchStep, hcl, hh, finish] using this
            | other =>
              have := Eff.switchErr (P := P) p c hpc hcl hh
              cases h
              simpa [maybeSwitchStep, hcl, hh, finish] using this
    · cases h
  | settle =>
    simp only [step] at h
    split at h
    · next r hpc => cases h; exact settleStep_eff P s r hpc
    · cases h
  | poll p =>
    simp only [step] at h
    split at h
    · next hpc => exact pollStep_eff P s s' p hpc h
    · cases h
  | tick ms => cases h; exact .tick ms
  | shellWrite b =>
    simp only [step] at h
    split at h
    · cases h
    · next hh => cases h; exact .write b (by simpa using hh)
  | shellClose => cases h; exact .close
  | exitKnown st =>
    simp only [step] at h
    split at h
    · next hh => cases h; exact .exitKnown st (by simpa using hh)
    · cases h
  | breaks hh =>
    simp only [step] at h
    split at h
    · next c hc =>
      split at h
      · next ho => cases h; exact .breaks hh c hc ho
      · cases h
    · cases h
  | setMotd m => cases h; exact .setMotd m

end Shpool.S2C
