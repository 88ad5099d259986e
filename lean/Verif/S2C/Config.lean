import Verif.S2C.Props

/-! # Configuration edits and the shell-to-client thread (C75, continued) -/

namespace Shpool.S2C
open Chunk (Chunk Kind)

/-- The size in an attach request is not at the limit of its type. -/
def fitsPlusOne : Label → Prop
  | .select (.connection (some (.new _ z)) _ _) => z.rows ≠ 65535 ∧ z.cols ≠ 65535
  | _ => True

/-- C75, the part that holds for sessions that dump the message of the day: the thread does not panic as long as the configuration keeps to that
mode (and, in builds with overflow checks, no terminal has 65535 rows or columns). -/
theorem C75_dump_partial (P : Params) (ls : List Label) (s : St) (h : Run P ls s)
    (hm : P.needsMotd = true → P.motd ≠ .notDump ∧ .setMotd .notDump ∉ ls)
    (ho : P.overflowChecks = true → ∀ l ∈ ls, fitsPlusOne l) : s.pc ≠ .ended .panic := by
  have key := run_hist (I := fun ls s => (P.needsMotd = true → .setMotd .notDump ∉ ls) → (P.overflowChecks = true → ∀ l ∈ ls, fitsPlusOne l) →
    ((P.needsMotd = false → s.needsMotd = false) ∧ (P.needsMotd = true → s.motd ≠ .notDump) ∧ s.pc ≠ .ended .panic)) ?_ ?_ h
  · exact (key (fun hn => (hm hn).2) ho).2.2
  · intro ls s l s' hI hs hm' ho'
    obtain ⟨h1, h2, h3⟩ := hI (fun hn hl => hm' hn (by simp [hl])) (fun hc l hl => ho' hc l (by simp [hl]))
    cases step_eff P s s' l hs with
    | newPanic id z ok cfg _ _ hc hz =>
      have := ho' hc (.select (.connection (some (.new id z)) ok cfg)) (by simp)
      exact absurd hz (by simp [fitsPlusOne] at this; simp [this])
    | motdPanic _ _ _ _ _ _ _ _ _ _ _ hn hd =>
      by_cases hp : P.needsMotd = true
      · exact absurd hd (h2 hp)
      · rw [h1 (by simpa using hp)] at hn; cases hn
    | setMotd m => exact ⟨h1, fun hp hd => hm' hp (by simp at hd; simp [hd]), h3⟩
    | relay => exact ⟨fun _ => rfl, h2, by simp⟩
    | broken => exact ⟨fun _ => rfl, h2, by simp⟩
    | _ => first | exact ⟨h1, h2, h3⟩ | exact ⟨h1, h2, by simp⟩
  · intro _ _
    exact ⟨fun hn => hn, fun hn => (hm hn).1, by simp [init]⟩

/-- What makes the thread panic: in a build with overflow checks, the attach of a terminal with 65535 rows or columns, the client there was, if
any, having been let go; and the first output shown to a client when the message of the day is still to be dumped and the configuration has
another mode. -/
def Offends (P : Params) (s : St) : Label → Prop
  | .select (.connection (some (.new _ z)) ok _) =>
    P.overflowChecks = true ∧ (z.rows = 65535 ∨ z.cols = 65535) ∧ (s.client = none ∨ ok = true)
  | .poll (.read n) =>
    s.needsMotd = true ∧ s.motd = .notDump ∧ s.client ≠ none ∧ (s.filter.read (s.pending.take n)).2 ≠ none
  | _ => False

private theorem succU16_none_iff (b : Bool) (n : UInt16) : succU16 b n = none ↔ b = true ∧ n = 65535 := by
  unfold succU16; cases b <;> by_cases h : n = 65535 <;> simp [h]

private theorem panic_new (P : Params) (s s' : St) (id : Nat) (z : TtySize) (ok : Bool) (cfg : Nat)
    (hs : connectionStep P s (some (.new id z)) ok cfg = some s') :
    s'.pc = .ended .panic ↔ P.overflowChecks = true ∧ (z.rows = 65535 ∨ z.cols = 65535) ∧ (s.client = none ∨ ok = true) := by
  simp only [connectionStep] at hs
  split at hs
  · cases hs
  have hd : (dismiss s 0 ok).2 = true ↔ s.client = none ∨ ok = true := by
    unfold dismiss; cases s.client <;> simp
  rcases hr : dismiss s 0 ok with ⟨u, _ | _⟩ <;> rw [hr] at hd hs
  · cases hs
    simp only [finish, PC.ended.injEq, reduceCtorEq, false_iff]
    rintro ⟨-, -, h⟩
    cases hd.mpr h
  · have hk := hd.mp rfl
    have h1 := succU16_none_iff P.overflowChecks z.rows
    have h2 := succU16_none_iff P.overflowChecks z.cols
    dsimp only at hs
    split at hs
    · next e1 e2 =>
      cases hs
      rw [e1] at h1; rw [e2] at h2
      constructor
      · intro h; cases h
      · rintro ⟨h, h' | h', -⟩
        · cases h1.mpr ⟨h, h'⟩
        · cases h2.mpr ⟨h, h'⟩
    · next hn =>
      cases hs
      refine ⟨fun _ => ?_, fun _ => rfl⟩
      cases e1 : succU16 P.overflowChecks z.rows with
      | none => exact ⟨(h1.mp e1).1, .inl (h1.mp e1).2, hk⟩
      | some a =>
        cases e2 : succU16 P.overflowChecks z.cols with
        | none => exact ⟨(h2.mp e2).1, .inr (h2.mp e2).2, hk⟩
        | some b => exact absurd e2 (hn a b e1)

/-- One step more. -/
theorem panic_step {P : Params} {s s' : St} {l : Label} (h : step P s l = some s') :
    s'.pc = .ended .panic ↔ s.pc = .ended .panic ∨ Offends P s l := by
  have hnew : ∀ id z ok cfg, l = .select (.connection (some (.new id z)) ok cfg) →
      (s'.pc = .ended .panic ↔ s.pc = .ended .panic ∨ Offends P s l) := by
    rintro id z ok cfg rfl
    simp only [step] at h
    split at h
    · next hpc => rw [panic_new P s s' id z ok cfg h, hpc]; simp [Offends]
    · cases h
  cases step_eff P s s' l h with
  | newFail => exact hnew _ _ _ _ rfl
  | newPanic => exact hnew _ _ _ _ rfl
  | newOk => exact hnew _ _ _ _ rfl
  | hidden n f hpc _ _ _ _ hf => simp [Offends, hpc, hf]
  | noClient n f v hpc _ _ _ _ hf hc => simp [Offends, hpc, hc]
  | motdPanic n f v c hpc _ _ _ _ hf hc hn hm => simp [Offends, hf, hc, hn, hm]
  | relay n f v c hpc _ _ _ _ hf hc hh hn => simp [Offends, hpc]; intro a b; exact absurd ⟨a, b⟩ hn
  | broken n f v c hpc _ _ _ _ hf hc hh hn => simp [Offends, hpc]; intro a b; exact absurd ⟨a, b⟩ hn
  | initClosed hpc | initNew _ _ hpc | initOther _ hpc | default hpc | connClosed _ _ hpc | discFail _ _ hpc | discOk _ _ hpc
  | dexitFail _ _ _ hpc | dexitOk _ _ _ hpc | sizeClosed _ hpc | size _ _ hpc | heartbeatNo hpc | heartbeatOk _ hpc | heartbeatErr _ hpc
  | switchSkip _ hpc | switchPipe _ _ hpc | switchErr _ _ hpc | switchOk _ _ hpc | settleLate _ hpc | settleDue _ _ _ hpc | pollErr hpc
  | timeout hpc | hangup _ hpc | readErr hpc => simp [Offends, hpc]
  | tick | write | close | exitKnown | breaks | setMotd => simp [Offends]

/-- C75, exactly: the thread of a session panics iff at some time it does one of these two things. -/
theorem C75_exact {P : Params} {ls : List Label} {s : St} (h : Run P ls s) :
    s.pc = .ended .panic ↔ ∃ pre l post t, ls = pre ++ l :: post ∧ Run P pre t ∧ Offends P t l := by
  have key : ∀ (ls : List Label) (s0 s : St), runSteps (step P) s0 ls = some s → (s.pc = .ended .panic ↔ s0.pc = .ended .panic ∨
      ∃ pre l post t, ls = pre ++ l :: post ∧ runSteps (step P) s0 pre = some t ∧ Offends P t l) := by
    intro ls
    induction ls with
    | nil => intro s0 s h; cases h; simp
    | cons l ls ih =>
      intro s0 s h
      obtain ⟨s1, h1, h2⟩ := run_cons_some h
      rw [ih s1 s h2, panic_step h1]
      constructor
      · rintro ((h | h) | ⟨pre, l', post, t, e, hp, ho⟩)
        · exact .inl h
        · exact .inr ⟨[], l, ls, s0, rfl, rfl, h⟩
        · exact .inr ⟨l :: pre, l', post, t, by rw [e]; rfl, by simp only [runSteps, h1]; exact hp, ho⟩
      · rintro (h | ⟨pre, l', post, t, e, hp, ho⟩)
        · exact .inl (.inl h)
        · cases pre with
          | nil => cases e; cases hp; exact .inl (.inr ho)
          | cons a pre =>
            cases e
            obtain ⟨u, e1, e2⟩ := run_cons_some hp
            rw [h1] at e1; cases e1
            exact .inr ⟨pre, l', post, t, rfl, e2, ho⟩
  have := key ls (init P) s h
  simpa [init, Run] using this

/-- The witnesses of `C75_false` and `C75_false_overflow` do one each. -/
example : ∃ t, Run { P0 with needsMotd := true, motd := .text [] }
    [.initial (some (.new 1 z0)), .select .default, .settle, .shellWrite [65], .setMotd .notDump] t ∧ Offends P0 t (.poll (.read 1)) :=
  ⟨_, rfl, rfl, rfl, (fun h => nomatch h), (by decide)⟩

example : ∃ t, Run { P0 with overflowChecks := true } [.initial (some (.new 1 z0))] t ∧
    Offends { P0 with overflowChecks := true } t (.select (.connection (some (.new 2 ⟨65535, 80, 0, 0⟩)) true 0)) :=
  ⟨_, rfl, rfl, .inl rfl, .inr rfl⟩

/-- The step with the configuration left out: no edit, and the restore engine sees none. -/
def withoutConfig : Label → Option Label
  | .setMotd _ => none
  | .select (.connection m ok _) => some (.select (.connection m ok 0))
  | .select (.sizeChange z _) => some (.select (.sizeChange z 0))
  | l => some l

def opWithoutConfig : SpoolOp → SpoolOp
  | .resize z _ => .resize z 0
  | o => o

/-- Everything but the contents of data frames and what the configuration is. -/
def blank (s : St) : St :=
  { s with motd := .fails, spool := s.spool.map opWithoutConfig, out := s.out.filter (fun p => p.2.kind ≠ .data) }

@[simp] theorem op_twice (o : SpoolOp) : opWithoutConfig (opWithoutConfig o) = opWithoutConfig o := by cases o <;> rfl

@[simp] theorem op_process (b : List UInt8) : opWithoutConfig (.process b) = .process b := rfl
@[simp] theorem op_resize (z : TtySize) (n : Nat) : opWithoutConfig (.resize z n) = .resize z 0 := rfl

theorem blank_send (s : St) (c : Conn) (f : Chunk) : blank (send s c f) = if f.kind = .data then blank s else send (blank s) c f := by
  unfold send blank
  by_cases h : c.health = .ok <;> by_cases hk : f.kind = .data <;> simp [h, hk]

theorem blank_restore (P : Params) (s : St) : blank (doRestore P s) = blank s := by
  have key : ∀ (c : Conn) (bs : List (List UInt8)) (s : St), blank (bs.foldl (fun s b => send s c ⟨.data, b⟩) s) = blank s := by
    intro c bs
    induction bs with
    | nil => intro s; rfl
    | cons b bs ih => intro s; rw [List.foldl_cons, ih, blank_send]; rfl
  unfold doRestore
  split
  · rfl
  · exact key _ _ _

theorem blank_dismiss (s : St) (st : UInt32) (ok : Bool) :
    blank (dismiss s st ok).1 = (dismiss (blank s) st ok).1 ∧ (dismiss s st ok).2 = (dismiss (blank s) st ok).2 := by
  cases h : s.client with
  | none => simp [dismiss, h, blank]
  | some c =>
    by_cases hc : c.health = .ok <;> simp [dismiss, blank, h, send, hc, exitFrame]

theorem blank_settle (P : Params) (s : St) (r : Bool) : blank (settleStep P s r) = blank (settleStep P (blank s) r) := by
  have hr : blank (doResize s) = doResize (blank s) := by
    unfold doResize
    cases h : s.resize with
    | none => simp [blank, h]
    | some zd =>
      obtain ⟨z, due⟩ := zd
      by_cases hd : due ≤ s.now <;> simp [blank, h, hd]
  have hb : ∀ s, blank (blank s) = blank s := by
    intro s
    simp only [blank, St.mk.injEq, List.map_map, List.filter_filter, Bool.and_self, and_true, true_and]
    congr 1
    funext o
    cases o <;> rfl
  unfold settleStep
  cases r with
  | false =>
    show blank { doResize s with pc := .poll } = blank { doResize (blank s) with pc := .poll }
    rw [← hr]
    exact (congrArg (fun u => { u with pc := PC.poll }) (hb (doResize s))).symm
  | true =>
    show { blank (doRestore P (doResize s)) with pc := .poll } = { blank (doRestore P (doResize (blank s))) with pc := .poll }
    rw [blank_restore, blank_restore, ← hr, hb]

theorem blank_read (s : St) (n : Nat) (hn : s.needsMotd = false) : (pollStep s (.read n)).map blank = (pollStep (blank s) (.read n)).map blank := by
  simp only [pollStep]
  by_cases hc : s.hup = false ∧ 0 < n ∧ n ≤ bufSize ∧ n ≤ s.pending.length
  · rw [if_pos hc, if_pos (show (blank s).hup = false ∧ 0 < n ∧ n ≤ bufSize ∧ n ≤ (blank s).pending.length from hc)]
    show (match s.filter.read (s.pending.take n) with
      | (f, none) => _
      | (f, some v) => _ : Option St).map blank = (match s.filter.read (s.pending.take n) with
      | (f, none) => _
      | (f, some v) => _ : Option St).map blank
    rcases hf : s.filter.read (s.pending.take n) with ⟨f, _ | v⟩
    · simp [blank]
    · cases h : s.client with
      | none => simp [blank, showStep, h]
      | some c =>
        cases hh : c.health <;> cases hpc : s.pc <;> simp [blank, showStep, motdStep, h, hn, hh, hpc, send]
  · rw [if_neg hc, if_neg (show ¬ ((blank s).hup = false ∧ 0 < n ∧ n ≤ bufSize ∧ n ≤ (blank s).pending.length) from hc)]

theorem blank_poll (s : St) (p : Poll) (hn : s.needsMotd = false) : (pollStep s p).map blank = (pollStep (blank s) p).map blank := by
  cases p with
  | error => simp [pollStep, finish, blank]
  | timeout =>
    by_cases h : s.pending = [] ∧ s.hup = false <;> simp [pollStep, blank, h]
  | hangup st =>
    by_cases h : s.hup = true ∧ (s.exited.isSome → st = s.exited)
    · have h' : (blank s).hup = true ∧ ((blank s).exited.isSome → st = (blank s).exited) := h
      simp only [pollStep]
      rw [if_pos h, if_pos h']
      cases hc : s.client with
      | none => cases st <;> simp [blank, hc, finish]
      | some c => cases st with
        | none => simp [blank, hc, finish]
        | some st => by_cases hh : c.health = .ok <;> simp [blank, hc, finish, send, hh]
    · have h' : ¬ ((blank s).hup = true ∧ ((blank s).exited.isSome → st = (blank s).exited)) := h
      simp only [pollStep]
      rw [if_neg h, if_neg h']
  | readError => by_cases h : s.hup = false <;> simp [pollStep, finish, blank, h]
  | read n => exact blank_read s n hn

theorem blank_blank (s : St) : blank (blank s) = blank s := by simp [blank]

theorem blank_initial (s : St) (m : Option Msg) : (initialStep s m).map blank = (initialStep (blank s) m).map blank := by
  cases m with
  | none => simp [initialStep, blank, finish]
  | some m =>
    cases m with
    | new id z => by_cases h : id ∈ s.used <;> simp [initialStep, blank, h]
    | disconnectExit st => simp [initialStep, blank]
    | disconnect => simp [initialStep, blank]

theorem blank_connection (P : Params) (s : St) (m : Option Msg) (ok : Bool) (cfg : Nat) :
    (connectionStep P s m ok cfg).map blank = (connectionStep P (blank s) m ok 0).map blank := by
  cases m with
  | none => simp [connectionStep, blank, finish]
  | some m =>
    cases m with
    | disconnectExit st =>
      cases h : s.client with
      | none => simp [connectionStep, dismiss, blank, h, finish]
      | some c => cases ok <;> by_cases hc : c.health = .ok <;> simp [connectionStep, dismiss, blank, h, hc, send, finish]
    | disconnect =>
      cases h : s.client with
      | none => simp [connectionStep, dismiss, blank, h, finish]
      | some c => cases ok <;> by_cases hc : c.health = .ok <;> simp [connectionStep, dismiss, blank, h, hc, send, finish]
    | new id z =>
      by_cases hu : id ∈ s.used
      · simp [connectionStep, blank, hu]
      · cases hr : succU16 P.overflowChecks z.rows <;> cases hk : succU16 P.overflowChecks z.cols <;> cases h : s.client <;>
          first
          | (simp [connectionStep, dismiss, blank, h, hu, hr, hk, finish]; done)
          | (next c => cases ok <;> by_cases hc : c.health = .ok <;>
              simp [connectionStep, dismiss, blank, h, hu, hr, hk, hc, send, finish])

theorem blank_step (P : Params) (s : St) (l l' : Label) (hn : s.needsMotd = false) (hl : withoutConfig l = some l') :
    (step P s l).map blank = (step P (blank s) l').map blank := by
  cases l with
  | initial m =>
    cases hl
    by_cases h : s.pc = .waitInitial
    · simp only [step]; rw [if_pos h, if_pos (show (blank s).pc = _ from h)]; exact blank_initial s m
    · simp only [step]; rw [if_neg h, if_neg (show ¬ (blank s).pc = _ from h)]
  | select sel =>
    by_cases h : s.pc = .select
    · have h' : (blank s).pc = .select := h
      cases sel with
      | default => cases hl; simp [step, h, h', blank]
      | connection m ok cfg => cases hl; simp only [step, h, h', if_true]; exact blank_connection P s m ok cfg
      | sizeChange z cfg => cases hl; cases z <;> simp [step, h, blank, sizeChangeStep, finish]
      | heartbeat =>
        cases hl
        cases hc : s.client with
        | none => simp [step, h, blank, heartbeatStep, hc]
        | some c => cases hh : c.health <;> simp [step, h, blank, heartbeatStep, hc, hh, send, finish]
      | maybeSwitch p =>
        cases hl
        cases p with
        | none => simp [step, h, blank, maybeSwitchStep]
        | some p => cases hc : s.client with
          | none => simp [step, h, blank, maybeSwitchStep, hc]
          | some c => cases hh : c.health <;> simp [step, h, blank, maybeSwitchStep, hc, hh, send, finish]
    · have h' : ¬ (blank s).pc = .select := h
      cases sel <;> cases hl <;> simp [step, h, h']
  | settle =>
    cases hl
    cases h : s.pc with
    | settle r => 
      have h' : (blank s).pc = .settle r := h
      simp only [step, h, h', Option.map_some, blank_settle P s r]
    | _ => 
      have h' : (blank s).pc = s.pc := rfl
      rw [h] at h'
      simp only [step, h, h']
  | poll p =>
    cases hl
    by_cases h : s.pc = .poll
    · simp only [step]; rw [if_pos h, if_pos (show (blank s).pc = _ from h)]; exact blank_poll s p hn
    · simp only [step]; rw [if_neg h, if_neg (show ¬ (blank s).pc = _ from h)]
  | tick ms => cases hl; simp [step, blank]
  | shellWrite b => cases hl; cases h : s.hup <;> simp [step, blank, h]
  | shellClose => cases hl; simp [step, blank]
  | exitKnown st => cases hl; cases h : s.exited <;> simp [step, blank, h]
  | breaks hh =>
    cases hl
    cases hc : s.client with
    | none => simp [step, blank, hc]
    | some c => by_cases h : c.health = .ok <;> simp [step, blank, hc, h]
  | setMotd m => cases hl

theorem withoutConfig_idem {l l' : Label} (h : withoutConfig l = some l') : withoutConfig l' = some l' := by
  cases l with
  | select sel => cases sel <;> cases h <;> rfl
  | setMotd => cases h
  | _ => cases h; rfl

/-- C75, the part that holds: in a session that does not dump the message of the day, whatever the configuration is changed to and whenever,
everything but the text of the restore snapshots is as if it had not been touched: the thread is at the same point or has ended in the same
way, the same client is attached, the same has been read, acknowledged and put into the history, the pty has the same size, and the frames
other than data are the same. -/
theorem C75_independent_partial (P : Params) (ls : List Label) (s : St) (hn : P.needsMotd = false) (h : Run P ls s) :
    ∃ t, Run P (ls.filterMap withoutConfig) t ∧ t.pc = s.pc ∧ t.client = s.client ∧ t.read = s.read ∧ t.pending = s.pending ∧ t.pty = s.pty ∧
      t.resize = s.resize ∧ t.acks = s.acks ∧ t.heartbeatAcks = s.heartbeatAcks ∧ processed t.spool = processed s.spool ∧
      t.out.filter (fun p => p.2.kind ≠ .data) = s.out.filter (fun p => p.2.kind ≠ .data) := by
  have hpc : ∀ ops : List SpoolOp, processed (ops.map opWithoutConfig) = processed ops := by
    intro ops
    induction ops with
    | nil => rfl
    | cons o ops ih =>
      have : ∀ (o : SpoolOp) os, processed (o :: os) = processed [o] ++ processed os := fun o os => processed_append [o] os
      rw [List.map_cons, this, ih, this o ops]
      cases o <;> rfl
  have key : s.needsMotd = false ∧ ∃ t, Run P (ls.filterMap withoutConfig) t ∧ t.needsMotd = false ∧ blank t = blank s := by
    refine run_hist (step := step P) (I := fun ls s => s.needsMotd = false ∧ ∃ t, Run P (ls.filterMap withoutConfig) t ∧ t.needsMotd = false ∧ blank t = blank s)
      ?_ ⟨hn, init P, rfl, hn, rfl⟩ h
    rintro ls s l s' ⟨hs, t, ht, htn, hb⟩ h
    have hs' : s'.needsMotd = false := by cases step_eff P s s' l h <;> first | exact hs | rfl
    refine ⟨hs', ?_⟩
    cases hl : withoutConfig l with
    | none =>
      have : blank s' = blank s := by
        cases l with
        | setMotd m => cases h; rfl
        | select sel => cases sel <;> cases hl
        | _ => cases hl
      exact ⟨t, by simpa [hl] using ht, htn, by rw [this, hb]⟩
    | some l' =>
      have e1 := blank_step P s l l' hs hl
      have e2 := blank_step P t l' l' htn (withoutConfig_idem hl)
      rw [hb, ← e1, h] at e2
      cases ht' : step P t l' with
      | none => rw [ht'] at e2; cases e2
      | some t' =>
        rw [ht'] at e2
        have htn' : t'.needsMotd = false := by cases step_eff P t t' l' ht' <;> first | exact htn | rfl
        refine ⟨t', ?_, htn', Option.some.inj e2⟩
        unfold Run at ht ⊢
        rw [List.filterMap_append, run_append, ht]
        simp [hl, runSteps, ht']
  obtain ⟨-, t, ht, -, hb⟩ := key
  have hf : ∀ {α : Type} (f : St → α), f (blank t) = f (blank s) := fun f => by rw [hb]
  refine ⟨t, ht, hf St.pc, hf St.client, hf St.read, hf St.pending, hf St.pty, hf St.resize, hf St.acks, hf St.heartbeatAcks, ?_, hf St.out⟩
  have := hf St.spool
  rw [← hpc t.spool, ← hpc s.spool]
  exact congrArg processed this

/-- The hypotheses of `C75_independent_partial`: the configuration is edited twice while clients come and go. -/
def edited : List Label :=
  [.initial (some (.new 1 z0)), .setMotd .notDump, .select .default, .settle, .shellWrite [104, 105], .poll (.read 2),
   .select (.connection (some (.new 2 z0)) true 7), .settle, .setMotd .fails, .shellWrite [33], .poll (.read 1)]

example : ∃ s, Run P0 edited s ∧ P0.needsMotd = false ∧ s.read = [104, 105, 33] ∧ s.acks = [.new, .replaced] ∧
    edited.filterMap withoutConfig ≠ edited :=
  ⟨_, rfl, rfl, by decide, by decide, by decide⟩

/-- Those of `C75_dump_partial`: the message is dumped, its text is changed. -/
example : ∃ s, Run { P0 with needsMotd := true, motd := .text [77] }
    [.initial (some (.new 1 z0)), .select .default, .settle, .setMotd (.text [78]), .shellWrite [36], .poll (.read 1)] s ∧
    dataTo s.out 1 = [78, 36] ∧ s.pc = .select :=
  ⟨_, rfl, by decide, by decide⟩

end Shpool.S2C
