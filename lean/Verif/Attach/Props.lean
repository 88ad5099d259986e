import Verif.Attach.Model
import Verif.Client.Props
/-!
# The attach process (C88, C90)
-/

namespace Shpool.Attach

open Shpool.Client Shpool.Template

/-! ## Specification: raw mode, bit by bit (termios(3), `cfmakeraw`) -/

/-- Only the given bits are cleared. -/
def ClearsExactly (bits : List Nat) (old new : BitVec 32) : Prop :=
  ∀ i, i < 32 → new.getLsbD i = (old.getLsbD i && !(i ∈ bits : Bool))

/-- `new` is `old` in raw mode: input flags IGNBRK, BRKINT, PARMRK, ISTRIP, INLCR, IGNCR, ICRNL and IXON off, output flag OPOST
off, local flags ISIG, ICANON, ECHO, ECHONL and IEXTEN off, eight bits per character without parity, and everything else as it
was. -/
structure IsRaw (old new : Termios) : Prop where
  input : ClearsExactly [0, 1, 3, 5, 6, 7, 8, 10] old.iflag new.iflag
  output : ClearsExactly [0] old.oflag new.oflag
  local_ : ClearsExactly [0, 1, 3, 6, 15] old.lflag new.lflag
  size : new.cflag.getLsbD 4 = true ∧ new.cflag.getLsbD 5 = true
  control : ∀ i, i < 32 → i ≠ 4 → i ≠ 5 → new.cflag.getLsbD i = (old.cflag.getLsbD i && i != 8)
  rest : new.rest = old.rest

/-! ## C88 -/

private theorem mask (bits : List Nat) (m : BitVec 32) (h : ∀ i : Fin 32, m.getLsbD i = (i.1 ∈ bits : Bool)) (old : BitVec 32) :
    ClearsExactly bits old (old &&& ~~~m) := by
  intro i hi
  have := h ⟨i, hi⟩
  simp only at this
  rw [BitVec.getLsbD_and, BitVec.getLsbD_not, this]
  simp [hi]

theorem raw_spec (old : Termios) : IsRaw old (rawOf old) := by
  refine ⟨mask _ _ (by decide) _, mask _ _ (by decide) _, mask _ _ (by decide) _, ?_, ?_, rfl⟩
  · have h4 : CS8.getLsbD 4 = true := by decide
    have h5 : CS8.getLsbD 5 = true := by decide
    simp only [rawOf, BitVec.getLsbD_or, h4, h5, Bool.or_true, and_self]
  · intro i hi h4 h5
    have h8 : ∀ i : Fin 32, i.1 ≠ 4 → i.1 ≠ 5 → CS8.getLsbD i = false ∧ (CSIZE ||| PARENB).getLsbD i = (i.1 == 8) := by decide
    obtain ⟨a, b⟩ := h8 ⟨i, hi⟩ h4 h5
    simp only at a b
    simp only [rawOf, BitVec.getLsbD_or, BitVec.getLsbD_and, BitVec.getLsbD_not, a, Bool.or_false]
    rw [BitVec.getLsbD_or] at b
    rw [b]
    simp [hi, bne]

/-- The full property: however the attach process ends, the terminal has the settings it had before (if nobody else changes them). -/
def C88_statement : Prop :=
  ∀ (o : Opts) (tm : Template) (term : Termios) (first : Option Vars) (rs : List Round),
    (∀ r ∈ rs, r.during = none) → (attachProc o tm term first rs).1 = term

private theorem pipe_restores (ttys : Ttys) (term : Termios) (during : Option Termios) (e : PipeEnd)
    (hk : e ≠ .killed) (hd : during = none ∨ (ttys.stdin && ttys.stdout && ttys.stderr) = true) :
    (pipeBytes ttys term during e).2.1 = term := by
  obtain ⟨a, b, c⟩ := ttys
  have hd' : during = none ∨ (a = true ∧ b = true ∧ c = true) := by simpa [and_assoc] using hd
  unfold pipeBytes setAttachFlags
  cases a <;> cases b <;> cases c <;> cases during <;>
    first
      | (simp at hd'; done)
      | (cases e with
         | cloneErr => simp [dropGuard]
         | result r => simp [dropGuard]
         | hardExit s => cases s with | none => simp [dropGuard] | some r => cases r <;> simp [dropGuard]
         | panicked => simp [dropGuard]
         | killed => exact absurd rfl hk)

/-- Whether the process's end was a signal is decided by the round it was in. -/
private theorem loop_restores (o : Opts) (tm : Template) : ∀ (rs : List Round) (term : Termios) (name : Str),
    (attachLoop o tm term name rs).2.2 ≠ .killed →
    ((∀ r ∈ rs, r.during = none) ∨ (o.ttys.stdin && o.ttys.stdout && o.ttys.stderr) = true) →
    (attachLoop o tm term name rs).1 = term := by
  intro rs
  induction rs with
  | nil => intro term name _ _; rfl
  | cons r rs ih =>
    intro term name hk hd
    have hr : r.during = none ∨ (o.ttys.stdin && o.ttys.stdout && o.ttys.stderr) = true := by
      rcases hd with h | h
      · exact .inl (h r (by simp))
      · exact .inr h
    have hrs : (∀ r ∈ rs, r.during = none) ∨ (o.ttys.stdin && o.ttys.stdout && o.ttys.stderr) = true := by
      rcases hd with h | h
      · exact .inl (fun x hx => h x (by simp [hx]))
      · exact .inr h
    simp only [attachLoop] at hk ⊢
    split
    case h_5 heq =>
      simp only [heq] at hk
      split
      · rfl
      · rename_i hb
        simp only [hb] at hk
        have hp : r.pipe ≠ .killed → (pipeBytes o.ttys term r.during r.pipe).2.1 = term :=
          fun h => pipe_restores _ _ _ _ h hr
        have hkill : r.pipe = .killed → (pipeBytes o.ttys term r.during r.pipe).2.2 = .killed := by
          intro h; rw [h]; rfl
        split
        · rename_i n heq2
          exact hp (fun h => by rw [hkill h] at heq2; cases heq2)
        · rename_i vs heq2
          simp only [heq2] at hk
          have e1 := hp (fun h => by rw [hkill h] at heq2; cases heq2)
          rw [e1] at hk ⊢
          exact ih _ _ hk hrs
        · rename_i heq2
          exact hp (fun h => by rw [hkill h] at heq2; cases heq2)
        · rename_i n heq2
          exact hp (fun h => by rw [hkill h] at heq2; cases heq2)
        · rename_i heq2
          simp [heq2] at hk
    all_goals rfl

/-- **C88 (part)**: however the attach ends by itself — exit of the shell, detach, loss of the daemon, any error, a panic, a stuck
thread, after any number of switches between sessions — the terminal has exactly the settings it had before, even if other
programs changed them while it was attached.  Missing: the end by a signal. -/
theorem C88_restored_partial (o : Opts) (tm : Template) (term : Termios) (first : Option Vars) (rs : List Round)
    (hk : (attachProc o tm term first rs).2.2 ≠ .killed)
    (ht : o.ttys.stdin = true ∧ o.ttys.stdout = true ∧ o.ttys.stderr = true) : (attachProc o tm term first rs).1 = term := by
  cases first with
  | none => rfl
  | some vs => exact loop_restores o tm rs term _ hk (.inr (by simp [ht]))

/-- **C88**: unless all three standard descriptors are terminals, the settings are never touched at all: only what others set
changes. -/
theorem C88_not_a_terminal (o : Opts) (tm : Template) (term : Termios) (first : Option Vars) (rs : List Round)
    (ht : ¬ (o.ttys.stdin = true ∧ o.ttys.stdout = true ∧ o.ttys.stderr = true)) (hd : ∀ r ∈ rs, r.during = none) :
    (attachProc o tm term first rs).1 = term ∧ ∀ ob ∈ (attachProc o tm term first rs).2.1, ob.term = term := by
  have hb : (!o.ttys.stdin || !o.ttys.stdout || !o.ttys.stderr) = true := by
    rcases o with ⟨_, _, a, b, c⟩; cases a <;> cases b <;> cases c <;> simp at ht ⊢
  have key : ∀ (rs : List Round), (∀ r ∈ rs, r.during = none) → ∀ name, (attachLoop o tm term name rs).1 = term ∧
      ∀ ob ∈ (attachLoop o tm term name rs).2.1, ob.term = term := by
    intro rs
    induction rs with
    | nil => intro _ name; simp [attachLoop]
    | cons r rs ih =>
      intro hd name
      have hp1 : (pipeBytes o.ttys term r.during r.pipe).1 = term ∧ (pipeBytes o.ttys term r.during r.pipe).2.1 = term := by
        rw [hd r (by simp)]
        unfold pipeBytes setAttachFlags
        simp only [hb, if_true, dropGuard, Option.getD_none]
        split <;> simp
      simp only [attachLoop]
      split
      case h_5 =>
        split
        · simp
        · split
          case h_2 =>
            obtain ⟨i1, i2⟩ := ih (fun x hx => hd x (by simp [hx])) (tm.apply ‹Vars›)
            rw [hp1.2]
            refine ⟨i1, fun ob hob => ?_⟩
            simp only [List.mem_cons] at hob
            rcases hob with rfl | hob
            · exact hp1.1
            · exact i2 ob hob
          all_goals
            refine ⟨hp1.2, fun ob hob => ?_⟩
            simp only [List.mem_singleton] at hob
            subst hob
            exact hp1.1
      all_goals simp
  cases first with
  | none => simp [attachProc]
  | some vs => exact key rs hd _

/-- **C88**: while attached, to whatever session and after however many switches, the terminal is in raw mode, with everything that
raw mode does not concern as the user had it. -/
theorem C88_raw (o : Opts) (tm : Template) (term : Termios) (first : Option Vars) (rs : List Round)
    (ht : o.ttys.stdin = true ∧ o.ttys.stdout = true ∧ o.ttys.stderr = true) :
    ∀ ob ∈ (attachProc o tm term first rs).2.1, IsRaw term ob.term := by
  have hset : ∀ d e, (pipeBytes o.ttys term d e).1 = rawOf term := by
    intro d e
    unfold pipeBytes setAttachFlags
    simp only [ht, Bool.not_true, Bool.or_false, Bool.false_eq_true, if_false]
    split <;> rfl
  have key : ∀ (rs : List Round) name, ∀ ob ∈ (attachLoop o tm term name rs).2.1, IsRaw term ob.term := by
    intro rs
    induction rs with
    | nil => intro name ob h; simp [attachLoop] at h
    | cons r rs ih =>
      intro name ob h
      simp only [attachLoop] at h
      split at h
      case h_5 =>
        split at h
        · simp at h
        · split at h
          case h_2 heq =>
            have e1 : (pipeBytes o.ttys term r.during r.pipe).2.1 = term := by
              refine pipe_restores _ _ _ _ (fun hk => ?_) (.inr (by simp [ht]))
              rw [hk] at heq
              simp [pipeBytes] at heq
            rw [e1] at h
            simp only [List.mem_cons] at h
            rcases h with rfl | h
            · show IsRaw term (pipeBytes o.ttys term r.during r.pipe).1
              rw [hset]; exact raw_spec term
            · exact ih _ ob h
          all_goals
            simp only [List.mem_singleton] at h
            subst h
            show IsRaw term (pipeBytes o.ttys term r.during r.pipe).1
            rw [hset]; exact raw_spec term
      all_goals simp at h
  cases first with
  | none => intro ob h; simp [attachProc] at h
  | some vs => exact key rs _

/-- A terminal in the usual state: ICRNL, IXON; OPOST; 8 bits; ISIG, ICANON, ECHO, IEXTEN. -/
def cooked : Termios := ⟨0x500#32, 0x1#32, 0xbf#32, 0x803b#32, 7⟩

def tmA : Template := ⟨"a".toList, [.raw "a".toList]⟩

private def killedRound : Round := ⟨[.client], true, true, none, .killed⟩

/-- **C88 (defect)**: a signal other than SIGWINCH (for instance SIGTERM or SIGHUP) ends the client without restoring: the terminal
stays raw and without echo. -/
theorem C88_false : ¬ C88_statement := by
  intro h
  exact absurd (h ⟨false, false, ⟨true, true, true⟩⟩ tmA cooked (some (fun _ => none)) [killedRound]
    (by intro r hr; simp only [List.mem_singleton] at hr; subst hr; rfl)) (by decide +kernel)

example : (attachProc ⟨false, false, ⟨true, true, true⟩⟩ tmA cooked (some (fun _ => none))
    [⟨[.client], true, true, some (disableEcho cooked), .result (.exit 3)⟩]).1 = cooked ∧
    (attachProc ⟨false, false, ⟨true, true, true⟩⟩ tmA cooked (some (fun _ => none))
      [⟨[.client], true, true, some (disableEcho cooked), .result (.exit 3)⟩]).2.2 = .exited 3 := by
  constructor <;> decide +kernel

/-- **C88**: with `noecho` the session's own terminal loses its echo and nothing else. -/
theorem C88_noecho (t : Termios) : ClearsExactly [3] t.lflag (disableEcho t).lflag ∧
    disableEcho t = { t with lflag := (disableEcho t).lflag } := ⟨mask _ _ (by decide) _, rfl⟩

/-! ## C90 -/

/-- The client was attached to a session: it got as far as piping, or it attached in the background. -/
def WasAttached (o : Opts) (rs : List Round) (out : Termios × List Obs × End) : Prop :=
  out.2.1 ≠ [] ∨ (o.background = true ∧ ∃ r ∈ rs, .client ∈ r.dials)

/-- The full property: the exit status is zero only if the client was attached to the session asked for. -/
def C90_statement : Prop := ∀ o tm term first rs, (attachProc o tm term first rs).2.2 = .exited 0 →
  WasAttached o rs (attachProc o tm term first rs)

/-- **C90 (defect)**: attaching to a session that has a client already prints a message and succeeds. -/
theorem C90_false : ¬ C90_statement := by
  intro h
  have := h ⟨false, false, ⟨true, true, true⟩⟩ tmA cooked (some (fun _ => none)) [⟨[.busy], true, true, none, .cloneErr⟩]
    (by decide +kernel)
  rcases this with h | ⟨h, _⟩
  · exact absurd h (by decide +kernel)
  · cases h

/-- **C90 (defect)**: so does attaching with an unacceptable name. -/
theorem C90_false_name (o : Opts) (tm : Template) (term : Termios) (vs : Vars) (rs : List Round) (r : Round)
    (hn : ¬ Env.GoodName (tm.apply vs)) : attachProc o tm term (some vs) (r :: rs) = (term, [], .exited 0) := by
  have : (attachResolved o.force r.detachOk (tm.apply vs) r.dials).2 = .reportedName := by
    unfold attachResolved
    rw [if_pos]
    cases hc : Env.clientRejects (tm.apply vs) with
    | none => exact absurd ((Env.clientAccepts_iff _).1 hc) hn
    | some _ => rfl
  simp [attachProc, attachLoop, this]

private theorem busyLoop_attached (force ok : Bool) (name : Str) : ∀ (ds : List DialAttach) (det : Bool) (tries : Nat),
    (busyLoop force ok name ds det tries).2 = .attached → .client ∈ ds := by
  intro ds
  induction ds with
  | nil => intro det tries h; simp [busyLoop] at h
  | cons d ds ih =>
    intro det tries h
    cases d with
    | client => simp
    | err => simp [busyLoop] at h
    | busy =>
      simp only [busyLoop] at h
      split at h
      · cases h
      · split at h
        · cases h
        · split at h
          · cases h
          · exact List.mem_cons_of_mem _ (ih _ _ h)

private theorem busyLoop_reports (force ok : Bool) (name : Str) : ∀ (ds : List DialAttach) (det : Bool) (tries : Nat),
    (busyLoop force ok name ds det tries).2 ≠ .reportedName ∧
    ((busyLoop force ok name ds det tries).2 = .reportedBusy → force = false) := by
  intro ds
  induction ds with
  | nil => intro det tries; simp [busyLoop]
  | cons d ds ih =>
    intro det tries
    cases d with
    | client => simp [busyLoop]
    | err => simp [busyLoop]
    | busy =>
      simp only [busyLoop]
      split
      · rename_i h; simpa using h
      · split
        · simp
        · split
          · simp
          · exact ih _ _

/-- **C90 (part)**: with `--force`, and a template that only gives acceptable names, the exit status is zero only if the client was
attached.  Missing: the two defects. -/
theorem C90_zero_partial (o : Opts) (tm : Template) (term : Termios) (first : Option Vars) (rs : List Round)
    (hf : o.force = true) (hg : ∀ vs, Env.GoodName (tm.apply vs)) (h0 : (attachProc o tm term first rs).2.2 = .exited 0) :
    WasAttached o rs (attachProc o tm term first rs) := by
  cases first with
  | none => cases h0
  | some vs =>
    simp only [attachProc] at h0 ⊢
    cases rs with
    | nil => cases h0
    | cons r rs =>
      have hn := (Env.clientAccepts_iff _).2 (hg vs)
      have e : attachResolved o.force r.detachOk (tm.apply vs) r.dials = busyLoop o.force r.detachOk (tm.apply vs) r.dials false 0 := by
        simp [attachResolved, hn]
      obtain ⟨b1, b2⟩ := busyLoop_reports o.force r.detachOk (tm.apply vs) r.dials false 0
      have b3 := busyLoop_attached o.force r.detachOk (tm.apply vs) r.dials false 0
      simp only [attachLoop, e] at h0 ⊢
      unfold WasAttached
      split
      case h_1 heq => exact absurd heq b1
      case h_2 heq => rw [b2 heq] at hf; cases hf
      case h_3 heq => simp [heq] at h0
      case h_4 heq => simp [heq] at h0
      case h_5 heq =>
        split
        · rename_i hb
          exact .inr ⟨hb, r, by simp, b3 heq⟩
        · left
          split <;> simp

/-- **C90**: the exit status of an attach in the foreground.  No daemon: 1.  An error, or a session that cannot be freed, or a
stuck thread before the shell's end is known: 1.  The
end of the piping with the shell's status: that status.  A switch: whatever the attach to the next session gives. -/
theorem C90_status (o : Opts) (tm : Template) (term : Termios) (name : Str) (r : Round) (rs : List Round) (hb : o.background = false) :
    (attachProc o tm term none (r :: rs)).2.2 = .exited 1 ∧
    ((attachResolved o.force r.detachOk name r.dials).2 = .failed → (attachLoop o tm term name (r :: rs)).2.2 = .exited 1) ∧
    ((attachResolved o.force r.detachOk name r.dials).2 = .attached →
      (∀ n, r.pipe = .result (.exit n) ∨ r.pipe = .hardExit (some (.exit n)) →
        (attachLoop o tm term name (r :: rs)).2.2 = .exited n) ∧
      (r.pipe = .cloneErr ∨ r.pipe = .hardExit none ∨ (∃ vs, r.pipe = .hardExit (some (.switch vs))) →
        (attachLoop o tm term name (r :: rs)).2.2 = .exited 1) ∧
      (r.pipe = .panicked → (attachLoop o tm term name (r :: rs)).2.2 = .exited 101) ∧
      (∀ vs, r.pipe = .result (.switch vs) → ∃ term', (attachLoop o tm term name (r :: rs)).2.2 =
        (attachLoop o tm term' (tm.apply vs) rs).2.2)) := by
  refine ⟨rfl, fun h => ?_, fun h => ⟨fun n hp => ?_, fun hp => ?_, fun hp => ?_, fun vs hp => ?_⟩⟩
  · simp [attachLoop, h]
  · rcases hp with hp | hp <;> simp [attachLoop, h, hb, hp, pipeBytes]
  · rcases hp with hp | hp | ⟨vs, hp⟩ <;> simp [attachLoop, h, hb, hp, pipeBytes]
  · simp [attachLoop, h, hb, hp, pipeBytes]
  · simp only [attachLoop, h, hb, hp]
    exact ⟨_, rfl⟩

/-- **C90**: in the background the status says whether the dialogue worked, once the session was attached to. -/
theorem C90_background (o : Opts) (tm : Template) (term : Termios) (name : Str) (r : Round) (rs : List Round) (hb : o.background = true)
    (h : (attachResolved o.force r.detachOk name r.dials).2 = .attached) :
    attachLoop o tm term name (r :: rs) = (term, [], .exited (if r.bgOk then 0 else 1)) := by
  simp [attachLoop, h, hb]

example : (attachProc ⟨true, false, ⟨true, true, true⟩⟩ tmA cooked (some (fun _ => none))
    [⟨[.busy, .client], true, true, none, .result (.switch (fun _ => none))⟩, ⟨[.client], true, true, none, .result (.exit 7)⟩]).2 =
    ([⟨"a".toList, rawOf cooked⟩, ⟨"a".toList, rawOf cooked⟩], .exited 7) := by decide +kernel
example : ∀ vs, Env.GoodName (tmA.apply vs) := fun _ =>
  (Env.daemonAccepts_iff "a".toList).mp (by decide)

end Shpool.Attach
