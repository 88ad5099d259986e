import Verif.S2C.Lemmas
import Verif.S2C.Spec
/-!
# Invariants of the shell-to-client thread
-/

namespace Shpool.S2C
open Chunk (Chunk Kind)

/-! ### Frames -/

/-- `toClient` as a function of the client alone. -/
def toC (cl : Option Conn) (f : Chunk) : List (Nat × Chunk) :=
  match cl with
  | some c => if c.health = .ok then [(c.id, f)] else []
  | none => []

theorem toClient_toC (s : St) (f : Chunk) : toClient s f = toC s.client f := rfl

theorem framesTo_append (a b : List (Nat × Chunk)) (id : Nat) : framesTo (a ++ b) id = framesTo a id ++ framesTo b id := by
  simp [framesTo]

theorem dataTo_append (a b : List (Nat × Chunk)) (id : Nat) : dataTo (a ++ b) id = dataTo a id ++ dataTo b id := by
  simp [dataTo, framesTo_append]

theorem processed_append (a b : List SpoolOp) : processed (a ++ b) = processed a ++ processed b := by simp [processed]

theorem framesTo_toC (cl : Option Conn) (f : Chunk) (id : Nat) :
    framesTo (toC cl f) id = match cl with
      | some c => if c.health = .ok ∧ c.id = id then [f] else []
      | none => [] := by
  cases cl with
  | none => rfl
  | some c =>
    unfold toC framesTo
    by_cases h1 : c.health = .ok <;> by_cases h2 : c.id = id <;> simp [h1, h2]

/-- Exit frames come last. -/
def ExitLast (fs : List Chunk) : Prop := ∀ pre f post, fs = pre ++ f :: post → f.kind = .exitStatus → post = []

theorem exitLast_snoc {fs : List Chunk} (h : ∀ f ∈ fs, f.kind ≠ .exitStatus) (g : Chunk) : ExitLast (fs ++ [g]) := by
  intro pre f post he hk
  rcases List.eq_nil_or_concat post with rfl | ⟨q, x, rfl⟩
  · rfl
  · exfalso
    rw [List.concat_eq_append, show pre ++ f :: (q ++ [x]) = (pre ++ f :: q) ++ [x] by simp] at he
    have := (List.append_inj' he rfl).1
    exact h f (by rw [this]; simp) hk

theorem exitLast_none {fs : List Chunk} (h : ∀ f ∈ fs, f.kind ≠ .exitStatus) : ExitLast fs := by
  intro pre f post he hk
  exact absurd hk (h f (by rw [he]; simp))

/-- The invariant behind C21. -/
structure J (out : List (Nat × Chunk)) (cl : Option Conn) (used : List Nat) : Prop where
  mem : ∀ p ∈ out, p.1 ∈ used
  client : ∀ c, cl = some c → c.id ∈ used ∧ ∀ f ∈ framesTo out c.id, f.kind ≠ .exitStatus
  last : ∀ id, ExitLast (framesTo out id)

theorem mem_toC {cl : Option Conn} {f : Chunk} {p : Nat × Chunk} (h : p ∈ toC cl f) : ∃ c, cl = some c ∧ p = (c.id, f) := by
  cases cl with
  | none => cases h
  | some c =>
    unfold toC at h
    dsimp only at h
    split at h
    · simp only [List.mem_singleton] at h; exact ⟨c, rfl, h⟩
    · cases h

theorem J.append {out cl used f} (h : J out cl used) (id : Nat) : ExitLast (framesTo (out ++ toC cl f) id) := by
  rw [framesTo_append, framesTo_toC]
  cases cl with
  | none => simpa using h.last id
  | some c =>
    dsimp only
    split
    · next hc => obtain ⟨-, rfl⟩ := hc; exact exitLast_snoc (h.client c rfl).2 f
    · simpa using h.last id

theorem J.usedAppend {out cl used f} (h : J out cl used) : ∀ p ∈ out ++ toC cl f, p.1 ∈ used := by
  intro p hp
  rcases List.mem_append.mp hp with hp | hp
  · exact h.mem p hp
  · obtain ⟨c, hc, rfl⟩ := mem_toC hp
    exact (h.client c hc).1

theorem J.exit {out cl used} (h : J out cl used) (f : Chunk) : J (out ++ toC cl f) none used :=
  ⟨h.usedAppend, (fun c hc => by cases hc), h.append⟩

theorem J.more {out cl used} (h : J out cl used) (f : Chunk) (hf : f.kind ≠ .exitStatus) : J (out ++ toC cl f) cl used := by
  refine ⟨h.usedAppend, fun c hc => ⟨(h.client c hc).1, ?_⟩, h.append⟩
  subst hc
  rw [framesTo_append, framesTo_toC]
  intro g hg
  rcases List.mem_append.mp hg with hg | hg
  · exact (h.client c rfl).2 g hg
  · dsimp only at hg
    split at hg
    · simp only [List.mem_singleton] at hg; subst hg; exact hf
    · cases hg

theorem J.drop {out cl used} (h : J out cl used) : J out none used := ⟨h.mem, (fun c hc => by cases hc), h.last⟩

theorem J.grow {out used} (h : J out none used) (id : Nat) : J out none (used ++ [id]) :=
  ⟨fun p hp => List.mem_append_left _ (h.mem p hp), (fun c hc => by cases hc), h.last⟩

theorem J.fresh {out cl used} (h : J out cl used) (c : Conn) (hid : c.id ∉ used) : J out (some c) (used ++ [c.id]) := by
  refine ⟨fun p hp => List.mem_append_left _ (h.mem p hp), ?_, h.last⟩
  intro c' hc
  cases hc
  refine ⟨by simp, ?_⟩
  intro f hf
  exfalso
  unfold framesTo at hf
  obtain ⟨p, hp, -⟩ := List.mem_map.mp hf
  obtain ⟨hp1, hp2⟩ := List.mem_filter.mp hp
  have := h.mem p hp1
  simp only [decide_eq_true_eq] at hp2
  rw [hp2] at this
  exact hid this

theorem J.sameId {out used} {c c' : Conn} (h : J out (some c) used) (hid : c'.id = c.id) : J out (some c') used := by
  refine ⟨h.mem, ?_, h.last⟩
  intro d hd
  cases hd
  rw [hid]
  exact h.client c rfl

theorem J.blocks {out cl used} (h : J out cl used) (bs : List (List UInt8)) :
    J (out ++ bs.flatMap (fun b => toC cl ⟨.data, b⟩)) cl used := by
  induction bs generalizing out with
  | nil => simpa using h
  | cons b bs ih =>
    rw [List.flatMap_cons, ← List.append_assoc]
    exact ih (h.more _ (by simp))

theorem step_J (P : Params) (s s' : St) (l : Label) (hJ : J s.out s.client s.used) (h : step P s l = some s') :
    J s'.out s'.client s'.used := by
  cases step_eff P s s' l h with
  | initNew id z _ hid => exact hJ.fresh ⟨id, z, .ok⟩ hid
  | initOther => exact hJ.drop
  | newFail => exact hJ.exit _
  | newPanic => exact (hJ.exit _).grow _
  | newOk id z ok cfg _ hid => exact (hJ.exit _).fresh ⟨id, z, .ok⟩ hid
  | discFail => exact hJ.exit _
  | discOk => exact hJ.exit _
  | dexitFail => exact hJ.exit _
  | dexitOk => exact hJ.exit _
  | heartbeatOk => exact hJ.more _ (by simp)
  | switchOk => exact hJ.more _ (by simp)
  | settleLate r =>
    cases r
    · simpa using hJ
    · exact hJ.blocks _
  | settleDue r =>
    cases r
    · simpa using hJ
    · exact hJ.blocks _
  | hangup st =>
    cases st
    · simpa using hJ.drop
    · exact hJ.exit _
  | relay n f v c _ _ _ _ _ _ hc =>
    dsimp only
    rw [← List.append_assoc]
    refine J.more ?_ _ (by simp)
    unfold motdOut
    split
    · exact hJ.more _ (by simp)
    · simpa using hJ
  | broken => exact hJ.drop
  | initClosed => exact hJ.drop
  | connClosed => exact hJ.drop
  | sizeClosed => exact hJ.drop
  | heartbeatErr => exact hJ.drop
  | switchErr => exact hJ.drop
  | pollErr => exact hJ.drop
  | readErr => exact hJ.drop
  | motdPanic => exact hJ.drop
  | breaks hh c hc => rw [hc] at hJ; exact hJ.sameId rfl
  | _ => exact hJ

theorem run_J {P : Params} {ls : List Label} {s : St} (h : Run P ls s) : J s.out s.client s.used :=
  run_inv (I := fun s => J s.out s.client s.used) (fun s l s' => step_J P s s' l)
    ⟨(fun p hp => by cases hp), (fun c hc => by cases hc), (fun id => exitLast_none (fun f hf => by cases hf))⟩ h

/-! ### Output and the restore engine -/

theorem step_written (P : Params) (ls : List Label) (s : St) (l : Label) (s' : St)
    (hI : written ls = s.read ++ s.pending) (h : step P s l = some s') : written (ls ++ [l]) = s'.read ++ s'.pending := by
  have happ : written (ls ++ [l]) = written ls ++ written [l] := by simp [written]
  rw [happ, hI]
  cases step_eff P s s' l h with
  | hidden n => simp [written]
  | noClient n => simp [written]
  | motdPanic n => simp [written]
  | relay n => simp [written]
  | broken n => simp [written]
  | write b => simp [written]
  | _ => simp [written]

theorem run_written {P : Params} {ls : List Label} {s : St} (h : Run P ls s) : written ls = s.read ++ s.pending :=
  run_hist (I := fun ls s => written ls = s.read ++ s.pending) (step_written P) rfl h

/-- The filter's state and the text shown, as a function of the bytes read. -/
def FilterInv (P : Params) (s : St) : Prop :=
  if P.supportsSentinels then
    Sentinel.FilterAt Sentinel.promptSentinel s.filter s.read ∧
      processed s.spool = (Sentinel.shown Sentinel.promptSentinel 0 s.read).getD []
  else s.filter.seen = true ∧ processed s.spool = s.read

theorem filterInv_step {P : Params} {s : St} {buf : List UInt8} {f : Sentinel.Filter} {v : Option (List UInt8)}
    (hI : FilterInv P s) (hf : s.filter.read buf = (f, v)) :
    if P.supportsSentinels then
      Sentinel.FilterAt Sentinel.promptSentinel f (s.read ++ buf) ∧
        processed s.spool ++ v.getD [] = (Sentinel.shown Sentinel.promptSentinel 0 (s.read ++ buf)).getD []
    else f.seen = true ∧ processed s.spool ++ v.getD [] = s.read ++ buf := by
  unfold FilterInv at hI
  split
  · next hs =>
    rw [if_pos hs] at hI
    obtain ⟨h1, h2, -⟩ := Sentinel.read_filterAt Sentinel.promptSentinel (by decide) _ _ buf hI.1
    rw [hf] at h1 h2
    exact ⟨h1, by rw [hI.2, h2]⟩
  · next hs =>
    rw [if_neg hs] at hI
    unfold Sentinel.Filter.read at hf
    rw [hI.1] at hf
    cases hf
    exact ⟨hI.1, by rw [hI.2]; rfl⟩

theorem step_filterInv (P : Params) (s s' : St) (l : Label) (hI : FilterInv P s) (h : step P s l = some s') :
    FilterInv P s' := by
  cases step_eff P s s' l h with
  | hidden n f _ _ _ _ _ hf => have := filterInv_step hI hf; simpa [FilterInv] using this
  | noClient n f v _ _ _ _ _ hf => have := filterInv_step hI hf; simpa [FilterInv, processed_append, processed] using this
  | motdPanic n f v _ _ _ _ _ _ hf => have := filterInv_step hI hf; simpa [FilterInv, processed_append, processed] using this
  | relay n f v _ _ _ _ _ _ hf => have := filterInv_step hI hf; simpa [FilterInv, processed_append, processed] using this
  | broken n f v _ _ _ _ _ _ hf => have := filterInv_step hI hf; simpa [FilterInv, processed_append, processed] using this
  | newPanic => unfold FilterInv at hI ⊢; simpa [processed_append, processed] using hI
  | newOk => unfold FilterInv at hI ⊢; simpa [processed_append, processed] using hI
  | size => unfold FilterInv at hI ⊢; simpa [processed_append, processed] using hI
  | _ => exact hI

theorem run_filterInv {P : Params} {ls : List Label} {s : St} (h : Run P ls s) : FilterInv P s := by
  refine run_inv (I := FilterInv P) (fun s l s' => step_filterInv P s s' l) ?_ h
  unfold FilterInv
  split
  · next hs =>
    refine ⟨?_, rfl⟩
    show Sentinel.FilterAt _ (Sentinel.Filter.new P.supportsSentinels _) []
    rw [hs]
    exact Sentinel.filterAt_new _
  · next hs =>
    refine ⟨?_, rfl⟩
    show (!P.supportsSentinels) = true
    simpa using hs

/-! ### Size -/

/-- The pending resize is the last request; if none is pending the pty has that size. -/
def SizeInv (ls : List Label) (s : St) : Prop :=
  Running s → match s.resize with
    | some (z, due) => lastRequested ls = some z ∧ due ≤ s.now + reattachResizeDelay
    | none => ∀ z, lastRequested ls = some z → s.pty = z

theorem lastRequested_none {ls : List Label} {l : Label} (h : request l = none) : lastRequested (ls ++ [l]) = lastRequested ls := by
  simp [lastRequested, List.filterMap_append, h]

theorem lastRequested_some {ls : List Label} {l : Label} {z : TtySize} (h : request l = some z) :
    lastRequested (ls ++ [l]) = some z := by
  simp [lastRequested, List.filterMap_append, h]

theorem sizeInv_keep {ls : List Label} {s s' : St} {l : Label} (hI : SizeInv ls s) (hl : request l = none)
    (hr : Running s' → Running s) (h1 : s'.resize = s.resize) (h2 : s'.pty = s.pty) (h3 : s.now ≤ s'.now) :
    SizeInv (ls ++ [l]) s' := by
  intro hrun
  have := hI (hr hrun)
  rw [lastRequested_none hl, h1]
  cases hz : s.resize with
  | none => rw [hz] at this; dsimp only at this ⊢; rw [h2]; exact this
  | some zd =>
    rw [hz] at this
    dsimp only at this ⊢
    exact ⟨this.1, by omega⟩

theorem running_of_pc {s : St} {p : PC} (h : s.pc = p) (hp : ∀ e, p ≠ .ended e) : Running s := fun e he => hp e (h ▸ he)

theorem step_sizeInv (P : Params) (ls : List Label) (s : St) (l : Label) (s' : St) (hI : SizeInv ls s)
    (h : step P s l = some s') : SizeInv (ls ++ [l]) s' := by
  cases step_eff P s s' l h with
  | initClosed => exact fun hr => absurd rfl (hr .err)
  | connClosed => exact fun hr => absurd rfl (hr .ok)
  | newFail => exact fun hr => absurd rfl (hr .err)
  | newPanic => exact fun hr => absurd rfl (hr .panic)
  | discFail => exact fun hr => absurd rfl (hr .err)
  | dexitFail => exact fun hr => absurd rfl (hr .err)
  | dexitOk => exact fun hr => absurd rfl (hr .ok)
  | sizeClosed => exact fun hr => absurd rfl (hr .ok)
  | heartbeatErr => exact fun hr => absurd rfl (hr .err)
  | switchErr => exact fun hr => absurd rfl (hr .err)
  | pollErr => exact fun hr => absurd rfl (hr .err)
  | readErr => exact fun hr => absurd rfl (hr .err)
  | hangup => exact fun hr => absurd rfl (hr .ok)
  | motdPanic => exact fun hr => absurd rfl (hr .panic)
  | initNew id z => exact fun _ => ⟨lastRequested_some rfl, by dsimp only; omega⟩
  | newOk id z => exact fun _ => ⟨lastRequested_some rfl, by dsimp only; omega⟩
  | size z => exact fun _ => ⟨lastRequested_some rfl, by dsimp only; omega⟩
  | initOther m hpc hm =>
    refine sizeInv_keep hI ?_ (fun _ => running_of_pc hpc (by simp)) rfl rfl (Nat.le_refl _)
    cases m with
    | new id z => exact absurd rfl (hm id z)
    | _ => rfl
  | settleDue r z due hpc hz hd =>
    intro _
    dsimp only
    rw [lastRequested_none rfl]
    have := hI (running_of_pc hpc (by simp))
    rw [hz] at this
    dsimp only at this
    intro z' hz'
    rw [this.1] at hz'
    exact Option.some.inj hz'
  | settleLate r hpc => exact sizeInv_keep hI rfl (fun _ => running_of_pc hpc (by simp)) rfl rfl (Nat.le_refl _)
  | default hpc => exact sizeInv_keep hI rfl (fun _ => running_of_pc hpc (by simp)) rfl rfl (Nat.le_refl _)
  | discOk _ _ hpc => exact sizeInv_keep hI rfl (fun _ => running_of_pc hpc (by simp)) rfl rfl (Nat.le_refl _)
  | heartbeatNo hpc => exact sizeInv_keep hI rfl (fun _ => running_of_pc hpc (by simp)) rfl rfl (Nat.le_refl _)
  | heartbeatOk _ hpc => exact sizeInv_keep hI rfl (fun _ => running_of_pc hpc (by simp)) rfl rfl (Nat.le_refl _)
  | switchSkip _ hpc => exact sizeInv_keep hI rfl (fun _ => running_of_pc hpc (by simp)) rfl rfl (Nat.le_refl _)
  | switchPipe _ _ hpc => exact sizeInv_keep hI rfl (fun _ => running_of_pc hpc (by simp)) rfl rfl (Nat.le_refl _)
  | switchOk _ _ hpc => exact sizeInv_keep hI rfl (fun _ => running_of_pc hpc (by simp)) rfl rfl (Nat.le_refl _)
  | timeout hpc => exact sizeInv_keep hI rfl (fun _ => running_of_pc hpc (by simp)) rfl rfl (Nat.le_refl _)
  | hidden _ _ hpc => exact sizeInv_keep hI rfl (fun _ => running_of_pc hpc (by simp)) rfl rfl (Nat.le_refl _)
  | noClient _ _ _ hpc => exact sizeInv_keep hI rfl (fun _ => running_of_pc hpc (by simp)) rfl rfl (Nat.le_refl _)
  | relay _ _ _ _ hpc => exact sizeInv_keep hI rfl (fun _ => running_of_pc hpc (by simp)) rfl rfl (Nat.le_refl _)
  | broken _ _ _ _ hpc => exact sizeInv_keep hI rfl (fun _ => running_of_pc hpc (by simp)) rfl rfl (Nat.le_refl _)
  | tick ms => exact sizeInv_keep hI rfl (fun h => h) rfl rfl (Nat.le_add_right _ _)
  | write => exact sizeInv_keep hI rfl (fun h => h) rfl rfl (Nat.le_refl _)
  | close => exact sizeInv_keep hI rfl (fun h => h) rfl rfl (Nat.le_refl _)
  | exitKnown => exact sizeInv_keep hI rfl (fun h => h) rfl rfl (Nat.le_refl _)
  | breaks => exact sizeInv_keep hI rfl (fun h => h) rfl rfl (Nat.le_refl _)
  | setMotd => exact sizeInv_keep hI rfl (fun h => h) rfl rfl (Nat.le_refl _)

theorem run_sizeInv {P : Params} {ls : List Label} {s : St} (h : Run P ls s) : SizeInv ls s := by
  refine run_hist (I := SizeInv) (step_sizeInv P) ?_ h
  intro _ z hz
  cases hz

/-! ### Relay -/

theorem dataTo_toC (cl : Option Conn) (f : Chunk) (id : Nat) :
    dataTo (toC cl f) id = match cl with
      | some c => if c.health = .ok ∧ c.id = id then Data f else []
      | none => [] := by
  unfold dataTo
  rw [framesTo_toC]
  cases cl with
  | none => rfl
  | some c => dsimp only; split <;> simp

/-- Relation between a state `s0` in which connection `id` is attached and settled, and a later state `s` in which it is
still attached and working, after the labels `ls`. -/
structure Relay (s0 : St) (id : Nat) (ls : List Label) (s : St) : Prop where
  mem : id ∈ s.used
  motd : s.motd = s0.motd ∨ .setMotd s.motd ∈ ls
  rel : ∀ c, s.client = some c → c.id = id → c.health = .ok → s.pc ≠ .settle true ∧ s.pc ≠ .waitInitial ∧
    ∃ ops m, s.spool = s0.spool ++ ops ∧ dataTo s.out id = dataTo s0.out id ++ m ++ processed ops ∧
      (s0.needsMotd = false → s.needsMotd = false ∧ m = []) ∧
      (s0.needsMotd = true → s.needsMotd = true → m = [] ∧ processed ops = []) ∧
      (s0.needsMotd = true → s.needsMotd = false →
        ∃ mo, (mo = s0.motd ∨ .setMotd mo ∈ ls) ∧ mo ≠ .notDump ∧ m = motdText mo)

/-- A step that changes nothing relevant. -/
theorem Relay.keep {s0 id ls s s' l} (h : Relay s0 id ls s) (h1 : s'.used = s.used) (h2 : s'.motd = s.motd)
    (hc : ∀ c, s'.client = some c → c.id = id → c.health = .ok → s.client = some c)
    (hpc : s'.client.isSome → s'.pc ≠ .settle true ∧ s'.pc ≠ .waitInitial)
    (hs : ∃ ops, s'.spool = s.spool ++ ops ∧ processed ops = []) (ho : dataTo s'.out id = dataTo s.out id)
    (hm : s'.needsMotd = s.needsMotd) : Relay s0 id (ls ++ [l]) s' := by
  refine ⟨h1 ▸ h.mem, ?_, ?_⟩
  · rw [h2]
    rcases h.motd with h | h
    · exact .inl h
    · exact .inr (List.mem_append_left _ h)
  · intro c h3 h4 h5
    obtain ⟨-, -, ops, m, e1, e2, e3, e4, e5⟩ := h.rel c (hc c h3 h4 h5) h4 h5
    obtain ⟨hp1, hp2⟩ := hpc (by rw [h3]; rfl)
    obtain ⟨ops', e6, e7⟩ := hs
    refine ⟨hp1, hp2, ops ++ ops', m, by rw [e6, e1, List.append_assoc], ?_, ?_, ?_, ?_⟩
    · rw [ho, e2, processed_append, e7, List.append_nil]
    · rw [hm]; exact e3
    · rw [hm, processed_append, e7, List.append_nil]; exact e4
    · rw [hm]
      intro h6 h7
      obtain ⟨mo, h8, h9⟩ := e5 h6 h7
      exact ⟨mo, h8.imp_right (List.mem_append_left _), h9⟩

/-- A step of the environment that leaves the message of the day alone. -/
theorem Relay.env {s0 id ls s s' l} (h : Relay s0 id ls s) (h1 : s'.used = s.used) (h2 : s'.motd = s.motd)
    (hc : ∀ c', s'.client = some c' → ∃ c, s.client = some c ∧ c.id = c'.id ∧ (c'.health = .ok → c.health = .ok))
    (hpc : s'.pc = s.pc) (hs : s'.spool = s.spool) (ho : s'.out = s.out) (hm : s'.needsMotd = s.needsMotd) :
    Relay s0 id (ls ++ [l]) s' := by
  refine ⟨h1 ▸ h.mem, ?_, ?_⟩
  · rw [h2]
    exact h.motd.imp_right (List.mem_append_left _)
  · intro c h3 h4 h5
    obtain ⟨c0, hc0, hi, hk⟩ := hc c h3
    obtain ⟨p1, p2, ops, m, e1, e2, e3, e4, e5⟩ := h.rel c0 hc0 (hi.trans h4) (hk h5)
    rw [hpc, hs, ho, hm]
    refine ⟨p1, p2, ops, m, e1, e2, e3, e4, ?_⟩
    intro h6 h7
    obtain ⟨mo, h8, h9⟩ := e5 h6 h7
    exact ⟨mo, h8.imp_right (List.mem_append_left _), h9⟩

/-- A step after which the connection is gone. -/
theorem Relay.gone {s0 id ls s s' l} (h : Relay s0 id ls s) (h1 : id ∈ s'.used) (h2 : s'.motd = s.motd)
    (hc : ∀ c, s'.client = some c → c.id = id → c.health ≠ .ok) : Relay s0 id (ls ++ [l]) s' := by
  refine ⟨h1, ?_, fun c h3 h4 h5 => absurd h5 (hc c h3 h4)⟩
  rw [h2]
  exact h.motd.imp_right (List.mem_append_left _)

theorem noData {s : St} {f : Chunk} {id : Nat} (hf : f.kind ≠ .data) : dataTo (s.out ++ toClient s f) id = dataTo s.out id := by
  rw [dataTo_append, toClient_toC, dataTo_toC]
  have : Data f = [] := by simp [Data, hf]
  cases s.client with
  | none => simp
  | some c => simp [this]

theorem step_relay (P : Params) (s0 : St) (id : Nat) (ls : List Label) (s : St) (l : Label) (s' : St)
    (hI : Relay s0 id ls s) (h : step P s l = some s') : Relay s0 id (ls ++ [l]) s' := by
  cases step_eff P s s' l h with
  | initClosed => exact hI.gone hI.mem rfl (fun c hc => by cases hc)
  | initNew i z hpc hid =>
    refine hI.gone (List.mem_append_left _ hI.mem) rfl (fun c hc hi => ?_)
    cases hc
    subst hi; exact absurd hI.mem hid
  | initOther => exact hI.gone hI.mem rfl (fun c hc => by cases hc)
  | default => exact hI.keep rfl rfl (fun _ h _ _ => h) (fun _ => by simp) ⟨[], by simp [processed]⟩ rfl rfl
  | connClosed => exact hI.gone hI.mem rfl (fun c hc => by cases hc)
  | newFail => exact hI.gone hI.mem rfl (fun c hc => by cases hc)
  | newPanic => exact hI.gone (List.mem_append_left _ hI.mem) rfl (fun c hc => by cases hc)
  | newOk i z ok cfg hpc hid =>
    refine hI.gone (List.mem_append_left _ hI.mem) rfl (fun c hc hi => ?_)
    cases hc
    subst hi; exact absurd hI.mem hid
  | discFail => exact hI.gone hI.mem rfl (fun c hc => by cases hc)
  | discOk => exact hI.gone hI.mem rfl (fun c hc => by cases hc)
  | dexitFail => exact hI.gone hI.mem rfl (fun c hc => by cases hc)
  | dexitOk => exact hI.gone hI.mem rfl (fun c hc => by cases hc)
  | hangup => exact hI.gone hI.mem rfl (fun c hc => by cases hc)
  | broken => exact hI.gone hI.mem rfl (fun c hc => by cases hc)
  | sizeClosed => exact hI.gone hI.mem rfl (fun c hc => by cases hc)
  | size z cfg => exact hI.keep rfl rfl (fun _ h _ _ => h) (fun _ => by simp) ⟨[.resize z cfg], by simp [processed]⟩ rfl rfl
  | heartbeatNo => exact hI.keep rfl rfl (fun _ h _ _ => h) (fun _ => by simp) ⟨[], by simp [processed]⟩ rfl rfl
  | heartbeatOk =>
    exact hI.keep rfl rfl (fun _ h _ _ => h) (fun _ => by simp) ⟨[], by simp [processed]⟩ (noData (by simp)) rfl
  | heartbeatErr => exact hI.gone hI.mem rfl (fun c hc => by cases hc)
  | switchSkip p hpc =>
    exact hI.keep rfl rfl (fun _ h _ _ => h) (fun _ => by rw [hpc]; simp) ⟨[], by simp [processed]⟩ rfl rfl
  | switchPipe => exact hI.keep rfl rfl (fun _ h _ _ => h) (fun _ => by simp) ⟨[], by simp [processed]⟩ rfl rfl
  | switchErr => exact hI.gone hI.mem rfl (fun c hc => by cases hc)
  | switchOk =>
    exact hI.keep rfl rfl (fun _ h _ _ => h) (fun _ => by simp) ⟨[], by simp [processed]⟩ (noData (by simp)) rfl
  | settleLate r hpc =>
    cases r with
    | false => exact hI.keep rfl rfl (fun _ h _ _ => h) (fun _ => by simp) ⟨[], by simp [processed]⟩ (by simp) rfl
    | true =>
      exact hI.gone hI.mem rfl (fun c hc hi ho => absurd hpc (hI.rel c hc hi ho).1)
  | settleDue r z due hpc =>
    cases r with
    | false => exact hI.keep rfl rfl (fun _ h _ _ => h) (fun _ => by simp) ⟨[], by simp [processed]⟩ (by simp) rfl
    | true =>
      exact hI.gone hI.mem rfl (fun c hc hi ho => absurd hpc (hI.rel c hc hi ho).1)
  | pollErr => exact hI.gone hI.mem rfl (fun c hc => by cases hc)
  | timeout => exact hI.keep rfl rfl (fun _ h _ _ => h) (fun _ => by simp) ⟨[], by simp [processed]⟩ rfl rfl
  | readErr => exact hI.gone hI.mem rfl (fun c hc => by cases hc)
  | hidden => exact hI.keep rfl rfl (fun _ h _ _ => h) (fun _ => by simp) ⟨[], by simp [processed]⟩ rfl rfl
  | noClient n f v _ _ _ _ _ _ hc => exact hI.gone hI.mem rfl (fun c h => by dsimp only at h; rw [hc] at h; cases h)
  | motdPanic => exact hI.gone hI.mem rfl (fun c hc => by cases hc)
  | relay n f v c _ _ _ _ _ _ hc hh hm =>
    refine ⟨hI.mem, hI.motd.imp_right (List.mem_append_left _), ?_⟩
    intro c' hc' hid hok
    have hcc : c' = c := by dsimp only at hc'; rw [hc] at hc'; exact (Option.some.inj hc').symm
    subst hcc
    obtain ⟨-, -, ops, m, e1, e2, e3, e4, e5⟩ := hI.rel c' hc hid hok
    refine ⟨by simp, by simp, ops ++ [.process v], ?_⟩
    have hd : ∀ b, dataTo (toClient s ⟨.data, b⟩) id = b := by
      intro b
      rw [toClient_toC, dataTo_toC, hc]
      simp [hok, hid, Data]
    have hv : processed (ops ++ [.process v]) = processed ops ++ v := by simp [processed]
    dsimp only
    rw [dataTo_append, dataTo_append, hd, e2, hv, e1, List.append_assoc]
    cases hn : s.needsMotd with
    | false =>
      have hmo : motdOut s = [] := by simp [motdOut, hn]
      refine ⟨m, rfl, by simp [hmo, dataTo, framesTo], ?_, (fun _ hf => by cases hf), ?_⟩
      · intro h0; exact ⟨rfl, (e3 h0).2⟩
      · intro h0 _
        obtain ⟨mo, h8, h9⟩ := e5 h0 hn
        exact ⟨mo, h8.imp_right (List.mem_append_left _), h9⟩
    | true =>
      have h0 : s0.needsMotd = true := by
        cases h0 : s0.needsMotd with
        | true => rfl
        | false => have := (e3 h0).1; rw [hn] at this; cases this
      obtain ⟨rfl, hp⟩ := e4 h0 hn
      have hmd : s.motd ≠ .notDump := fun h => hm ⟨hn, h⟩
      have hmo : dataTo (motdOut s) id = motdText s.motd := by
        unfold motdOut
        rw [hn]
        cases hmt : s.motd with
        | text t => exact hd t
        | fails => rfl
        | notDump => rfl
      refine ⟨motdText s.motd, rfl, by simp [hmo, hp], ?_, (fun _ hf => by cases hf), ?_⟩
      · intro hf; rw [h0] at hf; cases hf
      · intro _ _
        exact ⟨s.motd, hI.motd.imp_right (List.mem_append_left _), hmd, rfl⟩
  | tick => exact hI.env rfl rfl (fun _ h => ⟨_, h, rfl, fun h => h⟩) rfl rfl rfl rfl
  | write => exact hI.env rfl rfl (fun _ h => ⟨_, h, rfl, fun h => h⟩) rfl rfl rfl rfl
  | close => exact hI.env rfl rfl (fun _ h => ⟨_, h, rfl, fun h => h⟩) rfl rfl rfl rfl
  | exitKnown => exact hI.env rfl rfl (fun _ h => ⟨_, h, rfl, fun h => h⟩) rfl rfl rfl rfl
  | breaks hh c hc ho => exact hI.env rfl rfl (fun c' h => by cases h; exact ⟨c, hc, rfl, fun _ => ho⟩) rfl rfl rfl rfl
  | setMotd m =>
    refine ⟨hI.mem, .inr (by simp), ?_⟩
    intro c h3 h4 h5
    obtain ⟨hp1, hp2, ops, m, e1, e2, e3, e4, e5⟩ := hI.rel c h3 h4 h5
    refine ⟨hp1, hp2, ops, m, e1, e2, e3, e4, ?_⟩
    intro h6 h7
    obtain ⟨mo, h8, h9⟩ := e5 h6 h7
    exact ⟨mo, h8.imp_right (List.mem_append_left _), h9⟩

theorem run_relay {P : Params} {s0 s : St} {c : Conn} {ls : List Label} (hc : s0.client = some c) (hu : c.id ∈ s0.used)
    (hpc : s0.pc ≠ .settle true ∧ s0.pc ≠ .waitInitial) (h : runSteps (step P) s0 ls = some s) : Relay s0 c.id ls s := by
  refine run_hist (I := Relay s0 c.id) (step_relay P s0 c.id) ⟨hu, .inl rfl, ?_⟩ h
  intro c' hc' hid hok
  refine ⟨hpc.1, hpc.2, [], [], by simp, by simp [processed], fun h => ⟨h, rfl⟩, fun _ _ => ⟨rfl, rfl⟩, ?_⟩
  intro h1 h2
  rw [h1] at h2
  cases h2

end Shpool.S2C
