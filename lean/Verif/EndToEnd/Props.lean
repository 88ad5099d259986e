import Verif.EndToEnd.Lemmas
/-!
# What the user sees and what the shell gets (C132, C133)
-/

namespace Shpool.S2C
open Chunk (Chunk Kind)

/-- From the moment a connection is taken: it is about to get its snapshot; or it broke before and got nothing; or it got the snapshot
and then the message of the day, if it was due, and a beginning of the text shown since. -/
inductive Since (P : Params) (s1 : St) (id : Nat) (s : St) : Prop
  | waiting (c : Conn) : s.pc = .settle true → s.client = some c → c.id = id → s.spool = s1.spool → s.needsMotd = s1.needsMotd →
      dataTo s.out id = [] → id ∈ s.used → Since P s1 id s
  | nothing (rest : List SpoolOp) : (∀ c, s.client = some c → c.id = id → c.health ≠ .ok) → s.spool = s1.spool ++ rest →
      dataTo s.out id = [] → id ∈ s.used → Since P s1 id s
  | got (s2 : St) (ls2 : List Label) : Ever s2 id ls2 s → s2.spool = s1.spool → s2.needsMotd = s1.needsMotd →
      dataTo s2.out id = P.restore s1.spool → Since P s1 id s

/-- A connection that is used and not attached and working gets no data any more. -/
theorem step_dead {P : Params} {s s' : St} {l : Label} {id : Nat} (h : step P s l = some s') (hu : id ∈ s.used)
    (hd : ∀ c, s.client = some c → c.id = id → c.health ≠ .ok) :
    (∀ c, s'.client = some c → c.id = id → c.health ≠ .ok) ∧ dataTo s'.out id = dataTo s.out id ∧ id ∈ s'.used := by
  have h2 : dataTo s'.out id = dataTo s.out id := by
    apply Decidable.byContradiction
    intro hne
    obtain ⟨c, -, h1, h2, h3⟩ := step_data h hne
    exact hd c h1 h2 h3
  refine ⟨?_, h2, ?_⟩
  · cases step_eff P s s' l h with
    | initNew i z hpc hid =>
      intro c hc hi
      cases hc
      subst hi; exact absurd hu hid
    | newOk i z ok cfg hpc hid =>
      intro c hc hi
      cases hc
      subst hi; exact absurd hu hid
    | breaks hh c hc ho =>
      intro c' hc' hi
      cases hc'
      exact absurd ho (hd c hc hi)
    | relay n f v c _ _ _ _ _ _ hc hh => exact hd
    | noClient => exact hd
    | _ => first | exact hd | (intro c hc; cases hc)
  · cases step_eff P s s' l h with
    | initNew => exact List.mem_append_left _ hu
    | newPanic => exact List.mem_append_left _ hu
    | newOk => exact List.mem_append_left _ hu
    | _ => exact hu

theorem dataTo_restoreOut {P : Params} {s : St} {c : Conn} (hc : s.client = some c) (hok : c.health = .ok) :
    dataTo (restoreOut P s) c.id = P.restore s.spool := by
  have : ∀ bs : List (List UInt8), dataTo (bs.flatMap fun b => toClient s ⟨.data, b⟩) c.id = bs.flatten := by
    intro bs
    induction bs with
    | nil => rfl
    | cons b bs ih =>
      rw [List.flatMap_cons, dataTo_append, ih, toClient_toC, dataTo_toC, hc]
      simp [hok, Data]
  rw [restoreOut, this, chunks_flatten _ (by decide)]

private theorem restoreOut_broken {P : Params} {s : St} (h : ∀ c, s.client = some c → c.health ≠ .ok) : restoreOut P s = [] := by
  unfold restoreOut toClient
  cases hc : s.client with
  | none => simp [List.flatMap_eq_nil_iff]
  | some c => simp [List.flatMap_eq_nil_iff, h c hc]

theorem step_since (P : Params) (s1 : St) (id : Nat) (ls : List Label) (s : St) (l : Label) (s' : St)
    (hI : Since P s1 id s) (h : step P s l = some s') : Since P s1 id s' := by
  cases hI with
  | waiting c hpc hc hid hsp hnm hd hu =>
    subst hid
    have settled : ∀ t : St, t.out = s.out ++ restoreOut P s → t.client = s.client → t.spool = s.spool → t.needsMotd = s.needsMotd →
        t.pc = .poll → c.id ∈ t.used → Since P s1 c.id t := by
      intro t h1 h2 h3 h4 h5 h6
      by_cases hok : c.health = .ok
      · refine .got t [] ?_ (by rw [h3, hsp]) (by rw [h4, hnm]) ?_
        · exact run_ever (P := P) (by rw [h2, hc]) h6 (by rw [h5]; simp) rfl
        · rw [h1, dataTo_append, hd, dataTo_restoreOut hc hok, hsp]; rfl
      · refine .nothing [] (fun c' hc' _ => ?_) (by rw [h3, hsp]; simp) ?_ h6
        · rw [h2, hc] at hc'; cases hc'; exact hok
        · rw [h1, restoreOut_broken, List.append_nil, hd]
          intro c' hc'; rw [hc] at hc'; cases hc'; exact hok
    cases step_eff P s s' l h with
    | settleLate r hr => rw [hpc] at hr; cases hr; exact settled _ rfl rfl rfl rfl rfl hu
    | settleDue r z due hr => rw [hpc] at hr; cases hr; exact settled _ rfl rfl rfl rfl rfl hu
    | tick => exact .waiting c hpc hc rfl hsp hnm hd hu
    | write => exact .waiting c hpc hc rfl hsp hnm hd hu
    | close => exact .waiting c hpc hc rfl hsp hnm hd hu
    | exitKnown => exact .waiting c hpc hc rfl hsp hnm hd hu
    | breaks hh c' hc' ho =>
      rw [hc] at hc'; cases hc'
      exact .waiting { c with health := hh } hpc rfl rfl hsp hnm hd hu
    | setMotd => exact .waiting c hpc hc rfl hsp hnm hd hu
    | _ => simp_all
  | nothing rest hdead hsp hd hu =>
    obtain ⟨h1, h2, h3⟩ := step_dead h hu hdead
    obtain ⟨x, hx⟩ := step_spool_grows h
    exact .nothing (rest ++ x) h1 (by rw [hx, hsp]; simp) (by rw [h2, hd]) h3
  | got s2 ls2 hE h1 h2 h3 =>
    refine .got s2 (ls2 ++ [l]) ?_ h1 h2 h3
    exact ever_step hE h

end Shpool.S2C

namespace Shpool.EndToEnd
open Chunk (Chunk Kind)
open Keys (Bindings Action Spells)

/-! ## C132: what the user sees -/

/-- The text that is visible (C20) of what has been read from the shell. -/
def visible (P : Params) (s : St) : List UInt8 := Sentinel.shownOf P.daemon.supportsSentinels [s.daemon.read]

/-- The client has printed only what was sent to it, in order. -/
theorem printed_sent {P : Params} {ls : List Label} {s : St} (hsh : Short P ls) (h : Run P ls s) :
    s.client.stdout <+: S2C.dataTo s.daemon.out P.id := by
  obtain ⟨⟨⟨mid, fl, e1, e2, e3, e4, e5⟩, e6⟩, -⟩ := run_wire hsh h
  obtain ⟨pls, hp⟩ := run_client h
  unfold S2C.dataTo
  rw [e1, List.flatMap_append, List.flatMap_append, ← printed_data]
  cases hf : s.client.stdoutFailed with
  | none => rw [Pipe.C24_prints_exactly hp hf, List.append_assoc]; exact List.prefix_append _ _
  | some f =>
    obtain ⟨-, hk, k, hk2⟩ := Pipe.C24_prints_until_failure hp hf
    obtain ⟨tl, rfl⟩ := e4 f hf
    rw [hk2, List.append_assoc, List.flatMap_cons]
    refine (List.prefix_append_right_inj _).mpr ?_
    have : S2C.Data f = f.buf := by simp [S2C.Data, hk]
    rw [this, List.append_assoc]
    exact (List.take_prefix _ _).trans (List.prefix_append _ _)

/-- When nothing is on its way and the client has no frame in its hands it has printed all that was sent. -/
theorem printed_all {P : Params} {ls : List Label} {s : St} (hsh : Short P ls) (h : Run P ls s)
    (hd : s.down = []) (ho : s.client.out = .top ∨ s.client.out = .reading) :
    s.client.stdout = S2C.dataTo s.daemon.out P.id := by
  obtain ⟨⟨⟨mid, fl, e1, e2, e3, e4, e5⟩, e6⟩, hleg⟩ := run_wire hsh h
  obtain ⟨pls, hp⟩ := run_client h
  have hnf : s.client.stdoutFailed = none := by
    apply Decidable.byContradiction
    intro hn
    have := e6 hn
    rcases ho with ho | ho <;> rw [ho] at this <;> cases this
  have hm : mid = [] := by
    rcases ho with ho | ho <;> rw [e3 (by simp [ho])] <;> simp [current, ho]
  have hfl : fl = [] := by
    rw [hd] at e2
    cases fl with
    | nil => rfl
    | cons g fl =>
      simp only [Chunk.writeAll] at e2
      cases h1 : Chunk.writeTo g with
      | error e => rw [h1] at e2; cases e2
      | ok bs =>
        rw [h1] at e2
        cases h2 : Chunk.writeAll fl with
        | error e => rw [h2] at e2; cases e2
        | ok r =>
          rw [h2] at e2
          obtain ⟨t, rfl⟩ := Chunk.writeTo_cons g bs h1
          cases e2
  subst hm hfl
  unfold S2C.dataTo
  rw [e1, Pipe.C24_prints_exactly hp hnf, printed_data]
  simp

private theorem visible_append {P : Params} {ls : List Label} {s : St} (h : Run P ls s) :
    S2C.processed s.daemon.spool = visible P s := S2C.C19_history P.daemon _ _ (run_daemon h)

/-- **C132**: a client that attaches to a session that is there.  However the socket cuts up the bytes, whenever the connection
breaks, is taken over or closed, at every moment what the client has printed is a beginning of: the snapshot of the moment it
attached, the message of the day if that was still due, and the text the shell has made visible since. -/
theorem C132_shows {P : Params} {ls0 ls : List Label} {s0 s1 s : St} {z : S2C.TtySize} {ok : Bool} {cfg : Nat}
    (hsh : Short P (ls0 ++ .daemon (.select (.connection (some (.new P.id z)) ok cfg)) :: ls)) (h0 : Run P ls0 s0)
    (h1 : step P s0 (.daemon (.select (.connection (some (.new P.id z)) ok cfg))) = some s1) (hc : s1.daemon.client.isSome)
    (h : runSteps (step P) s1 ls = some s) :
    ∃ shown rest m, visible P s = visible P s0 ++ shown ++ rest ∧ (s0.daemon.needsMotd = false → m = []) ∧
      s.client.stdout <+: P.daemon.restore (s0.daemon.spool ++ [.resize z cfg]) ++ m ++ shown := by
  have hrun : Run P (ls0 ++ .daemon (.select (.connection (some (.new P.id z)) ok cfg)) :: ls) s := by
    unfold Run
    rw [Shpool.run_append, h0]
    simp only [Option.bind_some, runSteps, h1]
    exact h
  have hpr := printed_sent hsh hrun
  obtain ⟨d, bytes, hd, -, rfl⟩ := daemonStep_some h1
  have hS : S2C.Since P.daemon d P.id d ∧ d.spool = s0.daemon.spool ++ [.resize z cfg] ∧ d.needsMotd = s0.daemon.needsMotd := by
    have hfr := fun hid => S2C.dataTo_fresh (run_daemon h0) (id := P.id) hid
    cases S2C.step_eff P.daemon _ _ _ hd with
    | newFail => simp at hc
    | newPanic => simp at hc
    | newOk _ _ _ _ hpc hid =>
      refine ⟨.waiting _ rfl rfl rfl rfl rfl ?_ (by simp), rfl, rfl⟩
      exact (S2C.noData (by simp [S2C.exitFrame])).trans (hfr hid)
  obtain ⟨hS, hsp, hnm⟩ := hS
  have hE : S2C.Since P.daemon d P.id s.daemon :=
    run_inv (I := S2C.Since P.daemon d P.id) (fun s l s' hI hs => S2C.step_since P.daemon d P.id [] s l s' hI hs) hS
      (daemon_of_run h)
  have hv := visible_append hrun
  have hv0 := visible_append h0
  have hp0 : S2C.processed d.spool = visible P s0 := by rw [hsp, S2C.processed_append, hv0]; simp [S2C.processed]
  have hnone : S2C.dataTo s.daemon.out P.id = [] → s.client.stdout = [] := by
    intro he; rw [he] at hpr; exact List.prefix_nil.mp hpr
  cases hE with
  | waiting c _ _ _ e1 _ e2 _ =>
    refine ⟨[], [], [], ?_, fun _ => rfl, by rw [hnone e2]; exact List.nil_prefix⟩
    rw [← hv, e1, hp0]; simp
  | nothing rest _ e1 e2 _ =>
    refine ⟨[], S2C.processed rest, [], ?_, fun _ => rfl, by rw [hnone e2]; exact List.nil_prefix⟩
    rw [← hv, e1, S2C.processed_append, hp0]; simp
  | got s2 ls2 hEv e1 e2 e3 =>
    obtain ⟨ops, rest, m, f1, f2, f3, -⟩ := hEv.ever
    refine ⟨S2C.processed ops, S2C.processed rest, m, ?_, ?_, ?_⟩
    · rw [← hv, f1, e1, S2C.processed_append, S2C.processed_append, hp0]
    · intro hn; exact f3 (by rw [e2, hnm, hn])
    · rw [f2, e3, hsp] at hpr; exact hpr

/-- **C132**: the same for the client that started the session: there is no snapshot, and everything that was ever visible counts. -/
theorem C132_shows_first {P : Params} {ls : List Label} {s : St} {z : S2C.TtySize}
    (hsh : Short P (.daemon (.initial (some (.new P.id z))) :: ls)) (h : Run P (.daemon (.initial (some (.new P.id z))) :: ls) s) :
    ∃ shown rest m, visible P s = shown ++ rest ∧ (P.daemon.needsMotd = false → m = []) ∧ s.client.stdout <+: m ++ shown := by
  have hpr := printed_sent hsh h
  have hv := visible_append h
  obtain ⟨s1, h1, h2⟩ := run_cons_some h
  have h1' : daemonStep P (init P) (.initial (some (.new P.id z))) = some s1 := h1
  obtain ⟨d, bytes, hd, -, rfl⟩ := daemonStep_some h1'
  cases S2C.step_eff P.daemon _ _ _ hd with
  | initOther m _ hm => exact absurd rfl (hm P.id z)
  | initNew =>
    obtain ⟨ops, rest, m, f1, f2, f3, -⟩ := (S2C.run_ever (P := P.daemon) (c := ⟨P.id, z, .ok⟩) rfl (by simp) (by simp)
      (daemon_of_run h2)).ever
    refine ⟨S2C.processed ops, S2C.processed rest, m, ?_, f3, ?_⟩
    · rw [← hv, f1, S2C.processed_append, S2C.processed_append]; rfl
    · rw [f2] at hpr
      simpa [init, S2C.init, S2C.dataTo, S2C.framesTo] using hpr

/-- **C132**: the simplest case, without prompt injection and message of the day: what the terminal of the client that started the
session shows is a beginning of what the shell has written. -/
theorem C132_shows_written {P : Params} {ls : List Label} {s : St} {z : S2C.TtySize} (hi : P.daemon.supportsSentinels = false)
    (hm : P.daemon.needsMotd = false)
    (hsh : Short P (.daemon (.initial (some (.new P.id z))) :: ls)) (h : Run P (.daemon (.initial (some (.new P.id z))) :: ls) s) :
    s.client.stdout <+: S2C.written (daemonPart ls) := by
  obtain ⟨shown, rest, m, e1, e2, e3⟩ := C132_shows_first hsh h
  have hw := S2C.C18_nothing_skipped P.daemon _ _ (run_daemon h)
  have hw2 : S2C.written (daemonPart ls) = s.daemon.read ++ s.daemon.pending := by
    rw [← hw]; rfl
  have hvis : visible P s = s.daemon.read := by
    unfold visible
    rw [hi, Sentinel.C20_no_injection]
    simp
  rw [e2 hm, List.nil_append] at e3
  rw [hw2, ← hvis, e1, List.append_assoc]
  exact e3.trans (List.prefix_append _ _)

/-- **C132**: nothing is missing.  When the client is still attached, its connection works, nothing is on its way and the client has no
frame in its hands, it has printed the snapshot, the message of the day if it was due and has been shown, and exactly the text made
visible since. -/
theorem C132_complete {P : Params} {ls0 ls : List Label} {s0 s1 s : St} {z : S2C.TtySize} {ok : Bool} {cfg : Nat} {c : S2C.Conn}
    (hsh : Short P (ls0 ++ .daemon (.select (.connection (some (.new P.id z)) ok cfg)) :: ls)) (h0 : Run P ls0 s0)
    (h1 : step P s0 (.daemon (.select (.connection (some (.new P.id z)) ok cfg))) = some s1) 
    (h : runSteps (step P) s1 ls = some s) (hc : s.daemon.client = some c) (hid : c.id = P.id) (hok : c.health = .ok)
    (hpc : s.daemon.pc ≠ .settle true) (hd : s.down = []) (ho : s.client.out = .top ∨ s.client.out = .reading) :
    ∃ shown m, visible P s = visible P s0 ++ shown ∧ (s0.daemon.needsMotd = false → m = []) ∧
      s.client.stdout = P.daemon.restore (s0.daemon.spool ++ [.resize z cfg]) ++ m ++ shown := by
  have hrun : Run P (ls0 ++ .daemon (.select (.connection (some (.new P.id z)) ok cfg)) :: ls) s := by
    unfold Run
    rw [Shpool.run_append, h0]
    simp only [Option.bind_some, runSteps, h1]
    exact h
  have hpr := printed_all hsh hrun hd ho
  obtain ⟨d, bytes, hd, -, rfl⟩ := daemonStep_some h1
  have hv := visible_append hrun
  have hv0 := visible_append h0
  have hfr := fun hid => S2C.dataTo_fresh (run_daemon h0) (id := P.id) hid
  have hended : ∀ e, d.client = none → d.pc = .ended e → False := by
    intro e hn he
    have : (s.daemon.client = none ∧ s.daemon.pc = .ended e) :=
      run_inv (I := fun t : S2C.St => t.client = none ∧ t.pc = .ended e)
        (fun t l t' hI hs => by
          obtain ⟨a, b⟩ := hI
          cases S2C.step_eff P.daemon t t' l hs <;> simp_all) ⟨hn, he⟩ (daemon_of_run h)
    rw [this.1] at hc; cases hc
  have hS : S2C.Since P.daemon d P.id d ∧ d.spool = s0.daemon.spool ++ [.resize z cfg] ∧ d.needsMotd = s0.daemon.needsMotd := by
    cases S2C.step_eff P.daemon _ _ _ hd with
    | newFail => exact (hended _ rfl rfl).elim
    | newPanic => exact (hended _ rfl rfl).elim
    | newOk _ _ _ _ hpc0 hid0 =>
      refine ⟨.waiting _ rfl rfl rfl rfl rfl ?_ (by simp), rfl, rfl⟩
      exact (S2C.noData (by simp [S2C.exitFrame])).trans (hfr hid0)
  obtain ⟨hS, hsp, hnm⟩ := hS
  have hE : S2C.Since P.daemon d P.id s.daemon :=
    run_inv (I := S2C.Since P.daemon d P.id) (fun s l s' hI hs => S2C.step_since P.daemon d P.id [] s l s' hI hs) hS
      (daemon_of_run h)
  cases hE with
  | waiting c' e0 => exact absurd e0 hpc
  | nothing rest e0 => exact absurd hok (e0 c hc hid)
  | got s2 ls2 hEv e1 e2 e3 =>
    obtain ⟨-, -, ops, m, f1, f2, f3, -, -⟩ := hEv.relay.rel c hc hid hok
    refine ⟨S2C.processed ops, m, ?_, ?_, ?_⟩
    · rw [← hv, f1, e1, hsp, S2C.processed_append, S2C.processed_append, ← hv0]; simp [S2C.processed]
    · intro hn; exact (f3 (by rw [e2, hnm]; exact hn)).2
    · rw [hpr, f2, e3, hsp]

/-- **C132**: a client that has been given an exit status has printed everything that was ever sent to it; nothing is left. -/
theorem C132_exit {P : Params} {ls : List Label} {s : St} (hsh : Short P ls) (h : Run P ls s) {f : Chunk} {a : Bool}
    (hf : (f, a) ∈ s.client.handled) (hk : f.kind = .exitStatus) :
    s.client.stdout = S2C.dataTo s.daemon.out P.id ∧ s.down = [] := by
  obtain ⟨⟨⟨mid, fl, e1, e2, e3, e4, e5⟩, e6⟩, hleg⟩ := run_wire hsh h
  obtain ⟨pls, hp⟩ := run_client h
  obtain ⟨x, y, hxy⟩ := List.append_of_mem hf
  have hl := S2C.C21_exit_frame_last P.daemon _ _ (run_daemon h) P.id (x.map (·.1)) (y.map (·.1) ++ mid ++ fl) f
    (by rw [e1, hxy]; simp) hk
  simp only [List.append_eq_nil_iff] at hl
  obtain ⟨⟨hy, rfl⟩, rfl⟩ := hl
  have hnf : s.client.stdoutFailed = none := by
    cases hn : s.client.stdoutFailed with
    | none => rfl
    | some g => obtain ⟨tl, ht⟩ := e4 g hn; cases ht
  refine ⟨?_, (Except.ok.inj e2).symm⟩
  unfold S2C.dataTo
  rw [e1, Pipe.C24_prints_exactly hp hnf, printed_data]
  simp

/-- A step of the client's output thread. -/
def ofOutput : Label → Bool
  | .client .outCheck | .client .outTimeout | .client (.outHandle _ none _) | .recv _ => true
  | _ => false

private theorem handled_frame {s : St} {f : Chunk} (hl : Chunk.Legal f) (hg : s.client.out = .got f) :
    ∃ c, clientStep s (.outHandle false none false) = some { s with client := c } ∧ c.out = .top ∧
      (c.slot = s.client.slot ∨ f.kind = .exitStatus) := by
  have hx : f.kind = .exitStatus → ∃ st, Chunk.ofLe32 (f.buf.take 4) = some st := by
    intro hk
    have h4 := hl.1 hk
    match hb : f.buf, h4 with
    | [a, b, c, d], _ => exact ⟨_, rfl⟩
  refine ⟨Pipe.handle s.client f false none false, ?_, ?_, ?_⟩
  · simp only [clientStep, Pipe.step, hg, Pipe.handle]
    cases hk : f.kind
    · simp
    · simp
    · obtain ⟨st, hst⟩ := hx hk; simp [hst]
    · simp
  · simp only [Pipe.handle]
    cases hk : f.kind
    · simp
    · simp
    · obtain ⟨st, hst⟩ := hx hk; simp [hst]
    · simp
  · simp only [Pipe.handle]
    cases hk : f.kind
    · simp
    · simp
    · simp
    · simp

private theorem drain {P : Params} (fl : List Chunk) (s : St) (hw : Chunk.writeAll fl = .ok s.down)
    (hfit : ∀ g ∈ fl, S2C.Fits g) (hlast : ∀ a f b, fl = a ++ f :: b → f.kind = .exitStatus → b = [])
    (ho : s.client.out = .top) (hs : s.client.slot = none) :
    ∃ ls s', runSteps (step P) s ls = some s' ∧ (∀ l ∈ ls, ofOutput l = true) ∧ s'.down = [] ∧ s'.client.out = .top ∧
      s'.daemon = s.daemon := by
  induction fl generalizing s with
  | nil => exact ⟨[], s, rfl, by simp, (Except.ok.inj hw).symm, ho, rfl⟩
  | cons g fl ih =>
    simp only [Chunk.writeAll] at hw
    obtain ⟨hgl, hgs⟩ := hfit g (by simp)
    obtain ⟨bg, hbg, -⟩ := Chunk.writeTo_legal g hgl
    rw [hbg] at hw
    cases h2 : Chunk.writeAll fl with
    | error e => rw [h2] at hw; cases hw
    | ok r =>
      rw [h2] at hw
      have hd : s.down = bg ++ r := (Except.ok.inj hw).symm
      have hr := Chunk.readInto_flat_writeTo g S2C.bufSize bg r hgl hgs hbg
      obtain ⟨segs', hseg, hfl⟩ := Chunk.readInto_seg_ok (segs := [s.down]) (by simpa [hd] using hr)
      have st1 : step P s (.client .outCheck) = some { s with client := { s.client with out := .reading } } := by
        simp [step, clientStep, Pipe.step, ho, hs]
      have st2 : step P { s with client := { s.client with out := .reading } } (.recv [s.down]) =
          some { s with client := { s.client with out := .got g }, down := r } := by
        simp [step, recvStep, hseg, Pipe.step, hfl]
      obtain ⟨c, st3, hc1, hc2⟩ := handled_frame (s := { s with client := { s.client with out := .got g }, down := r }) hgl rfl
      have st3 : step P { s with client := { s.client with out := .got g }, down := r } (.client (.outHandle false none false)) =
          some { s with client := c, down := r } := st3
      by_cases hk : g.kind = .exitStatus
      · have : fl = [] := hlast [] g fl rfl hk
        subst this
        cases h2
        exact ⟨[.client .outCheck, .recv [s.down], .client (.outHandle false none false)], { s with client := c, down := [] },
          by simp [runSteps, st1, st2, st3], by simp [ofOutput], rfl, hc1, rfl⟩
      · obtain ⟨ls, s', g1, g2, g3, g4, g5⟩ := ih { s with client := c, down := r } h2 (fun x hx => hfit x (by simp [hx]))
          (fun a f b hab hf => hlast (g :: a) f b (by simp [hab]) hf) hc1 (by simpa [hk, hs] using hc2)
        refine ⟨.client .outCheck :: .recv [s.down] :: .client (.outHandle false none false) :: ls, s', ?_, ?_, g3, g4, g5⟩
        · simp only [runSteps, st1, st2, st3]; exact g1
        · intro l hl
          simp only [List.mem_cons] at hl
          rcases hl with rfl | rfl | rfl | hl
          · rfl
          · rfl
          · rfl
          · exact g2 l hl

/-- **C132**: everything sent arrives.  From every moment at which the client has not given up and nothing decided is waiting, steps of
the client's output thread alone lead to everything that has been sent being printed, if the frames fit its buffer (C05). -/
theorem C132_arrives {P : Params} {ls : List Label} {s : St} (hsh : Short P ls) (h : Run P ls s)
    (hfit : ∀ f ∈ S2C.framesTo s.daemon.out P.id, f.buf.length ≤ 16384) (ho : s.client.out ≠ .finished)
    (hs : s.client.slot = none) :
    ∃ ls' s', runSteps (step P) s ls' = some s' ∧ (∀ l ∈ ls', ofOutput l = true) ∧ s'.down = [] ∧ s'.daemon = s.daemon ∧
      s'.client.stdout = S2C.dataTo s.daemon.out P.id := by
  have fin : ∀ ls' s', runSteps (step P) s ls' = some s' → (∀ l ∈ ls', ofOutput l = true) → s'.down = [] →
      s'.client.out = .top → s'.daemon = s.daemon → s'.client.stdout = S2C.dataTo s.daemon.out P.id := by
    intro ls' s' hr hl hd ht hdm
    have hrun : Run P (ls ++ ls') s' := by unfold Run; rw [Shpool.run_append, h]; exact hr
    have hsh' : Short P (ls ++ ls') := by
      refine ⟨hsh.1, fun l hl' => ?_⟩
      rcases List.mem_append.mp hl' with hl' | hl'
      · exact hsh.2 l hl'
      · cases hl _ hl'
    rw [printed_all hsh' hrun hd (.inl ht), hdm]
  obtain ⟨⟨⟨mid, fl, e1, e2, e3, e4, e5⟩, e6⟩, hleg⟩ := run_wire hsh h
  have hmem : ∀ g, g ∈ mid ++ fl → S2C.Fits g := by
    intro g hg
    have hg : g ∈ S2C.framesTo s.daemon.out P.id := by rw [e1, List.append_assoc]; exact List.mem_append_right _ hg
    refine ⟨?_, hfit g hg⟩
    unfold S2C.framesTo at hg
    obtain ⟨p, hp, rfl⟩ := List.mem_map.mp hg
    exact hleg p (List.mem_filter.mp hp).1
  have hlast : ∀ a f b, mid ++ fl = a ++ f :: b → f.kind = .exitStatus → b = [] := by
    intro a f b hab hk
    refine S2C.C21_exit_frame_last P.daemon _ _ (run_daemon h) P.id (s.client.handled.map (·.1) ++ a) b f ?_ hk
    rw [e1, List.append_assoc, hab]; simp
  have main : ∀ t : St, t.down = s.down → t.daemon = s.daemon → t.client.out = .top → t.client.slot = none →
      ∃ ls' s', runSteps (step P) t ls' = some s' ∧ (∀ l ∈ ls', ofOutput l = true) ∧ s'.down = [] ∧ s'.client.out = .top ∧
        s'.daemon = s.daemon := by
    intro t h1 h2 h3 h4
    obtain ⟨ls', s', g1, g2, g3, g4, g5⟩ := drain (P := P) fl t (h1 ▸ e2) (fun g hg => hmem g (by simp [hg]))
      (fun a f b hab hk => hlast (mid ++ a) f b (by simp [hab]) hk) h3 h4
    exact ⟨ls', s', g1, g2, g3, g4, g5.trans h2⟩
  cases hout : s.client.out with
  | finished => exact absurd hout ho
  | top =>
    obtain ⟨ls', s', g1, g2, g3, g4, g5⟩ := main s rfl rfl hout hs
    exact ⟨ls', s', g1, g2, g3, g5, fin ls' s' g1 g2 g3 g4 g5⟩
  | reading =>
    obtain ⟨ls', s', g1, g2, g3, g4, g5⟩ := main { s with client := { s.client with out := .top } } rfl rfl rfl hs
    have st : step P s (.client .outTimeout) = some { s with client := { s.client with out := .top } } := by
      simp [step, clientStep, Pipe.step, hout]
    have hr : runSteps (step P) s (.client .outTimeout :: ls') = some s' := by simp only [runSteps, st]; exact g1
    have hl : ∀ l ∈ Label.client .outTimeout :: ls', ofOutput l = true := by
      intro l hl
      rcases List.mem_cons.mp hl with rfl | hl
      · rfl
      · exact g2 l hl
    exact ⟨_, s', hr, hl, g3, g5, fin _ s' hr hl g3 g4 g5⟩
  | got f =>
    have hm : mid = [f] := by rw [e3 ho]; simp [current, hout]
    obtain ⟨c, st, hc1, hc2⟩ := handled_frame (hmem f (by simp [hm])).1 hout
    have st : step P s (.client (.outHandle false none false)) = some { s with client := c } := st
    by_cases hk : f.kind = .exitStatus
    · have hfl : fl = [] := hlast [] f fl (by simp [hm]) hk
      subst hfl
      have hd : s.down = [] := (Except.ok.inj e2).symm
      have hr : runSteps (step P) s [.client (.outHandle false none false)] = some { s with client := c } := by
        simp [runSteps, st]
      exact ⟨_, _, hr, by simp [ofOutput], hd, rfl, fin _ _ hr (by simp [ofOutput]) hd hc1 rfl⟩
    · obtain ⟨ls', s', g1, g2, g3, g4, g5⟩ := main { s with client := c } rfl rfl hc1 (by simpa [hk, hs] using hc2)
      have hr : runSteps (step P) s (.client (.outHandle false none false) :: ls') = some s' := by
        simp only [runSteps, st]; exact g1
      have hl : ∀ l ∈ Label.client (.outHandle false none false) :: ls', ofOutput l = true := by
        intro l hl
        rcases List.mem_cons.mp hl with rfl | hl
        · rfl
        · exact g2 l hl
      exact ⟨_, s', hr, hl, g3, g5, fin _ s' hr hl g3 g4 g5⟩

/-! ## C133: what the user types -/

private theorem sent_typed {P : Params} {ls : List Label} {s : St} (h : Run P ls s) :
    s.client.sent <+: s.client.typed ∧ (s.client.sockFailed = false → s.client.sent = s.client.typed) := by
  obtain ⟨pls, hp⟩ := run_client h
  obtain ⟨h1, h2⟩ := Pipe.C24_forwards_exactly hp
  refine ⟨?_, h1⟩
  cases hf : s.client.sockFailed with
  | false => rw [h1 hf]; exact List.prefix_refl _
  | true => exact (h2 hf).2

private theorem noFire_prefix {b : Bindings} {x y : List UInt8} (hp : x <+: y) (h : Input.NoFire Bindings.transition b y) :
    Input.NoFire Bindings.transition b x := by
  obtain ⟨z, rfl⟩ := hp
  exact ((Input.NoFire.append (Input.Ideal.start b) rfl).mp h).1

private theorem noDetach_prefix {b : Bindings} {x y : List UInt8} (hp : x <+: y) (h : Input.NoDetach Bindings.transition b y) :
    Input.NoDetach Bindings.transition b x := by
  obtain ⟨z, rfl⟩ := hp
  exact ((Input.NoDetach.append (Input.Ideal.start b) rfl).mp h).1

/-- **C133**: while no binding occurs in what is typed, the shell has got exactly what was typed, in order, up to what is still on its
way and up to a last piece that is the beginning of a binding; nothing is dropped, doubled or reordered, whatever pieces the bytes
arrive in. -/
theorem C133_transparent {P : Params} {cfg : List (List Char × Action)} (hb : Bindings.new cfg = .ok P.keys) {ls : List Label}
    {s : St} (h : Run P ls s) (hf : Input.NoFire Bindings.transition P.keys s.client.typed) :
    ∃ t, s.input = some t ∧ s.shell ++ t.part ++ s.up = s.client.sent ∧ s.client.sent <+: s.client.typed ∧
      (s.client.sockFailed = false → s.client.sent = s.client.typed) ∧
      (t.part ≠ [] → ∃ src a codes, (src, a) ∈ cfg ∧ Spells src codes ∧ t.part <+: codes ∧ t.part ≠ codes) := by
  obtain ⟨reads, e1, e2, e3, e4⟩ := run_typed h
  obtain ⟨s1, s2⟩ := sent_typed h
  have hf : Input.NoFire Bindings.transition P.keys reads.flatten :=
    noFire_prefix ((show reads.flatten <+: s.client.sent from ⟨s.up, e2⟩).trans s1) hf
  obtain ⟨t, w, r1, r2, r3⟩ := Input.C14_transparent cfg P.keys hb (List.replicate S2C.bufSize 0) reads (by simpa using e1) hf
  cases hin : s.input with
  | none => rw [e4 hin] at r1; cases r1
  | some t' =>
    rw [e3 t' hin] at r1
    obtain ⟨rfl, rfl⟩ := Input.Outcome.running.inj r1
    exact ⟨t', rfl, by rw [r2, e2], s1, s2, r3⟩

/-- **C133**, in terms of the bytes alone: the condition is that the byte sequence of no configured binding occurs in what is typed. -/
theorem C133_absent {P : Params} {cfg : List (List Char × Action)} (hb : Bindings.new cfg = .ok P.keys) {ls : List Label}
    {s : St} (h : Run P ls s) (ha : Input.Absent cfg (fun _ => True) s.client.typed) :
    ∃ t, s.input = some t ∧ s.shell ++ t.part ++ s.up = s.client.sent ∧ s.client.sent <+: s.client.typed ∧
      (s.client.sockFailed = false → s.client.sent = s.client.typed) ∧
      (t.part ≠ [] → ∃ src a codes, (src, a) ∈ cfg ∧ Spells src codes ∧ t.part <+: codes ∧ t.part ≠ codes) :=
  C133_transparent hb h (Input.noFire_of_absent hb ha)

/-- **C133**: the shell never gets anything from the client but what was typed, in the order in which it was typed. -/
theorem C133_only_typed {P : Params} {ls : List Label} {s : St} (h : Run P ls s) : s.shell.Sublist s.client.typed := by
  obtain ⟨reads, e1, e2, e3, e4⟩ := run_typed h
  obtain ⟨s1, s2⟩ := sent_typed h
  obtain ⟨w, h1, -, h2⟩ := Input.C17_no_panic P.keys (List.replicate S2C.bufSize 0) reads (by simpa using e1)
  have hw : w = s.shell := by
    cases hin : s.input with
    | none => rw [e4 hin] at h2; rcases h2 with ⟨t, h2⟩ | h2 <;> cases h2; rfl
    | some t' => rw [e3 t' hin] at h2; rcases h2 with ⟨t, h2⟩ | h2 <;> cases h2; rfl
  subst hw
  exact h1.trans (((show reads.flatten <+: s.client.sent from ⟨s.up, e2⟩).trans s1).sublist)

/-- **C133**: typing does not detach the client unless a detach binding is in it. -/
theorem C133_no_detach {P : Params} {ls : List Label} {s : St} (h : Run P ls s)
    (hf : Input.NoDetach Bindings.transition P.keys s.client.typed) : s.input.isSome := by
  obtain ⟨reads, e1, e2, e3, e4⟩ := run_typed h
  obtain ⟨s1, s2⟩ := sent_typed h
  have hf : Input.NoDetach Bindings.transition P.keys reads.flatten :=
    noDetach_prefix ((show reads.flatten <+: s.client.sent from ⟨s.up, e2⟩).trans s1) hf
  obtain ⟨t1, w1, a1, -⟩ := Input.runReads_running (W := []) (G := False) (id := Input.Ideal.start P.keys)
    (Input.Thread.start P.keys (List.replicate S2C.bufSize 0)) reads (by simpa [Input.Thread.start] using e1) rfl rfl
    (List.Sublist.refl _) nofun hf nofun
  cases hin : s.input with
  | none => rw [e4 hin] at a1; cases a1
  | some t' => rfl

/-- **C133**, in terms of the bytes alone: without the byte sequence of a detach binding in what is typed the client stays attached. -/
theorem C133_no_detach_absent {P : Params} {cfg : List (List Char × Action)} (hb : Bindings.new cfg = .ok P.keys) {ls : List Label}
    {s : St} (h : Run P ls s) (ha : Input.Absent cfg (fun a => a = .detach) s.client.typed) : s.input.isSome :=
  C133_no_detach h (Input.noDetach_of_absent hb ha)

/-- A step of the thread that reads the client's input. -/
def ofInput : Label → Bool
  | .read _ => true
  | _ => false

/-- **C133**: everything sent arrives.  From every moment, steps of the input thread alone lead to everything having been read, unless
a detach binding fires. -/
theorem C133_arrives {P : Params} {ls : List Label} {s : St} (h : Run P ls s) :
    ∃ ls' s', runSteps (step P) s ls' = some s' ∧ (∀ l ∈ ls', ofInput l = true) ∧ s'.client = s.client ∧
      (s'.input = none ∨ s'.up = []) := by
  generalize hn : s.up.length = n
  induction n generalizing ls s with
  | zero => exact ⟨[], s, rfl, by simp, rfl, .inr (List.length_eq_zero_iff.mp hn)⟩
  | succ n ih =>
    cases hin : s.input with
    | none => exact ⟨[], s, rfl, by simp, rfl, .inl hin⟩
    | some t =>
      obtain ⟨s', hs', hc', hu'⟩ : ∃ s', step P s (.read 1) = some s' ∧ s'.client = s.client ∧ s'.up.length = n := by
        obtain ⟨reads, e1, e2, e3, e4⟩ := run_typed h
        have hlr : Input.LegalReads S2C.bufSize (reads ++ [s.up.take 1]) := by
          intro c hc
          rcases List.mem_append.mp hc with hc | hc
          · exact e1 c hc
          · simp only [List.mem_singleton] at hc
            subst hc
            refine ⟨?_, ?_⟩
            · intro he
              have := congrArg List.length he
              simp [hn] at this
            · have : S2C.bufSize = 16384 := rfl
              simp only [List.length_take]; omega
        obtain ⟨w, -, -, h2⟩ := Input.C17_no_panic P.keys (List.replicate S2C.bufSize 0) (reads ++ [s.up.take 1]) (by simpa using hlr)
        rw [runReads_snoc (e3 t hin)] at h2
        have hcond : 0 < 1 ∧ 1 ≤ S2C.bufSize ∧ 1 ≤ s.up.length := ⟨by decide, by decide, by omega⟩
        simp only [step, readStep, if_pos hcond, hin]
        cases hpr : Input.processRead Bindings.transition t (s.up.take 1) with
        | running t' w' => exact ⟨_, rfl, rfl, by simp [hn]⟩
        | detached w' => exact ⟨_, rfl, rfl, by simp [hn]⟩
        | panicked => rw [hpr] at h2; rcases h2 with ⟨_, h2⟩ | h2 <;> cases h2
      have hrun : Run P (ls ++ [.read 1]) s' := by
        unfold Run; rw [Shpool.run_append, h]; simp [runSteps, hs']
      obtain ⟨ls', s'', g1, g2, g3, g4⟩ := ih hrun hu'
      refine ⟨.read 1 :: ls', s'', ?_, ?_, g3.trans hc', g4⟩
      · simp only [runSteps, hs']; exact g1
      · intro l hl
        rcases List.mem_cons.mp hl with rfl | hl
        · rfl
        · exact g2 l hl

/-- **C133**: so without bindings all that was sent reaches the shell, up to the beginning of a binding. -/
theorem C133_delivered {P : Params} {cfg : List (List Char × Action)} (hb : Bindings.new cfg = .ok P.keys) {ls : List Label}
    {s : St} (h : Run P ls s) (hf : Input.NoFire Bindings.transition P.keys s.client.typed) :
    ∃ ls' s' t, runSteps (step P) s ls' = some s' ∧ (∀ l ∈ ls', ofInput l = true) ∧ s'.client = s.client ∧ s'.input = some t ∧
      s'.shell ++ t.part = s.client.sent := by
  obtain ⟨ls', s', g1, g2, g3, g4⟩ := C133_arrives h
  have hrun : Run P (ls ++ ls') s' := by unfold Run; rw [Shpool.run_append, h]; exact g1
  obtain ⟨t, k1, k2, -⟩ := C133_transparent hb hrun (by rw [g3]; exact hf)
  refine ⟨ls', s', t, g1, g2, g3, k1, ?_⟩
  rcases g4 with g4 | g4
  · rw [k1] at g4; cases g4
  · rw [g4, List.append_nil, g3] at k2; exact k2

/-! ## Examples -/

private def Pd : S2C.Params := { S2C.P0 with restore := fun _ => [1, 2] }

/-- The session before the client numbered 5 attaches: client 1 has it and has been sent "hi". -/
private def before : List Label :=
  [.daemon (.initial (some (.new 1 S2C.z0))), .daemon (.shellWrite [104, 105]), .daemon (.select .default), .daemon .settle,
   .daemon (.poll (.read 2))]

private def attach : Label := .daemon (.select (.connection (some (.new 5 S2C.z0)) true 3))

/-- The shell prints "!" and the client prints what it is sent; its first frame comes in three pieces. -/
private def after : List Label :=
  [.daemon .settle, .daemon (.shellWrite [33]), .client .outCheck, .recv [[0, 2], [0, 0, 0, 1], [2]],
   .client (.outHandle false none false), .daemon (.poll (.read 1)), .client .outCheck, .recv [[0, 1, 0, 0, 0, 33]],
   .client (.outHandle false none false)]

/-- The hypotheses of C132_shows and C132_complete are met, and what is printed is the snapshot and "!". -/
example (b : Bindings) : (runSteps (step ⟨Pd, 5, b⟩) (init ⟨Pd, 5, b⟩) (before ++ [attach])).map (·.daemon.client) =
    some (some ⟨5, S2C.z0, .ok⟩) := by
  with_unfolding_all rfl
example (b : Bindings) : (runSteps (step ⟨Pd, 5, b⟩) (init ⟨Pd, 5, b⟩) (before ++ attach :: after)).map
    (fun s => (s.daemon.client, s.daemon.pc, s.down, s.client.out, s.client.stdout)) =
    some (some ⟨5, S2C.z0, .ok⟩, .select, [], .top, [1, 2, 33]) := by
  with_unfolding_all rfl
example (b : Bindings) : Short ⟨Pd, 5, b⟩ (before ++ attach :: after) := by
  refine ⟨trivial, ?_⟩
  intro l hl
  simp only [before, attach, after, List.cons_append, List.nil_append, List.mem_cons, Label.daemon.injEq, List.not_mem_nil, or_false,
    reduceCtorEq, false_or] at hl
  rcases hl with rfl | rfl | rfl | rfl | rfl | rfl | rfl | rfl | rfl <;> trivial

/-- A client that started the session, and the shell's exit status 7 being handled (C132_shows_written, C132_exit). -/
example (b : Bindings) : (runSteps (step ⟨Pd, 1, b⟩) (init ⟨Pd, 1, b⟩) (before ++
      [.daemon (.select (.connection (some (.disconnectExit 7)) true 0)),
      .client .outCheck, .recv [[0, 2, 0, 0, 0, 104, 105, 2, 7, 0, 0, 0]], .client (.outHandle false none false), .client .outCheck,
      .recv [[2], [7, 0, 0, 0]], .client (.outHandle false none false)])).map (fun s => (s.client.stdout, s.client.handled)) =
    some ([104, 105], [(⟨.data, [104, 105]⟩, false), (⟨.exitStatus, [7, 0, 0, 0]⟩, false)]) := by
  with_unfolding_all rfl

/-- Frames on their way that all fit (C132_arrives): client 1 has not read anything yet. -/
example (b : Bindings) : (runSteps (step ⟨Pd, 1, b⟩) (init ⟨Pd, 1, b⟩) before).map
    (fun s => (s.down, s.client.out, s.client.slot, S2C.framesTo s.daemon.out 1)) =
    some ([0, 2, 0, 0, 0, 104, 105], .top, none, [⟨.data, [104, 105]⟩]) := by
  with_unfolding_all rfl

/-- Typing "ls", newline and Ctrl-Space under the default bindings: no binding fires (C133_transparent), and Ctrl-Space is on its way. -/
example : ∃ b s, Bindings.new Keys.defaultCfg = .ok b ∧
    Run ⟨Pd, 1, b⟩ [.client .inCheck, .client (.inData [108, 115] none), .client .inCheck, .client (.inData [10, 0] none)] s ∧
    Input.NoFire Bindings.transition b s.client.typed ∧ s.client.typed = [108, 115, 10, 0] ∧ s.up = [108, 115, 10, 0] :=
  ⟨_, _, rfl, rfl, by
    refine ⟨?_, ?_, ?_, ?_, trivial⟩ <;>
      (intro a h; cases a <;> revert h <;> decide), rfl, rfl⟩

end Shpool.EndToEnd
