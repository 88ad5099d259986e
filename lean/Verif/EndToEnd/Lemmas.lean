import Verif.EndToEnd.Model
import Verif.S2C.Props
import Verif.Pipe.Props
import Verif.Input.Props
/-!
# Lemmas: a client and a daemon connected by a socket
-/

namespace Shpool.S2C
open Chunk (Chunk Kind)

/-- Delivered frames are only added. -/
theorem step_out_grows {P : Params} {s s' : St} {l : Label} (h : step P s l = some s') : ∃ x, s'.out = s.out ++ x := by
  cases step_eff P s s' l h <;> first | exact ⟨_, rfl⟩ | exact ⟨[], by simp⟩

/-- A frame fits the 32 bit length. -/
def LegalOut (out : List (Nat × Chunk)) : Prop := ∀ p ∈ out, Chunk.Legal p.2

/-- Texts from outside are shorter than 4 GiB. -/
def Short : Label → Prop
  | .select (.maybeSwitch (some p)) => p.length < 2 ^ 32
  | .setMotd (.text m) => m.length < 2 ^ 32
  | _ => True

/-- The message of the day is shorter than 4 GiB. -/
def ShortMotd : Motd → Prop
  | .text m => m.length < 2 ^ 32
  | _ => True

private theorem legal_toClient {out : List (Nat × Chunk)} {s : St} {f : Chunk} (h : LegalOut out) (hf : Chunk.Legal f) :
    LegalOut (out ++ toClient s f) := by
  intro p hp
  rcases List.mem_append.mp hp with hp | hp
  · exact h p hp
  · obtain ⟨c, -, rfl⟩ := mem_toC (cl := s.client) hp
    exact hf

private theorem legal_restore (P : Params) {s : St} (h : LegalOut s.out) : LegalOut (s.out ++ restoreOut P s) := by
  intro p hp
  rcases List.mem_append.mp hp with hp | hp
  · exact h p hp
  · unfold restoreOut at hp
    obtain ⟨b, hb, hp⟩ := List.mem_flatMap.mp hp
    obtain ⟨c, -, rfl⟩ := mem_toC (cl := s.client) hp
    exact (fits_data (chunks_length _ _ b hb).1).1

private theorem legal_data {b : List UInt8} (h : b.length < 2 ^ 32) : Chunk.Legal ⟨.data, b⟩ := ⟨(fun h => by cases h), h⟩

theorem step_legal (P : Params) (s s' : St) (l : Label) (hl : Short l) (hI : ShortMotd s.motd ∧ LegalOut s.out)
    (h : step P s l = some s') : ShortMotd s'.motd ∧ LegalOut s'.out := by
  obtain ⟨hm, hI⟩ := hI
  cases step_eff P s s' l h with
  | newFail => exact ⟨hm, legal_toClient hI (fits_exit _).1⟩
  | newPanic => exact ⟨hm, legal_toClient hI (fits_exit _).1⟩
  | newOk => exact ⟨hm, legal_toClient hI (fits_exit _).1⟩
  | discFail => exact ⟨hm, legal_toClient hI (fits_exit _).1⟩
  | discOk => exact ⟨hm, legal_toClient hI (fits_exit _).1⟩
  | dexitFail => exact ⟨hm, legal_toClient hI (fits_exit _).1⟩
  | dexitOk => exact ⟨hm, legal_toClient hI (fits_exit _).1⟩
  | heartbeatOk => exact ⟨hm, legal_toClient hI ⟨(fun h => by cases h), by simp⟩⟩
  | switchOk p => exact ⟨hm, legal_toClient hI ⟨(fun h => by cases h), hl⟩⟩
  | settleLate r =>
    cases r
    · exact ⟨hm, by simpa using hI⟩
    · exact ⟨hm, legal_restore P hI⟩
  | settleDue r =>
    cases r
    · exact ⟨hm, by simpa using hI⟩
    · exact ⟨hm, legal_restore P hI⟩
  | hangup st =>
    cases st
    · exact ⟨hm, by simpa using hI⟩
    · exact ⟨hm, legal_toClient hI (fits_exit _).1⟩
  | relay n f v c _ _ _ hn _ hf =>
    have hv : v.length < 2 ^ 32 := by
      have := read_length hf
      simp only [List.length_take] at this
      unfold bufSize at hn
      omega
    refine ⟨hm, ?_⟩
    dsimp only
    rw [← List.append_assoc]
    refine legal_toClient ?_ (legal_data hv)
    unfold motdOut
    split
    · next mo hmo => rw [hmo] at hm; exact legal_toClient hI (legal_data hm)
    · simpa using hI
  | setMotd m =>
    refine ⟨?_, hI⟩
    cases m with
    | text t => exact hl
    | _ => trivial
  | _ => exact ⟨hm, hI⟩

theorem dataTo_eq_of_other {out x : List (Nat × Chunk)} {id : Nat} (h : ∀ p ∈ x, p.1 ≠ id) :
    dataTo (out ++ x) id = dataTo out id := by
  rw [dataTo_append]
  have : framesTo x id = [] := by
    unfold framesTo
    rw [List.map_eq_nil_iff, List.filter_eq_nil_iff]
    intro p hp
    simpa using h p hp
  simp [dataTo, this]

/-- Data reaches a connection only in a step that leaves it attached and working. -/
theorem step_data {P : Params} {s s' : St} {l : Label} {id : Nat} (h : step P s l = some s')
    (hne : dataTo s'.out id ≠ dataTo s.out id) :
    ∃ c, s'.client = some c ∧ s.client = some c ∧ c.id = id ∧ c.health = .ok := by
  have key : ∀ (f : Chunk), dataTo (s.out ++ toClient s f) id ≠ dataTo s.out id →
      ∃ c, s.client = some c ∧ c.id = id ∧ c.health = .ok := by
    intro f hf
    cases hc : s.client with
    | none => simp [toClient, hc] at hf
    | some c =>
      refine ⟨c, rfl, ?_⟩
      rw [toClient_toC, hc, dataTo_append, dataTo_toC] at hf
      by_cases h1 : c.id = id <;> by_cases h2 : c.health = .ok <;> simp_all
  have hex : ∀ st : UInt32, dataTo (s.out ++ toClient s (exitFrame st)) id = dataTo s.out id := fun st => noData (by simp [exitFrame])
  have hre : ∀ s1 : St, s1.out = s.out ++ restoreOut P s → s1.client = s.client → dataTo s1.out id ≠ dataTo s.out id →
      ∃ c, s1.client = some c ∧ s.client = some c ∧ c.id = id ∧ c.health = .ok := by
    intro s1 h1 h2 h3
    rw [h1] at h3
    cases hc : s.client with
    | none =>
      exfalso; apply h3
      apply dataTo_eq_of_other
      intro p hp
      unfold restoreOut at hp
      obtain ⟨b, -, hp⟩ := List.mem_flatMap.mp hp
      unfold toClient at hp
      rw [hc] at hp
      cases hp
    | some c =>
      refine ⟨c, by rw [h2, hc], rfl, ?_⟩
      by_cases ha : c.id = id ∧ c.health = .ok
      · exact ha
      · exfalso
        apply h3
        apply dataTo_eq_of_other
        intro p hp
        unfold restoreOut at hp
        obtain ⟨b, -, hp⟩ := List.mem_flatMap.mp hp
        unfold toClient at hp
        rw [hc] at hp
        dsimp only at hp
        split at hp
        · rename_i hok
          simp only [List.mem_singleton] at hp
          subst hp
          exact fun hi => ha ⟨hi, hok⟩
        · cases hp
  cases step_eff P s s' l h with
  | newFail => exact absurd (hex _) hne
  | newPanic => exact absurd (hex _) hne
  | newOk => exact absurd (hex _) hne
  | discFail => exact absurd (hex _) hne
  | discOk => exact absurd (hex _) hne
  | dexitFail => exact absurd (hex _) hne
  | dexitOk => exact absurd (hex _) hne
  | hangup st =>
    cases st
    · simp at hne
    · exact absurd (hex _) hne
  | heartbeatOk => exact absurd (noData (by simp)) hne
  | switchOk => exact absurd (noData (by simp)) hne
  | settleLate r =>
    cases r
    · simp at hne
    · exact hre _ rfl rfl hne
  | settleDue r =>
    cases r
    · simp at hne
    · exact hre _ rfl rfl hne
  | relay n f v c _ _ _ _ _ _ hc hh =>
    refine ⟨c, hc, hc, ?_, hh⟩
    apply Decidable.byContradiction
    intro hi
    apply hne
    apply dataTo_eq_of_other
    intro p hp
    have hto : ∀ g, p ∈ toClient s g → p.1 ≠ id := by
      intro g hg
      unfold toClient at hg
      rw [hc] at hg
      simp only [hh, if_true, List.mem_singleton] at hg
      subst hg
      exact hi
    rcases List.mem_append.mp hp with hp | hp
    · unfold motdOut at hp
      split at hp
      · exact hto _ hp
      · cases hp
    · exact hto _ hp
  | _ => exact absurd rfl hne

/-- The restore engine's history only grows. -/
theorem step_spool_grows {P : Params} {s s' : St} {l : Label} (h : step P s l = some s') : ∃ x, s'.spool = s.spool ++ x := by
  cases step_eff P s s' l h <;> first | exact ⟨_, rfl⟩ | exact ⟨[], by simp⟩

/-- Whatever happens to a connection: what it was sent since a moment at which it was attached (and had its snapshot) is the message
of the day, if it was due, followed by a beginning of the text shown since. -/
structure Ever (s0 : St) (id : Nat) (ls : List Label) (s : St) : Prop where
  relay : Relay s0 id ls s
  ever : ∃ ops rest m, s.spool = s0.spool ++ ops ++ rest ∧ dataTo s.out id = dataTo s0.out id ++ m ++ processed ops ∧
    (s0.needsMotd = false → m = []) ∧ (m ≠ [] → ∃ mo, (mo = s0.motd ∨ .setMotd mo ∈ ls) ∧ m = motdText mo)

theorem ever_step {P : Params} {s0 s s' : St} {id : Nat} {ls : List Label} {l : Label} (hI : Ever s0 id ls s)
    (hs : step P s l = some s') : Ever s0 id (ls ++ [l]) s' := by
  have hR := step_relay P s0 id ls s l s' hI.relay hs
  refine ⟨hR, ?_⟩
  by_cases hd : dataTo s'.out id = dataTo s.out id
  · obtain ⟨ops, rest, m, e1, e2, e3, e4⟩ := hI.ever
    obtain ⟨x, hx⟩ := step_spool_grows hs
    refine ⟨ops, rest ++ x, m, by rw [hx, e1]; simp, by rw [hd, e2], e3, fun hm => ?_⟩
    obtain ⟨mo, h1, h2⟩ := e4 hm
    exact ⟨mo, h1.imp_right (List.mem_append_left _), h2⟩
  · obtain ⟨c', h1, -, h3, h4⟩ := step_data hs hd
    obtain ⟨-, -, ops, m, e1, e2, e3, e4, e5⟩ := hR.rel c' h1 h3 h4
    refine ⟨ops, [], m, by simpa using e1, e2, fun h => (e3 h).2, fun hm => ?_⟩
    cases h0 : s0.needsMotd with
    | false => exact absurd (e3 h0).2 hm
    | true =>
      cases h1 : s'.needsMotd with
      | true => exact absurd (e4 h0 h1).1 hm
      | false =>
        obtain ⟨mo, h1, -, h2⟩ := e5 h0 h1
        exact ⟨mo, h1, h2⟩

theorem run_ever {P : Params} {s0 s : St} {c : Conn} {ls : List Label} (hc : s0.client = some c) (hu : c.id ∈ s0.used)
    (hpc : s0.pc ≠ .settle true ∧ s0.pc ≠ .waitInitial) (h : runSteps (step P) s0 ls = some s) : Ever s0 c.id ls s := by
  exact run_hist (I := Ever s0 c.id) (fun ls s l s' hI hs => ever_step hI hs)
    ⟨run_relay (P := P) (ls := []) hc hu hpc rfl, [], [], [], by simp, by simp [processed], fun _ => rfl, fun h => absurd rfl h⟩ h

end Shpool.S2C

namespace Shpool.EndToEnd
open Chunk (Chunk Kind)
open Keys (Bindings)

/-- The steps of the shell-to-client thread in a run. -/
def daemonPart (ls : List Label) : List S2C.Label :=
  ls.filterMap fun l => match l with
    | .daemon l => some l
    | _ => none

theorem daemonStep_some {P : Params} {s s' : St} {l : S2C.Label} (h : daemonStep P s l = some s') :
    ∃ d bytes, S2C.step P.daemon s.daemon l = some d ∧ Chunk.writeAll (added P.id s.daemon d) = .ok bytes ∧
      s' = { s with daemon := d, down := s.down ++ bytes } := by
  unfold daemonStep at h
  split at h
  · cases h
  · rename_i d hd
    split at h
    · cases h
    · rename_i bytes hb
      cases h
      exact ⟨d, bytes, hd, hb, rfl⟩

theorem clientStep_some {s s' : St} {l : Pipe.Label} (h : clientStep s l = some s') :
    (∀ f, l ≠ .outRecv f) ∧ ∃ c, Pipe.step s.client l = some c ∧
      s' = { s with client := c, up := s.up ++ c.sent.drop s.client.sent.length } := by
  unfold clientStep at h
  have go : ∀ x, (match Pipe.step s.client l with
      | none => none
      | some c => some { s with client := c, up := s.up ++ c.sent.drop s.client.sent.length }) = some x →
      ∃ c, Pipe.step s.client l = some c ∧ x = { s with client := c, up := s.up ++ c.sent.drop s.client.sent.length } := by
    intro x hx
    split at hx
    · cases hx
    · rename_i c hc; cases hx; exact ⟨c, hc, rfl⟩
  dsimp only at h
  split at h
  · cases h
  · split at h
    · cases h
    · exact ⟨nofun, go _ h⟩
  · rename_i hn _
    exact ⟨hn, go _ h⟩

theorem recvStep_some {s s' : St} {segs : List (List UInt8)} (h : recvStep s segs = some s') :
    ∃ f rest c, Chunk.readInto Chunk.flat S2C.bufSize s.down = .ok (f, rest) ∧ Pipe.step s.client (.outRecv f) = some c ∧
      s' = { s with client := c, down := rest } := by
  unfold recvStep at h
  split at h
  · rename_i hseg
    split at h
    · cases h
    · rename_i f rest hr
      split at h
      · cases h
      · rename_i c hc
        cases h
        refine ⟨f, rest.flatten, c, ?_, hc, rfl⟩
        rw [← hseg, ← Chunk.readInto_seg, hr]
        rfl
  · cases h

theorem readStep_some {s s' : St} {n : Nat} (h : readStep s n = some s') :
    0 < n ∧ n ≤ S2C.bufSize ∧ n ≤ s.up.length ∧ ∃ t, s.input = some t ∧
      ((∃ t' w, Input.processRead Bindings.transition t (s.up.take n) = .running t' w ∧
          s' = { s with input := some t', up := s.up.drop n, shell := s.shell ++ w }) ∨
       (∃ w, Input.processRead Bindings.transition t (s.up.take n) = .detached w ∧
          s' = { s with input := none, up := s.up.drop n, shell := s.shell ++ w })) := by
  unfold readStep at h
  split at h
  · rename_i hn
    refine ⟨hn.1, hn.2.1, hn.2.2, ?_⟩
    split at h
    · cases h
    · rename_i t ht
      refine ⟨t, ht, ?_⟩
      split at h
      · rename_i t' w hp; cases h; exact .inl ⟨t', w, hp, rfl⟩
      · rename_i w hp; cases h; exact .inr ⟨w, hp, rfl⟩
      · cases h
  · cases h

/-! ## Projections -/

theorem daemon_of_run {P : Params} {ls : List Label} {s0 s : St} (h : runSteps (step P) s0 ls = some s) :
    runSteps (S2C.step P.daemon) s0.daemon (daemonPart ls) = some s.daemon := by
  refine run_hist (I := fun (ls : List Label) (s : St) => runSteps (S2C.step P.daemon) s0.daemon (daemonPart ls) = some s.daemon)
    (fun ls s l s' hI hs => ?_) rfl h
  cases l with
  | daemon l =>
    obtain ⟨d, bytes, h1, -, rfl⟩ := daemonStep_some hs
    unfold daemonPart at hI ⊢
    rw [List.filterMap_append, Shpool.run_append, hI]
    simp [runSteps, h1]
  | client l =>
    obtain ⟨-, c, -, rfl⟩ := clientStep_some hs
    simpa [daemonPart] using hI
  | recv segs =>
    obtain ⟨f, rest, c, -, -, rfl⟩ := recvStep_some hs
    simpa [daemonPart] using hI
  | read n =>
    obtain ⟨-, -, -, t, -, h⟩ := readStep_some hs
    rcases h with ⟨t', w, -, rfl⟩ | ⟨w, -, rfl⟩ <;> simpa [daemonPart] using hI

theorem run_daemon {P : Params} {ls : List Label} {s : St} (h : Run P ls s) :
    S2C.Run P.daemon (daemonPart ls) s.daemon := daemon_of_run h

theorem run_client {P : Params} {ls : List Label} {s : St} (h : Run P ls s) : ∃ pls, Pipe.Run pls s.client := by
  refine run_inv (I := fun s : St => ∃ pls, Pipe.Run pls s.client) (fun s l s' hI hs => ?_)
    (show ∃ pls, Pipe.Run pls (init P).client from ⟨[], rfl⟩) h
  obtain ⟨pls, hI⟩ := hI
  have key : ∀ l c, Pipe.step s.client l = some c → ∃ pls, Pipe.Run pls c := by
    intro l c hc
    refine ⟨pls ++ [l], ?_⟩
    show runSteps _ _ _ = _
    rw [Shpool.run_append, show runSteps _ _ _ = _ from hI]
    simp [runSteps, hc]
  cases l with
  | daemon l => obtain ⟨d, bytes, h1, -, rfl⟩ := daemonStep_some hs; exact ⟨pls, hI⟩
  | client l => obtain ⟨-, c, hc, rfl⟩ := clientStep_some hs; exact key _ _ hc
  | recv segs => obtain ⟨f, rest, c, -, hc, rfl⟩ := recvStep_some hs; exact key _ _ hc
  | read n =>
    obtain ⟨-, -, -, t, -, h⟩ := readStep_some hs
    rcases h with ⟨t', w, -, rfl⟩ | ⟨w, -, rfl⟩ <;> exact ⟨pls, hI⟩

/-! ## Frames on their way -/

/-- The frame the client is at. -/
def current (c : Pipe.St) : List Chunk :=
  match c.out with
  | .got f => [f]
  | _ => []

/-- How the frames delivered by the daemon, those handled by the client and the bytes on their way hang together. -/
structure Wire (P : Params) (s : St) : Prop where
  split : ∃ mid fl, S2C.framesTo s.daemon.out P.id = s.client.handled.map (·.1) ++ mid ++ fl ∧
    Chunk.writeAll fl = .ok s.down ∧
    (s.client.out ≠ .finished → mid = current s.client) ∧
    (∀ f, s.client.stdoutFailed = some f → ∃ tl, mid = f :: tl) ∧
    (s.client.out = .finished → s.client.stdoutFailed = none → mid.flatMap S2C.Data = [])
  failed : s.client.stdoutFailed ≠ none → s.client.out = .finished

theorem writeAll_append {a b : List Chunk} {x y : List UInt8} (ha : Chunk.writeAll a = .ok x) (hb : Chunk.writeAll b = .ok y) :
    Chunk.writeAll (a ++ b) = .ok (x ++ y) := by
  induction a generalizing x with
  | nil => cases ha; simpa using hb
  | cons c cs ih =>
    simp only [Chunk.writeAll] at ha
    cases h1 : Chunk.writeTo c with
    | error e => rw [h1] at ha; cases ha
    | ok bs =>
      rw [h1] at ha
      cases h2 : Chunk.writeAll cs with
      | error e => rw [h2] at ha; cases ha
      | ok rest =>
        rw [h2] at ha
        cases ha
        simp [Chunk.writeAll, h1, ih h2]

theorem framesTo_added {P : Params} {s : St} {d : S2C.St} {l : S2C.Label} (h : S2C.step P.daemon s.daemon l = some d) :
    S2C.framesTo d.out P.id = S2C.framesTo s.daemon.out P.id ++ added P.id s.daemon d := by
  obtain ⟨x, hx⟩ := S2C.step_out_grows h
  rw [hx, S2C.framesTo_append]
  congr 1
  simp [added, hx, S2C.framesTo]

/-- What decoding a stream of legal frames yields is its first frame. -/
theorem readInto_writeAll {fl : List Chunk} {down rest : List UInt8} {f : Chunk} {cap : Nat} (hl : ∀ g ∈ fl, Chunk.Legal g)
    (hw : Chunk.writeAll fl = .ok down) (hr : Chunk.readInto Chunk.flat cap down = .ok (f, rest)) :
    ∃ fl', fl = f :: fl' ∧ Chunk.writeAll fl' = .ok rest := by
  obtain ⟨hf, -, bs, hbs, hd⟩ := Chunk.readInto_flat_ok hr
  cases fl with
  | nil =>
    cases hw
    obtain ⟨t, rfl⟩ := Chunk.writeTo_cons f bs hbs
    cases hd
  | cons g fl =>
    simp only [Chunk.writeAll] at hw
    obtain ⟨bg, hbg, -⟩ := Chunk.writeTo_legal g (hl g (by simp))
    rw [hbg] at hw
    cases h2 : Chunk.writeAll fl with
    | error e => rw [h2] at hw; cases hw
    | ok r =>
      rw [h2] at hw
      have hw : bg ++ r = bs ++ rest := by rw [← hd]; exact Except.ok.inj hw
      have hfg : g = f := by
        rcases List.prefix_or_prefix_of_prefix (l₁ := bg) (l₂ := bs) (l₃ := bg ++ r) ⟨r, rfl⟩ ⟨rest, hw.symm⟩ with hp | hp
        · exact Chunk.C04_prefix_free g f bg bs (hl g (by simp)) hf hbg hbs hp
        · exact (Chunk.C04_prefix_free f g bs bg hf (hl g (by simp)) hbs hbg hp).symm
      subst hfg
      rw [hbg] at hbs
      cases hbs
      exact ⟨fl, rfl, by rw [h2, List.append_cancel_left hw]⟩

/-- What a step of the client other than reading a frame does to the frames. -/
theorem pipe_view {c c' : Pipe.St} {l : Pipe.Label} (h : Pipe.step c l = some c') (hl : ∀ f, l ≠ .outRecv f) :
    (c'.handled = c.handled ∧ c'.stdoutFailed = c.stdoutFailed ∧
      (c'.out = c.out ∨ (current c = [] ∧ current c' = [] ∧ c.out ≠ .finished))) ∨
    (∃ f a, c.out = .got f ∧ c'.handled = c.handled ++ [(f, a)] ∧ c'.out = .top ∧ c'.stdoutFailed = c.stdoutFailed) ∨
    (∃ f, c.out = .got f ∧ c'.handled = c.handled ∧ c'.out = .finished ∧
      (c'.stdoutFailed = some f ∨ (c'.stdoutFailed = c.stdoutFailed ∧ f.kind ≠ .data))) := by
  cases l <;> simp only [Pipe.step] at h
  case outRecv f => exact absurd rfl (hl f)
  case outHandle accept written bad =>
    split at h
    · rename_i f ho
      cases h
      right
      simp only [Pipe.handle]
      cases hk : f.kind <;> simp only
      · cases written <;> simp only
        · exact .inl ⟨f, accept, ho, by simp⟩
        · exact .inr ⟨f, ho, by simp⟩
      · exact .inl ⟨f, accept, ho, by simp⟩
      · split
        · exact .inr ⟨f, ho, by simp [hk]⟩
        · exact .inl ⟨f, accept, ho, by simp⟩
      · split
        · exact .inr ⟨f, ho, by simp [hk]⟩
        · split <;> exact .inl ⟨f, accept, ho, by simp⟩
    · cases h
  case outCheck =>
    split at h
    · rename_i ho
      cases h
      refine .inl ⟨rfl, rfl, .inr ⟨by simp [current, ho], ?_, by simp [ho]⟩⟩
      unfold current
      dsimp only
      cases c.slot <;> simp
    · cases h
  case outTimeout | outError =>
    split at h
    · rename_i ho
      cases h
      exact .inl ⟨rfl, rfl, .inr ⟨by simp [current, ho], by simp [current], by simp [ho]⟩⟩
    · cases h
  case inData b acc =>
    split at h
    · split at h <;> (cases h; exact .inl ⟨rfl, rfl, .inl rfl⟩)
    · cases h
  case wait2End t =>
    split at h
    · split at h
      · cases h; exact .inl ⟨rfl, rfl, .inl rfl⟩
      · split at h
        · cases h; exact .inl ⟨rfl, rfl, .inl rfl⟩
        · cases h
    · cases h
  all_goals (split at h <;> cases h; exact .inl ⟨rfl, rfl, .inl rfl⟩)

theorem step_wire (P : Params) (s : St) (l : Label) (s' : St) (hleg : S2C.LegalOut s.daemon.out) (hI : Wire P s)
    (hs : step P s l = some s') : Wire P s' := by
  obtain ⟨⟨mid, fl, e1, e2, e3, e4, e5⟩, e6⟩ := hI
  cases l with
  | daemon l =>
    obtain ⟨d, bytes, h1, h2, rfl⟩ := daemonStep_some hs
    refine ⟨⟨mid, fl ++ added P.id s.daemon d, ?_, writeAll_append e2 h2, e3, e4, e5⟩, e6⟩
    show S2C.framesTo d.out P.id = _
    rw [framesTo_added h1, e1]
    simp
  | client l =>
    obtain ⟨hl, c, hc, rfl⟩ := clientStep_some hs
    rcases pipe_view hc hl with ⟨h1, h2, h3⟩ | ⟨f, a, h0, h1, h2, h3⟩ | ⟨f, h0, h1, h2, h3⟩
    · refine ⟨⟨mid, fl, by simpa [h1] using e1, e2, ?_, by simpa [h2] using e4, ?_⟩, ?_⟩
      · intro hf
        dsimp only at hf ⊢
        rcases h3 with h3 | ⟨h3, h4, h5⟩
        · rw [e3 (h3 ▸ hf)]; unfold current; rw [h3]
        · rw [e3 h5, h3, h4]
      · intro hf hn
        dsimp only at hf hn
        rcases h3 with h3 | ⟨h3, h4, h5⟩
        · exact e5 (h3 ▸ hf) (h2 ▸ hn)
        · rw [e3 h5, h3]; rfl
      · intro hf
        dsimp only at hf ⊢
        rcases h3 with h3 | ⟨h3, h4, h5⟩
        · rw [h3]; exact e6 (h2 ▸ hf)
        · exact absurd (e6 (h2 ▸ hf)) h5
    · have hm : mid = [f] := by rw [e3 (by simp [h0])]; simp [current, h0]
      subst hm
      have hnf : s.client.stdoutFailed = none := by
        apply Decidable.byContradiction
        intro hn
        have := e6 hn
        rw [h0] at this; cases this
      refine ⟨⟨[], fl, by simpa [h1] using e1, e2, ?_, ?_, ?_⟩, ?_⟩
      · intro _; simp [current, h2]
      · intro g hg; dsimp only at hg; rw [h3, hnf] at hg; cases hg
      · intro _ _; rfl
      · intro hg; dsimp only at hg; rw [h3] at hg; exact absurd hnf hg
    · have hm : mid = [f] := by rw [e3 (by simp [h0])]; simp [current, h0]
      subst hm
      have hnf : s.client.stdoutFailed = none := by
        apply Decidable.byContradiction
        intro hn
        have := e6 hn
        rw [h0] at this; cases this
      refine ⟨⟨[f], fl, by simpa [h1] using e1, e2, ?_, ?_, ?_⟩, fun _ => h2⟩
      · intro hf; exact absurd h2 hf
      · intro g hg
        dsimp only at hg
        rcases h3 with h3 | ⟨h3, -⟩
        · rw [h3] at hg; cases hg; exact ⟨[], rfl⟩
        · rw [h3, hnf] at hg; cases hg
      · intro _ hg
        dsimp only at hg
        rcases h3 with h3 | ⟨h3, hk⟩
        · rw [h3] at hg; cases hg
        · simp [S2C.Data, hk]
  | recv segs =>
    obtain ⟨f, rest, c, h1, h2, rfl⟩ := recvStep_some hs
    have hfl : ∀ g ∈ fl, Chunk.Legal g := by
      intro g hg
      have : g ∈ S2C.framesTo s.daemon.out P.id := by rw [e1]; simp [hg]
      unfold S2C.framesTo at this
      obtain ⟨p, hp, rfl⟩ := List.mem_map.mp this
      exact hleg p (List.mem_filter.mp hp).1
    obtain ⟨fl', rfl, h3⟩ := readInto_writeAll hfl e2 h1
    simp only [Pipe.step] at h2
    split at h2
    · rename_i ho
      cases h2
      have hm : mid = [] := by rw [e3 (by simp [ho])]; simp [current, ho]
      subst hm
      have hnf : s.client.stdoutFailed = none := by
        apply Decidable.byContradiction
        intro hn
        have := e6 hn
        rw [ho] at this; cases this
      refine ⟨⟨[f], fl', by simpa using e1, h3, fun _ => rfl, ?_, nofun⟩, ?_⟩
      · intro g hg; dsimp only at hg; rw [hnf] at hg; cases hg
      · intro hg; exact absurd hnf hg
    · cases h2
  | read n =>
    obtain ⟨-, -, -, t, -, h⟩ := readStep_some hs
    rcases h with ⟨t', w, -, rfl⟩ | ⟨w, -, rfl⟩ <;> exact ⟨⟨mid, fl, e1, e2, e3, e4, e5⟩, e6⟩

/-- Texts from outside are shorter than 4 GiB. -/
def Short (P : Params) (ls : List Label) : Prop :=
  S2C.ShortMotd P.daemon.motd ∧ ∀ l, .daemon l ∈ ls → S2C.Short l

theorem run_wire {P : Params} {ls : List Label} {s : St} (hsh : Short P ls) (h : Run P ls s) :
    Wire P s ∧ S2C.LegalOut s.daemon.out := by
  have := run_hist (I := fun (ls : List Label) (s : St) => (∀ l, .daemon l ∈ ls → S2C.Short l) →
      Wire P s ∧ S2C.ShortMotd s.daemon.motd ∧ S2C.LegalOut s.daemon.out)
    (fun ls s l s' hI hs hall => ?_) (fun _ => ⟨⟨⟨[], [], rfl, rfl, fun _ => rfl, (fun _ h => by cases h), (fun h => by cases h)⟩, fun h => absurd rfl h⟩, hsh.1,
      (fun _ h => by cases h)⟩) h hsh.2
  · exact ⟨this.1, this.2.2⟩
  · obtain ⟨h1, h2, h3⟩ := hI (fun l hl => hall l (by simp [hl]))
    refine ⟨step_wire P s l s' h3 h1 hs, ?_⟩
    cases l with
    | daemon l =>
      obtain ⟨d, bytes, hd, -, rfl⟩ := daemonStep_some hs
      exact S2C.step_legal P.daemon _ _ l (hall l (by simp)) ⟨h2, h3⟩ hd
    | client l => obtain ⟨-, c, hc, rfl⟩ := clientStep_some hs; exact ⟨h2, h3⟩
    | recv segs => obtain ⟨f, rest, c, -, hc, rfl⟩ := recvStep_some hs; exact ⟨h2, h3⟩
    | read n =>
      obtain ⟨-, -, -, t, -, h⟩ := readStep_some hs
      rcases h with ⟨t', w, -, rfl⟩ | ⟨w, -, rfl⟩ <;> exact ⟨h2, h3⟩

theorem printed_data (fs : List (Chunk × Bool)) : Pipe.printed fs = (fs.map (·.1)).flatMap S2C.Data := by
  unfold Pipe.printed
  rw [List.flatMap_def, List.map_map]
  rfl

/-! ## Input -/

/-- What the input thread got and did. -/
structure Typed (P : Params) (s : St) : Prop where
  reads : ∃ reads, Input.LegalReads S2C.bufSize reads ∧ reads.flatten ++ s.up = s.client.sent ∧
    (∀ t, s.input = some t →
      Input.runReads Bindings.transition (Input.Thread.start P.keys (List.replicate S2C.bufSize 0)) [] reads = .running t s.shell) ∧
    (s.input = none →
      Input.runReads Bindings.transition (Input.Thread.start P.keys (List.replicate S2C.bufSize 0)) [] reads = .detached s.shell)

theorem sent_grows {c c' : Pipe.St} {l : Pipe.Label} (h : Pipe.step c l = some c') : ∃ x, c'.sent = c.sent ++ x := by
  cases l <;> simp only [Pipe.step] at h
  case outHandle accept written bad =>
    split at h
    · rename_i f ho
      cases h
      refine ⟨[], ?_⟩
      simp only [Pipe.handle]
      repeat' split
      all_goals simp
    · cases h
  case inData b acc =>
    split at h
    · split at h <;> (cases h; exact ⟨_, rfl⟩)
    · cases h
  case wait2End t =>
    split at h
    · split at h
      · cases h; exact ⟨[], by simp⟩
      · split at h
        · cases h; exact ⟨[], by simp⟩
        · cases h
    · cases h
  all_goals (split at h <;> cases h; exact ⟨[], by simp⟩)

theorem runReads_snoc {σ : Type} {tr : σ → UInt8 → σ × Keys.BindingResult} {t t1 : Input.Thread σ} {W W1 : List UInt8}
    {a : List (List UInt8)} {c : List UInt8} (h : Input.runReads tr t W a = .running t1 W1) :
    Input.runReads tr t W (a ++ [c]) = match Input.processRead tr t1 c with
      | .running t' w => .running t' (W1 ++ w)
      | .detached w => .detached (W1 ++ w)
      | .panicked => .panicked := by
  rw [Input.runReads_append t W a [c] t1 W1 h]
  simp only [Input.runReads]
  cases Input.processRead tr t1 c <;> rfl

theorem run_typed {P : Params} {ls : List Label} {s : St} (h : Run P ls s) : Typed P s := by
  refine run_inv (I := Typed P) (fun s l s' hI hs => ?_) ⟨[], (fun _ h => by cases h), rfl, fun t ht => by cases ht; rfl, (fun h => by cases h)⟩ h
  obtain ⟨reads, e1, e2, e3, e4⟩ := hI
  cases l with
  | daemon l => obtain ⟨d, bytes, h1, -, rfl⟩ := daemonStep_some hs; exact ⟨reads, e1, e2, e3, e4⟩
  | client l =>
    obtain ⟨-, c, hc, rfl⟩ := clientStep_some hs
    obtain ⟨x, hx⟩ := sent_grows hc
    refine ⟨reads, e1, ?_, e3, e4⟩
    show reads.flatten ++ (s.up ++ c.sent.drop s.client.sent.length) = c.sent
    rw [hx, List.drop_left, ← List.append_assoc, e2]
  | recv segs =>
    obtain ⟨f, rest, c, -, hc, rfl⟩ := recvStep_some hs
    simp only [Pipe.step] at hc
    split at hc <;> cases hc
    exact ⟨reads, e1, e2, e3, e4⟩
  | read n =>
    obtain ⟨h1, h2, h3, t, ht, h⟩ := readStep_some hs
    have hlr : Input.LegalReads S2C.bufSize (reads ++ [s.up.take n]) := by
      intro c hc
      rcases List.mem_append.mp hc with hc | hc
      · exact e1 c hc
      · simp only [List.mem_singleton] at hc
        subst hc
        refine ⟨?_, by simp; omega⟩
        intro he
        rw [List.take_eq_nil_iff] at he
        rcases he with he | he
        · omega
        · simp [he] at h3; omega
    have hsent : (reads ++ [s.up.take n]).flatten ++ s.up.drop n = s.client.sent := by simp [← e2]
    rcases h with ⟨t', w, hp, rfl⟩ | ⟨w, hp, rfl⟩
    · refine ⟨_, hlr, hsent, fun t2 ht2 => ?_, nofun⟩
      cases ht2
      rw [runReads_snoc (e3 t ht), hp]
    · refine ⟨_, hlr, hsent, nofun, fun _ => ?_⟩
      rw [runReads_snoc (e3 t ht), hp]

end Shpool.EndToEnd
