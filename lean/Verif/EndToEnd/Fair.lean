import Verif.EndToEnd.Props
import Verif.Util.Fair

/-! # In every fair execution what is sent arrives -/

namespace Shpool.EndToEnd
open Chunk (Chunk Kind)
open Keys (Bindings Action Spells)

private theorem at_ {P : Params} {σ : Nat → St} {lab : Nat → Option Label} (hx : Exec (step P) σ lab) {i : Nat} {l : Label}
    (hl : lab i = some l) : step P (σ i) l = some (σ (i + 1)) := by
  rcases hx i with ⟨h1, _⟩ | ⟨l', h1, h2⟩
  · rw [h1] at hl; cases hl
  · rw [hl] at h1; cases h1; exact h2

private theorem run_at {P : Params} {σ : Nat → St} {lab : Nat → Option Label} (hx : Exec (step P) σ lab) (h0 : σ 0 = init P) (i : Nat) :
    Run P (performed lab i) (σ i) := by
  have h := exec_run hx i
  rw [h0] at h
  exact h

/-! ## From the user to the shell -/

/-- The input thread can read whatever is on its way. -/
theorem can_read {P : Params} {ls : List Label} {s : St} (h : Run P ls s) (hu : s.up ≠ []) {t : Input.Thread Bindings} (hin : s.input = some t) :
    Can (step P) ofInput s := by
  refine ⟨.read 1, rfl, ?_⟩
  have hn : 1 ≤ s.up.length := List.length_pos_iff.mpr hu
  obtain ⟨reads, e1, e2, e3, e4⟩ := run_typed h
  have hlr : Input.LegalReads S2C.bufSize (reads ++ [s.up.take 1]) := by
    intro c hc
    rcases List.mem_append.mp hc with hc | hc
    · exact e1 c hc
    · simp only [List.mem_singleton] at hc
      subst hc
      refine ⟨?_, ?_⟩
      · intro he
        have := congrArg List.length he
        simp only [List.length_take, List.length_nil] at this
        omega
      · have : S2C.bufSize = 16384 := rfl
        simp only [List.length_take]; omega
  obtain ⟨w, -, -, h2⟩ := Input.C17_no_panic P.keys (List.replicate S2C.bufSize 0) (reads ++ [s.up.take 1]) (by simpa using hlr)
  rw [runReads_snoc (e3 t hin)] at h2
  have hcond : 0 < 1 ∧ 1 ≤ S2C.bufSize ∧ 1 ≤ s.up.length := ⟨by decide, by decide, hn⟩
  simp only [step, readStep, if_pos hcond, hin]
  cases hpr : Input.processRead Bindings.transition t (s.up.take 1) with
  | running t' w' => rfl
  | detached w' => rfl
  | panicked => rw [hpr] at h2; rcases h2 with ⟨_, h2⟩ | h2 <;> cases h2

/-- How many bytes have been read: only the input thread reads, and what was sent stays sent. -/
theorem read_step {P : Params} {s s' : St} {l : Label} (h : step P s l = some s') (hu : s.up.length ≤ s.client.sent.length) :
    s'.up.length ≤ s'.client.sent.length ∧ s.client.sent <+: s'.client.sent ∧
    s.client.sent.length - s.up.length ≤ s'.client.sent.length - s'.up.length ∧
    (ofInput l = true → s.client.sent.length - s.up.length < s'.client.sent.length - s'.up.length) := by
  cases l with
  | daemon l => obtain ⟨d, bytes, -, -, rfl⟩ := daemonStep_some h; exact ⟨hu, List.prefix_refl _, Nat.le_refl _, nofun⟩
  | client l =>
    obtain ⟨-, c, hc, rfl⟩ := clientStep_some h
    obtain ⟨x, hx⟩ := sent_grows hc
    refine ⟨?_, ⟨x, hx.symm⟩, ?_, nofun⟩
    · simp only [hx, List.drop_left, List.length_append]; omega
    · simp only [hx, List.drop_left, List.length_append]; omega
  | recv segs =>
    obtain ⟨f, rest, c, -, hc, rfl⟩ := recvStep_some h
    simp only [Pipe.step] at hc
    split at hc <;> cases hc
    exact ⟨hu, List.prefix_refl _, Nat.le_refl _, nofun⟩
  | read n =>
    obtain ⟨h1, h2, h3, t, -, h⟩ := readStep_some h
    rcases h with ⟨t', w, -, rfl⟩ | ⟨w, -, rfl⟩ <;>
    · refine ⟨?_, List.prefix_refl _, ?_, fun _ => ?_⟩ <;> simp only [List.length_drop] <;> omega

/-- **C133**, over time: in every execution in which the input thread does not put off reading for ever, and in which what is typed contains no
binding, all that the client has sent reaches the shell, up to a last piece that is the beginning of a binding. -/
theorem C133_fair {P : Params} {cfg : List (List Char × Action)} (hb : Bindings.new cfg = .ok P.keys) {σ : Nat → St}
    {lab : Nat → Option Label} (hx : Exec (step P) σ lab) (h0 : σ 0 = init P) (hf : WeakFair (step P) σ lab ofInput)
    (hno : ∀ i, Input.NoFire Bindings.transition P.keys (σ i).client.typed) (m : Nat) :
    ∃ i t, m ≤ i ∧ (σ i).input = some t ∧ (σ m).client.sent <+: (σ i).shell ++ t.part ∧
      (t.part ≠ [] → ∃ src a codes, (src, a) ∈ cfg ∧ Spells src codes ∧ t.part <+: codes ∧ t.part ≠ codes) := by
  have hrun := run_at hx h0
  have hu : ∀ i, (σ i).up.length ≤ (σ i).client.sent.length := fun i => by
    obtain ⟨reads, e1, e2, e3, e4⟩ := run_typed (hrun i)
    rw [← e2]; simp
  have htr := fun i => C133_transparent hb (hrun i) (hno i)
  have hpre : ∀ i, m ≤ i → (σ m).client.sent <+: (σ i).client.sent := exec_stays hx (p := fun s => (σ m).client.sent <+: s.client.sent)
    (fun i l _ _ hp h => hp.trans (read_step h (hu i)).2.1) (List.prefix_refl _)
  obtain ⟨i, hi, hg⟩ : ∃ i, m ≤ i ∧ (σ m).client.sent.length ≤ (σ i).client.sent.length - (σ i).up.length := by
    refine reaches (σ := σ) (Goal := fun s => (σ m).client.sent.length ≤ s.client.sent.length - s.up.length)
      (fun s => (σ m).client.sent.length - (s.client.sent.length - s.up.length)) (fun i hi _ => ?_) (fun k hk hrest => ?_)
    · rcases hx i with ⟨_, h2⟩ | ⟨l, _, h2⟩
      · rw [h2]; exact Nat.le_refl _
      · have := (read_step h2 (hu i)).2.2.1
        omega
    · obtain ⟨i, l, hi, hl, ha⟩ := hf ⟨k, fun i hi => by
        obtain ⟨t, hin, -⟩ := htr i
        refine can_read (hrun i) (fun he => ?_) hin
        have h1 := (hrest i hi).1
        have h2 := (hpre i (by omega)).length_le
        rw [he] at h1
        simp only [List.length_nil] at h1
        omega⟩ k
      have h1 := (read_step (at_ hx hl) (hu i)).2.2.2 ha
      have h2 := hrest i hi
      have h3 := hrest (i + 1) (by omega)
      omega
  obtain ⟨t, hin, h1, -, -, h2⟩ := htr i
  refine ⟨i, t, hi, hin, ?_, h2⟩
  refine List.prefix_of_prefix_length_le (hpre i hi) ⟨(σ i).up, h1⟩ ?_
  have := congrArg List.length h1
  simp only [List.length_append] at this ⊢
  omega

/-! ## From the shell to the user -/

def isCheck : Label → Bool
  | .client .outCheck => true
  | _ => false

def isHandle : Label → Bool
  | .client (.outHandle _ _ _) => true
  | _ => false

def isRecv : Label → Bool
  | .recv _ => true
  | _ => false

/-- The client's output thread does not put off for ever what it can do, and gets a frame if one can be read again and again (it reads with a
time limit; the limit does not strike every time although a frame is there). -/
structure FairOut (P : Params) (σ : Nat → St) (lab : Nat → Option Label) : Prop where
  check : WeakFair (step P) σ lab isCheck
  handle : WeakFair (step P) σ lab isHandle
  recv : StrongFair (step P) σ lab isRecv

/-- How far the client is from having handled `K` frames. -/
def unread (K : Nat) (s : St) : Nat := 2 * (K - s.client.handled.length) + (if current s.client = [] then 1 else 0)

/-- What a step does to the output thread, if it does not finish it. -/
theorem out_step {P : Params} {s s' : St} {l : Label} (h : step P s l = some s') (hn : s'.client.out ≠ .finished) :
    (s'.client.handled = s.client.handled ∧ s'.client.out = s.client.out ∧ isRecv l = false ∧ isHandle l = false ∧ isCheck l = false) ∨
    (s'.client.handled = s.client.handled ∧ s.client.out = .top ∧ s'.client.out = .reading ∧ isCheck l = true ∧ isRecv l = false ∧ isHandle l = false) ∨
    (s'.client.handled = s.client.handled ∧ s.client.out = .reading ∧ s'.client.out = .top ∧ isRecv l = false ∧ isHandle l = false) ∨
    (s'.client.handled = s.client.handled ∧ s.client.out = .reading ∧ (∃ f, s'.client.out = .got f) ∧ isRecv l = true) ∨
    (s'.client.handled.length = s.client.handled.length + 1 ∧ (∃ f, s.client.out = .got f) ∧ s'.client.out = .top ∧ isHandle l = true) := by
  cases l with
  | daemon l => obtain ⟨d, bytes, -, -, rfl⟩ := daemonStep_some h; exact .inl ⟨rfl, rfl, rfl, rfl, rfl⟩
  | read n =>
    obtain ⟨h1, h2, h3, t, -, h⟩ := readStep_some h
    rcases h with ⟨t', w, -, rfl⟩ | ⟨w, -, rfl⟩ <;> exact .inl ⟨rfl, rfl, rfl, rfl, rfl⟩
  | recv segs =>
    obtain ⟨f, rest, c, -, hc, rfl⟩ := recvStep_some h
    simp only [Pipe.step] at hc
    split at hc <;> cases hc
    rename_i ho
    exact .inr (.inr (.inr (.inl ⟨rfl, ho, ⟨f, rfl⟩, rfl⟩)))
  | client l =>
    obtain ⟨hl, c, hc, rfl⟩ := clientStep_some h
    dsimp only at hn ⊢
    cases l <;> simp only [Pipe.step] at hc
    case outRecv f => exact absurd rfl (hl f)
    case outCheck =>
      split at hc <;> cases hc
      rename_i ho
      dsimp only at hn
      refine .inr (.inl ⟨rfl, ho, ?_, rfl, rfl, rfl⟩)
      split at hn
      · exact absurd rfl hn
      · rename_i h; simp [h]
    case outTimeout =>
      split at hc <;> cases hc
      rename_i ho
      exact .inr (.inr (.inl ⟨rfl, ho, rfl, rfl, rfl⟩))
    case outError => split at hc <;> cases hc; exact absurd rfl hn
    case outHandle accept written bad =>
      split at hc <;> cases hc
      rename_i f ho
      refine .inr (.inr (.inr (.inr ?_)))
      simp only [Pipe.handle] at hn ⊢
      refine ⟨?_, ⟨f, ho⟩, ?_, rfl⟩ <;> (revert hn; (repeat' split) <;> simp)
    case inData b acc =>
      split at hc
      · split at hc <;> cases hc <;> exact .inl ⟨rfl, rfl, rfl, rfl, rfl⟩
      · cases hc
    case wait2End t =>
      (repeat' split at hc) <;> cases hc <;> exact .inl ⟨rfl, rfl, rfl, rfl, rfl⟩
    all_goals (split at hc <;> cases hc; exact .inl ⟨rfl, rfl, rfl, rfl, rfl⟩)

theorem unread_step {P : Params} {K : Nat} {s s' : St} {l : Label} (h : step P s l = some s') (hn : s'.client.out ≠ .finished)
    (hk : s.client.handled.length < K) :
    unread K s' ≤ unread K s ∧ (isRecv l = true ∨ isHandle l = true → unread K s' < unread K s) := by
  unfold unread current
  rcases out_step h hn with ⟨h1, h2, h3, h4, _⟩ | ⟨h1, h2, h3, -, h5, h6⟩ | ⟨h1, h2, h3, h4, h5⟩ | ⟨h1, h2, ⟨f, h3⟩, h4⟩ | ⟨h1, ⟨f, h2⟩, h3, h4⟩
  · rw [h1, h2]; exact ⟨Nat.le_refl _, by simp [h3, h4]⟩
  · rw [h1, h2, h3]; exact ⟨Nat.le_refl _, by simp [h5, h6]⟩
  · rw [h1, h2, h3]; exact ⟨Nat.le_refl _, by simp [h4, h5]⟩
  · rw [h1, h2, h3]; simp
  · rw [h1, h2, h3]; simp only [List.cons_ne_nil, if_false, if_true]; omega

/-- A frame that fits can be read. -/
theorem can_recv {P : Params} {s : St} (hr : s.client.out = .reading) {g : Chunk} {fl : List Chunk} (hw : Chunk.writeAll (g :: fl) = .ok s.down)
    (hfit : S2C.Fits g) : Can (step P) isRecv s := by
  simp only [Chunk.writeAll] at hw
  obtain ⟨hgl, hgs⟩ := hfit
  obtain ⟨bg, hbg, -⟩ := Chunk.writeTo_legal g hgl
  rw [hbg] at hw
  cases h2 : Chunk.writeAll fl with
  | error e => rw [h2] at hw; cases hw
  | ok r =>
    rw [h2] at hw
    have hd : s.down = bg ++ r := (Except.ok.inj hw).symm
    have hrd := Chunk.readInto_flat_writeTo g S2C.bufSize bg r hgl hgs hbg
    obtain ⟨segs', hseg, hfl⟩ := Chunk.readInto_seg_ok (segs := [s.down]) (by simpa [hd] using hrd)
    exact ⟨.recv [s.down], rfl, by simp [step, recvStep, hseg, Pipe.step, hr]⟩

/-- **C132**, over time: in every fair execution all that the daemon has sent to the client so far is printed, in order, unless the client's output
thread finishes or its result is decided before (the shell has exited, the user has detached, an error); the frames have to fit its buffer
(C05). -/
theorem C132_fair {P : Params} {σ : Nat → St} {lab : Nat → Option Label} (hx : Exec (step P) σ lab) (h0 : σ 0 = init P)
    (hm : S2C.ShortMotd P.daemon.motd) (hsh : ∀ i l, lab i = some (.daemon l) → S2C.Short l) (hf : FairOut P σ lab) {m : Nat}
    (hfit : ∀ f ∈ S2C.framesTo (σ m).daemon.out P.id, f.buf.length ≤ 16384) :
    (∃ i, m ≤ i ∧ S2C.dataTo (σ m).daemon.out P.id <+: (σ i).client.stdout) ∨
      ∃ i, m ≤ i ∧ ((σ i).client.out = .finished ∨ (σ i).client.slot ≠ none) := by
  refine Classical.byContradiction fun hno => ?_
  have hout : ∀ i, m ≤ i → (σ i).client.out ≠ .finished := fun i hi h => hno (.inr ⟨i, hi, .inl h⟩)
  have hslot : ∀ i, m ≤ i → (σ i).client.slot = none := fun i hi => Classical.byContradiction fun h => hno (.inr ⟨i, hi, .inr h⟩)
  have hrun := run_at hx h0
  have hwire : ∀ i, Wire P (σ i) ∧ S2C.LegalOut (σ i).daemon.out := fun i => run_wire ⟨hm, fun l hl => by
    obtain ⟨j, _, hj⟩ := mem_performed hl
    exact hsh j l hj⟩ (hrun i)
  have hpre : ∀ i, m ≤ i → S2C.framesTo (σ m).daemon.out P.id <+: S2C.framesTo (σ i).daemon.out P.id :=
    exec_stays hx (p := fun s => S2C.framesTo (σ m).daemon.out P.id <+: S2C.framesTo s.daemon.out P.id)
      (fun i l _ _ hp h => hp.trans (by
        generalize σ (i + 1) = s' at h ⊢
        cases l with
        | daemon l => obtain ⟨d, bytes, h1, -, rfl⟩ := daemonStep_some h; exact ⟨_, (framesTo_added h1).symm⟩
        | client l => obtain ⟨-, c, -, rfl⟩ := clientStep_some h; exact List.prefix_refl _
        | recv segs => obtain ⟨f, rest, c, -, -, rfl⟩ := recvStep_some h; exact List.prefix_refl _
        | read n =>
          obtain ⟨-, -, -, t, -, h⟩ := readStep_some h
          rcases h with ⟨t', w, -, rfl⟩ | ⟨w, -, rfl⟩ <;> exact List.prefix_refl _)) (List.prefix_refl _)
  -- not all frames are handled, ever
  have hless : ∀ i, m ≤ i → (σ i).client.handled.length < (S2C.framesTo (σ m).daemon.out P.id).length := by
    intro i hi
    refine Nat.lt_of_not_le fun hle => hno (.inl ⟨i, hi, ?_⟩)
    obtain ⟨⟨⟨mid, fl, e1, e2, e3, e4, e5⟩, e6⟩, -⟩ := hwire i
    obtain ⟨pls, hp⟩ := run_client (hrun i)
    have hnf : (σ i).client.stdoutFailed = none := Decidable.byContradiction fun hn => hout i hi (e6 hn)
    rw [Pipe.C24_prints_exactly hp hnf, printed_data]
    obtain ⟨z, hz⟩ : S2C.framesTo (σ m).daemon.out P.id <+: (σ i).client.handled.map (·.1) :=
      List.prefix_of_prefix_length_le (hpre i hi) ⟨mid ++ fl, by rw [e1, List.append_assoc]⟩ (by simpa using hle)
    rw [← hz, List.flatMap_append]
    exact List.prefix_append _ _
  -- while no frame is in hand, one that fits is on its way
  have havail : ∀ i, m ≤ i → (σ i).client.out = .reading → Can (step P) isRecv (σ i) := by
    intro i hi hr
    obtain ⟨⟨⟨mid, fl, e1, e2, e3, e4, e5⟩, e6⟩, hleg⟩ := hwire i
    have hmid : mid = [] := by rw [e3 (hout i hi)]; simp [current, hr]
    subst hmid
    cases fl with
    | nil =>
      have h1 := (hpre i hi).length_le
      have h2 := hless i hi
      rw [e1] at h1
      simp at h1
      omega
    | cons g fl =>
      have hg : g ∈ S2C.framesTo (σ m).daemon.out P.id := by
        obtain ⟨z, hz⟩ := hpre i hi
        have hget : (S2C.framesTo (σ i).daemon.out P.id)[(σ i).client.handled.length]? = some g := by
          rw [e1]; simp
        rw [← hz, List.getElem?_append_left (hless i hi)] at hget
        exact List.mem_of_getElem? hget
      refine can_recv hr e2 ⟨?_, hfit g hg⟩
      have hg' : g ∈ S2C.framesTo (σ i).daemon.out P.id := by rw [e1]; simp
      unfold S2C.framesTo at hg'
      obtain ⟨p, hp, rfl⟩ := List.mem_map.mp hg'
      exact hleg p (List.mem_filter.mp hp).1
  obtain ⟨_, _, h⟩ := reaches (σ := σ) (Goal := fun _ => False) (unread (S2C.framesTo (σ m).daemon.out P.id).length) (m := m) (fun i hi _ => by
    rcases hx i with ⟨_, h2⟩ | ⟨l, _, h2⟩
    · rw [h2]; exact Nat.le_refl _
    · exact (unread_step h2 (hout (i + 1) (by omega)) (hless i hi)).1) (fun k hk hrest => by
    have strict : ∀ i l, k ≤ i → lab i = some l → isRecv l = true ∨ isHandle l = true → False := by
      intro i l hi hl ha
      have h1 := (unread_step (at_ hx hl) (hout (i + 1) (by omega)) (hless i (by omega))).2 ha
      have h2 := (hrest i hi).2
      have h3 := (hrest (i + 1) (by omega)).2
      omega
    -- the steps that are left
    have rest : ∀ i, k ≤ i → ((σ (i + 1)).client.out = (σ i).client.out ∧ ∀ l, lab i = some l → isCheck l = false) ∨
        ((σ i).client.out = .top ∧ (σ (i + 1)).client.out = .reading) ∨ ((σ i).client.out = .reading ∧ (σ (i + 1)).client.out = .top) := by
      intro i hi
      rcases hx i with ⟨h1, h2⟩ | ⟨l, hl, h2⟩
      · exact .inl ⟨by rw [h2], by simp [h1]⟩
      · rcases out_step h2 (hout (i + 1) (by omega)) with ⟨_, h3, _, _, h4⟩ | ⟨_, h3, h4, _⟩ | ⟨_, h3, h4, _⟩ | ⟨_, _, _, h4⟩ | ⟨_, _, _, h4⟩
        · exact .inl ⟨h3, fun l' hl' => by rw [hl] at hl'; cases hl'; exact h4⟩
        · exact .inr (.inl ⟨h3, h4⟩)
        · exact .inr (.inr ⟨h3, h4⟩)
        · exact (strict i l hi hl (.inl h4)).elim
        · exact (strict i l hi hl (.inr h4)).elim
    by_cases hgot : ∃ f, (σ k).client.out = .got f
    · obtain ⟨f, hgot⟩ := hgot
      have hstay : ∀ i, k ≤ i → (σ i).client.out = .got f := by
        refine exec_stays hx (p := fun s => s.client.out = .got f) (fun i l hi hl hp h => ?_) hgot
        rcases rest i hi with ⟨h1, _⟩ | ⟨h1, _⟩ | ⟨h1, _⟩
        · rw [h1]; exact hp
        · rw [hp] at h1; cases h1
        · rw [hp] at h1; cases h1
      obtain ⟨i, l, hi, hl, ha⟩ := hf.handle ⟨k, fun i hi => ⟨.client (.outHandle false none false), rfl, by
        simp [step, clientStep, Pipe.step, hstay i hi]⟩⟩ k
      exact strict i l hi hl (.inr ha)
    · have htr : ∀ i, k ≤ i → (σ i).client.out = .top ∨ (σ i).client.out = .reading := by
        refine exec_stays hx (p := fun s => s.client.out = .top ∨ s.client.out = .reading) (fun i l hi hl hp h => ?_) ?_
        · rcases rest i hi with ⟨h1, _⟩ | ⟨_, h1⟩ | ⟨_, h1⟩
          · rw [h1]; exact hp
          · exact .inr h1
          · exact .inl h1
        · cases hc : (σ k).client.out with
          | top => exact .inl rfl
          | reading => exact .inr rfl
          | got f => exact absurd ⟨f, hc⟩ hgot
          | finished => exact absurd hc (hout k hk)
      obtain ⟨i, l, hi, hl, ha⟩ := hf.recv (fun n => by
        refine Classical.byContradiction fun hne => ?_
        have htop : ∀ i, max n k ≤ i → (σ i).client.out = .top := fun i hi => (htr i (by omega)).resolve_right
          fun h => hne ⟨i, by omega, havail i (by omega) h⟩
        obtain ⟨i, l, hi, hl, ha⟩ := hf.check ⟨max n k, fun i hi => ⟨.client .outCheck, rfl, by
          simp [step, clientStep, Pipe.step, htop i hi]⟩⟩ (max n k)
        rcases rest i (by omega) with ⟨_, h1⟩ | ⟨_, h1⟩ | ⟨h1, _⟩
        · rw [h1 l hl] at ha; cases ha
        · rw [htop (i + 1) (by omega)] at h1; cases h1
        · rw [htop i (by omega)] at h1; cases h1) k
      exact strict i l hi hl (.inl ha))
  exact h

/-! ## Examples -/

/-- The user types "ls" and Ctrl-Space, which begins a binding, and the daemon reads it. -/
def typing : List Label := [.client .inCheck, .client (.inData [108, 115, 0] none), .read 3]

private theorem typing_run : ∃ b s1 s2 s3, Bindings.new Keys.defaultCfg = .ok b ∧
    step ⟨S2C.P0, 1, b⟩ (init ⟨S2C.P0, 1, b⟩) (.client .inCheck) = some s1 ∧ step ⟨S2C.P0, 1, b⟩ s1 (.client (.inData [108, 115, 0] none)) = some s2 ∧
    step ⟨S2C.P0, 1, b⟩ s2 (.read 3) = some s3 ∧ Input.NoFire Bindings.transition b [108, 115, 0] ∧ s1.client.typed = [] ∧
    s2.client.typed = [108, 115, 0] ∧ s3.client.typed = [108, 115, 0] ∧ s2.client.sent = [108, 115, 0] ∧ s2.up = [108, 115, 0] ∧ s3.up = [] :=
  ⟨_, _, _, _, rfl, rfl, rfl, rfl, by refine ⟨?_, ?_, ?_, trivial⟩ <;> (intro a h; cases a <;> revert h <;> decide), rfl, rfl, rfl, rfl, rfl, rfl⟩

example : ∃ b, Bindings.new Keys.defaultCfg = .ok b ∧
    Exec (step ⟨S2C.P0, 1, b⟩) (thenRests (step ⟨S2C.P0, 1, b⟩) (init ⟨S2C.P0, 1, b⟩) typing) (fun i => typing[i]?) ∧
    WeakFair (step ⟨S2C.P0, 1, b⟩) (thenRests (step ⟨S2C.P0, 1, b⟩) (init ⟨S2C.P0, 1, b⟩) typing) (fun i => typing[i]?) ofInput ∧
    (∀ i, Input.NoFire Bindings.transition b (thenRests (step ⟨S2C.P0, 1, b⟩) (init ⟨S2C.P0, 1, b⟩) typing i).client.typed) ∧
    (thenRests (step ⟨S2C.P0, 1, b⟩) (init ⟨S2C.P0, 1, b⟩) typing 2).client.sent = [108, 115, 0] ∧
    (thenRests (step ⟨S2C.P0, 1, b⟩) (init ⟨S2C.P0, 1, b⟩) typing 2).up = [108, 115, 0] := by
  obtain ⟨b, s1, s2, s3, hb, e1, e2, e3, hf, t1, t2, t3, x2, u2, u3⟩ := typing_run
  refine ⟨b, hb, ?_⟩
  generalize (⟨S2C.P0, 1, b⟩ : Params) = P at e1 e2 e3 ⊢
  have hr : runSteps (step P) (init P) typing = some s3 := by simp only [typing, runSteps, e1, e2, e3]
  obtain ⟨h1, h2⟩ := thenRests_exec hr
  have g1 : thenRests (step P) (init P) typing 1 = s1 := by simp [thenRests, typing, runSteps, e1]
  have g2 : thenRests (step P) (init P) typing 2 = s2 := by simp [thenRests, typing, runSteps, e1, e2]
  refine ⟨h1, (fair_at_rest h2 fun l hl => ?_).1, fun i => ?_, by rw [g2, x2], by rw [g2, u2]⟩
  · cases l <;> simp only [ofInput, Bool.false_eq_true] at hl
    simp [step, readStep, u3]
    omega
  · match i with
    | 0 => exact trivial
    | 1 => rw [g1, t1]; trivial
    | 2 => rw [g2, t2]; exact hf
    | i + 3 => rw [h2 (i + 3) (by simp [typing]), t3]; exact hf

/-- The shell prints "hi" and exits; the client prints it and ends. -/
def printing : List Label :=
  [.daemon (.initial (some (.new 1 S2C.z0))), .daemon (.shellWrite [104, 105]), .daemon (.select .default), .daemon .settle,
   .daemon (.poll (.read 2)), .daemon (.select (.connection (some (.disconnectExit 7)) true 0)), .client .outCheck,
   .recv [[0, 2, 0, 0, 0, 104, 105, 2, 7, 0, 0, 0]], .client (.outHandle false none false), .client .outCheck,
   .recv [[2], [7, 0, 0, 0]], .client (.outHandle false none false), .client .outCheck]

example (b : Bindings) : Exec (step ⟨S2C.P0, 1, b⟩) (thenRests (step ⟨S2C.P0, 1, b⟩) (init ⟨S2C.P0, 1, b⟩) printing) (fun i => printing[i]?) ∧
    FairOut ⟨S2C.P0, 1, b⟩ (thenRests (step ⟨S2C.P0, 1, b⟩) (init ⟨S2C.P0, 1, b⟩) printing) (fun i => printing[i]?) ∧
    S2C.ShortMotd S2C.P0.motd ∧ (∀ (i : Nat) l, printing[i]? = some (.daemon l) → S2C.Short l) ∧
    S2C.framesTo (thenRests (step ⟨S2C.P0, 1, b⟩) (init ⟨S2C.P0, 1, b⟩) printing 5).daemon.out 1 = [⟨.data, [104, 105]⟩] ∧
    (thenRests (step ⟨S2C.P0, 1, b⟩) (init ⟨S2C.P0, 1, b⟩) printing 5).client.stdout = [] := by
  have hrun : ∃ s', runSteps (step ⟨S2C.P0, 1, b⟩) (init ⟨S2C.P0, 1, b⟩) printing = some s' ∧ s'.client.out = .finished := by
    have : (runSteps (step ⟨S2C.P0, 1, b⟩) (init ⟨S2C.P0, 1, b⟩) printing).map (·.client.out) = some .finished := by with_unfolding_all rfl
    exact Option.map_eq_some_iff.mp this
  obtain ⟨s', hr, ho⟩ := hrun
  obtain ⟨h1, h2⟩ := thenRests_exec hr
  refine ⟨h1, ⟨(fair_at_rest h2 fun l hl => ?_).1, (fair_at_rest h2 fun l hl => ?_).1, (fair_at_rest h2 fun l hl => ?_).2⟩, trivial, fun i l hl => ?_,
    by with_unfolding_all rfl, by with_unfolding_all rfl⟩
  · cases l <;> simp only [isCheck, Bool.false_eq_true] at hl
    rename_i l
    cases l <;> simp only [Bool.false_eq_true] at hl
    simp [step, clientStep, Pipe.step, ho]
  · cases l <;> simp only [isHandle, Bool.false_eq_true] at hl
    rename_i l
    cases l <;> simp only [Bool.false_eq_true] at hl
    simp [step, clientStep, Pipe.step, ho]
  · cases l <;> simp only [isRecv, Bool.false_eq_true] at hl
    simp only [step, recvStep, Pipe.step, ho]
    split
    · split <;> rfl
    · rfl
  · have := List.mem_of_getElem? hl
    simp only [printing, List.mem_cons, Label.daemon.injEq, List.not_mem_nil, or_false, reduceCtorEq] at this
    rcases this with rfl | rfl | rfl | rfl | rfl | rfl <;> trivial

end Shpool.EndToEnd
