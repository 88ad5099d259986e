import Verif.BusClose.Model
import Verif.Util.Fair

/-!
# Properties of closing the event bus

* C173: who owns the event bus can close it.
-/

namespace Shpool.BusClose
open Events (Event Sub Phase)

/-! ## Specification -/

/-- Somebody is at the other end of the connection of subscriber `id`: the thread serves it, or it waits to be accepted. -/
def Connected (s : St) (id : Nat) : Prop :=
  (s.stage = .running ∧ id ∈ s.base.subs.map Sub.id) ∨ (s.stage ≠ .finished ∧ id ∈ s.base.backlog)

/-- The thread's steps, except for `poll`, which waits, and panics. -/
def works : Label → Bool
  | .bus .accept | .bus (.acceptFails _) | .bus .drain | .bus (.recv _) | .bus (.finish _) => true
  | .shutdown | .eof | .unlink _ | .exit => true
  | _ => false

def joins : Label → Bool
  | .join => true
  | _ => false

def wakes : Label → Bool
  | .bus .wakeWrite => true
  | _ => false

/-- An execution from the start of the bus in which nobody is put off for ever: not the thread, not the owner, not who is in `publish`. -/
structure Fair (wakeCap : Nat) (σ : Nat → St) (lab : Nat → Option Label) : Prop where
  exec : Exec (step wakeCap) σ lab
  start : σ 0 = init
  thread : WeakFair (step wakeCap) σ lab works
  owner : WeakFair (step wakeCap) σ lab joins
  publish : WeakFair (step wakeCap) σ lab wakes

/-- The thread is passing on events. -/
def Passing (s : St) : Prop := s.stage = .running ∧ ∃ p, s.base.phase = .receiving p

/-! ## What every run keeps -/

structure Inv (wakeCap : Nat) (ls : List Label) (s : St) : Prop where
  base : ∃ bls, Events.Run wakeCap bls s.base
  phase : s.base.phase ≠ .stopped
  file : s.stage = .running ∨ s.stage = .returned → s.file = true
  gone : s.stage = .unlinked ∨ s.stage = .finished → s.file = false ∨ Label.unlink false ∈ ls
  owner : s.owner = .through → s.stage = .finished
  errors : s.errors = if s.logged then 1 else 0
  logged : s.logged = true → s.stage = .finished

/-- A step of the bus is one of its model, or the loss of an event. -/
theorem bus_step {wakeCap : Nat} {s s' : St} {l : Events.Label} (h : step wakeCap s (.bus l) = some s') :
    (∃ b, Events.step wakeCap s.base l = some b ∧ l ≠ .shutdown ∧ s' = { s with base := b }) ∨
    ((∃ e, l = .send e) ∧ s.stage = .finished ∧ s' = { s with logged := true, errors := if s.logged then s.errors else s.errors + 1 }) := by
  cases l with
  | send e =>
    simp only [step] at h
    split at h
    · cases h
    · split at h
      · next hs => simp only [Option.some.injEq] at h; exact .inr ⟨⟨e, rfl⟩, hs, h.symm⟩
      · simp only [Option.map_eq_some_iff] at h
        obtain ⟨b, h1, h2⟩ := h
        exact .inl ⟨b, h1, by simp, h2.symm⟩
  | _ =>
    simp only [step] at h
    (repeat' split at h) <;>
    first
    | contradiction
    | (simp only [Option.map_eq_some_iff] at h; obtain ⟨b, h1, h2⟩ := h; exact .inl ⟨b, h1, by simp, h2.symm⟩)

theorem base_phase {wakeCap : Nat} {b b' : Events.St} {l : Events.Label} (h : Events.step wakeCap b l = some b') (hl : l ≠ .shutdown)
    (hp : b.phase ≠ .stopped) : b'.phase ≠ .stopped := by
  cases l <;> simp only [Events.step] at h <;> (repeat' split at h) <;>
    first
    | contradiction
    | (simp only [Option.some.injEq] at h; subst h; first | exact hp | simp | (dsimp only; split <;> simp))

theorem inv_step {wakeCap : Nat} {ls : List Label} {s s' : St} {l : Label} (hI : Inv wakeCap ls s) (h : step wakeCap s l = some s') :
    Inv wakeCap (ls ++ [l]) s' := by
  have mem : Label.unlink false ∈ ls → Label.unlink false ∈ ls ++ [l] := fun h => by simp [h]
  have gone : s.stage = .unlinked ∨ s.stage = .finished → s.file = false ∨ Label.unlink false ∈ ls ++ [l] := fun h => (hI.gone h).imp id mem
  cases l with
  | bus l =>
    rcases bus_step h with ⟨b, h1, h2, rfl⟩ | ⟨⟨e, he⟩, hs, rfl⟩
    · obtain ⟨bls, hb⟩ := hI.base
      refine ⟨⟨bls ++ [l], ?_⟩, base_phase h1 h2 hI.phase, hI.file, gone, hI.owner, hI.errors, hI.logged⟩
      unfold Events.Run at *
      rw [run_append, hb]
      simp [runSteps, h1]
    · refine ⟨hI.base, hI.phase, hI.file, gone, hI.owner, ?_, fun _ => hs⟩
      have := hI.errors
      cases hl : s.logged <;> simp_all
  | _ =>
    simp only [step] at h
    (repeat' split at h) <;>
    first
    | contradiction
    | (simp only [Option.some.injEq] at h; subst h
       obtain ⟨i1, i2, i3, i4, i5, i6, i7⟩ := hI
       refine ⟨i1, i2, ?_, ?_, ?_, i6, ?_⟩ <;> grind)

theorem inv_run {wakeCap : Nat} {ls : List Label} {s : St} (h : Run wakeCap ls s) : Inv wakeCap ls s := by
  refine run_hist (I := fun ls s => Inv wakeCap ls s) (fun ls s l s' hI h => inv_step hI h) ?_ h
  exact ⟨⟨[], rfl⟩, by simp [init, Events.init], fun _ => rfl, by simp [init], by simp [init], rfl, by simp [init]⟩

theorem finished_step {wakeCap : Nat} {s s' : St} {l : Label} (hs : s.stage = .finished) (h : step wakeCap s l = some s') :
    s'.stage = .finished ∧ ∀ id, l ≠ .bus (.connect id) := by
  refine ⟨?_, ?_⟩
  · cases l with
    | bus l =>
      rcases bus_step h with ⟨b, _, _, rfl⟩ | ⟨_, _, rfl⟩
      · exact hs
      · exact hs
    | _ => simp only [step] at h; (repeat' split at h) <;> first | contradiction | (simp only [Option.some.injEq] at h; subst h; grind)
  · rintro id rfl
    simp [step, hs] at h

/-! ## C173 -/

/-- C173 (closed): when the owner is through, nobody is at the other end of any subscriber's connection, nobody can connect any more, whatever
publishers and others still do, and the socket file is gone, unless it could not be removed. -/
theorem C173_closed {wakeCap : Nat} {ls ls' : List Label} {s s' : St} (h : Run wakeCap ls s) (ho : s.owner = .through)
    (h' : runSteps (step wakeCap) s ls' = some s') :
    (∀ id, ¬ Connected s' id) ∧ (∀ id, Label.bus (.connect id) ∉ ls') ∧ (s.file = false ∨ Label.unlink false ∈ ls) := by
  have hI := inv_run h
  have hs := hI.owner ho
  have key : ∀ (ls : List Label) (s0 : St), s0.stage = .finished → runSteps (step wakeCap) s0 ls = some s' →
      s'.stage = .finished ∧ ∀ id, Label.bus (.connect id) ∉ ls := by
    intro ls
    induction ls with
    | nil => intro s0 h0 h1; cases h1; exact ⟨h0, by simp⟩
    | cons l ls ih =>
      intro s0 h0 h1
      obtain ⟨s1, h2, h3⟩ := run_cons_some h1
      have h4 := finished_step h0 h2
      have h5 := ih s1 h4.1 h3
      exact ⟨h5.1, fun id hm => by rcases List.mem_cons.mp hm with hm | hm; exact h4.2 id hm.symm; exact h5.2 id hm⟩
  have hk := key ls' s hs h'
  refine ⟨fun id hc => ?_, hk.2, hI.gone (.inr hs)⟩
  rcases hc with hc | hc
  · rw [hk.1] at hc; cases hc.1
  · exact hc.1 hk.1

/-- C173 (publishers): whoever has the bus can publish at any time, also when the thread is gone, without waiting; that it is gone is logged once,
when somebody first publishes then. -/
theorem C173_publish {wakeCap : Nat} {ls : List Label} {s : St} (h : Run wakeCap ls s) :
    (∀ e, s.clones ≠ 0 → ∃ s', step wakeCap s (.bus (.send e)) = some s' ∧
      (s.stage = .finished → s'.errors = 1 ∧ s'.base = s.base)) ∧
    s.errors ≤ 1 ∧ (s.stage ≠ .finished → s.errors = 0) := by
  have hI := inv_run h
  have he := hI.errors
  refine ⟨fun e hc => ?_, by rw [he]; split <;> omega, fun hs => ?_⟩
  · by_cases hs : s.stage = .finished
    · refine ⟨{ s with logged := true, errors := if s.logged then s.errors else s.errors + 1 }, by simp [step, hc, hs], fun _ => ⟨?_, rfl⟩⟩
      cases hl : s.logged <;> simp_all
    · by_cases hf : s.base.chan.length ≥ Events.channelCap
      · exact ⟨s, by simp [step, hc, hs, Events.step, hf], fun hx => absurd hx hs⟩
      · refine ⟨{ s with base := { s.base with chan := s.base.chan ++ [e], mid := s.base.mid + 1 } }, ?_, fun hx => absurd hx hs⟩
        simp only [step, if_neg hc, if_neg hs, Events.step, if_neg hf, Option.map_some]
  · rw [he]
    cases hl : s.logged
    · rfl
    · exact absurd (hI.logged hl) hs

/-- C173 (what is missing): a subscriber the thread has not dropped has been sent, or has queued for it, all that was broadcast since it was
accepted; what it does not get of what was published is what the thread had not taken when it returned. -/
theorem C173_missing {wakeCap : Nat} (hc : 0 < wakeCap) {ls : List Label} {s : St} (h : Run wakeCap ls s) {u : Sub} (hu : u ∈ s.base.subs)
    (hd : u.dropped = false) : (s.base.published.drop u.start).flatMap Event.line =
      u.recv ++ (u.pending.flatMap Event.line).drop u.off ++ s.base.chan.flatMap Event.line := by
  obtain ⟨bls, hb⟩ := (inv_run h).base
  have hst := ((Events.inv_run hc hb).fed u (List.mem_append_left _ hu)).start
  rw [Events.C51_nothing_missing wakeCap hc bls s.base hb u hu hd, Events.St.published, List.drop_append_of_le_length hst,
    List.flatMap_append]

private theorem base_keeps {wakeCap : Nat} {b b' : Events.St} {l : Events.Label} (h : Events.step wakeCap b l = some b') (hl : l ≠ .shutdown) :
    b.published <+: b'.published ∧ b.done <+: b'.done ∧
    ((∃ p, b.phase = .receiving p) → (∃ p, b'.phase = .receiving p) ∨ b'.done = b'.published) := by
  cases l <;> simp only [Events.step] at h <;> (repeat' split at h) <;>
    first
    | contradiction
    | (simp only [Option.some.injEq] at h; subst h; simp_all [Events.St.published])

private theorem keeps_step {wakeCap : Nat} {s s' : St} {l : Label} (h : step wakeCap s l = some s') :
    s.base.published <+: s'.base.published ∧ s.base.done <+: s'.base.done ∧ (Passing s → Passing s' ∨ s'.base.done = s'.base.published) := by
  cases l with
  | bus l =>
    rcases bus_step h with ⟨b, h1, h2, rfl⟩ | ⟨-, hs, rfl⟩
    · obtain ⟨k1, k2, k3⟩ := base_keeps h1 h2
      refine ⟨k1, k2, fun hp => ?_⟩
      rcases k3 hp.2 with k | k
      · exact .inl ⟨hp.1, k⟩
      · exact .inr k
    · exact ⟨List.prefix_refl _, List.prefix_refl _, fun hp => by rw [hp.1] at hs; cases hs⟩
  | _ =>
    simp only [step] at h
    (repeat' split at h) <;>
    first
    | contradiction
    | (simp only [Option.some.injEq] at h; subst h
       refine ⟨List.prefix_refl _, List.prefix_refl _, ?_⟩
       rintro ⟨hr, p, hp⟩
       simp_all [Passing, atPipe])

/-- **C173** (what is not lost).  All that is published by the time the thread passes on events is broadcast before it does anything else: before it looks
at the shutdown pipe, returns or panics. -/
theorem C173_passed_on {wakeCap : Nat} {ls : List Label} {s s' : St} (hs : Passing s) (h : runSteps (step wakeCap) s ls = some s')
    (hn : ¬ Passing s') : s.base.published <+: s'.base.done := by
  have := run_inv (I := fun t => s.base.published <+: t.base.published ∧ (Passing t ∨ s.base.published <+: t.base.done))
    (fun t l t' ht h => by
      obtain ⟨k1, k2, k3⟩ := keeps_step h
      refine ⟨ht.1.trans k1, ?_⟩
      rcases ht.2 with hp | hd
      · rcases k3 hp with k | k
        · exact .inl k
        · exact .inr (by rw [k]; exact ht.1.trans k1)
      · exact .inr (hd.trans k2)) ⟨List.prefix_refl _, .inl hs⟩ h
  exact this.2.resolve_left hn

-- The owner lets the bus go while an event is passed on and another is published.
example : ∃ s s', Run 1 [.bus (.connect 7), .bus (.send .attached), .bus .wakeWrite, .bus .poll, .bus .accept, .bus .drain, .letGo true,
      .bus (.send .removed)] s ∧ Passing s ∧ s.base.published = [.attached, .removed] ∧
    runSteps (step 1) s [.bus (.recv fun _ => []), .bus (.recv fun _ => []), .bus (.recv fun _ => []), .bus (.finish fun _ => .quiet), .shutdown]
      = some s' ∧ ¬ Passing s' :=
  ⟨_, _, rfl, ⟨rfl, _, rfl⟩, rfl, rfl, fun h => by cases h.1⟩

/-- What one would like of the events: those published before the owner lets the bus go are broadcast. -/
def C173_delivery_statement (wakeCap : Nat) : Prop := ∀ ls ls' s s', Run wakeCap ls s → s.owner = .has → s.base.mid = 0 → s.stage = .running →
  runSteps (step wakeCap) s ls' = some s' → s'.owner = .through → (Label.panic ∉ ls') → s.base.published <+: s'.base.done

/-- The owner lets the bus go just after somebody has published. -/
def hasty : List Label := [.letGo true, .shutdown, .unlink true, .exit, .join]

/-- They are not: the thread looks at the shutdown pipe first. -/
theorem C173_false_delivery : ¬ C173_delivery_statement 1 := by
  intro hS
  have := hS [.bus (.connect 7), .bus .poll, .bus .accept, .bus (.finish (fun _ => .quiet)), .bus (.send .removed), .bus .wakeWrite] hasty _ _
    rfl rfl rfl rfl rfl rfl (by simp [hasty])
  revert this
  decide

/-- The full claim: when the owner lets the bus go, that ends. -/
def C173_statement (wakeCap : Nat) : Prop := ∀ σ lab, Fair wakeCap σ lab → ∀ i, lab i = some (.letGo true) → ∃ j, i ≤ j ∧ (σ j).owner = .through

/-! ### It does not end while others publish -/

private def pre : List Label :=
  [.bus (.send .attached), .bus .wakeWrite, .bus .poll, .bus .accept, .bus .drain, .letGo true]

/-- Publishers that publish again and again while the thread passes on what they have published. -/
def steady (i : Nat) : Label :=
  if h : i < pre.length then pre[i] else
    match (i - 6) % 3 with
    | 0 => .bus (.send .attached)
    | 1 => .bus .wakeWrite
    | _ => .bus (.recv fun _ => [])

private def Going (chan mid : Nat) (s : St) : Prop :=
  s.stage = .running ∧ s.owner = .joining ∧ s.base.phase = .receiving [] ∧ s.base.chan.length = chan ∧ s.base.mid = mid ∧ s.clones = 1

private theorem going_send {s : St} (h : Going 1 0 s) : ∃ s', step 1 s (.bus (.send .attached)) = some s' ∧ Going 2 1 s' := by
  obtain ⟨h1, h2, h3, h4, h5, h6⟩ := h
  have hn : ¬ s.base.chan.length ≥ Events.channelCap := by rw [h4]; decide
  have hc : s.clones ≠ 0 := by omega
  have hf : s.stage ≠ .finished := by rw [h1]; simp
  refine ⟨{ s with base := { s.base with chan := s.base.chan ++ [.attached], mid := s.base.mid + 1 } }, ?_, h1, h2, h3, by simp [h4], by simp [h5], h6⟩
  simp only [step, if_neg hc, if_neg hf, Events.step, if_neg hn, Option.map_some]

private theorem going_wake {s : St} (h : Going 2 1 s) : ∃ s', step 1 s (.bus .wakeWrite) = some s' ∧ Going 2 0 s' := by
  obtain ⟨h1, h2, h3, h4, h5, h6⟩ := h
  have hn : ¬ s.base.mid = 0 := by omega
  refine ⟨{ s with base := { s.base with mid := s.base.mid - 1, wake := if s.base.wake < 1 then s.base.wake + 1 else s.base.wake } }, ?_, h1, h2, h3, h4,
    by simp [h5], h6⟩
  simp only [step, Events.step, if_neg hn, Option.map_some]

private theorem going_recv {s : St} (h : Going 2 0 s) : ∃ s', step 1 s (.bus (.recv fun _ => [])) = some s' ∧ Going 1 0 s' := by
  obtain ⟨h1, h2, h3, h4, h5, h6⟩ := h
  cases hc : s.base.chan with
  | nil => rw [hc] at h4; cases h4
  | cons e r =>
    refine ⟨{ s with base := { s.base with chan := r, done := s.base.done ++ [e], subs := s.base.subs.map (fun u => u.offer e []) } }, ?_, h1, h2, h3, ?_,
      h5, h6⟩
    · simp only [step, if_pos h1, Events.step, h3, hc, Option.map_some]
    · rw [hc] at h4
      simpa using h4

private theorem follow_next {S L : Type} {step : S → L → Option S} {s s' : S} {lab : Nat → L} {i : Nat}
    (h : step (follow step s lab i) (lab i) = some s') : follow step s lab (i + 1) = s' := by
  simp [follow, h]

private theorem steady_at (k : Nat) : steady (6 + 3 * k) = .bus (.send .attached) ∧ steady (6 + 3 * k + 1) = .bus .wakeWrite ∧
    steady (6 + 3 * k + 2) = .bus (.recv fun _ => []) := by
  have hp : pre.length = 6 := rfl
  refine ⟨?_, ?_, ?_⟩
  · have h1 : ¬ 6 + 3 * k < pre.length := by omega
    have h2 : (6 + 3 * k - 6) % 3 = 0 := by omega
    simp only [steady, dif_neg h1, h2]
  · have h1 : ¬ 6 + 3 * k + 1 < pre.length := by omega
    have h2 : (6 + 3 * k + 1 - 6) % 3 = 1 := by omega
    simp only [steady, dif_neg h1, h2]
  · have h1 : ¬ 6 + 3 * k + 2 < pre.length := by omega
    have h2 : (6 + 3 * k + 2 - 6) % 3 = 2 := by omega
    simp only [steady, dif_neg h1, h2]

private theorem going_all (k : Nat) : Going 1 0 (follow (step 1) init steady (6 + 3 * k)) := by
  induction k with
  | zero => exact ⟨rfl, rfl, rfl, rfl, rfl, rfl⟩
  | succ k ih =>
    obtain ⟨l0, l1, l2⟩ := steady_at k
    obtain ⟨s1, h1, g1⟩ := going_send ih
    have e1 := follow_next (lab := steady) (l0 ▸ h1)
    obtain ⟨s2, h2, g2⟩ := going_wake g1
    have e2 := follow_next (lab := steady) (i := 6 + 3 * k + 1) (by rw [e1, l1]; exact h2)
    obtain ⟨s3, h3, g3⟩ := going_recv g2
    have e3 := follow_next (lab := steady) (i := 6 + 3 * k + 2) (by rw [e2, l2]; exact h3)
    rw [show 6 + 3 * (k + 1) = 6 + 3 * k + 2 + 1 by omega, e3]
    exact g3

private theorem going_some (i : Nat) (hi : 6 ≤ i) : ∃ c m s', Going c m (follow (step 1) init steady i) ∧
    step 1 (follow (step 1) init steady i) (steady i) = some s' := by
  obtain ⟨k, r, hr, rfl⟩ : ∃ k r, r < 3 ∧ i = 6 + 3 * k + r := ⟨(i - 6) / 3, (i - 6) % 3, by omega, by omega⟩
  obtain ⟨l0, l1, l2⟩ := steady_at k
  obtain ⟨s1, h1, g1⟩ := going_send (going_all k)
  have e1 := follow_next (lab := steady) (l0 ▸ h1)
  obtain ⟨s2, h2, g2⟩ := going_wake g1
  have e2 := follow_next (lab := steady) (i := 6 + 3 * k + 1) (by rw [e1, l1]; exact h2)
  obtain ⟨s3, h3, g3⟩ := going_recv g2
  match r, hr with
  | 0, _ => exact ⟨1, 0, s1, going_all k, by rw [show 6 + 3 * k + 0 = 6 + 3 * k from rfl, l0]; exact h1⟩
  | 1, _ => exact ⟨2, 1, s2, by rw [e1]; exact g1, by rw [e1, l1]; exact h2⟩
  | 2, _ => exact ⟨2, 0, s3, by rw [e2]; exact g2, by rw [e2, l2]; exact h3⟩

/-- C173 does not hold: as long as others publish faster than the thread passes their events on, it does not look at the shutdown pipe, and the owner
waits, for ever if need be. -/
theorem C173_false_for_ever : ∃ σ lab, Fair 1 σ lab ∧ lab 5 = some (.letGo true) ∧ ∀ j, 6 ≤ j → (σ j).owner = .joining ∧ Passing (σ j) := by
  refine ⟨follow (step 1) init steady, fun i => some (steady i), ⟨follow_exec fun i => ?_, rfl, fun _ n => ?_, fun ⟨n, hn⟩ => ?_, fun _ n => ?_⟩, rfl,
    fun j hj => ?_⟩
  · by_cases hi : 6 ≤ i
    · obtain ⟨_, _, s', _, h⟩ := going_some i hi
      rw [h]; rfl
    · match i, hi with
      | 0, _ | 1, _ | 2, _ | 3, _ | 4, _ | 5, _ => rfl
      | n + 6, hi => omega
  · exact ⟨6 + 3 * n + 2, _, by omega, rfl, by rw [(steady_at n).2.2]; rfl⟩
  · exfalso
    obtain ⟨_, _, _, hg, _⟩ := going_some (n + 6) (by omega)
    obtain ⟨l, hl, hs⟩ := hn (n + 6) (by omega)
    cases l <;> simp only [joins] at hl <;> first | contradiction | skip
    simp [step, hg.1] at hs
  · exact ⟨6 + 3 * n + 1, _, by omega, rfl, by rw [(steady_at n).2.1]; rfl⟩
  · obtain ⟨_, _, _, hg, _⟩ := going_some j hj
    exact ⟨hg.2.1, hg.1, _, hg.2.2.1⟩

theorem C173_false : ¬ C173_statement 1 := by
  intro hS
  obtain ⟨σ, lab, hf, hl, hw⟩ := C173_false_for_ever
  obtain ⟨j, hj, ho⟩ := hS σ lab hf 5 hl
  by_cases h6 : 6 ≤ j
  · rw [(hw j h6).1] at ho; cases ho
  · have : j = 5 := by omega
    subst this
    have h1 := exec_at hf.exec hl
    simp [step, ho] at h1

/-! ### Otherwise it does -/

def rank (s : St) : Nat :=
  match s.stage with
  | .finished => 0
  | .unlinked => 1
  | .returned => 2
  | .running =>
    match s.base.phase with
    | .polling => 3
    | .finishing _ => 4
    | .receiving _ => 5
    | .draining _ => 6
    | .accepting _ _ => 7
    | .stopped => 8

/-- The owner waits, and the thread has been told. -/
def Told (s : St) : Prop := s.owner = .joining ∧ s.nudged = true ∧ s.base.phase ≠ .stopped

theorem told_step {wakeCap : Nat} {s s' : St} {l : Label} (hT : Told s) (h : step wakeCap s l = some s') :
    s'.owner = .through ∨ (Told s' ∧ rank s' ≤ rank s ∧ (works l = true → rank s' < rank s ∨
      ((∃ ws, l = .bus (.recv ws)) ∧ Passing s ∧ s'.base.chan.length < s.base.chan.length)) ∧
      ((∀ e, l ≠ .bus (.send e)) → s'.base.chan.length ≤ s.base.chan.length)) := by
  obtain ⟨h1, h2, h3⟩ := hT
  cases l with
  | bus l =>
    have key : ∀ b, Events.step wakeCap s.base l = some b → l ≠ .shutdown → s' = { s with base := b } → Told s' := by
      rintro b hb hl rfl
      exact ⟨h1, h2, base_phase hb hl h3⟩
    rcases bus_step h with ⟨b, hb, hl, e⟩ | ⟨⟨e, rfl⟩, hs, rfl⟩
    · refine .inr ⟨key b hb hl e, ?_⟩
      subst e
      cases l with
      | send e =>
        simp only [Events.step] at hb
        split at hb <;> cases hb <;> exact ⟨Nat.le_refl _, nofun, fun hn => absurd rfl (hn e)⟩
      | wakeWrite =>
        simp only [Events.step] at hb
        split at hb <;> cases hb
        exact ⟨Nat.le_refl _, nofun, fun _ => Nat.le_refl _⟩
      | connect id =>
        simp only [Events.step] at hb
        split at hb <;> cases hb
        exact ⟨Nat.le_refl _, nofun, fun _ => Nat.le_refl _⟩
      | shutdown => exact absurd rfl hl
      | poll => simp [step, h2] at h
      | accept =>
        simp only [step] at h
        split at h
        · next hr =>
          simp only [Events.step] at hb
          split at hb <;> cases hb
          next w p hp => cases w <;> simp [rank, hr, hp, works]
        · cases h
      | acceptFails got =>
        simp only [step] at h
        split at h
        · next hr =>
          simp only [Events.step] at hb
          split at hb <;> cases hb
          next w p hp => cases w <;> simp [rank, hr, hp, works]
        · cases h
      | drain =>
        simp only [step] at h
        split at h
        · next hr =>
          simp only [Events.step] at hb
          split at hb <;> cases hb
          next p hp => simp [rank, hr.1, hp, works]
        · cases h
      | recv ws =>
        simp only [step] at h
        split at h
        · next hr =>
          simp only [Events.step] at hb
          split at hb
          · next p hp =>
            split at hb <;> cases hb
            · next hc => simp [rank, hr, hp, works, hc]
            · next e r hc => simp [rank, hr, hp, works, hc, Passing]
          · cases hb
        · cases h
      | finish ev =>
        simp only [step] at h
        split at h
        · next hr =>
          simp only [Events.step] at hb
          split at hb <;> cases hb
          next p hp => simp [rank, hr, hp, works]
        · cases h
    · exact .inr ⟨⟨h1, h2, h3⟩, Nat.le_refl _, nofun, fun _ => Nat.le_refl _⟩
  | join =>
    simp only [step] at h
    split at h <;> cases h
    exact .inl rfl
  | letGo ok => simp [step, h1] at h
  | clone | dropClone =>
    simp only [step] at h
    split at h <;> cases h
    exact .inr ⟨⟨h1, h2, h3⟩, Nat.le_refl _, nofun, fun _ => Nat.le_refl _⟩
  | unlink ok =>
    simp only [step] at h
    split at h <;> cases h
    next hs => exact .inr ⟨⟨h1, h2, h3⟩, by simp [rank, hs], by simp [rank, hs], fun _ => Nat.le_refl _⟩
  | exit =>
    simp only [step] at h
    split at h <;> cases h
    next hs => exact .inr ⟨⟨h1, h2, h3⟩, by simp [rank, hs], by simp [rank, hs], fun _ => Nat.le_refl _⟩
  | shutdown | eof | panic =>
    simp only [step] at h
    split at h <;> cases h
    next hs =>
    have hr : 2 < rank s := by
      simp only [rank, hs.1]; cases hp : s.base.phase <;> simp_all
    exact .inr ⟨⟨h1, h2, h3⟩, by simp only [rank] at hr ⊢; omega, fun _ => .inl (by simp only [rank] at hr ⊢; omega), fun _ => Nat.le_refl _⟩

theorem told_can {wakeCap : Nat} {s : St} (hT : Told s) (hs : s.stage ≠ .finished) : Can (step wakeCap) works s := by
  obtain ⟨_, h2, h3⟩ := hT
  cases hst : s.stage with
  | finished => exact absurd hst hs
  | returned => exact ⟨.unlink true, rfl, by simp [step, hst]⟩
  | unlinked => exact ⟨.exit, rfl, by simp [step, hst]⟩
  | running =>
    cases hp : s.base.phase with
    | stopped => exact absurd hp h3
    | polling => exact ⟨.shutdown, rfl, by simp [step, hst, hp, h2]⟩
    | accepting w p => exact ⟨.bus .accept, rfl, by simp [step, hst, Events.step, hp]⟩
    | finishing p => exact ⟨.bus (.finish fun _ => .quiet), rfl, by simp [step, hst, Events.step, hp]⟩
    | receiving p =>
      refine ⟨.bus (.recv fun _ => []), rfl, ?_⟩
      simp only [step, hst, Events.step, hp]
      cases hc : s.base.chan <;> simp
    | draining p =>
      by_cases hc : s.clones = 0
      · exact ⟨.eof, rfl, by simp [step, hst, hp, hc, atPipe]⟩
      · exact ⟨.bus .drain, rfl, by simp [step, hst, Events.step, hp, hc]⟩

theorem join_step {wakeCap : Nat} {s s' : St} {l : Label} (hB : s.owner = .joining ∧ s.stage = .finished) (hs : step wakeCap s l = some s') :
    s'.owner = .through ∨ ((s'.owner = .joining ∧ s'.stage = .finished) ∧ joins l = false) := by
  have hfin := (finished_step hB.2 hs).1
  cases l with
  | join => simp only [step, if_pos hB, Option.some.injEq] at hs; subst hs; exact .inl rfl
  | bus l =>
    rcases bus_step hs with ⟨b, _, _, rfl⟩ | ⟨_, _, rfl⟩
    · exact .inr ⟨hB, rfl⟩
    · exact .inr ⟨hB, rfl⟩
  | letGo ok => simp [step, hB.1] at hs
  | _ =>
    simp only [step] at hs
    split at hs <;> first | contradiction | skip
    all_goals
      simp only [Option.some.injEq] at hs
      subst hs
      first
      | exact .inr ⟨hB, rfl⟩
      | (exfalso; grind)

theorem join_ends {wakeCap : Nat} {σ : Nat → St} {lab : Nat → Option Label} (hF : Fair wakeCap σ lab) {m : Nat}
    (h : (σ m).owner = .joining ∧ (σ m).stage = .finished) : ∃ j, m ≤ j ∧ (σ j).owner = .through := by
  refine fair_reaches hF.exec hF.owner (B := fun s => s.owner = .joining ∧ s.stage = .finished) (G := fun s => s.owner = .through) (fun _ => 0) h
    (fun j _ hB => ⟨.join, rfl, by simp [step, hB]⟩) (fun j l _ _ hB hs => ?_)
  exact (join_step hB hs).imp id fun h => ⟨h.1, Nat.le_refl _, by simp [h.2]⟩

private theorem rank_passing {s : St} : Passing s ↔ rank s = 5 := by
  unfold Passing rank
  cases hs : s.stage <;> cases hp : s.base.phase <;> simp

/-- Until the thread is gone it goes on, or passes on events for ever. -/
private theorem told_ends {wakeCap : Nat} {σ : Nat → St} {lab : Nat → Option Label} (hF : Fair wakeCap σ lab) {m : Nat} (hT : Told (σ m))
    (hp : ¬ ∃ n, ∀ j, n ≤ j → Passing (σ j)) : ∃ j, m ≤ j ∧ (σ j).owner = .through := by
  refine Classical.byContradiction fun hno => ?_
  have hnt : ∀ j, m ≤ j → (σ j).owner ≠ .through := fun j hj h => hno ⟨j, hj, h⟩
  have hB : ∀ j, m ≤ j → Told (σ j) := exec_stays hF.exec (p := Told)
    (fun j l hj _ hb hs => ((told_step hb hs).resolve_left (hnt _ (by omega))).1) hT
  have hnf : ∀ j, m ≤ j → (σ j).stage ≠ .finished := fun j hj h => by
    obtain ⟨k, hk, ho⟩ := join_ends hF ⟨(hB j hj).1, h⟩
    exact hnt k (by omega) ho
  have hstep : ∀ j l, m ≤ j → lab j = some l → _ := fun j l hj hl => ((told_step (hB j hj) (exec_at hF.exec hl)).resolve_left (hnt _ (by omega))).2
  obtain ⟨n, hn, hr⟩ := comes_to_rest (f := fun j => rank (σ j)) (m := m) (fun j hj => by
    rcases hF.exec j with ⟨_, h3⟩ | ⟨l, hl, _⟩
    · rw [h3]; exact Nat.le_refl _
    · exact (hstep j l hj hl).1)
  have hnp : ∀ j, n ≤ j → ¬ Passing (σ j) := fun j hj hpj => hp ⟨n, fun k hk => by
    rw [rank_passing] at hpj ⊢
    have h1 := hr j hj
    have h2 := hr k hk
    omega⟩
  obtain ⟨j, l, hj, hl, hw⟩ := hF.thread ⟨m, fun j hj => told_can (hB j hj) (hnf j hj)⟩ n
  rcases (hstep j l (by omega) hl).2.1 hw with h | h
  · have h1 := hr j hj
    have h2 := hr (j + 1) (by omega)
    omega
  · exact hnp j hj h.2.1

private theorem let_go {wakeCap : Nat} {σ : Nat → St} {lab : Nat → Option Label} (hF : Fair wakeCap σ lab) {i : Nat} (hl : lab i = some (.letGo true)) :
    Told (σ (i + 1)) ∨ ((σ (i + 1)).owner = .joining ∧ (σ (i + 1)).stage = .finished) := by
  have hr : Run wakeCap (performed lab (i + 1)) (σ (i + 1)) := by
    have := exec_run hF.exec (i + 1)
    rwa [hF.start] at this
  have hph := (inv_run hr).phase
  have h := exec_at hF.exec hl
  generalize σ i = s at h
  generalize σ (i + 1) = s' at h hph ⊢
  simp only [step] at h
  split at h <;> cases h
  by_cases hs : s.stage = .finished
  · exact .inr ⟨rfl, hs⟩
  · exact .inl ⟨rfl, by simp [hs], hph⟩

/-- C173, exactly: the owner who lets the bus go is through some time, unless the thread passes on events for ever from some moment on. -/
theorem C173_exact {wakeCap : Nat} {σ : Nat → St} {lab : Nat → Option Label} (hF : Fair wakeCap σ lab) {i : Nat} (hl : lab i = some (.letGo true)) :
    (∃ j, i ≤ j ∧ (σ j).owner = .through) ↔ ¬ ∃ n, ∀ j, n ≤ j → Passing (σ j) := by
  constructor
  · rintro ⟨j, _, hj⟩ ⟨n, hn⟩
    have hr : Run wakeCap (performed lab j) (σ j) := by
      have := exec_run hF.exec j
      rwa [hF.start] at this
    have hfin : ∀ k, j ≤ k → (σ k).stage = .finished := exec_stays hF.exec (p := fun s => s.stage = .finished)
      (fun k l _ _ h hs => (finished_step h hs).1) ((inv_run hr).owner hj)
    have h1 := (hn (max n j) (by omega)).1
    rw [hfin (max n j) (by omega)] at h1
    cases h1
  · intro hp
    rcases let_go hF hl with h | h
    · obtain ⟨j, hj, ho⟩ := told_ends hF h hp
      exact ⟨j, by omega, ho⟩
    · obtain ⟨j, hj, ho⟩ := join_ends hF h
      exact ⟨j, by omega, ho⟩

/-- C173 (part): the owner is through some time if from some moment on nobody publishes any more (as when the start of the daemon fails, where nobody has
published anything), whatever subscribers and their connections do. -/
theorem C173_ends_partial {wakeCap : Nat} {σ : Nat → St} {lab : Nat → Option Label} (hF : Fair wakeCap σ lab) {i n : Nat}
    (hl : lab i = some (.letGo true)) (hn : ∀ j, n ≤ j → ∀ e, lab j ≠ some (.bus (.send e))) : ∃ j, i ≤ j ∧ (σ j).owner = .through := by
  refine (C173_exact hF hl).mpr fun ⟨k, hk⟩ => ?_
  have hT0 : Told (σ (i + 1)) := by
    rcases let_go hF hl with h | h
    · exact h
    · exfalso
      have hfin : ∀ j, i + 1 ≤ j → (σ j).stage = .finished := exec_stays hF.exec (p := fun s => s.stage = .finished)
        (fun k l _ _ h hs => (finished_step h hs).1) h.2
      have h1 := (hk (max k (i + 1)) (by omega)).1
      rw [hfin _ (by omega)] at h1
      cases h1
  have hnt : ∀ j, (σ j).owner ≠ .through := fun j hj => (C173_exact hF hl).mp ⟨j, ?_, hj⟩ ⟨k, hk⟩
  · have hB : ∀ j, i + 1 ≤ j → Told (σ j) := exec_stays hF.exec (p := Told)
      (fun j l hj _ hb hs => ((told_step hb hs).resolve_left (hnt _)).1) hT0
    obtain ⟨r, hr, hrest⟩ := comes_to_rest (f := fun j => (σ j).base.chan.length) (m := max (i + 1) (max k n)) (fun j hj => by
      rcases hF.exec j with ⟨_, h3⟩ | ⟨l, hlj, h3⟩
      · rw [h3]; exact Nat.le_refl _
      · exact ((told_step (hB j (by omega)) h3).resolve_left (hnt _)).2.2.2 (fun e he => hn j (by omega) e (by rw [hlj, he])))
    obtain ⟨j, l, hj, hlj, hw⟩ := hF.thread ⟨r, fun j hj => told_can (hB j (by omega)) (by rw [(hk j (by omega)).1]; simp)⟩ r
    have h1 := hrest j hj
    have h2 := hrest (j + 1) (by omega)
    rcases ((told_step (hB j (by omega)) (exec_at hF.exec hlj)).resolve_left (hnt _)).2.2.1 hw with h | h
    · have h3 := rank_passing.mp (hk j (by omega))
      have h4 := rank_passing.mp (hk (j + 1) (by omega))
      omega
    · omega
  · refine Classical.byContradiction fun hlt => ?_
    have hr : Run wakeCap (performed lab j) (σ j) := by
      have := exec_run hF.exec j
      rwa [hF.start] at this
    have hfin : ∀ k, j ≤ k → (σ k).stage = .finished := exec_stays hF.exec (p := fun s => s.stage = .finished)
      (fun k l _ _ h hs => (finished_step h hs).1) ((inv_run hr).owner hj)
    have h1 := (hk (max k j) (by omega)).1
    rw [hfin _ (by omega)] at h1
    cases h1

/-- C173 (an unheard nudge): if the write to the shutdown pipe fails, the owner waits as long as anybody has the bus and the thread does not panic,
whatever happens. -/
theorem C173_unheard {wakeCap : Nat} {ls ls' : List Label} {s s1 s' : St} (h : Run wakeCap ls s) (hr : s.stage = .running)
    (h1 : step wakeCap s (.letGo false) = some s1) (h' : runSteps (step wakeCap) s1 ls' = some s')
    (hp : Label.panic ∉ ls') (hc : ∀ pre post s2, ls' = pre ++ post → runSteps (step wakeCap) s1 pre = some s2 → s2.clones ≠ 0) :
    s'.owner = .joining ∧ s'.stage = .running := by
  have hn : s.owner = .has → s.nudged = false := by
    refine run_inv (I := fun s => s.owner = .has → s.nudged = false) (fun s l s' hI hs => ?_) (s := init) (fun _ => rfl) h
    cases l with
    | bus l =>
      rcases bus_step hs with ⟨b, _, _, rfl⟩ | ⟨_, _, rfl⟩
      · exact hI
      · exact hI
    | _ => simp only [step] at hs; split at hs <;> first | contradiction | (simp only [Option.some.injEq] at hs; subst hs; grind)
  have key : ∀ (ls : List Label) (s0 : St), s0.owner = .joining → s0.stage = .running → s0.nudged = false → Label.panic ∉ ls →
      (∀ pre post s2, ls = pre ++ post → runSteps (step wakeCap) s0 pre = some s2 → s2.clones ≠ 0) →
      runSteps (step wakeCap) s0 ls = some s' → s'.owner = .joining ∧ s'.stage = .running := by
    intro ls
    induction ls with
    | nil => intro s0 a b _ _ _ h; cases h; exact ⟨a, b⟩
    | cons l ls ih =>
      intro s0 a b c d e h
      obtain ⟨s2, h2, h3⟩ := run_cons_some h
      have hcl := e [] (l :: ls) s0 rfl rfl
      have : s2.owner = .joining ∧ s2.stage = .running ∧ s2.nudged = false := by
        cases l with
        | bus l =>
          rcases bus_step h2 with ⟨b, _, _, rfl⟩ | ⟨_, _, rfl⟩
          · exact ⟨a, by assumption, c⟩
          · exact ⟨a, b, c⟩
        | panic => simp at d
        | _ => simp only [step] at h2; split at h2 <;> first | contradiction | (simp only [Option.some.injEq] at h2; subst h2; grind)
      refine ih s2 this.1 this.2.1 this.2.2 (fun hm => d (by simp [hm])) (fun pre post s3 hl hr => ?_) h3
      exact e (l :: pre) post s3 (by simp [hl]) (by simp [runSteps, h2, hr])
  simp only [step] at h1
  split at h1
  · next ho =>
    simp only [Option.some.injEq] at h1
    exact key ls' s1 (by rw [← h1]) (by rw [← h1]; exact hr) (by rw [← h1]; simp [hn ho]) hp hc h'
  · cases h1

/-! ## Examples -/

/-- The bus is let go while a subscriber is served and another waits to be accepted. -/
def orderly : List Label :=
  [.bus (.connect 7), .bus .poll, .bus .accept, .bus (.finish fun _ => .quiet), .bus (.connect 8), .letGo true, .shutdown, .unlink true, .exit, .join]

example : ∃ s s', Run 1 (orderly.take 5) s ∧ Connected s 7 ∧ Connected s 8 ∧ Run 1 orderly s' ∧ s'.owner = .through ∧ s'.file = false :=
  ⟨_, _, rfl, .inl ⟨rfl, by decide⟩, .inr ⟨by decide, by decide⟩, rfl, rfl, rfl⟩

/-- A fair execution in which it is. -/
example : ∃ σ lab, Fair 1 σ lab ∧ lab 5 = some (.letGo true) ∧ ∀ j, 10 ≤ j → ∀ e, lab j ≠ some (.bus (.send e)) := by
  have h := thenRests_exec (step := step 1) (s := init) (ls := orderly) (s' := _) rfl
  refine ⟨_, _, ⟨h.1, rfl, (fair_at_rest h.2 ?_).1, (fair_at_rest h.2 ?_).1, (fair_at_rest h.2 ?_).1⟩, rfl, fun j hj e => ?_⟩
  · rintro (l | _) hl <;> first | (cases l <;> first | rfl | cases hl) | rfl | cases hl
  · rintro (l | _) hl <;> first | (cases l <;> first | rfl | cases hl) | rfl | cases hl
  · rintro (l | _) hl <;> first | (cases l <;> first | rfl | cases hl) | rfl | cases hl
  · have hlen : orderly.length ≤ j := hj
    simp [hlen]

/-- The bus is dropped before its owner lets it go, and somebody who was about to publish finds the thread gone. -/
example : ∃ s, Run 1 [.dropClone, .eof, .unlink true, .exit, .letGo true, .join] s ∧ s.owner = .through ∧ s.nudged = false := ⟨_, rfl, rfl, rfl⟩

example : ∃ s, Run 1 (orderly ++ [.bus (.send .created), .bus (.send .removed)]) s ∧ s.errors = 1 ∧ s.base.published = [] := ⟨_, rfl, rfl, rfl⟩

/-- One subscriber, two events, one of which is lost. -/
example : ∃ s u, Run 1 [.bus (.connect 7), .bus (.send .created), .bus .wakeWrite, .bus .poll, .bus .accept, .bus .drain,
    .bus (.recv fun _ => [.wrote 100]), .bus (.recv fun _ => []), .bus (.finish fun _ => .quiet), .bus (.send .removed), .bus .wakeWrite, .letGo true,
    .shutdown] s ∧ s.base.subs = [u] ∧ u.dropped = false ∧ u.recv = Event.created.line ∧ s.base.chan = [.removed] :=
  ⟨_, _, rfl, rfl, rfl, by decide, rfl⟩

/-- The nudge is not heard, and the thread goes on. -/
example : ∃ s s1 s', Run 1 [.bus (.connect 7)] s ∧ s.stage = .running ∧ step 1 s (.letGo false) = some s1 ∧
    runSteps (step 1) s1 [.bus .poll, .bus .accept] = some s' ∧ s'.clones = 1 := ⟨_, _, _, rfl, rfl, rfl, rfl, rfl⟩

end Shpool.BusClose
