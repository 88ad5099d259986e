import Verif.Events.Lemmas
import Verif.Util.List
/-!
# Properties C51-C54: the event stream

`wakeCap` is the capacity of the wake pipe (any positive number).
-/

namespace Shpool.Events

/-! ## C51: whole events, in order -/

/-- C51 (framing). A line contains exactly one newline, at its end, and different events have different lines. -/
theorem C51_framing (e e' : Event) :
    (∃ body, e.line = body ++ ['\n'] ∧ '\n' ∉ body) ∧ (e.line = e'.line → e = e') := by
  refine ⟨⟨e.line.dropLast, by cases e <;> decide, by cases e <;> decide⟩, ?_⟩
  cases e <;> cases e' <;> decide

theorem prefix_lines (L : List Event) (r : List Char) (h : r <+: L.flatMap Event.line) :
    ∃ es p, es <+: L ∧ r = es.flatMap Event.line ++ p ∧ '\n' ∉ p := by
  induction L generalizing r with
  | nil => exact ⟨[], [], List.nil_prefix, by simpa using h, by simp⟩
  | cons e L ih =>
    obtain ⟨t, ht⟩ := h
    rw [List.flatMap_cons] at ht
    rcases List.append_eq_append_iff.mp ht with ⟨a, h1, h2⟩ | ⟨a, h1, h2⟩
    · -- r ++ a = e.line
      obtain ⟨body, hb, hn⟩ := (C51_framing e e).1
      rcases List.eq_nil_or_concat a with rfl | ⟨a', x, rfl⟩
      · refine ⟨[e], [], ⟨L, rfl⟩, ?_, by simp⟩
        simp [h1]
      · rw [List.concat_eq_append, ← List.append_assoc, hb] at h1
        obtain ⟨h3, -⟩ := List.append_inj' h1 rfl
        refine ⟨[], r, List.nil_prefix, rfl, ?_⟩
        intro hm; apply hn; rw [h3]; exact List.mem_append_left _ hm
    · obtain ⟨es, p, i1, i2, i3⟩ := ih a ⟨t, h2.symm⟩
      refine ⟨e :: es, p, ?_, ?_, i3⟩
      · obtain ⟨u, hu⟩ := i1; exact ⟨u, by rw [← hu]; rfl⟩
      · rw [h1, i2]; simp

/-- C51. Whatever the interleaving and however the writes are cut up, what a subscriber (connected or already dropped) has been
sent consists of the lines of the first so many events published since it was accepted, in order, without gap or repetition,
followed by at most the beginning of one more line. -/
theorem C51_whole_events_in_order (wakeCap : Nat) (hc : 0 < wakeCap) (ls : List Label) (s : St) (h : Run wakeCap ls s)
    (u : Sub) (hu : u ∈ s.subs ++ s.gone) :
    u.recv <+: (s.published.drop u.start).flatMap Event.line ∧
    ∃ es p, es <+: s.published.drop u.start ∧ u.recv = es.flatMap Event.line ++ p ∧ '\n' ∉ p := by
  have hi := inv_run hc h
  have hb := (hi.ok u hu).bytes
  have hf := hi.fed u hu
  have hpre : u.recv <+: (s.published.drop u.start).flatMap Event.line := by
    have h1 : u.recv <+: u.given.flatMap Event.line := ⟨_, hb⟩
    obtain ⟨t, ht⟩ := hf.pre
    refine h1.trans ?_
    rw [St.published, List.drop_append_of_le_length hf.start, ← ht]
    simp
  exact ⟨hpre, prefix_lines _ _ hpre⟩

/-- The events of the `publish` calls of a history, in order. -/
def publishCalls : List Label → List Event
  | [] => []
  | .send e :: ls => e :: publishCalls ls
  | _ :: ls => publishCalls ls

theorem step_published {wakeCap : Nat} {s s' : St} {l : Label} (h : step wakeCap s l = some s') :
    s'.published = s.published ∨
    (∃ e, l = .send e ∧ s'.published = s.published ++ [e]) := by
  cases l with
  | send e =>
    simp only [step] at h
    split at h
    · cases h; exact .inl rfl
    · cases h; exact .inr ⟨e, rfl, by simp [St.published]⟩
  | wakeWrite => simp only [step] at h; split at h <;> cases h; exact .inl rfl
  | connect i => simp only [step] at h; split at h <;> cases h; exact .inl rfl
  | poll => simp only [step] at h; split at h <;> cases h; exact .inl rfl
  | accept => simp only [step] at h; split at h <;> cases h; exact .inl rfl
  | acceptFails got => simp only [step] at h; split at h <;> cases h; exact .inl rfl
  | drain => simp only [step] at h; split at h <;> cases h; exact .inl rfl
  | recv ws =>
    simp only [step] at h
    split at h
    · split at h
      · cases h; exact .inl rfl
      · next hq => cases h; exact .inl (by simp [St.published, hq])
    · cases h
  | finish ev => simp only [step] at h; split at h <;> cases h; exact .inl rfl
  | shutdown => simp only [step] at h; split at h <;> cases h; exact .inl rfl

theorem publishCalls_append (a b : List Label) : publishCalls (a ++ b) = publishCalls a ++ publishCalls b := by
  induction a with
  | nil => rfl
  | cons l ls ih => cases l <;> simp [publishCalls, ih]

/-- C51 (publication order). What is published is what the calls to `publish` asked for, in the order of the calls; only an event
whose call found the channel full can be missing. -/
theorem C51_publish_order (wakeCap : Nat) (ls : List Label) (s : St) (h : Run wakeCap ls s) :
    s.published.Sublist (publishCalls ls) ∧
    ((∀ pre e post s1, ls = pre ++ .send e :: post → Run wakeCap pre s1 → s1.chan.length < 4096) →
      s.published = publishCalls ls) := by
  induction ls using snocInd generalizing s with
  | nil => cases h; exact ⟨List.Sublist.refl _, fun _ => rfl⟩
  | snoc ls l ih =>
    obtain ⟨s1, h1, h2⟩ := Shpool.run_append_some h
    have hs : step wakeCap s1 l = some s := by
      simp only [runSteps] at h2
      cases hl : step wakeCap s1 l with
      | none => rw [hl] at h2; cases h2
      | some x => rw [hl] at h2; exact h2
    obtain ⟨i1, i2⟩ := ih s1 h1
    have i2' : (∀ pre e post s2, ls ++ [l] = pre ++ .send e :: post → Run wakeCap pre s2 → s2.chan.length < 4096) →
        s1.published = publishCalls ls := by
      intro hf
      apply i2
      intro pre e post s2 he hr
      exact hf pre e (post ++ [l]) s2 (by rw [he]; simp) hr
    rw [publishCalls_append]
    rcases step_published hs with hp | ⟨e, rfl, hp⟩
    · rw [hp]
      refine ⟨i1.trans (List.sublist_append_left _ _), ?_⟩
      intro hf
      rw [i2' hf]
      cases l with
      | send e =>
        exfalso
        have hlt := hf ls e [] s1 rfl h1
        simp only [step, if_neg (Nat.not_le.mpr (show s1.chan.length < channelCap from hlt))] at hs
        cases hs
        simp [St.published] at hp
      | _ => simp [publishCalls]
    · rw [hp]
      exact ⟨i1.append (List.Sublist.refl _), fun hf => by rw [i2' hf]; rfl⟩

/-- C51 (completeness). For a subscriber that has not been dropped, what was sent plus what is queued for it is exactly the lines
of all events broadcast since it was accepted. -/
theorem C51_nothing_missing (wakeCap : Nat) (hc : 0 < wakeCap) (ls : List Label) (s : St) (h : Run wakeCap ls s)
    (u : Sub) (hu : u ∈ s.subs) (hd : u.dropped = false) :
    u.recv ++ (u.pending.flatMap Event.line).drop u.off = (s.done.drop u.start).flatMap Event.line := by
  have hi := inv_run hc h
  have hu' : u ∈ s.subs ++ s.gone := List.mem_append_left _ hu
  rw [← (hi.fed u hu').all hd]
  exact (hi.ok u hu').bytes

/-- A run with one subscriber whose socket takes 10 bytes, is interrupted, takes 100, then would block. -/
def demoWrites : Nat → List WriteRes := fun _ => [.wrote 10, .interrupted, .wrote 100, .wouldBlock]
def demoRun : List Label :=
  [.connect 7, .send .created, .wakeWrite, .send .attached, .poll, .accept, .drain, .recv demoWrites, .wakeWrite,
   .recv (fun _ => [.wrote 3])]
example : ∃ s, Run 1 demoRun s ∧ s.subs.map (·.recv) = [Event.created.line ++ ['{', '"', 't']] := ⟨_, rfl, by decide⟩

/-! ## C52: no lost wake-up -/

/-- C52. Whenever the sink is at its `poll` (blocked or about to block), no publisher is in the middle of a call and an event is
queued, an unread wake byte is there, so `poll` returns and reports it. -/
theorem C52_wake_pending (wakeCap : Nat) (hc : 0 < wakeCap) (ls : List Label) (s : St) (h : Run wakeCap ls s)
    (hp : s.phase = .polling) (hm : s.mid = 0) (hq : s.chan ≠ []) : s.wake > 0 := by
  have := (inv_run hc h).wake hq
  rw [hp] at this
  rcases this with h | h
  · exact h
  · omega

/-- C52. In other words: if the sink is at its `poll`, no publisher is in the middle of a call, and no wake byte is unread (so the
sink may sleep forever), every published event has been broadcast. -/
theorem C52_idle_means_empty (wakeCap : Nat) (hc : 0 < wakeCap) (ls : List Label) (s : St) (h : Run wakeCap ls s)
    (hp : s.phase = .polling) (hm : s.mid = 0) (hw : s.wake = 0) : s.chan = [] ∧ s.done = s.published := by
  have : s.chan = [] := by
    rcases Classical.em (s.chan = []) with h0 | h0
    · exact h0
    · have := C52_wake_pending wakeCap hc ls s h hp hm h0; omega
  exact ⟨this, by simp [St.published, this]⟩

theorem recv_all (wakeCap : Nat) (polled : List Nat) (evs : List Event) (s : St) (hp : s.phase = .receiving polled)
    (hq : s.chan = evs) : ∃ s', runSteps (step wakeCap) s (List.replicate (evs.length + 1) (.recv fun _ => [])) = some s' ∧
      s'.phase = .finishing polled ∧ s'.chan = [] ∧ s'.done = s.done ++ evs := by
  induction evs generalizing s with
  | nil =>
    refine ⟨{ s with phase := .finishing polled }, ?_, rfl, hq, by simp⟩
    simp [runSteps, step, hp, hq]
  | cons e es ih =>
    obtain ⟨s', h1, h2, h3, h4⟩ := ih
      { s with chan := es, done := s.done ++ [e], subs := s.subs.map (fun u => u.offer e []), phase := .receiving polled }
      rfl rfl
    refine ⟨s', ?_, h2, h3, by rw [h4]; simp⟩
    rw [List.length_cons, List.replicate_succ]
    simp only [runSteps, step, hp, hq]
    exact h1

/-- C52 (progress). From such a state the sink's own next steps (whatever the subscribers' sockets do; here they all block) broadcast
every queued event and return to `poll`. -/
theorem C52_sink_catches_up (wakeCap : Nat) (s : St) (hp : s.phase = .polling) (hw : s.wake > 0) :
    ∃ ls s', runSteps (step wakeCap) s ls = some s' ∧ s'.phase = .polling ∧ s'.done = s.done ++ s.chan ∧ s'.chan = [] ∧
      (∀ l ∈ ls, match l with
        | .poll | .accept | .drain | .recv _ | .finish _ => True
        | _ => False) := by
  have h1 : ∃ s1 polled, runSteps (step wakeCap) s [.poll, .accept, .drain] = some s1 ∧ s1.phase = .receiving polled ∧
      s1.chan = s.chan ∧ s1.done = s.done := by
    have hw' : decide (s.wake > 0) = true := by simpa using hw
    simp only [runSteps, step, hp, hw', if_true]
    exact ⟨_, _, rfl, rfl, rfl, rfl⟩
  obtain ⟨s1, polled, h1, h2, h3, h4⟩ := h1
  obtain ⟨s2, r1, r2, r3, r4⟩ := recv_all wakeCap polled s1.chan s1 h2 rfl
  have hfin : ∃ s3, step wakeCap s2 (.finish fun _ => .quiet) = some s3 ∧ s3.phase = .polling ∧ s3.chan = s2.chan ∧
      s3.done = s2.done := by
    simp only [step, r2]
    exact ⟨_, rfl, rfl, rfl, rfl⟩
  obtain ⟨s3, f1, f2, f3, f4⟩ := hfin
  refine ⟨[.poll, .accept, .drain] ++ (List.replicate (s1.chan.length + 1) (.recv fun _ => []) ++ [.finish fun _ => .quiet]),
    s3, ?_, f2, by rw [f4, r4, h4, h3], by rw [f3, r3], ?_⟩
  · rw [Shpool.run_append, h1]
    show runSteps _ s1 (_ ++ _) = _
    rw [Shpool.run_append, r1]
    show runSteps _ s2 _ = _
    simp only [runSteps, f1]
  · intro l hl
    simp only [List.mem_append, List.mem_cons, List.not_mem_nil, or_false, List.mem_replicate] at hl
    rcases hl with (rfl | rfl | rfl) | ⟨-, rfl⟩ | rfl <;> trivial

/-- A publisher that is overtaken by the sink: the sink empties the wake pipe between its `try_send` and its wake write. -/
example : ∃ s, Run 1 [.send .created, .wakeWrite, .poll, .send .removed, .accept, .drain, .recv demoWrites, .recv demoWrites,
    .recv demoWrites, .finish (fun _ => .quiet), .send .attached, .wakeWrite, .wakeWrite] s ∧ s.phase = .polling ∧ s.mid = 0 ∧
    s.chan = [.attached] ∧ s.wake = 1 := ⟨_, rfl, by decide⟩

/-! ## C53: isolation -/

/-- C53. No subscriber's queue ever holds more than 64 events, and the channel never more than 4096. -/
theorem C53_bounded (wakeCap : Nat) (hc : 0 < wakeCap) (ls : List Label) (s : St) (h : Run wakeCap ls s) :
    (∀ u ∈ s.subs ++ s.gone, u.pending.length ≤ 64) ∧ s.chan.length ≤ 4096 :=
  ⟨fun u hu => (inv_run hc h |>.ok u hu).len, (inv_run hc h).cap⟩

/-- The socket of a subscriber reports a failure among these writes (an error, or zero bytes taken). -/
def failing : WriteRes → Bool
  | .wrote 0 | .err => true
  | _ => false

theorem drive_fail (ws : List WriteRes) (pending : List Event) (off : Nat) (recv : List Char) (hoff : OffOk pending off)
    (h : (drivePending ws pending off recv).2.2.2 = false) : ∃ w ∈ ws, failing w = true := by
  induction ws generalizing pending off recv with
  | nil => cases pending <;> simp [drivePending] at h
  | cons w ws ih =>
    cases pending with
    | nil => simp [drivePending] at h
    | cons e ps =>
      have hoff' : off < e.line.length := hoff
      cases w with
      | wouldBlock => simp [drivePending] at h
      | err => exact ⟨.err, by simp, rfl⟩
      | interrupted =>
        obtain ⟨w, hw, hf⟩ := ih (e :: ps) off recv hoff h
        exact ⟨w, List.mem_cons_of_mem _ hw, hf⟩
      | wrote n =>
        cases n with
        | zero => exact ⟨.wrote 0, by simp, rfl⟩
        | succ n =>
          simp only [drivePending] at h
          have hpos : 0 < min (n + 1) (e.line.drop off).length := by simp; omega
          have hle : min (n + 1) (e.line.drop off).length ≤ e.line.length - off := by simp; omega
          rw [if_neg (by omega)] at h
          split at h
          · obtain ⟨w, hw, hf⟩ := ih ps 0 _ (by cases ps with
                | nil => rfl
                | cons e' _ => exact line_pos e') h
            exact ⟨w, List.mem_cons_of_mem _ hw, hf⟩
          · next hlt =>
            obtain ⟨w, hw, hf⟩ := ih (e :: ps) _ _ (by
              show off + min (n + 1) (e.line.drop off).length < e.line.length
              omega) h
            exact ⟨w, List.mem_cons_of_mem _ hw, hf⟩

/-- C53. A subscriber that is not yet dropped gets dropped only if its queue holds 64 events when another arrives, or its own
socket reports an error or hang-up. -/
theorem C53_dropped_only_for_cause (wakeCap : Nat) (hc : 0 < wakeCap) (ls : List Label) (s : St) (h : Run wakeCap ls s)
    (u : Sub) (hu : u ∈ s.subs) (hd : u.dropped = false) :
    (∀ e ws, (u.offer e ws).dropped = true → u.pending.length = 64 ∨ ∃ w ∈ ws, failing w = true) ∧
    (∀ ev, (u.service ev).dropped = true → ev = .hangup ∨ ∃ ws, ev = .ready ws ∧ ∃ w ∈ ws, failing w = true) := by
  have hok := (inv_run hc h).ok u (List.mem_append_left _ hu)
  constructor
  · intro e ws ho
    unfold Sub.offer at ho
    rw [if_neg (by simp [hd])] at ho
    dsimp only at ho
    by_cases hl : u.pending.length ≥ queueDepth
    · left; have := hok.len; unfold queueDepth at *; omega
    · right
      rw [if_neg hl] at ho
      by_cases hw : u.pending.isEmpty = true
      · rw [if_pos hw] at ho
        simp only [Sub.drive, hd, Bool.false_or, Bool.not_eq_true'] at ho
        have hpe : u.pending = [] := List.isEmpty_iff.mp hw
        refine drive_fail ws _ _ _ ?_ ho
        have := hok.off
        rw [hpe] at this ⊢
        show u.off < e.line.length
        rw [show u.off = 0 from this]; exact line_pos e
      · rw [if_neg hw] at ho
        rw [hd] at ho; cases ho
  · intro ev ho
    unfold Sub.service at ho
    rw [if_neg (by simp [hd])] at ho
    cases ev with
    | quiet => rw [hd] at ho; cases ho
    | hangup => exact .inl rfl
    | ready ws =>
      right
      simp only [Sub.drive, hd, Bool.false_or, Bool.not_eq_true'] at ho
      exact ⟨ws, rfl, drive_fail ws _ _ _ hok.off ho⟩

/-- C53 (isolation). Erase every subscriber but one from any run: what is left is a run of the system in which only this subscriber
ever connected.  So everything about it (received bytes, queue, whether it is dropped) is the same as if the others, however slow
or broken, did not exist. -/
theorem C53_isolation (wakeCap id : Nat) (ls : List Label) (s : St) (h : Run wakeCap ls s) :
    Run wakeCap (ls.filter (Label.concerns id)) (s.only id) := by
  have gen : ∀ (ls : List Label) (s0 s : St), runSteps (step wakeCap) s0 ls = some s →
      runSteps (step wakeCap) (s0.only id) (ls.filter (Label.concerns id)) = some (s.only id) := by
    intro ls
    induction ls with
    | nil => intro s0 s h; cases h; rfl
    | cons l ls ih =>
      intro s0 s h
      simp only [runSteps] at h
      cases hl : step wakeCap s0 l with
      | none => rw [hl] at h; cases h
      | some s1 =>
        rw [hl] at h
        have hr := ih s1 s h
        by_cases hcn : l.concerns id = true
        · rw [List.filter_cons_of_pos hcn]
          simp only [runSteps, step_only wakeCap id s0 s1 l hcn hl]
          exact hr
        · rw [List.filter_cons_of_neg hcn]
          cases l with
          | connect j =>
            have hj : j ≠ id := by simpa [Label.concerns] using hcn
            rw [← step_other wakeCap id j s0 s1 hj hl]; exact hr
          | _ => exact absurd rfl hcn
  exact gen ls init s h

/-- The erased state has exactly the subscribers with that id. -/
example (s : St) (id : Nat) (u : Sub) : u ∈ (s.only id).subs ↔ u ∈ s.subs ∧ u.id = id := by simp [St.only]

/-! ## C54: events published after connecting -/

/-- The claim is false: a subscriber that connects while the sink is emptying its channel is accepted only afterwards; the event
published after its connect is taken from the channel without it. -/
theorem C54_false : ∃ before after s1 s2 u, Run 1 before s1 ∧
    runSteps (step 1) s1 ([.connect 7, .send .attached, .wakeWrite] ++ after) = some s2 ∧
    s2.phase = .polling ∧ s2.chan = [] ∧ s2.mid = 0 ∧ s2.wake = 0 ∧
    u ∈ s2.subs ∧ u.id = 7 ∧ u.dropped = false ∧ u.recv = [] ∧ u.pending = [] := by
  refine ⟨[.send .created, .wakeWrite, .poll, .accept, .drain],
    [.recv demoWrites, .recv demoWrites, .recv demoWrites, .finish (fun _ => .quiet),
      .poll, .accept, .drain, .recv demoWrites, .finish (fun _ => .quiet)], _, _,
    ⟨7, [], [], 0, false, 2, []⟩, rfl, rfl, ?_⟩
  decide

/-- The sink is between emptying the wake pipe and finding the channel empty. -/
def St.broadcasting (s : St) : Prop :=
  match s.phase with
  | .draining _ | .receiving _ => True
  | _ => False

/-- Kept along every run after the connect of `id` at a moment when `n` events had been published. -/
structure Prompt (id n : Nat) (s : St) : Prop where
  waiting : id ∈ s.backlog → s.done.length ≤ n ∧ ¬ s.broadcasting
  served : ∀ u ∈ s.subs ++ s.gone, u.id = id → u.start ≤ n
  known : id ∈ s.backlog ∨ ∃ u ∈ s.subs ++ s.gone, u.id = id

/-- An `accept` that fails does not fail for `id`. -/
def Label.gets (id : Nat) : Label → Prop
  | .acceptFails got => got id = true
  | _ => True

theorem prompt_step (wakeCap id n : Nat) (s : St) (l : Label) (s' : St) (h : Prompt id n s) (hg : l.gets id)
    (hs : step wakeCap s l = some s') : Prompt id n s' := by
  cases l with
  | send e =>
    simp only [step] at hs
    split at hs <;> (cases hs; exact ⟨h.waiting, h.served, h.known⟩)
  | wakeWrite =>
    simp only [step] at hs
    split at hs
    · cases hs
    · cases hs; exact ⟨h.waiting, h.served, h.known⟩
  | connect j =>
    simp only [step] at hs
    split at hs
    · cases hs
    · next hf =>
      cases hs
      have hj : j ≠ id := by
        rintro rfl
        apply hf
        rcases h.known with h | ⟨u, hu, he⟩
        · exact .inl h
        · rcases List.mem_append.mp hu with hu | hu
          · exact .inr (.inl (List.mem_map.mpr ⟨u, hu, he⟩))
          · exact .inr (.inr (List.mem_map.mpr ⟨u, hu, he⟩))
      refine ⟨?_, h.served, ?_⟩
      · intro hb
        rcases List.mem_append.mp hb with hb | hb
        · exact h.waiting hb
        · exact absurd (List.mem_singleton.mp hb).symm hj
      · rcases h.known with h | h
        · exact .inl (List.mem_append_left _ h)
        · exact .inr h
  | poll =>
    simp only [step] at hs
    split at hs
    · next hp =>
      cases hs
      refine ⟨fun hb => ⟨(h.waiting hb).1, ?_⟩, h.served, h.known⟩
      simp [St.broadcasting]
    · cases hs
  | accept =>
    simp only [step] at hs
    split at hs
    · next w polled hp =>
      cases hs
      refine ⟨by simp, ?_, ?_⟩
      rotate_left
      · right
        rcases h.known with hk | ⟨u, hu, he⟩
        · exact ⟨_, List.mem_append_left _ (List.mem_append_right _ (List.mem_map.mpr ⟨id, hk, rfl⟩)), rfl⟩
        · rcases List.mem_append.mp hu with hu | hu
          · exact ⟨u, List.mem_append_left _ (List.mem_append_left _ hu), he⟩
          · exact ⟨u, List.mem_append_right _ hu, he⟩
      intro u hu hid
      simp only [List.mem_append] at hu
      rcases hu with (hu | hu) | hu
      · exact h.served u (List.mem_append_left _ hu) hid
      · obtain ⟨j, hj, rfl⟩ := List.mem_map.mp hu
        have hid : j = id := hid
        subst hid
        exact (h.waiting hj).1
      · exact h.served u (List.mem_append_right _ hu) hid
    · cases hs
  | acceptFails got =>
    simp only [step] at hs
    have hg : got id = true := hg
    split at hs
    · next w polled hp =>
      cases hs
      refine ⟨by simp [hg], ?_, ?_⟩
      rotate_left
      · right
        rcases h.known with hk | ⟨u, hu, he⟩
        · exact ⟨_, List.mem_append_left _ (List.mem_append_right _ (List.mem_map.mpr ⟨id, List.mem_filter.mpr ⟨hk, hg⟩, rfl⟩)), rfl⟩
        · rcases List.mem_append.mp hu with hu | hu
          · exact ⟨u, List.mem_append_left _ (List.mem_append_left _ hu), he⟩
          · exact ⟨u, List.mem_append_right _ hu, he⟩
      intro u hu hid
      simp only [List.mem_append] at hu
      rcases hu with (hu | hu) | hu
      · exact h.served u (List.mem_append_left _ hu) hid
      · obtain ⟨j, hj, rfl⟩ := List.mem_map.mp hu
        have hid : j = id := hid
        subst hid
        exact (h.waiting (List.mem_filter.mp hj).1).1
      · exact h.served u (List.mem_append_right _ hu) hid
    · cases hs
  | drain =>
    simp only [step] at hs
    split at hs
    · next polled hp =>
      cases hs
      refine ⟨fun hb => absurd ?_ (h.waiting hb).2, h.served, h.known⟩
      simp [St.broadcasting, hp]
    · cases hs
  | recv ws =>
    simp only [step] at hs
    split at hs
    · next polled hp =>
      have hbr : s.broadcasting := by simp [St.broadcasting, hp]
      split at hs
      · cases hs
        exact ⟨fun hb => absurd hbr (h.waiting hb).2, h.served, h.known⟩
      · next e rest hch =>
        cases hs
        refine ⟨fun hb => absurd hbr (h.waiting hb).2, ?_, ?_⟩
        rotate_left
        · rcases h.known with hk | ⟨u, hu, he⟩
          · exact .inl hk
          · right
            rcases List.mem_append.mp hu with hu | hu
            · exact ⟨_, List.mem_append_left _ (List.mem_map.mpr ⟨u, hu, rfl⟩), by rw [(offer_ghost u e _).1]; exact he⟩
            · exact ⟨u, List.mem_append_right _ hu, he⟩
        intro u hu hid
        rcases List.mem_append.mp hu with hu | hu
        · obtain ⟨v, hv, rfl⟩ := List.mem_map.mp hu
          obtain ⟨g1, g2, -⟩ := offer_ghost v e (ws v.id)
          rw [g2]
          exact h.served v (List.mem_append_left _ hv) (by rw [← g1]; exact hid)
        · exact h.served u (List.mem_append_right _ hu) hid
    · cases hs
  | finish ev =>
    simp only [step] at hs
    split at hs
    · next polled hp =>
      cases hs
      have hmem : ∀ u ∈ (s.subs.map (fun u => if u.id ∈ polled then u.service (ev u.id) else u)), u.id = id →
          u.start ≤ n := by
        intro u hu hid
        obtain ⟨v, hv, rfl⟩ := List.mem_map.mp hu
        obtain ⟨g1, g2, -, -⟩ := service_ghost v (ev v.id)
        by_cases hm : v.id ∈ polled
        · simp only [if_pos hm] at hid ⊢
          rw [g2]; exact h.served v (List.mem_append_left _ hv) (by rw [← g1]; exact hid)
        · simp only [if_neg hm] at hid ⊢
          exact h.served v (List.mem_append_left _ hv) hid
      refine ⟨fun hb => ⟨(h.waiting hb).1, by simp [St.broadcasting]⟩, ?_, ?_⟩
      rotate_left
      · rcases h.known with hk | ⟨u, hu, he⟩
        · exact .inl hk
        · right
          rcases List.mem_append.mp hu with hu | hu
          · have hu' := List.mem_map_of_mem (f := fun u : Sub => if u.id ∈ polled then u.service (ev u.id) else u) hu
            have he' : ((fun u : Sub => if u.id ∈ polled then u.service (ev u.id) else u) u).id = id := by
              dsimp only; split
              · rw [(service_ghost u _).1]; exact he
              · exact he
            cases hd : ((fun u : Sub => if u.id ∈ polled then u.service (ev u.id) else u) u).dropped with
            | true => exact ⟨_, List.mem_append_right _ (List.mem_append_right _ (List.mem_filter.mpr ⟨hu', hd⟩)), he'⟩
            | false => exact ⟨_, List.mem_append_left _ (List.mem_filter.mpr ⟨hu', by rw [hd]; rfl⟩), he'⟩
          · exact ⟨u, List.mem_append_right _ (List.mem_append_left _ hu), he⟩
      intro u hu hid
      simp only [List.mem_append] at hu
      rcases hu with hu | hu | hu
      · exact hmem u (List.mem_filter.mp hu).1 hid
      · exact h.served u (List.mem_append_right _ hu) hid
      · exact hmem u (List.mem_filter.mp hu).1 hid
    · cases hs
  | shutdown =>
    simp only [step] at hs
    split at hs
    · cases hs
      exact ⟨fun hb => ⟨(h.waiting hb).1, by simp [St.broadcasting]⟩, h.served, h.known⟩
    · cases hs

theorem inv_mem_ids {wakeCap : Nat} {s s' : St} {id : Nat} (h : step wakeCap s (.connect id) = some s') :
    s' = { s with backlog := s.backlog ++ [id] } ∧ id ∉ s.backlog ∧ (∀ u ∈ s.subs ++ s.gone, u.id ≠ id) := by
  simp only [step] at h
  split at h
  · cases h
  · next hf =>
    cases h
    refine ⟨rfl, fun hb => hf (.inl hb), ?_⟩
    intro u hu he
    rcases List.mem_append.mp hu with hu | hu
    · exact hf (.inr (.inl (List.mem_map.mpr ⟨u, hu, he⟩)))
    · exact hf (.inr (.inr (List.mem_map.mpr ⟨u, hu, he⟩)))

theorem prompt_run (wakeCap id n : Nat) (ls : List Label) : ∀ (s s' : St), Prompt id n s → (∀ l ∈ ls, l.gets id) →
    runSteps (step wakeCap) s ls = some s' → Prompt id n s' := by
  induction ls with
  | nil => intro s s' h _ hr; cases hr; exact h
  | cons l ls ih =>
    intro s s' h hg hr
    obtain ⟨s1, h1, h2⟩ := run_cons_some hr
    exact ih s1 s' (prompt_step wakeCap id n s l s1 h (hg l List.mem_cons_self) h1) (fun l hl => hg l (List.mem_cons_of_mem _ hl)) h2

/-- C54 fails for another reason: an `accept` that fails (there are too many open files) leaves the subscriber waiting while the event is
taken from the channel, although the sink was idle when it connected. -/
theorem C54_false_accept : ∃ s2 u, runSteps (step 1) init [.connect 7, .send .attached, .wakeWrite, .poll, .acceptFails (fun _ => false), .drain,
      .recv demoWrites, .recv demoWrites, .finish (fun _ => .quiet), .poll, .accept, .finish (fun _ => .quiet)] = some s2 ∧
    s2.phase = .polling ∧ s2.chan = [] ∧ s2.mid = 0 ∧ s2.wake = 0 ∧
    u ∈ s2.subs ∧ u.id = 7 ∧ u.dropped = false ∧ u.recv = [] ∧ u.pending = [] := by
  refine ⟨_, ⟨7, [], [], 0, false, 1, []⟩, rfl, ?_⟩
  decide

/-- C54 (if the sink is not in the middle of a broadcast when the subscriber connects, and the daemon can accept the connection when it comes
to it). Every event published after the connect
that has left the channel was given to the subscriber, unless it has been dropped: what it was sent and what is queued for it ends
with all of them. -/
theorem C54_delivered_partial (wakeCap : Nat) (hc : 0 < wakeCap) (before after : List Label) (s1 s2 : St) (id : Nat)
    (h1 : Run wakeCap before s1) (hb : ¬ s1.broadcasting) (hg : ∀ l ∈ after, l.gets id)
    (h2 : runSteps (step wakeCap) s1 (.connect id :: after) = some s2)
    (u : Sub) (hu : u ∈ s2.subs) (hid : u.id = id) (hd : u.dropped = false) :
    (s2.done.drop s1.published.length).flatMap Event.line <:+ u.recv ++ (u.pending.flatMap Event.line).drop u.off := by
  have hrun : Run wakeCap (before ++ .connect id :: after) s2 := by
    show runSteps _ _ _ = _
    rw [Shpool.run_append, show runSteps (step wakeCap) init before = some s1 from h1]; exact h2
  rw [C51_nothing_missing wakeCap hc _ s2 hrun u hu hd]
  have hp : Prompt id s1.published.length s2 := by
    simp only [runSteps] at h2
    cases hs : step wakeCap s1 (.connect id) with
    | none => rw [hs] at h2; cases h2
    | some s1' =>
      rw [hs] at h2
      obtain ⟨e1, -, e3⟩ := inv_mem_ids hs
      refine prompt_run wakeCap id s1.published.length after s1' s2 ?_ hg h2
      subst e1
      refine ⟨fun _ => ⟨by simp [St.published], hb⟩, ?_, .inl (by simp)⟩
      intro u hu he
      exact absurd he (e3 u hu)
  have hst := hp.served u (List.mem_append_left _ hu) hid
  have : s2.done.drop s1.published.length = (s2.done.drop u.start).drop (s1.published.length - u.start) := by
    rw [List.drop_drop]; congr 1; omega
  rw [this]
  obtain ⟨t, ht⟩ := List.drop_suffix (s1.published.length - u.start) (s2.done.drop u.start)
  exact ⟨t.flatMap Event.line, by rw [← List.flatMap_append, ht]⟩

/-- With the sink idle at connect time, and an earlier event still queued. -/
example : ∃ s1 s2, Run 1 [.send .created] s1 ∧ ¬ s1.broadcasting ∧
    runSteps (step 1) s1 [.connect 7, .send .attached, .wakeWrite, .poll, .accept, .drain, .recv demoWrites, .recv demoWrites]
      = some s2 ∧ s2.subs.map (·.given) = [[.created, .attached]] := ⟨_, _, rfl, id, rfl, by decide⟩

end Shpool.Events
