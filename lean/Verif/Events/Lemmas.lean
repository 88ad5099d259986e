import Verif.Events.Model
/-!
# Invariants of the event bus
-/

namespace Shpool.Events

/-- What is queued for a subscriber but not written yet. -/
def Sub.rest (u : Sub) : List Char := (u.pending.flatMap Event.line).drop u.off

theorem line_ne_nil (e : Event) : e.line ≠ [] := by cases e <;> decide
theorem line_pos (e : Event) : 0 < e.line.length := List.length_pos_iff.mpr (line_ne_nil e)

/-- Offset into the front line. -/
def OffOk (pending : List Event) (off : Nat) : Prop :=
  match pending with
  | [] => off = 0
  | e :: _ => off < e.line.length

theorem drivePending_spec (ws : List WriteRes) (pending : List Event) (off : Nat) (recv : List Char)
    (hoff : OffOk pending off) :
    OffOk (drivePending ws pending off recv).1 (drivePending ws pending off recv).2.1 ∧
    (drivePending ws pending off recv).1 <:+ pending ∧
    (drivePending ws pending off recv).2.2.1 ++
      (((drivePending ws pending off recv).1.flatMap Event.line).drop (drivePending ws pending off recv).2.1) =
      recv ++ (pending.flatMap Event.line).drop off := by
  induction ws generalizing pending off recv with
  | nil =>
    cases pending with
    | nil => exact ⟨hoff, List.suffix_refl _, rfl⟩
    | cons e ps => exact ⟨hoff, List.suffix_refl _, rfl⟩
  | cons w ws ih =>
    cases pending with
    | nil => exact ⟨hoff, List.suffix_refl _, rfl⟩
    | cons e ps =>
      have hoff' : off < e.line.length := hoff
      cases w with
      | wouldBlock => exact ⟨hoff, List.suffix_refl _, rfl⟩
      | err => exact ⟨hoff, List.suffix_refl _, rfl⟩
      | interrupted => exact ih (e :: ps) off recv hoff
      | wrote n =>
        simp only [drivePending]
        generalize hn : min n (e.line.drop off).length = m
        have hm : m ≤ e.line.length - off := by rw [← hn]; simp; omega
        by_cases h0 : m = 0
        · rw [if_pos h0]; exact ⟨hoff, List.suffix_refl _, rfl⟩
        · rw [if_neg h0]
          have hsplit : ((e :: ps).flatMap Event.line).drop off = e.line.drop off ++ ps.flatMap Event.line := by
            rw [List.flatMap_cons, List.drop_append, Nat.sub_eq_zero_of_le (Nat.le_of_lt hoff'), List.drop_zero]
          by_cases hfull : off + m ≥ e.line.length
          · rw [if_pos hfull]
            have hm' : m = e.line.length - off := by omega
            obtain ⟨i1, i2, i3⟩ := ih ps 0 (recv ++ (e.line.drop off).take m)
              (by cases ps with
                | nil => rfl
                | cons e' _ => exact line_pos e')
            refine ⟨i1, i2.trans (List.suffix_cons _ _), ?_⟩
            rw [i3, hsplit, List.drop_zero, List.append_assoc]
            rw [List.take_of_length_le (by simp; omega)]
          · rw [if_neg hfull]
            obtain ⟨i1, i2, i3⟩ := ih (e :: ps) (off + m) (recv ++ (e.line.drop off).take m)
              (by show off + m < e.line.length; omega)
            refine ⟨i1, i2, ?_⟩
            rw [i3, hsplit, List.flatMap_cons, List.drop_append, Nat.sub_eq_zero_of_le (by omega : off + m ≤ e.line.length),
              List.drop_zero, List.append_assoc, ← List.append_assoc ((e.line.drop off).take m), ← List.drop_drop,
              List.take_append_drop]

/-- Invariant of one subscriber. -/
structure SubOk (u : Sub) : Prop where
  off : OffOk u.pending u.off
  len : u.pending.length ≤ queueDepth
  bytes : u.recv ++ u.rest = u.given.flatMap Event.line

theorem SubOk.drive {u : Sub} (h : SubOk u) (ws : List WriteRes) : SubOk (u.drive ws) := by
  obtain ⟨h1, h2, h3⟩ := drivePending_spec ws u.pending u.off u.recv h.off
  refine ⟨h1, Nat.le_trans h2.length_le h.len, ?_⟩
  show _ ++ _ = u.given.flatMap Event.line
  rw [← h.bytes]
  exact h3

theorem SubOk.offer {u : Sub} (h : SubOk u) (e : Event) (ws : List WriteRes) : SubOk (u.offer e ws) := by
  unfold Sub.offer
  by_cases hd : u.dropped = true
  · rw [if_pos hd]; exact h
  · rw [if_neg hd]
    dsimp only
    by_cases hl : u.pending.length ≥ queueDepth
    · rw [if_pos hl]; exact ⟨h.off, h.len, h.bytes⟩
    · rw [if_neg hl]
      have h' : SubOk { u with pending := u.pending ++ [e], given := u.given ++ [e] } := by
        refine ⟨?_, by simp; omega, ?_⟩
        · have := h.off
          cases hp : u.pending with
          | nil => rw [hp] at this; show u.off < e.line.length; rw [show u.off = 0 from this]; exact line_pos e
          | cons e' ps => rw [hp] at this; exact this
        · have hb := h.bytes
          show u.recv ++ ((u.pending ++ [e]).flatMap Event.line).drop u.off = (u.given ++ [e]).flatMap Event.line
          rw [List.flatMap_append, List.flatMap_append, ← hb, List.append_assoc]
          congr 1
          rw [List.drop_append_of_le_length]
          · rfl
          · have := h.off
            cases hp : u.pending with
            | nil => rw [hp] at this; rw [show u.off = 0 from this]; exact Nat.zero_le _
            | cons e' ps =>
              rw [hp] at this
              have : u.off < e'.line.length := this
              simp; omega
      by_cases hw : u.pending.isEmpty = true
      · rw [if_pos hw]; exact h'.drive ws
      · rw [if_neg hw]; exact h'

theorem SubOk.service {u : Sub} (h : SubOk u) (ev : PollEv) : SubOk (u.service ev) := by
  unfold Sub.service
  by_cases hd : u.dropped = true
  · rw [if_pos hd]; exact h
  · rw [if_neg hd]
    cases ev with
    | quiet => exact h
    | hangup => exact ⟨h.off, h.len, h.bytes⟩
    | ready ws => exact h.drive ws

theorem drive_ghost (u : Sub) (ws : List WriteRes) :
    (u.drive ws).id = u.id ∧ (u.drive ws).start = u.start ∧ (u.drive ws).given = u.given ∧
    (u.dropped = true → (u.drive ws).dropped = true) := by
  refine ⟨rfl, rfl, rfl, ?_⟩
  intro h; simp [Sub.drive, h]

theorem service_ghost (u : Sub) (ev : PollEv) :
    (u.service ev).id = u.id ∧ (u.service ev).start = u.start ∧ (u.service ev).given = u.given ∧
    (u.dropped = true → (u.service ev).dropped = true) := by
  unfold Sub.service
  by_cases hd : u.dropped = true
  · rw [if_pos hd]; exact ⟨rfl, rfl, rfl, fun h => h⟩
  · rw [if_neg hd]
    cases ev with
    | quiet => exact ⟨rfl, rfl, rfl, fun h => h⟩
    | hangup => exact ⟨rfl, rfl, rfl, fun _ => rfl⟩
    | ready ws => exact drive_ghost u ws

theorem offer_ghost (u : Sub) (e : Event) (ws : List WriteRes) :
    (u.offer e ws).id = u.id ∧ (u.offer e ws).start = u.start ∧
    (((u.offer e ws).given = u.given ++ [e] ∧ u.dropped = false) ∨
      ((u.offer e ws).given = u.given ∧ (u.offer e ws).dropped = true)) := by
  unfold Sub.offer
  by_cases hd : u.dropped = true
  · rw [if_pos hd]; exact ⟨rfl, rfl, .inr ⟨rfl, hd⟩⟩
  · have hd' : u.dropped = false := by cases h : u.dropped with
      | true => exact absurd h hd
      | false => rfl
    rw [if_neg hd]
    dsimp only
    by_cases hl : u.pending.length ≥ queueDepth
    · rw [if_pos hl]; exact ⟨rfl, rfl, .inr ⟨rfl, rfl⟩⟩
    · rw [if_neg hl]
      by_cases hw : u.pending.isEmpty = true
      · rw [if_pos hw]; exact ⟨rfl, rfl, .inl ⟨rfl, hd'⟩⟩
      · rw [if_neg hw]; exact ⟨rfl, rfl, .inl ⟨rfl, hd'⟩⟩

/-- The part of the invariant of a subscriber that refers to the events broadcast so far. -/
structure Fed (done : List Event) (u : Sub) : Prop where
  start : u.start ≤ done.length
  pre : u.given <+: done.drop u.start
  all : u.dropped = false → u.given = done.drop u.start

/-- Same, for a subscriber that was removed. -/
theorem Fed.mono {done : List Event} {u : Sub} (h : Fed done u) (hd : u.dropped = true) (e : Event) :
    Fed (done ++ [e]) u := by
  refine ⟨by have := h.start; simp; omega, ?_, fun h' => by rw [hd] at h'; cases h'⟩
  rw [List.drop_append_of_le_length h.start]
  exact h.pre.trans (List.prefix_append _ _)

theorem Fed.offer {done : List Event} {u : Sub} (h : Fed done u) (e : Event) (ws : List WriteRes) :
    Fed (done ++ [e]) (u.offer e ws) := by
  obtain ⟨-, h2, h3⟩ := offer_ghost u e ws
  rcases h3 with ⟨h3, h4⟩ | ⟨h3, h4⟩
  · have he : (u.offer e ws).given = (done ++ [e]).drop (u.offer e ws).start := by
      rw [h2, h3, List.drop_append_of_le_length h.start, h.all h4]
    exact ⟨by rw [h2]; have := h.start; simp; omega, by rw [he]; exact List.prefix_refl _, fun _ => he⟩
  · refine ⟨by rw [h2]; have := h.start; simp; omega, ?_, fun h' => by rw [h4] at h'; cases h'⟩
    rw [h2, h3, List.drop_append_of_le_length h.start]
    exact h.pre.trans (List.prefix_append _ _)

theorem Fed.service {done : List Event} {u : Sub} (h : Fed done u) (ev : PollEv) : Fed done (u.service ev) := by
  obtain ⟨-, h2, h3, h4⟩ := service_ghost u ev
  refine ⟨by rw [h2]; exact h.start, by rw [h2, h3]; exact h.pre, ?_⟩
  intro hd
  rw [h2, h3]
  apply h.all
  cases hu : u.dropped with
  | false => rfl
  | true => rw [h4 hu] at hd; cases hd

/-- Global invariant. -/
structure Inv (s : St) : Prop where
  ok : ∀ u ∈ s.subs ++ s.gone, SubOk u
  fed : ∀ u ∈ s.subs ++ s.gone, Fed s.done u
  gone : ∀ u ∈ s.gone, u.dropped = true
  cap : s.chan.length ≤ channelCap
  /-- a queued event is never without someone to see it -/
  wake : s.chan ≠ [] → match s.phase with
    | .polling | .accepting false _ | .finishing _ => s.wake > 0 ∨ s.mid > 0
    | _ => True

theorem inv_init : Inv init := by
  refine ⟨by simp [init], by simp [init], by simp [init], by simp [init, channelCap], by simp [init]⟩

theorem inv_step (wakeCap : Nat) (hc : 0 < wakeCap) (s : St) (l : Label) (s' : St) (h : Inv s)
    (hs : step wakeCap s l = some s') : Inv s' := by
  cases l with
  | send e =>
    simp only [step] at hs
    split at hs
    · cases hs; exact h
    · next hlen =>
      cases hs
      refine ⟨h.ok, h.fed, h.gone, by simp; omega, ?_⟩
      intro _
      show match s.phase with
        | .polling | .accepting false _ | .finishing _ => s.wake > 0 ∨ s.mid + 1 > 0
        | _ => True
      split <;> first | exact .inr (by omega) | trivial
  | wakeWrite =>
    simp only [step] at hs
    split at hs
    · cases hs
    · cases hs
      refine ⟨h.ok, h.fed, h.gone, h.cap, ?_⟩
      intro _
      dsimp only
      have hw : (if s.wake < wakeCap then s.wake + 1 else s.wake) > 0 := by
        split <;> omega
      split <;> first | exact .inl hw | trivial
  | connect id =>
    simp only [step] at hs
    split at hs
    · cases hs
    · cases hs; exact ⟨h.ok, h.fed, h.gone, h.cap, h.wake⟩
  | poll =>
    simp only [step] at hs
    split at hs
    · next hp =>
      cases hs
      refine ⟨h.ok, h.fed, h.gone, h.cap, ?_⟩
      intro hch
      have := h.wake hch
      rw [hp] at this
      dsimp only at this ⊢
      by_cases hw : s.wake > 0
      · simp [hw]
      · have h0 : decide (s.wake > 0) = false := by simp [hw]
        rw [h0]; exact this
    · cases hs
  | accept =>
    simp only [step] at hs
    split at hs
    · next w polled hp =>
      cases hs
      have hnew : ∀ u ∈ s.backlog.map (fun id => (⟨id, [], [], 0, false, s.done.length, []⟩ : Sub)),
          SubOk u ∧ Fed s.done u := by
        intro u hu
        obtain ⟨id, -, rfl⟩ := List.mem_map.mp hu
        refine ⟨⟨rfl, by simp [queueDepth], rfl⟩, ⟨Nat.le_refl _, by simp, fun _ => by simp⟩⟩
      refine ⟨?_, ?_, h.gone, h.cap, ?_⟩
      · intro u hu
        rcases List.mem_append.mp hu with hu | hu
        · rcases List.mem_append.mp hu with hu | hu
          · exact h.ok u (List.mem_append_left _ hu)
          · exact (hnew u hu).1
        · exact h.ok u (List.mem_append_right _ hu)
      · intro u hu
        rcases List.mem_append.mp hu with hu | hu
        · rcases List.mem_append.mp hu with hu | hu
          · exact h.fed u (List.mem_append_left _ hu)
          · exact (hnew u hu).2
        · exact h.fed u (List.mem_append_right _ hu)
      · intro hch
        have := h.wake hch
        rw [hp] at this
        cases w with
        | true => trivial
        | false => exact this
    · cases hs
  | acceptFails got =>
    simp only [step] at hs
    split at hs
    · next w polled hp =>
      cases hs
      have hnew : ∀ u ∈ (s.backlog.filter got).map (fun id => (⟨id, [], [], 0, false, s.done.length, []⟩ : Sub)),
          SubOk u ∧ Fed s.done u := by
        intro u hu
        obtain ⟨id, -, rfl⟩ := List.mem_map.mp hu
        refine ⟨⟨rfl, by simp [queueDepth], rfl⟩, ⟨Nat.le_refl _, by simp, fun _ => by simp⟩⟩
      refine ⟨?_, ?_, h.gone, h.cap, ?_⟩
      · intro u hu
        rcases List.mem_append.mp hu with hu | hu
        · rcases List.mem_append.mp hu with hu | hu
          · exact h.ok u (List.mem_append_left _ hu)
          · exact (hnew u hu).1
        · exact h.ok u (List.mem_append_right _ hu)
      · intro u hu
        rcases List.mem_append.mp hu with hu | hu
        · rcases List.mem_append.mp hu with hu | hu
          · exact h.fed u (List.mem_append_left _ hu)
          · exact (hnew u hu).2
        · exact h.fed u (List.mem_append_right _ hu)
      · intro hch
        have := h.wake hch
        rw [hp] at this
        cases w with
        | true => trivial
        | false => exact this
    · cases hs
  | drain =>
    simp only [step] at hs
    split at hs
    · cases hs; exact ⟨h.ok, h.fed, h.gone, h.cap, fun _ => trivial⟩
    · cases hs
  | recv ws =>
    simp only [step] at hs
    split at hs
    · next polled hp =>
      split at hs
      · next hch =>
        cases hs
        exact ⟨h.ok, h.fed, h.gone, h.cap, fun hne => absurd hch hne⟩
      · next e rest hch =>
        cases hs
        refine ⟨?_, ?_, h.gone, ?_, ?_⟩
        · intro u hu
          rcases List.mem_append.mp hu with hu | hu
          · obtain ⟨v, hv, rfl⟩ := List.mem_map.mp hu
            exact (h.ok v (List.mem_append_left _ hv)).offer e _
          · exact h.ok u (List.mem_append_right _ hu)
        · intro u hu
          rcases List.mem_append.mp hu with hu | hu
          · obtain ⟨v, hv, rfl⟩ := List.mem_map.mp hu
            exact (h.fed v (List.mem_append_left _ hv)).offer e _
          · exact (h.fed u (List.mem_append_right _ hu)).mono (h.gone u hu) e
        · have := h.cap; rw [hch] at this; simp at this ⊢; omega
        · intro _; dsimp only; rw [hp]; trivial
    · cases hs
  | finish ev =>
    simp only [step] at hs
    split at hs
    · next polled hp =>
      cases hs
      have hmem : ∀ u ∈ (s.subs.map (fun u => if u.id ∈ polled then u.service (ev u.id) else u)),
          SubOk u ∧ Fed s.done u := by
        intro u hu
        obtain ⟨v, hv, rfl⟩ := List.mem_map.mp hu
        have h1 := h.ok v (List.mem_append_left _ hv)
        have h2 := h.fed v (List.mem_append_left _ hv)
        by_cases hm : v.id ∈ polled
        · simp only [if_pos hm]; exact ⟨h1.service _, h2.service _⟩
        · simp only [if_neg hm]; exact ⟨h1, h2⟩
      refine ⟨?_, ?_, ?_, h.cap, ?_⟩
      · intro u hu
        simp only [List.mem_append] at hu
        rcases hu with hu | hu | hu
        · exact (hmem u (List.mem_filter.mp hu).1).1
        · exact h.ok u (List.mem_append_right _ hu)
        · exact (hmem u (List.mem_filter.mp hu).1).1
      · intro u hu
        simp only [List.mem_append] at hu
        rcases hu with hu | hu | hu
        · exact (hmem u (List.mem_filter.mp hu).1).2
        · exact h.fed u (List.mem_append_right _ hu)
        · exact (hmem u (List.mem_filter.mp hu).1).2
      · intro u hu
        rcases List.mem_append.mp hu with hu | hu
        · exact h.gone u hu
        · exact (List.mem_filter.mp hu).2
      · intro hch
        have := h.wake hch
        rw [hp] at this
        exact this
    · cases hs
  | shutdown =>
    simp only [step] at hs
    split at hs
    · cases hs; exact ⟨h.ok, h.fed, h.gone, h.cap, fun _ => trivial⟩
    · cases hs

theorem inv_run {wakeCap : Nat} (hc : 0 < wakeCap) {ls : List Label} {s : St} (h : Run wakeCap ls s) : Inv s :=
  Shpool.run_inv (inv_step wakeCap hc) inv_init h

/-! ## One subscriber alone -/

/-- The phase as far as subscriber `id` is concerned. -/
def Phase.only (id : Nat) : Phase → Phase
  | .polling => .polling
  | .accepting w p => .accepting w (p.filter (· = id))
  | .draining p => .draining (p.filter (· = id))
  | .receiving p => .receiving (p.filter (· = id))
  | .finishing p => .finishing (p.filter (· = id))
  | .stopped => .stopped

/-- The system with every subscriber but `id` erased. -/
def St.only (id : Nat) (s : St) : St :=
  { s with
    backlog := s.backlog.filter (· = id)
    subs := s.subs.filter (·.id = id)
    gone := s.gone.filter (·.id = id)
    phase := s.phase.only id }

/-- The steps that are not another subscriber's connect. -/
def Label.concerns (id : Nat) : Label → Bool
  | .connect j => decide (j = id)
  | _ => true

theorem filter_map_id {f : Sub → Sub} (hf : ∀ u, (f u).id = u.id) (id : Nat) (l : List Sub) :
    (l.map f).filter (·.id = id) = (l.filter (·.id = id)).map f := by
  induction l with
  | nil => rfl
  | cons u us ih =>
    simp only [List.map_cons, List.filter_cons, hf]
    by_cases h : u.id = id
    · simp [h, ih]
    · simp [h, ih]

theorem filter_comm {α : Type} (p q : α → Bool) (l : List α) : (l.filter p).filter q = (l.filter q).filter p := by
  rw [List.filter_filter, List.filter_filter]
  congr 1; funext a; exact Bool.and_comm _ _

theorem step_other (wakeCap id j : Nat) (s s' : St) (hj : j ≠ id) (h : step wakeCap s (.connect j) = some s') :
    s'.only id = s.only id := by
  simp only [step] at h
  split at h
  · cases h
  · cases h
    simp [St.only, List.filter_append, hj]

theorem step_only (wakeCap id : Nat) (s s' : St) (l : Label) (hl : l.concerns id = true)
    (h : step wakeCap s l = some s') : step wakeCap (s.only id) l = some (s'.only id) := by
  cases l with
  | send e =>
    simp only [step] at h ⊢
    split at h
    · next hc => cases h; exact if_pos hc
    · next hc => cases h; exact if_neg hc
  | wakeWrite =>
    simp only [step] at h ⊢
    split at h
    · cases h
    · next hc => cases h; exact if_neg hc
  | connect j =>
    have hj : j = id := by simpa [Label.concerns] using hl
    subst hj
    simp only [step] at h ⊢
    split at h
    · cases h
    · next hc =>
      cases h
      rw [if_neg]
      · simp [St.only, List.filter_append]
      · simp only [St.only, List.mem_filter, decide_true, and_true, List.mem_map] at hc ⊢
        rintro (h | ⟨u, ⟨hu, -⟩, he⟩ | ⟨u, ⟨hu, -⟩, he⟩)
        · exact hc (.inl h)
        · exact hc (.inr (.inl ⟨u, hu, he⟩))
        · exact hc (.inr (.inr ⟨u, hu, he⟩))
  | poll =>
    simp only [step] at h ⊢
    split at h
    · next hp =>
      cases h
      simp only [St.only, hp, Phase.only]
      congr 3
      rw [filter_comm]
      generalize s.subs.filter (fun u => !u.pending.isEmpty) = l
      induction l with
      | nil => rfl
      | cons u us ih =>
        simp only [List.filter_cons, List.map_cons]
        by_cases h : u.id = id
        · simp [h, ih]
        · simp [h, ih]
    · cases h
  | accept =>
    simp only [step] at h ⊢
    split at h
    · next w polled hp =>
      cases h
      simp only [St.only, hp, Phase.only]
      simp only [List.filter_append, List.filter_nil]
      congr 3
      · generalize s.backlog = l
        induction l with
        | nil => rfl
        | cons u us ih =>
          simp only [List.filter_cons, List.map_cons]
          by_cases h : u = id
          · simp [h, ih]
          · simp [h, ih]
      · cases w <;> rfl
    · cases h
  | acceptFails got =>
    simp only [step] at h ⊢
    split at h
    · next w polled hp =>
      cases h
      simp only [St.only, hp, Phase.only]
      simp only [List.filter_append]
      have e : ∀ b : List Nat, (b.filter (fun x => decide (x = id))).map (fun id => (⟨id, [], [], 0, false, s.done.length, []⟩ : Sub)) =
          (b.map (fun id => (⟨id, [], [], 0, false, s.done.length, []⟩ : Sub))).filter (fun u => decide (u.id = id)) := by
        intro l
        induction l with
        | nil => rfl
        | cons u us ih =>
          simp only [List.filter_cons, List.map_cons]
          by_cases h : u = id
          · simp [h, ih]
          · simp [h, ih]
      rw [filter_comm (fun x => decide (x = id)) (fun x => !got x), filter_comm (fun x => decide (x = id)) got, e]
      cases w <;> rfl
    · cases h
  | drain =>
    simp only [step] at h ⊢
    split at h
    · next polled hp => cases h; simp only [St.only, hp, Phase.only]
    · cases h
  | recv ws =>
    simp only [step] at h ⊢
    split at h
    · next polled hp =>
      split at h
      · next hch =>
        cases h
        simp only [St.only, hp, Phase.only, hch]
      · next e rest hch =>
        cases h
        simp only [St.only, hp, Phase.only, hch]
        rw [filter_map_id (fun u => (offer_ghost u e _).1)]
    · cases h
  | finish ev =>
    simp only [step] at h ⊢
    split at h
    · next polled hp =>
      cases h
      simp only [St.only, hp, Phase.only]
      have e1 : (s.subs.filter (·.id = id)).map (fun u => if u.id ∈ polled.filter (· = id) then u.service (ev u.id) else u) =
          (s.subs.map (fun u => if u.id ∈ polled then u.service (ev u.id) else u)).filter (·.id = id) := by
        rw [filter_map_id]
        · apply List.map_congr_left
          intro u hu
          have : u.id = id := by simpa using (List.mem_filter.mp hu).2
          simp [this]
        · intro u; split
          · exact (service_ghost u _).1
          · rfl
      rw [e1]
      congr 2
      · rw [filter_comm]
      · rw [List.filter_append, filter_comm]
    · cases h
  | shutdown =>
    simp only [step] at h ⊢
    split at h
    · next hp => cases h; simp only [St.only, hp, Phase.only]
    · cases h

end Shpool.Events
