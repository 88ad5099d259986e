import Verif.Events.Props
import Verif.Events.Fair

/-! Exactly which events a subscriber misses (C54). -/

namespace Shpool.Events
open Shpool

/-- The step in which the connection of `id` is accepted, if it is waiting. -/
def Accepts (id : Nat) (l : Label) : Prop := l = .accept ∨ ∃ got, l = .acceptFails got ∧ got id = true

/-- Accepted when `n` events had been broadcast. -/
private structure Taken (id n : Nat) (s : St) : Prop where
  out : id ∉ s.backlog
  known : ∃ u ∈ s.subs ++ s.gone, u.id = id
  start : ∀ u ∈ s.subs ++ s.gone, u.id = id → u.start = n

private theorem taken_step {wakeCap id n : Nat} {s s' : St} {l : Label} (h : Taken id n s) (hs : step wakeCap s l = some s') :
    Taken id n s' := by
  have hmap : ∀ f : Sub → Sub, (∀ v, (f v).id = v.id ∧ (f v).start = v.start) →
      (∃ u ∈ s.subs.map f ++ s.gone, u.id = id) ∧ ∀ u ∈ s.subs.map f ++ s.gone, u.id = id → u.start = n := by
    intro f hf
    obtain ⟨u, hu, hid⟩ := h.known
    refine ⟨?_, fun v hv hvid => ?_⟩
    · rcases List.mem_append.mp hu with hu | hu
      · exact ⟨f u, List.mem_append_left _ (List.mem_map.mpr ⟨u, hu, rfl⟩), by rw [(hf u).1, hid]⟩
      · exact ⟨u, List.mem_append_right _ hu, hid⟩
    · rcases List.mem_append.mp hv with hv | hv
      · obtain ⟨w, hw, rfl⟩ := List.mem_map.mp hv
        rw [(hf w).2]
        exact h.start w (List.mem_append_left _ hw) (by rw [← (hf w).1, hvid])
      · exact h.start v (List.mem_append_right _ hv) hvid
  have hmore : ∀ (new : List Sub), (∀ u ∈ new, u.id ≠ id) →
      (∃ u ∈ s.subs ++ new ++ s.gone, u.id = id) ∧ ∀ u ∈ s.subs ++ new ++ s.gone, u.id = id → u.start = n := by
    intro new hn
    obtain ⟨u, hu, hid⟩ := h.known
    have h1 := h.start
    simp only [List.mem_append] at hu h1 ⊢
    exact ⟨⟨u, by rcases hu with hu | hu <;> simp [hu], hid⟩, fun v hv hvid => by
      rcases hv with (hv | hv) | hv
      · exact h1 v (.inl hv) hvid
      · exact absurd hvid (hn v hv)
      · exact h1 v (.inr hv) hvid⟩
  cases l <;> simp only [step] at hs
  case send e => split at hs <;> cases hs <;> exact ⟨h.out, h.known, h.start⟩
  case wakeWrite => split at hs <;> cases hs; exact ⟨h.out, h.known, h.start⟩
  case connect j =>
    split at hs
    · cases hs
    · next hf =>
      cases hs
      refine ⟨fun hb => ?_, h.known, h.start⟩
      rcases List.mem_append.mp hb with hb | hb
      · exact h.out hb
      · have e : id = j := by simpa using hb
        subst e
        obtain ⟨u, hu, hid⟩ := h.known
        rcases List.mem_append.mp hu with hu | hu
        · exact hf (.inr (.inl (List.mem_map.mpr ⟨u, hu, hid⟩)))
        · exact hf (.inr (.inr (List.mem_map.mpr ⟨u, hu, hid⟩)))
  case poll => split at hs <;> cases hs; exact ⟨h.out, h.known, h.start⟩
  case accept =>
    split at hs <;> cases hs
    have := hmore (s.backlog.map (fun id => ⟨id, [], [], 0, false, s.done.length, []⟩)) (fun u hu e => by
      obtain ⟨i, hi, rfl⟩ := List.mem_map.mp hu
      exact h.out (e ▸ hi))
    exact ⟨by simp, this.1, this.2⟩
  case acceptFails got =>
    split at hs <;> cases hs
    have := hmore ((s.backlog.filter got).map (fun id => ⟨id, [], [], 0, false, s.done.length, []⟩)) (fun u hu e => by
      obtain ⟨i, hi, rfl⟩ := List.mem_map.mp hu
      exact h.out (e ▸ (List.mem_filter.mp hi).1))
    exact ⟨fun hb => h.out (List.mem_filter.mp hb).1, this.1, this.2⟩
  case drain => split at hs <;> cases hs; exact ⟨h.out, h.known, h.start⟩
  case recv ws =>
    split at hs
    · split at hs <;> cases hs
      · exact ⟨h.out, h.known, h.start⟩
      · next e _ _ =>
        have := hmap (fun u => u.offer e (ws u.id)) (fun v => ⟨(offer_ghost v _ _).1, (offer_ghost v _ _).2.1⟩)
        exact ⟨h.out, this.1, this.2⟩
    · cases hs
  case finish ev =>
    split at hs
    · next polled _ =>
      cases hs
      have := hmap (fun u => if u.id ∈ polled then u.service (ev u.id) else u) (fun v => by
        split
        · exact ⟨(service_ghost v _).1, (service_ghost v _).2.1⟩
        · exact ⟨rfl, rfl⟩)
      generalize s.subs.map (fun u => if u.id ∈ polled then u.service (ev u.id) else u) = subs at this
      have hm : ∀ u, (u ∈ subs.filter (!·.dropped) ++ (s.gone ++ subs.filter (·.dropped))) ↔ u ∈ subs ++ s.gone := by
        intro u
        simp only [List.mem_append, List.mem_filter]
        cases u.dropped <;> simp <;> grind
      refine ⟨h.out, ?_, fun u hu => this.2 u ((hm u).mp hu)⟩
      obtain ⟨u, hu, hid⟩ := this.1
      exact ⟨u, (hm u).mpr hu, hid⟩
    · cases hs
  case shutdown => split at hs <;> cases hs; exact ⟨h.out, h.known, h.start⟩

private theorem taken_run {wakeCap id n : Nat} (ls : List Label) : ∀ (s s' : St), Taken id n s →
    runSteps (step wakeCap) s ls = some s' → Taken id n s' ∧ s.done <+: s'.done := by
  induction ls with
  | nil => intro s s' h hr; cases hr; exact ⟨h, List.prefix_refl _⟩
  | cons l ls ih =>
    intro s s' h hr
    obtain ⟨s1, h1, h2⟩ := run_cons_some hr
    obtain ⟨h3, h4⟩ := ih s1 s' (taken_step h h1) h2
    exact ⟨h3, (done_step h1).trans h4⟩

/-- While a connection waits, no subscriber has its number. -/
private theorem fresh_step {wakeCap id : Nat} {s s' : St} {l : Label} (h : id ∉ s.subs.map Sub.id ∧ id ∉ s.gone.map Sub.id)
    (hb : id ∈ s'.backlog) (hs : step wakeCap s l = some s') : id ∉ s'.subs.map Sub.id ∧ id ∉ s'.gone.map Sub.id := by
  cases l <;> simp only [step] at hs
  case send e => split at hs <;> cases hs <;> exact h
  case wakeWrite => split at hs <;> cases hs; exact h
  case connect j => split at hs <;> cases hs; exact h
  case poll => split at hs <;> cases hs; exact h
  case accept => split at hs <;> cases hs; cases hb
  case acceptFails got =>
    split at hs <;> cases hs
    refine ⟨?_, h.2⟩
    have hg := (List.mem_filter.mp hb).2
    intro hi
    simp only [List.map_append, List.map_map, List.mem_append, List.mem_map] at hi
    rcases hi with ⟨u, hu, e⟩ | ⟨i, hi, e⟩
    · exact h.1 (List.mem_map.mpr ⟨u, hu, e⟩)
    · have e : i = id := e
      subst e
      simp only [List.mem_filter] at hi
      simp [hi.2] at hg
  case drain => split at hs <;> cases hs; exact h
  case recv ws =>
    split at hs
    · split at hs <;> cases hs
      · exact h
      · refine ⟨fun hi => h.1 ?_, h.2⟩
        obtain ⟨u, hu, e⟩ := List.mem_map.mp hi
        obtain ⟨v, hv, rfl⟩ := List.mem_map.mp hu
        exact List.mem_map.mpr ⟨v, hv, by rw [← e, (offer_ghost v _ _).1]⟩
    · cases hs
  case finish ev =>
    split at hs
    · next polled _ =>
      cases hs
      have key : ∀ u ∈ s.subs.map (fun u => if u.id ∈ polled then u.service (ev u.id) else u), u.id ≠ id := by
        intro u hu e
        obtain ⟨v, hv, rfl⟩ := List.mem_map.mp hu
        refine h.1 (List.mem_map.mpr ⟨v, hv, ?_⟩)
        rw [← e]
        split
        · exact (service_ghost v _).1.symm
        · rfl
      refine ⟨fun hi => ?_, fun hi => ?_⟩
      · obtain ⟨u, hu, e⟩ := List.mem_map.mp hi
        exact key u (List.mem_filter.mp hu).1 e
      · obtain ⟨u, hu, e⟩ := List.mem_map.mp hi
        rcases List.mem_append.mp hu with hu | hu
        · exact h.2 (List.mem_map.mpr ⟨u, hu, e⟩)
        · exact key u (List.mem_filter.mp hu).1 e
    · cases hs
  case shutdown => split at hs <;> cases hs; exact h

private theorem wait_step {wakeCap id : Nat} {s s' : St} {l : Label} (h : id ∈ s.backlog) (hl : ¬ Accepts id l)
    (hs : step wakeCap s l = some s') : id ∈ s'.backlog := by
  cases l <;> simp only [step] at hs
  case accept => exact absurd (.inl rfl) hl
  case acceptFails got =>
    split at hs <;> cases hs
    refine List.mem_filter.mpr ⟨h, ?_⟩
    cases hg : got id with
    | false => rfl
    | true => exact absurd (.inr ⟨got, rfl, hg⟩) hl
  all_goals (repeat' split at hs) <;> first | (cases hs; done) | (cases hs; first | exact h | exact List.mem_append_left _ h)

private theorem wait_run {wakeCap id : Nat} (ls : List Label) : ∀ (s s' : St), id ∈ s.backlog → id ∉ s.subs.map Sub.id ∧ id ∉ s.gone.map Sub.id →
    (∀ l ∈ ls, ¬ Accepts id l) → runSteps (step wakeCap) s ls = some s' →
    id ∈ s'.backlog ∧ id ∉ s'.subs.map Sub.id ∧ id ∉ s'.gone.map Sub.id := by
  induction ls with
  | nil => intro s s' h1 h2 _ hr; cases hr; exact ⟨h1, h2⟩
  | cons l ls ih =>
    intro s s' h1 h2 hl hr
    obtain ⟨s1, e1, e2⟩ := run_cons_some hr
    have h3 := wait_step h1 (hl l List.mem_cons_self) e1
    exact ih s1 s' h3 (fresh_step h2 h3 e1) (fun l h => hl l (List.mem_cons_of_mem _ h)) e2

private theorem accept_step {wakeCap id : Nat} {s s' : St} {l : Label} (h1 : id ∈ s.backlog)
    (h2 : id ∉ s.subs.map Sub.id ∧ id ∉ s.gone.map Sub.id) (hl : Accepts id l) (hs : step wakeCap s l = some s') :
    Taken id s.done.length s' ∧ s'.done = s.done := by
  have new : ∀ ids : List Nat, id ∈ ids → (∃ u ∈ s.subs ++ ids.map (fun id => (⟨id, [], [], 0, false, s.done.length, []⟩ : Sub)) ++ s.gone, u.id = id) ∧
      ∀ u ∈ s.subs ++ ids.map (fun id => (⟨id, [], [], 0, false, s.done.length, []⟩ : Sub)) ++ s.gone, u.id = id → u.start = s.done.length := by
    intro ids hi
    simp only [List.mem_append, List.mem_map]
    refine ⟨⟨⟨id, [], [], 0, false, s.done.length, []⟩, .inl (.inr ⟨id, hi, rfl⟩), rfl⟩, fun u hu hid => ?_⟩
    rcases hu with (hu | ⟨i, _, rfl⟩) | hu
    · exact absurd (List.mem_map.mpr ⟨u, hu, hid⟩) h2.1
    · rfl
    · exact absurd (List.mem_map.mpr ⟨u, hu, hid⟩) h2.2
  rcases hl with rfl | ⟨got, rfl, hg⟩ <;> simp only [step] at hs <;> split at hs <;> cases hs
  · exact ⟨⟨by simp, (new _ h1).1, (new _ h1).2⟩, rfl⟩
  · have hm : id ∈ s.backlog.filter got := List.mem_filter.mpr ⟨h1, hg⟩
    exact ⟨⟨fun hb => by simp [hg] at hb, (new _ hm).1, (new _ hm).2⟩, rfl⟩

private theorem lines_le (l : List Event) : l.length ≤ (l.flatMap Event.line).length := by
  induction l with
  | nil => simp
  | cons e l ih => have := line_pos e; simp only [List.flatMap_cons, List.length_append, List.length_cons]; omega

/-- **C54, exactly**: what a subscriber that is not dropped was sent, and what is queued for it, is the lines of the events that were taken from
the channel after its connection was accepted.  So it gets all that were published since it connected if and only if no such event was taken
from the channel before the connection was accepted. -/
theorem C54_exact {wakeCap id : Nat} (hc : 0 < wakeCap) {before waiting after : List Label} {s1 s2 s : St} {l : Label}
    (h1 : Run wakeCap before s1) (h2 : runSteps (step wakeCap) s1 (.connect id :: waiting) = some s2) (hw : ∀ l ∈ waiting, ¬ Accepts id l)
    (hl : Accepts id l) (h3 : runSteps (step wakeCap) s2 (l :: after) = some s) {u : Sub} (hu : u ∈ s.subs) (hid : u.id = id)
    (hd : u.dropped = false) :
    u.recv ++ (u.pending.flatMap Event.line).drop u.off = (s.done.drop s2.done.length).flatMap Event.line ∧
    ((s.done.drop s1.published.length).flatMap Event.line <:+ u.recv ++ (u.pending.flatMap Event.line).drop u.off ↔
      s2.done.length ≤ s1.published.length) := by
  have hrun : Run wakeCap (before ++ (.connect id :: waiting ++ l :: after)) s := by
    show runSteps _ _ _ = _
    rw [Shpool.run_append, show runSteps (step wakeCap) init before = some s1 from h1]
    show runSteps (step wakeCap) s1 _ = _
    rw [Shpool.run_append, h2]; exact h3
  obtain ⟨s1', e1, e2⟩ := run_cons_some h2
  obtain ⟨q1, q2, q3⟩ := inv_mem_ids e1
  obtain ⟨w1, w2⟩ := wait_run waiting s1' s2 (by subst q1; simp) (by
    subst q1
    refine ⟨fun hi => ?_, fun hi => ?_⟩ <;> obtain ⟨v, hv, e⟩ := List.mem_map.mp hi
    · exact q3 v (List.mem_append_left _ hv) e
    · exact q3 v (List.mem_append_right _ hv) e) hw e2
  obtain ⟨s3, f1, f2⟩ := run_cons_some h3
  obtain ⟨t1, t2⟩ := accept_step w1 w2 hl f1
  obtain ⟨t3, t4⟩ := taken_run after s3 s t1 f2
  have hst := t3.start u (List.mem_append_left _ hu) hid
  have hall := C51_nothing_missing wakeCap hc _ s hrun u hu hd
  rw [hst] at hall
  have hle : s2.done.length ≤ s.done.length := t2 ▸ t4.length_le
  refine ⟨hall, ?_⟩
  rw [hall]
  constructor
  · intro hs
    refine Classical.byContradiction fun hn => ?_
    have hlt : s1.published.length < s2.done.length := by omega
    have hlen := hs.length_le
    have hsplit : s.done.drop s1.published.length =
        (s.done.drop s1.published.length).take (s2.done.length - s1.published.length) ++ s.done.drop s2.done.length := by
      conv => lhs; rw [← List.take_append_drop (s2.done.length - s1.published.length) (s.done.drop s1.published.length)]
      rw [List.drop_drop]
      congr 2; omega
    rw [hsplit, List.flatMap_append, List.length_append] at hlen
    have := lines_le ((s.done.drop s1.published.length).take (s2.done.length - s1.published.length))
    simp only [List.length_take, List.length_drop] at this
    omega
  · intro hn
    have : s.done.drop s1.published.length = (s.done.drop s2.done.length).drop (s1.published.length - s2.done.length) := by
      rw [List.drop_drop]; congr 1; omega
    rw [this]
    obtain ⟨t, ht⟩ := List.drop_suffix (s1.published.length - s2.done.length) (s.done.drop s2.done.length)
    exact ⟨t.flatMap Event.line, by rw [← List.flatMap_append, ht]⟩

/-- A subscriber that connects during a broadcast and misses one event of two. -/
example : ∃ s1 s2 s u, Run 1 [.send .created, .wakeWrite, .poll, .accept, .drain] s1 ∧
    runSteps (step 1) s1 [.connect 7, .send .attached, .wakeWrite, .recv demoWrites, .recv demoWrites, .recv demoWrites,
      .finish (fun _ => .quiet), .send .detached, .wakeWrite, .poll] = some s2 ∧
    runSteps (step 1) s2 [.accept, .drain, .recv demoWrites] = some s ∧ u ∈ s.subs ∧ u.id = 7 ∧ u.dropped = false ∧
    s1.published.length = 1 ∧ s2.done.length = 2 ∧ s.done.length = 3 ∧ u.given = [.detached] :=
  ⟨_, _, _, _, rfl, rfl, rfl, List.mem_cons_self, by decide, by decide, by decide, by decide, by decide, by decide⟩

end Shpool.Events
