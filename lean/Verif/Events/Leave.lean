import Verif.Events.Props
/-!
# C128: subscribers that leave are forgotten

The sink only polls subscribers that it has something to write to (events.rs 258-263), and it never reads from them.  So it learns that a
subscriber has closed its connection when it next writes to it, or from `poll` if something was waiting to be written.
-/

namespace Shpool.Events

/-- What the operating system reports about the connection of subscriber `id` once it has been closed at the other end: writes fail
(`EPIPE`), `poll` reports a hang-up. -/
def Closed (id : Nat) : Label → Prop
  | .recv ws => ∃ rest, ws id = .err :: rest
  | .finish ev => ev id = .hangup
  | _ => True

/-- The daemon has a connection to the subscriber. -/
def St.holds (s : St) (id : Nat) : Prop := id ∈ s.subs.map Sub.id

instance (s : St) (id : Nat) : Decidable (s.holds id) := inferInstanceAs (Decidable (_ ∈ _))

/-- A step of the sink thread. -/
def Label.sink : Label → Bool
  | .poll | .accept | .acceptFails _ | .drain | .recv _ | .finish _ => true
  | _ => false

/-- `poll` returns. -/
def Label.isPoll : Label → Bool
  | .poll => true
  | _ => false

/-- A whole iteration of the sink's loop: from `poll` to the next. -/
def Iteration (wakeCap : Nat) (ls : List Label) (s s' : St) : Prop :=
  s.phase = .polling ∧ s'.phase = .polling ∧
  ∃ mid, ls = .poll :: mid ∧ (∀ l ∈ mid, l.isPoll = false) ∧ runSteps (step wakeCap) s ls = some s'

/-- C128: once a subscriber has closed its connection, the daemon forgets it after so many iterations of its loop. -/
def C128_statement : Prop := ∀ (wakeCap : Nat) (before : List Label) (s : St) (id : Nat), 0 < wakeCap → Run wakeCap before s → s.holds id →
  ∃ n, ∀ (ls : List Label) (s' : St), (∀ l ∈ ls, l.sink = true ∧ Closed id l) → runSteps (step wakeCap) s ls = some s' →
    n ≤ (ls.filter Label.isPoll).length → s'.phase = .polling → ¬ s'.holds id

/-- An iteration in which nothing happens. -/
def idle : List Label := [.poll, .accept, .finish (fun _ => .hangup)]

/-- Subscriber 1 has connected; nothing else has happened. -/
def one : St := ⟨[], [], 0, 0, [], [⟨1, [], [], 0, false, 0, []⟩], [], .polling⟩

theorem idle_one : runSteps (step 1) one idle = some one := rfl

/-- **C128 fails**: without an event the daemon never notices. -/
theorem C128_false : ¬ C128_statement := by
  intro h
  obtain ⟨n, hn⟩ := h 1 [.connect 1, .poll, .accept, .finish (fun _ => .quiet)] one 1 (by decide) rfl (by simp [St.holds, one])
  have hr : ∀ n, runSteps (step 1) one (List.replicate n idle).flatten = some one := by
    intro n
    induction n with
    | zero => rfl
    | succ k ih =>
      rw [List.replicate_succ, List.flatten_cons, run_append, idle_one]
      exact ih
  have hc : ∀ n, ((List.replicate n idle).flatten.filter Label.isPoll).length = n := by
    intro n
    induction n with
    | zero => rfl
    | succ k ih => rw [List.replicate_succ, List.flatten_cons, List.filter_append, List.length_append, ih]; simp [idle, List.filter, Label.isPoll]; omega
  refine hn _ one ?_ (hr n) (Nat.le_of_eq (hc n).symm) rfl (by simp [St.holds, one])
  intro l hl
  simp only [List.mem_flatten, List.mem_replicate] at hl
  obtain ⟨_, ⟨_, rfl⟩, hl⟩ := hl
  simp only [idle, List.mem_cons, List.not_mem_nil, or_false] at hl
  rcases hl with rfl | rfl | rfl <;> exact ⟨rfl, by simp [Closed]⟩

/-- Subscribers that come and go. -/
def comeAndGo : Nat → List Label
  | 0 => []
  | n + 1 => comeAndGo n ++ [.connect n, .poll, .accept, .finish (fun _ => .hangup)]

/-- **C128 fails**: so the connections of any number of subscribers, each of which has gone before the next comes, are all held (until the
daemon may open no more files). -/
theorem C128_false_unbounded (wakeCap n : Nat) : ∃ s, Run wakeCap (comeAndGo n) s ∧ s.subs.length = n := by
  have h : ∃ s, Run wakeCap (comeAndGo n) s ∧ s.chan = [] ∧ s.wake = 0 ∧ s.phase = .polling ∧ s.backlog = [] ∧ s.gone = [] ∧
      s.subs.map Sub.id = List.range n ∧ ∀ u ∈ s.subs, u.pending = [] ∧ u.dropped = false := by
    induction n with
    | zero => exact ⟨init, rfl, rfl, rfl, rfl, rfl, rfl, rfl, nofun⟩
    | succ n ih =>
      obtain ⟨s, hr, h1, h2, h3, h4, h5, h6, h7⟩ := ih
      obtain ⟨chan, done, wake, mid, backlog, subs, gone, phase⟩ := s
      dsimp only at *
      subst h1 h2 h3 h4 h5
      have hn : ¬ ∃ a, a ∈ subs ∧ a.id = n := by
        have : n ∉ subs.map Sub.id := by rw [h6]; simp
        simpa using this
      have hf : (subs.filter (!·.pending.isEmpty)) = [] := by
        rw [List.filter_eq_nil_iff]; intro u hu; simp [(h7 u hu).1]
      have hd : subs.filter (!·.dropped) = subs := by
        rw [List.filter_eq_self]; intro u hu; simp [(h7 u hu).2]
      have hd' : subs.filter (·.dropped) = [] := by
        rw [List.filter_eq_nil_iff]; intro u hu; simp [(h7 u hu).2]
      refine ⟨⟨[], done, 0, mid, [], subs ++ [⟨n, [], [], 0, false, done.length, []⟩], [], .polling⟩, ?_, rfl, rfl, rfl, rfl, rfl, ?_, ?_⟩
      · unfold Run comeAndGo
        rw [run_append, show runSteps (step wakeCap) init (comeAndGo n) = some _ from hr]
        simp [runSteps, step, hn, hf, hd, hd']
      · simp [h6, List.range_succ]
      · intro u hu
        simp only [List.mem_append, List.mem_singleton] at hu
        rcases hu with hu | rfl
        · exact h7 u hu
        · exact ⟨rfl, rfl⟩
  obtain ⟨s, hr, _, _, _, _, _, h6, _⟩ := h
  refine ⟨s, hr, ?_⟩
  rw [← List.length_map (f := Sub.id), h6, List.length_range]

/-- Within an iteration: a subscriber that is closed has been dropped, will be dropped at the end, or nothing has been sent. -/
private structure Leaving (id : Nat) (sent : Bool) (s : St) (polled : List Nat) : Prop where
  out : id ∉ s.backlog
  held : s.holds id
  fate : ∀ u ∈ s.subs, u.id = id → u.dropped = true ∨ id ∈ polled ∨ (u.pending = [] ∧ sent = false)

private theorem drive_err {s : Sub} {rest : List WriteRes} (h : s.pending ≠ []) : (s.drive (.err :: rest)).dropped = true := by
  cases hp : s.pending with
  | nil => exact absurd hp h
  | cons e ps => simp [Sub.drive, drivePending, hp]

private theorem offer_id (e : Event) (ws : List WriteRes) (u : Sub) : (u.offer e ws).id = u.id := by
  unfold Sub.offer
  split
  · rfl
  · dsimp only
    split
    · rfl
    · split <;> rfl

private theorem offer_closed (e : Event) (rest : List WriteRes) (u : Sub) (h : u.dropped = true ∨ u.pending = []) :
    (u.offer e (.err :: rest)).dropped = true := by
  unfold Sub.offer
  split
  · assumption
  · rename_i hd
    rcases h with h | h
    · exact absurd h hd
    · rw [h]
      simp [queueDepth, Sub.drive, drivePending]

private theorem leaving_offer {id : Nat} {sent : Bool} {s : St} {polled : List Nat} (h : Leaving id sent s polled) {e : Event}
    {ws : Nat → List WriteRes} {rest : List WriteRes} (hw : ws id = .err :: rest) {chan done : List Event} {sent' : Bool} :
    Leaving id sent' { s with chan := chan, done := done, subs := s.subs.map fun u => u.offer e (ws u.id) } polled := by
  refine ⟨h.out, ?_, ?_⟩
  · have := h.held
    simp only [St.holds, List.map_map, List.mem_map] at this ⊢
    obtain ⟨u, hu, hi⟩ := this
    exact ⟨u, hu, by simp [offer_id, hi]⟩
  · intro u hu hi
    simp only [List.mem_map] at hu
    obtain ⟨v, hv, rfl⟩ := hu
    rw [offer_id] at hi
    rw [hi, hw]
    rcases h.fate v hv hi with hd | hp | ⟨hp, _⟩
    · exact .inl (offer_closed _ _ _ (.inl hd))
    · exact .inr (.inl hp)
    · exact .inl (offer_closed _ _ _ (.inr hp))

/-- In the middle of an iteration that began with `d0` events taken and polled `p`. -/
private def Mid (id d0 : Nat) (p : List Nat) (s : St) : Prop :=
  (∃ w, s.phase = .accepting w p ∧ s.done.length = d0 ∧ Leaving id false s p) ∨
  ((s.phase = .draining p ∨ s.phase = .receiving p ∨ s.phase = .finishing p) ∧
    Leaving id (decide (d0 < s.done.length)) s p ∧ d0 ≤ s.done.length)

private theorem leave_step {wakeCap id d0 : Nat} {p : List Nat} {s s' : St} {l : Label} (hs : step wakeCap s l = some s') (hc : Closed id l)
    (hnp : l.isPoll = false) (hph : Mid id d0 p s) :
    Mid id d0 p s' ∨ (s'.phase = .polling ∧ (s'.holds id → s'.done.length = d0 ∧ id ∉ p)) := by
  cases l with
  | poll => cases hnp
  | send e =>
    simp only [step] at hs
    split at hs <;> cases hs
    · exact .inl hph
    · rcases hph with ⟨w, h1, h2, h3⟩ | ⟨h1, h2, h3⟩
      · exact .inl (.inl ⟨w, h1, h2, ⟨h3.out, h3.held, h3.fate⟩⟩)
      · exact .inl (.inr ⟨h1, ⟨h2.out, h2.held, h2.fate⟩, h3⟩)
  | wakeWrite =>
    simp only [step] at hs
    split at hs <;> cases hs
    rcases hph with ⟨w, h1, h2, h3⟩ | ⟨h1, h2, h3⟩
    · exact .inl (.inl ⟨w, h1, h2, ⟨h3.out, h3.held, h3.fate⟩⟩)
    · exact .inl (.inr ⟨h1, ⟨h2.out, h2.held, h2.fate⟩, h3⟩)
  | connect j =>
    simp only [step] at hs
    split at hs
    · cases hs
    · rename_i hj
      cases hs
      have hne : ∀ b, Leaving id b s p → id ≠ j := by
        rintro b h rfl
        exact hj (.inr (.inl h.held))
      rcases hph with ⟨w, h1, h2, h3⟩ | ⟨h1, h2, h3⟩
      · exact .inl (.inl ⟨w, h1, h2, ⟨by simp [h3.out, hne _ h3], h3.held, h3.fate⟩⟩)
      · exact .inl (.inr ⟨h1, ⟨by simp [h2.out, hne _ h2], h2.held, h2.fate⟩, h3⟩)
  | shutdown =>
    simp only [step] at hs
    split at hs
    · rename_i hp
      rcases hph with ⟨w, h1, _⟩ | ⟨h1, _⟩
      · rw [hp] at h1; cases h1
      · rw [hp] at h1; rcases h1 with h1 | h1 | h1 <;> cases h1
    · cases hs
  | accept =>
    simp only [step] at hs
    split at hs
    · rename_i w p' hp
      cases hs
      rcases hph with ⟨w', h1, h2, h3⟩ | ⟨h1, _, _⟩
      · rw [hp] at h1
        cases h1
        refine .inl (.inr ⟨?_, ⟨by simp, ?_, ?_⟩, by simp only; omega⟩)
        · cases w
          · exact .inr (.inr rfl)
          · exact .inl rfl
        · have := h3.held
          simp only [St.holds, List.map_append, List.mem_append] at this ⊢
          exact .inl this
        · intro u hu hi
          simp only [List.mem_append, List.mem_map] at hu
          rcases hu with hu | ⟨j, hj, rfl⟩
          · rcases h3.fate u hu hi with h | h | ⟨h, _⟩
            · exact .inl h
            · exact .inr (.inl h)
            · exact .inr (.inr ⟨h, by simp [h2]⟩)
          · simp only at hi
            exact absurd (hi ▸ hj) h3.out
      · rw [hp] at h1
        rcases h1 with h1 | h1 | h1 <;> cases h1
    · cases hs
  | acceptFails got =>
    simp only [step] at hs
    split at hs
    · rename_i w p' hp
      cases hs
      rcases hph with ⟨w', h1, h2, h3⟩ | ⟨h1, _, _⟩
      · rw [hp] at h1
        cases h1
        refine .inl (.inr ⟨?_, ⟨fun hh => h3.out (List.mem_filter.mp hh).1, ?_, ?_⟩, by simp only; omega⟩)
        · cases w
          · exact .inr (.inr rfl)
          · exact .inl rfl
        · have := h3.held
          simp only [St.holds, List.map_append, List.mem_append] at this ⊢
          exact .inl this
        · intro u hu hi
          simp only [List.mem_append, List.mem_map] at hu
          rcases hu with hu | ⟨j, hj, rfl⟩
          · rcases h3.fate u hu hi with h | h | ⟨h, _⟩
            · exact .inl h
            · exact .inr (.inl h)
            · exact .inr (.inr ⟨h, by simp [h2]⟩)
          · simp only at hi
            exact absurd (hi ▸ (List.mem_filter.mp hj).1) h3.out
      · rw [hp] at h1
        rcases h1 with h1 | h1 | h1 <;> cases h1
    · cases hs
  | drain =>
    simp only [step] at hs
    split at hs
    · rename_i p' hp
      cases hs
      rcases hph with ⟨w', h1, _⟩ | ⟨h1, h2, h3⟩
      · rw [hp] at h1; cases h1
      · rw [hp] at h1
        rcases h1 with h1 | h1 | h1 <;> cases h1
        exact .inl (.inr ⟨.inr (.inl rfl), ⟨h2.out, h2.held, h2.fate⟩, h3⟩)
    · cases hs
  | recv ws =>
    obtain ⟨rest, hw⟩ := hc
    simp only [step] at hs
    split at hs
    · rename_i p' hp
      rcases hph with ⟨w', h1, _⟩ | ⟨h1, h2, h3⟩
      · rw [hp] at h1; cases h1
      · rw [hp] at h1
        rcases h1 with h1 | h1 | h1 <;> cases h1
        split at hs
        · cases hs
          exact .inl (.inr ⟨.inr (.inr rfl), ⟨h2.out, h2.held, h2.fate⟩, h3⟩)
        · cases hs
          exact .inl (.inr ⟨.inr (.inl hp), leaving_offer h2 hw, by simp only [List.length_append]; omega⟩)
    · cases hs
  | finish ev =>
    have hc : ev id = .hangup := hc
    simp only [step] at hs
    split at hs
    · rename_i p' hp
      cases hs
      rcases hph with ⟨w', h1, _⟩ | ⟨h1, h2, h3⟩
      · rw [hp] at h1; cases h1
      · rw [hp] at h1
        rcases h1 with h1 | h1 | h1 <;> cases h1
        refine .inr ⟨rfl, ?_⟩
        intro hh
        simp only [St.holds, List.mem_map, List.mem_filter] at hh
        obtain ⟨u, ⟨⟨v, hv, rfl⟩, hnd⟩, hi⟩ := hh
        by_cases hvp : v.id ∈ p
        · rw [if_pos hvp] at hi hnd
          have hvi : v.id = id := by
            rw [← hi]; unfold Sub.service; split
            · rfl
            · split <;> rfl
          rw [hvi, hc] at hnd
          simp only [Sub.service] at hnd
          split at hnd <;> simp_all
        · rw [if_neg hvp] at hi hnd
          rcases h2.fate v hv hi with h | h | ⟨_, h'⟩
          · rw [h] at hnd; cases hnd
          · exact absurd (hi ▸ h) hvp
          · simp only [decide_eq_false_iff_not] at h'
            exact ⟨by simp only; omega, hi ▸ hvp⟩
    · cases hs

/-- At its `poll` the sink only changes anything when that returns. -/
private theorem rest_polling {wakeCap : Nat} : ∀ (ls : List Label) (s s' : St), s.phase = .polling →
    runSteps (step wakeCap) s ls = some s' → (∀ l ∈ ls, l.isPoll = false) → s'.subs = s.subs ∧ s'.done = s.done := by
  have gen : ∀ (ls : List Label) (s s' : St), s.phase = .polling ∨ s.phase = .stopped →
      runSteps (step wakeCap) s ls = some s' → (∀ l ∈ ls, l.isPoll = false) → s'.subs = s.subs ∧ s'.done = s.done := by
    intro ls
    induction ls with
    | nil => intro s s' _ hr _; cases hr; exact ⟨rfl, rfl⟩
    | cons l ls ih =>
      intro s s' h hr hn
      obtain ⟨s1, hs, hr⟩ := run_cons_some hr
      have hl := hn l (by simp)
      have : (s1.phase = .polling ∨ s1.phase = .stopped) ∧ s1.subs = s.subs ∧ s1.done = s.done := by
        cases l <;> rcases h with h | h <;> simp only [step, h] at hs <;> (try split at hs) <;> cases hs <;>
          first | exact ⟨.inl h, rfl, rfl⟩ | exact ⟨.inr h, rfl, rfl⟩ | exact ⟨.inr rfl, rfl, rfl⟩ | exact ⟨.inl rfl, rfl, rfl⟩ | cases hl
      have hh := ih s1 s' this.1 hr (fun l hl => hn l (by simp [hl]))
      exact ⟨hh.1.trans this.2.1, hh.2.trans this.2.2⟩
  exact fun ls s s' h => gen ls s s' (.inl h)

private theorem leave_run {wakeCap id d0 : Nat} {p : List Nat} : ∀ (ls : List Label) (s s' : St), runSteps (step wakeCap) s ls = some s' →
    (∀ l ∈ ls, Closed id l) → (∀ l ∈ ls, l.isPoll = false) → s'.phase = .polling → Mid id d0 p s →
    s'.holds id → s'.done.length = d0 ∧ id ∉ p
  | [], s, s', h, _, _, hp, hph => by
    cases h
    rcases hph with ⟨_, h1, _⟩ | ⟨h1, _⟩
    · rw [hp] at h1; cases h1
    · rw [hp] at h1; rcases h1 with h1 | h1 | h1 <;> cases h1
  | l :: ls, s, s', h, hc, hn, hp, hph => by
    obtain ⟨s1, hs, hr⟩ := run_cons_some h
    have hn' : ∀ l ∈ ls, l.isPoll = false := fun l hl => hn l (by simp [hl])
    rcases leave_step hs (hc l (by simp)) (hn l (by simp)) hph with h1 | ⟨h1, h2⟩
    · exact leave_run ls s1 s' hr (fun l hl => hc l (by simp [hl])) hn' hp h1
    · have := rest_polling ls s1 s' h1 hr hn'
      unfold St.holds at h2 ⊢
      rw [this.1, this.2]
      exact h2

/-- Whoever waits to be accepted has not been accepted. -/
private theorem backlog_new {wakeCap : Nat} {ls : List Label} {s : St} (h : Run wakeCap ls s) :
    ∀ id ∈ s.backlog, ¬ s.holds id := by
  refine run_inv (step := step wakeCap) (I := fun s => ∀ id ∈ s.backlog, ¬ s.holds id) ?_ (s := init) nofun h
  intro s l s' hi hs
  cases l with
  | send e => simp only [step] at hs; split at hs <;> cases hs <;> exact hi
  | wakeWrite => simp only [step] at hs; split at hs <;> cases hs; exact hi
  | connect j =>
    simp only [step] at hs
    split at hs
    · cases hs
    · rename_i hj
      cases hs
      intro id hid
      simp only [List.mem_append, List.mem_singleton] at hid
      rcases hid with hid | rfl
      · exact hi id hid
      · exact fun hh => hj (.inr (.inl hh))
  | poll => simp only [step] at hs; split at hs <;> cases hs; exact hi
  | accept => simp only [step] at hs; split at hs <;> cases hs; exact nofun
  | acceptFails got =>
    simp only [step] at hs
    split at hs <;> cases hs
    intro id hid hh
    obtain ⟨h1, h2⟩ := List.mem_filter.mp hid
    have := hi id h1
    simp only [St.holds, List.map_append, List.mem_append, List.map_map, List.mem_map] at this hh
    rcases hh with hh | ⟨j, hj, rfl⟩
    · exact this hh
    · have := (List.mem_filter.mp hj).2
      simp_all
  | drain => simp only [step] at hs; split at hs <;> cases hs; exact hi
  | recv ws =>
    simp only [step] at hs
    split at hs
    · split at hs <;> cases hs
      · exact hi
      · intro id hid
        have := hi id hid
        simp only [St.holds, List.map_map, List.mem_map] at this ⊢
        rintro ⟨u, hu, hui⟩
        exact this ⟨u, hu, by simpa [offer_id] using hui⟩
    · cases hs
  | finish ev =>
    simp only [step] at hs
    split at hs
    · cases hs
      intro id hid hh
      refine hi id hid ?_
      simp only [St.holds, List.mem_map, List.mem_filter] at hh ⊢
      obtain ⟨_, ⟨⟨v, hv, rfl⟩, _⟩, rfl⟩ := hh
      refine ⟨v, hv, ?_⟩
      split
      · unfold Sub.service; split
        · rfl
        · split <;> rfl
      · rfl
    · cases hs
  | shutdown => simp only [step] at hs; split at hs <;> cases hs; exact hi

/-- **C128** once there is something to say: if something was waiting to be written to the subscriber, or an event is taken from the channel,
the daemon has forgotten a subscriber that is gone by the end of that iteration. Missing: as long as nothing happens. -/
theorem C128_forgotten_partial {wakeCap id : Nat} (hc : 0 < wakeCap) {before ls : List Label} {s s' : St} (h : Run wakeCap before s)
    (hh : s.holds id) (hi : Iteration wakeCap ls s s') (hcl : ∀ l ∈ ls, Closed id l)
    (hev : (∃ u ∈ s.subs, u.id = id ∧ u.pending ≠ []) ∨ s.done.length < s'.done.length) : ¬ s'.holds id := by
  obtain ⟨hp, hp', mid, rfl, hm, hr⟩ := hi
  obtain ⟨s1, hs, hr⟩ := run_cons_some hr
  simp only [step, hp, Option.some.injEq] at hs
  subst hs
  intro hh'
  have hinv := inv_run hc h
  have := leave_run (d0 := s.done.length) (id := id) mid _ s' hr (fun l hl => hcl l (by simp [hl])) hm hp'
    (.inl ⟨_, rfl, rfl, ?_, hh, ?_⟩) hh'
  · rcases hev with ⟨u, hu, hi, hpe⟩ | hev
    · refine this.2 ?_
      simp only [List.mem_map, List.mem_filter]
      exact ⟨u, ⟨hu, by cases hq : u.pending with
        | nil => exact absurd hq hpe
        | cons _ _ => simp⟩, hi⟩
    · omega
  · exact fun hb => backlog_new h id hb hh
  · intro u hu hi
    by_cases hpe : u.pending = []
    · exact .inr (.inr ⟨hpe, rfl⟩)
    · refine .inr (.inl ?_)
      simp only [List.mem_map, List.mem_filter]
      exact ⟨u, ⟨hu, by cases hq : u.pending with
        | nil => exact absurd hq hpe
        | cons _ _ => simp⟩, hi⟩

/-- Subscriber 1 leaves; the next event is its end, subscriber 2 gets the event. -/
example : ∃ s s', Run 1 [.connect 1, .connect 2, .poll, .accept, .finish (fun _ => .quiet), .send .created, .wakeWrite] s ∧ s.holds 1 ∧
    Iteration 1 [.poll, .accept, .drain, .recv (fun i => if i = 1 then [.err] else [.wrote 100]),
      .recv (fun i => if i = 1 then [.err] else [.wrote 100]), .finish (fun i => if i = 1 then .hangup else .quiet)] s s' ∧
    s.done.length < s'.done.length ∧ s'.subs.map Sub.id = [2] :=
  ⟨_, _, rfl, by decide, ⟨rfl, rfl, _, rfl, by simp [Label.isPoll], rfl⟩, by decide, by decide⟩

end Shpool.Events
