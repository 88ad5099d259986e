import Verif.Events.Props
import Verif.Util.Fair

/-! # In every fair execution events are broadcast -/

namespace Shpool.Events

/-- A step of the sink other than `poll`, which waits. -/
def isWork : Label → Bool
  | .accept | .acceptFails _ | .drain | .recv _ | .finish _ => true
  | _ => false

/-- The end of a call to `publish`. -/
def isWakeWrite : Label → Bool
  | .wakeWrite => true
  | _ => false

/-- Nobody is put off for ever: the sink does not stop between two polls, `poll` returns when a wake byte is there and stays there, calls to
`publish` end, and the daemon is not shut down. -/
structure Fair (wakeCap : Nat) (σ : Nat → St) (lab : Nat → Option Label) : Prop where
  work : WeakFair (step wakeCap) σ lab isWork
  poll : ¬ ∃ n, ∀ i, n ≤ i → (σ i).phase = .polling ∧ (σ i).wake > 0
  publish : WeakFair (step wakeCap) σ lab isWakeWrite
  up : ∀ i, lab i ≠ some .shutdown

/-- The sink has been told that there are events, and has not yet found the channel empty. -/
def Ahead (s : St) : Prop := s.wake > 0 ∨ s.broadcasting ∨ ∃ p, s.phase = .accepting true p

/-- How far the sink is from emptying the channel. -/
def ahead (s : St) : Nat :=
  match s.phase with
  | .accepting false _ => 5
  | .finishing _ => 4
  | .polling => 3
  | .accepting true _ => 2
  | .draining _ => 1
  | _ => 0

/-- One step: nothing taken from the channel is put back; a step of the sink brings it nearer to taking the next event. -/
theorem ahead_step {wakeCap : Nat} (hc : 0 < wakeCap) {s s' : St} {l : Label} (hst : s.phase ≠ .stopped) (hl : l ≠ .shutdown)
    (h : step wakeCap s l = some s') :
    s'.phase ≠ .stopped ∧ s.done <+: s'.done ∧ (isWakeWrite l = true → s'.wake > 0) ∧
    (s.chan ≠ [] → Ahead s → s.done.length < s'.done.length ∨
      (Ahead s' ∧ s'.done = s.done ∧ ahead s' ≤ ahead s ∧ (isWork l = true ∨ l = .poll → ahead s' < ahead s))) := by
  cases l with
  | send e =>
    simp only [step] at h
    split at h <;> cases h
    · exact ⟨hst, List.prefix_refl _, nofun, fun _ ha => .inr ⟨ha, rfl, Nat.le_refl _, by simp [isWork]⟩⟩
    · exact ⟨hst, List.prefix_refl _, nofun, fun _ ha => .inr ⟨ha, rfl, Nat.le_refl _, by simp [isWork]⟩⟩
  | wakeWrite =>
    simp only [step] at h
    split at h <;> cases h
    have hw : (if s.wake < wakeCap then s.wake + 1 else s.wake) > 0 := by split <;> omega
    exact ⟨hst, List.prefix_refl _, fun _ => hw, fun _ ha => .inr ⟨.inl hw, rfl, Nat.le_refl _, by simp [isWork]⟩⟩
  | connect id =>
    simp only [step] at h
    split at h <;> cases h
    exact ⟨hst, List.prefix_refl _, nofun, fun _ ha => .inr ⟨ha, rfl, Nat.le_refl _, by simp [isWork]⟩⟩
  | poll =>
    simp only [step] at h
    split at h <;> cases h
    rename_i hp
    refine ⟨nofun, List.prefix_refl _, nofun, fun _ ha => .inr ?_⟩
    have hw : s.wake > 0 := by
      rcases ha with ha | ha | ⟨p, ha⟩
      · exact ha
      · simp [St.broadcasting, hp] at ha
      · rw [hp] at ha; cases ha
    simp [Ahead, ahead, hp, hw]
  | accept =>
    simp only [step] at h
    split at h <;> cases h
    rename_i w p hp
    cases w with
    | true => simp [Ahead, ahead, hp, St.broadcasting, isWakeWrite]
    | false =>
      refine ⟨by simp, List.prefix_refl _, nofun, fun _ ha => .inr ?_⟩
      have hw : s.wake > 0 := by
        rcases ha with ha | ha | ⟨p, ha⟩
        · exact ha
        · simp [St.broadcasting, hp] at ha
        · rw [hp] at ha; cases ha
      simp [Ahead, ahead, hp, hw]
  | acceptFails got =>
    simp only [step] at h
    split at h <;> cases h
    rename_i w p hp
    cases w with
    | true => simp [Ahead, ahead, hp, St.broadcasting, isWakeWrite]
    | false =>
      refine ⟨by simp, List.prefix_refl _, nofun, fun _ ha => .inr ?_⟩
      have hw : s.wake > 0 := by
        rcases ha with ha | ha | ⟨p, ha⟩
        · exact ha
        · simp [St.broadcasting, hp] at ha
        · rw [hp] at ha; cases ha
      simp [Ahead, ahead, hp, hw]
  | drain =>
    simp only [step] at h
    split at h <;> cases h
    rename_i p hp
    simp [Ahead, ahead, hp, St.broadcasting, isWakeWrite]
  | recv ws =>
    simp only [step] at h
    split at h
    · rename_i p hp
      split at h <;> cases h
      · rename_i hq
        exact ⟨nofun, List.prefix_refl _, nofun, fun hne => absurd hq hne⟩
      · exact ⟨by simp [hp], List.prefix_append _ _, nofun, fun _ _ => .inl (by simp)⟩
    · cases h
  | finish ev =>
    simp only [step] at h
    split at h <;> cases h
    rename_i p hp
    refine ⟨nofun, List.prefix_refl _, nofun, fun _ ha => .inr ?_⟩
    have hw : s.wake > 0 := by
      rcases ha with ha | ha | ⟨p, ha⟩
      · exact ha
      · simp [St.broadcasting, hp] at ha
      · rw [hp] at ha; cases ha
    simp [Ahead, ahead, hp, hw]
  | shutdown => exact absurd rfl hl

theorem work_can {wakeCap : Nat} {s : St} (hst : s.phase ≠ .stopped) (hp : s.phase ≠ .polling) : Can (step wakeCap) isWork s := by
  cases h : s.phase with
  | polling => exact absurd h hp
  | stopped => exact absurd h hst
  | accepting w p => exact ⟨.accept, rfl, by simp [step, h]⟩
  | draining p => exact ⟨.drain, rfl, by simp [step, h]⟩
  | receiving p => exact ⟨.recv (fun _ => []), rfl, by simp only [step, h]; split <;> rfl⟩
  | finishing p => exact ⟨.finish (fun _ => .quiet), rfl, by simp [step, h]⟩

/-- C52, over time: in every fair execution every event that was put into the channel is broadcast, in order, however many follow it. -/
theorem C52_fair {wakeCap : Nat} (hc : 0 < wakeCap) {σ : Nat → St} {lab : Nat → Option Label} (hx : Exec (step wakeCap) σ lab)
    (h0 : σ 0 = init) (hf : Fair wakeCap σ lab) (m : Nat) : ∃ i, m ≤ i ∧ (σ m).published <+: (σ i).done := by
  have hrun : ∀ i, Run wakeCap (performed lab i) (σ i) := fun i => by
    have h := exec_run hx i
    rw [h0] at h
    exact h
  have hI : ∀ i, Inv (σ i) := fun i => inv_run hc (hrun i)
  have hlab : ∀ {i l}, lab i = some l → l ≠ .shutdown := fun {i l} hl he => hf.up i (he ▸ hl)
  have hst : ∀ i, (σ i).phase ≠ .stopped := fun i => exec_stays hx (m := 0) (p := fun s => s.phase ≠ .stopped)
    (fun i l _ hl hp h => (ahead_step hc hp (hlab hl) h).1) (by rw [h0]; nofun) i (Nat.zero_le _)
  have hpub : ∀ i, m ≤ i → (σ m).published <+: (σ i).published := exec_stays hx (p := fun s => (σ m).published <+: s.published)
    (fun i l _ _ hp h => by
      rcases step_published h with h | ⟨e, _, h⟩
      · rw [h]; exact hp
      · rw [h]; exact hp.trans (List.prefix_append _ _)) (List.prefix_refl _)
  -- it is enough to take so many events from the channel
  suffices h : ∃ i, m ≤ i ∧ (σ m).published.length ≤ (σ i).done.length by
    obtain ⟨i, hi, hlen⟩ := h
    refine ⟨i, hi, List.prefix_of_prefix_length_le (hpub i hi) (List.prefix_append _ _) hlen⟩
  refine Classical.byContradiction fun hno => ?_
  have hlt : ∀ i, m ≤ i → (σ i).done.length < (σ m).published.length := fun i hi =>
    Nat.lt_of_not_le fun h => hno ⟨i, hi, h⟩
  have hchan : ∀ i, m ≤ i → (σ i).chan ≠ [] := fun i hi hn => by
    have h1 := (hpub i hi).length_le
    have h2 := hlt i hi
    simp only [St.published, hn, List.append_nil, List.length_append] at h1 h2
    omega
  -- the sink is told
  obtain ⟨n, hn, ha⟩ : ∃ n, m ≤ n ∧ Ahead (σ n) := by
    by_cases ha : Ahead (σ m)
    · exact ⟨m, Nat.le_refl _, ha⟩
    refine fair_reaches hx hf.publish (B := fun s => ¬ Ahead s) (G := Ahead) (fun _ => 0) ha (fun i hi hb => ?_) (fun i l _ hl hb h => ?_)
    · have hw := (hI i).wake (hchan i hi)
      have hmid : (σ i).mid > 0 := by
        cases hp : (σ i).phase with
        | stopped => exact absurd hp (hst i)
        | polling => rw [hp] at hw; exact hw.resolve_left fun h => hb (.inl h)
        | finishing p => rw [hp] at hw; exact hw.resolve_left fun h => hb (.inl h)
        | draining p => exact absurd (.inr (.inl (by simp [St.broadcasting, hp]))) hb
        | receiving p => exact absurd (.inr (.inl (by simp [St.broadcasting, hp]))) hb
        | accepting w p =>
          cases w with
          | false => rw [hp] at hw; exact hw.resolve_left fun h => hb (.inl h)
          | true => exact absurd (.inr (.inr ⟨p, hp⟩)) hb
      refine ⟨.wakeWrite, rfl, ?_⟩
      simp only [step]
      rw [if_neg (by omega)]
      rfl
    · by_cases hg : Ahead (σ (i + 1))
      · exact .inl hg
      · exact .inr ⟨hg, Nat.le_refl _, fun hw => absurd (.inl ((ahead_step hc (hst i) (hlab hl) h).2.2.1 hw)) hg⟩
  -- and comes nearer to each next event
  have hdone : ∀ i l, n ≤ i → lab i = some l → (σ i).done.length ≤ (σ (i + 1)).done.length := fun i l hi hl =>
    (ahead_step hc (hst i) (hlab hl) (exec_at hx hl)).2.1.length_le
  -- after the next event is taken the sink is still receiving
  have hkeep : ∀ i, n ≤ i → Ahead (σ i) := exec_stays hx (fun i l hi hl ha h => by
    rcases (ahead_step hc (hst i) (hlab hl) h).2.2.2 (hchan i (by omega)) ha with hd | hd
    · cases l with
      | recv ws =>
        refine .inr (.inl ?_)
        simp only [step] at h
        split at h
        · rename_i p hp
          split at h
          · rename_i hq; exact absurd hq (hchan i (by omega))
          · generalize σ (i + 1) = s' at h ⊢
            cases h
            simp [St.broadcasting, hp]
        · cases h
      | _ =>
        exfalso
        simp only [step] at h
        split at h
        all_goals first
          | (cases h; done)
          | (generalize σ (i + 1) = s' at h hd; cases h; exact absurd hd (Nat.lt_irrefl _))
    · exact hd.1) ha
  obtain ⟨_, _, h⟩ := reaches (σ := σ) (Goal := fun _ => False) (fun s => ((σ m).published.length - s.done.length) * 6 + ahead s) (m := n)
    (fun i hi _ => by
      rcases hx i with ⟨_, h3⟩ | ⟨l, hli, h3⟩
      · rw [h3]; exact Nat.le_refl _
      · rcases (ahead_step hc (hst i) (hlab hli) h3).2.2.2 (hchan i (by omega)) (hkeep i hi) with hd | ⟨_, h1, h2, _⟩
        · have h4 := hlt i (by omega)
          have h5 : ahead (σ (i + 1)) ≤ 5 := by unfold ahead; split <;> omega
          show _ * 6 + _ ≤ _ * 6 + _
          omega
        · show _ * 6 + _ ≤ _ * 6 + _
          rw [h1]; omega) (fun k hk hrest => by
      -- at rest the sink takes no step
      have hsame : ∀ i, k ≤ i → ahead (σ i) = ahead (σ k) ∧ (∀ l, lab i = some l → ¬ (isWork l = true ∨ l = .poll)) := by
        have hone : ∀ i l, k ≤ i → lab i = some l → (σ (i + 1)).done = (σ i).done ∧ ahead (σ (i + 1)) = ahead (σ i) ∧
            ¬ (isWork l = true ∨ l = .poll) := by
          intro i l hi hl
          have e1 := (hrest i hi).2
          have e2 := (hrest (i + 1) (by omega)).2
          have h4 := hlt i (by omega)
          have h5 : ahead (σ (i + 1)) ≤ 5 := by unfold ahead; split <;> omega
          rcases (ahead_step hc (hst i) (hlab hl) (exec_at hx hl)).2.2.2 (hchan i (by omega)) (hkeep i (by omega)) with hd | ⟨_, h1, h2, h3⟩
          · exfalso; omega
          · simp only [h1] at e1 e2
            refine ⟨h1, by omega, fun hw => ?_⟩
            have := h3 hw
            omega
        intro i hi
        refine ⟨?_, fun l hl => (hone i l hi hl).2.2⟩
        exact exec_stays hx (p := fun s => ahead s = ahead (σ k)) (fun i l hi hl hp _ => by rw [(hone i l hi hl).2.1]; exact hp) rfl i hi
      by_cases hp : ∃ j, k ≤ j ∧ (σ j).phase ≠ .polling
      · obtain ⟨j, hj, hp⟩ := hp
        have hne : ∀ i, k ≤ i → (σ i).phase ≠ .polling := fun i hi hpi => by
          have e1 := (hsame i hi).1
          have e2 := (hsame j hj).1
          have : ahead (σ j) = 3 := by rw [e2, ← e1]; simp [ahead, hpi]
          unfold ahead at this
          split at this <;> simp_all
        obtain ⟨i, l, hi, hli, hw⟩ := hf.work ⟨k, fun i hi => work_can (hst i) (hne i hi)⟩ k
        exact (hsame i hi).2 l hli (.inl hw)
      · refine hf.poll ⟨k, fun i hi => ?_⟩
        have hpi : (σ i).phase = .polling := Classical.byContradiction fun h => hp ⟨i, hi, h⟩
        refine ⟨hpi, ?_⟩
        rcases hkeep i (by omega) with ha | ha | ⟨p, ha⟩
        · exact ha
        · simp [St.broadcasting, hpi] at ha
        · rw [hpi] at ha; cases ha)
  exact h

/-! ## Delivery to a subscriber that reads -/

theorem done_step {wakeCap : Nat} {s s' : St} {l : Label} (h : step wakeCap s l = some s') : s.done <+: s'.done := by
  cases l <;> simp only [step] at h
  case recv ws =>
    split at h
    · split at h <;> cases h
      · exact List.prefix_refl _
      · exact List.prefix_append _ _
    · cases h
  all_goals (split at h <;> cases h <;> exact List.prefix_refl _)

/-- The subscriber with this number, if it has been accepted and not been removed. -/
def St.sub (s : St) (id : Nat) : Option Sub := s.subs.find? (fun u => u.id == id)

theorem drivePending_grows (ws : List WriteRes) (pending : List Event) (off : Nat) (recv : List Char) :
    recv <+: (drivePending ws pending off recv).2.2.1 := by
  induction ws generalizing pending off recv with
  | nil => cases pending <;> exact List.prefix_refl _
  | cons w ws ih =>
    cases pending with
    | nil => exact List.prefix_refl _
    | cons e ps =>
      cases w with
      | wouldBlock => exact List.prefix_refl _
      | err => exact List.prefix_refl _
      | interrupted => exact ih _ _ _
      | wrote n =>
        simp only [drivePending]
        split
        · exact List.prefix_refl _
        · split <;> exact (List.prefix_append _ _).trans (ih _ _ _)

theorem drivePending_takes (k : Nat) (ws : List WriteRes) (pending : List Event) (off : Nat) (recv : List Char) (hoff : OffOk pending off)
    (hp : pending ≠ []) : recv.length < (drivePending (.wrote (k + 1) :: ws) pending off recv).2.2.1.length := by
  cases pending with
  | nil => exact absurd rfl hp
  | cons e ps =>
    have hoff' : off < e.line.length := hoff
    simp only [drivePending]
    have hpos : 0 < min (k + 1) (e.line.drop off).length := by simp; omega
    rw [if_neg (by omega)]
    have hlen : (recv ++ (e.line.drop off).take (min (k + 1) (e.line.drop off).length)).length > recv.length := by
      simp only [List.length_append, List.length_take]; omega
    split
    · exact Nat.lt_of_lt_of_le hlen (drivePending_grows _ _ _ _).length_le
    · exact Nat.lt_of_lt_of_le hlen (drivePending_grows _ _ _ _).length_le

theorem offer_grows (u : Sub) (e : Event) (ws : List WriteRes) : u.recv <+: (u.offer e ws).recv := by
  unfold Sub.offer
  split
  · exact List.prefix_refl _
  · dsimp only
    split
    · exact List.prefix_refl _
    · split
      · exact drivePending_grows _ _ _ _
      · exact List.prefix_refl _

theorem service_grows (u : Sub) (ev : PollEv) : u.recv <+: (u.service ev).recv := by
  unfold Sub.service
  split
  · exact List.prefix_refl _
  · cases ev with
    | quiet => exact List.prefix_refl _
    | hangup => exact List.prefix_refl _
    | ready ws => exact drivePending_grows _ _ _ _

/-- The subscriber's socket is reported writable and takes at least a byte. -/
def Takes (id : Nat) (s : St) (l : Label) : Prop :=
  ∃ ev p k ws, l = .finish ev ∧ s.phase = .finishing p ∧ id ∈ p ∧ ev id = .ready (.wrote (k + 1) :: ws)

private theorem find_congr {α : Type} {p q : α → Bool} {l : List α} (h : ∀ v ∈ l, p v = q v) : l.find? p = l.find? q := by
  induction l with
  | nil => rfl
  | cons a l ih => simp only [List.find?_cons, h a (by simp), ih fun v hv => h v (by simp [hv])]

/-- What a step does to a subscriber that is not dropped by it. -/
theorem sub_step {wakeCap id : Nat} {s s' : St} {l : Label} {u : Sub} (hu : s.sub id = some u)
    (hd : ∀ v ∈ s'.subs ++ s'.gone, v.id = id → v.dropped = false) (h : step wakeCap s l = some s') :
    ∃ u', s'.sub id = some u' ∧ u'.start = u.start ∧ u.recv <+: u'.recv ∧
      (Takes id s l → SubOk u → u.pending ≠ [] → u.recv.length < u'.recv.length) := by
  have hid : u.id = id := by simpa using List.find?_some hu
  have hmap : ∀ f : Sub → Sub, (∀ v, (f v).id = v.id) → (s.subs.map f).find? (fun v => v.id == id) = some (f u) := fun f hf => by
    rw [List.find?_map]
    have : ((fun v : Sub => v.id == id) ∘ f) = fun v => v.id == id := by funext v; simp [hf]
    rw [this]
    simp only [St.sub] at hu
    simp [hu]
  cases l with
  | send e =>
    simp only [step] at h
    split at h <;> cases h <;> exact ⟨u, hu, rfl, List.prefix_refl _, fun ⟨_, _, _, _, h, _⟩ => by cases h⟩
  | wakeWrite =>
    simp only [step] at h
    split at h <;> cases h; exact ⟨u, hu, rfl, List.prefix_refl _, fun ⟨_, _, _, _, h, _⟩ => by cases h⟩
  | connect j =>
    simp only [step] at h
    split at h <;> cases h; exact ⟨u, hu, rfl, List.prefix_refl _, fun ⟨_, _, _, _, h, _⟩ => by cases h⟩
  | poll =>
    simp only [step] at h
    split at h <;> cases h; exact ⟨u, hu, rfl, List.prefix_refl _, fun ⟨_, _, _, _, h, _⟩ => by cases h⟩
  | accept =>
    simp only [step] at h
    split at h <;> cases h
    refine ⟨u, ?_, rfl, List.prefix_refl _, fun ⟨_, _, _, _, h, _⟩ => by cases h⟩
    simp only [St.sub] at hu ⊢
    rw [List.find?_append, hu]; rfl
  | acceptFails got =>
    simp only [step] at h
    split at h <;> cases h
    refine ⟨u, ?_, rfl, List.prefix_refl _, fun ⟨_, _, _, _, h, _⟩ => by cases h⟩
    simp only [St.sub] at hu ⊢
    rw [List.find?_append, hu]; rfl
  | drain =>
    simp only [step] at h
    split at h <;> cases h; exact ⟨u, hu, rfl, List.prefix_refl _, fun ⟨_, _, _, _, h, _⟩ => by cases h⟩
  | recv ws =>
    simp only [step] at h
    split at h
    · split at h <;> cases h
      · exact ⟨u, hu, rfl, List.prefix_refl _, fun ⟨_, _, _, _, h, _⟩ => by cases h⟩
      · rename_i e rest _
        exact ⟨u.offer e (ws u.id), hmap (fun v => v.offer e (ws v.id)) fun v => (offer_ghost v e _).1, (offer_ghost u e _).2.1,
          offer_grows _ _ _, fun ⟨_, _, _, _, h, _⟩ => by cases h⟩
    · cases h
  | finish ev =>
    simp only [step] at h
    split at h
    · rename_i p hp
      cases h
      have hf : ∀ v : Sub, (if v.id ∈ p then v.service (ev v.id) else v).id = v.id := fun v => by
        split
        · exact (service_ghost v _).1
        · rfl
      have hu' := hmap (fun v => if v.id ∈ p then v.service (ev v.id) else v) hf
      generalize hsubs : s.subs.map (fun v => if v.id ∈ p then v.service (ev v.id) else v) = subs at hu' hd ⊢
      have hfilter : (subs.filter (!·.dropped)).find? (fun v => v.id == id) = subs.find? (fun v => v.id == id) := by
        rw [List.find?_filter]
        refine find_congr fun v hv => ?_
        by_cases hvi : v.id = id
        · by_cases hvd : v.dropped = true
          · have := hd v (List.mem_append_right _ (List.mem_append_right _ (List.mem_filter.mpr ⟨hv, hvd⟩))) hvi
            rw [hvd] at this; cases this
          · simp [hvi, hvd]
        · simp [hvi]
      refine ⟨if u.id ∈ p then u.service (ev u.id) else u, ?_, ?_, ?_, ?_⟩
      · show (subs.filter (!·.dropped)).find? _ = _
        rw [hfilter]; exact hu'
      · split
        · exact (service_ghost u _).2.1
        · rfl
      · split
        · exact service_grows _ _
        · exact List.prefix_refl _
      · rintro ⟨ev', p', k, ws, he, hp', hin, hev⟩ hok hpe
        cases he
        rw [hp] at hp'; cases hp'
        rw [hid, if_pos hin, hev]
        have hnd : (u.service (.ready (.wrote (k + 1) :: ws))) = u.drive (.wrote (k + 1) :: ws) ∨ u.dropped = true := by
          unfold Sub.service
          by_cases hdr : u.dropped = true
          · exact .inr hdr
          · exact .inl (by rw [if_neg hdr])
        rcases hnd with hnd | hnd
        · rw [hnd]
          exact drivePending_takes k ws u.pending u.off u.recv hok.off hpe
        · exfalso
          have hmem : (if u.id ∈ p then u.service (ev u.id) else u) ∈ subs := List.mem_of_find?_eq_some hu'
          rw [hid, if_pos hin] at hmem
          have hdr : (u.service (ev id)).dropped = true := (service_ghost u _).2.2.2 hnd
          have := hd _ (List.mem_append_right _ (List.mem_append_right _ (List.mem_filter.mpr ⟨hmem, hdr⟩)))
            (by rw [(service_ghost u _).1]; exact hid)
          rw [hdr] at this; cases this
    · cases h
  | shutdown =>
    simp only [step] at h
    split at h <;> cases h; exact ⟨u, hu, rfl, List.prefix_refl _, fun ⟨_, _, _, _, h, _⟩ => by cases h⟩

/-- C54, over time: a subscriber that connects while no broadcast is in progress, is not dropped and reads (whenever something stays queued for
it, its socket is again and again found writable and takes at least a byte) receives every event put into the channel after its connect, as whole
lines and in order, in every fair execution in which no failing `accept(2)` passes it over.  Missing: a connect during a broadcast (see
`C54_false`) and an `accept(2)` that fails before it is taken (see `C54_false_accept`). -/
theorem C54_fair_partial {wakeCap id : Nat} (hc : 0 < wakeCap) {σ : Nat → St} {lab : Nat → Option Label} (hx : Exec (step wakeCap) σ lab)
    (h0 : σ 0 = init) (hf : Fair wakeCap σ lab) {k m : Nat} (hcon : lab k = some (.connect id)) (hb : ¬ (σ k).broadcasting)
    (hg : ∀ i l, lab i = some l → l.gets id)
    (hreads : (∃ n, ∀ i, n ≤ i → ∃ u, (σ i).sub id = some u ∧ u.pending ≠ []) → ∀ n, ∃ i, n ≤ i ∧ ∃ l, lab i = some l ∧ Takes id (σ i) l)
    (hkept : ∀ i, ∀ v ∈ (σ i).subs ++ (σ i).gone, v.id = id → v.dropped = false) (hkm : k < m)
    (hnew : (σ k).published.length < (σ m).published.length) :
    ∃ i u, m ≤ i ∧ (σ i).sub id = some u ∧ u.start ≤ (σ k).published.length ∧
      ((σ m).published.drop u.start).flatMap Event.line <+: u.recv := by
  have hrun : ∀ i, Run wakeCap (performed lab i) (σ i) := fun i => by
    have h := exec_run hx i
    rw [h0] at h
    exact h
  have hI : ∀ i, Inv (σ i) := fun i => inv_run hc (hrun i)
  -- the subscriber has been accepted in time
  have hprompt : ∀ i, k + 1 ≤ i → Prompt id (σ k).published.length (σ i) := exec_stays hx
    (fun i l _ hl hp h => prompt_step wakeCap id _ _ l _ hp (hg i l hl) h) (by
      obtain ⟨e1, -, e3⟩ := inv_mem_ids (exec_at hx hcon)
      rw [e1]
      exact ⟨fun _ => ⟨by simp [St.published], hb⟩, fun u hu he => absurd he (e3 u hu), .inl (by simp)⟩)
  obtain ⟨n, hn, hdone⟩ := C52_fair hc hx h0 hf m
  have hdone' : ∀ i, n ≤ i → (σ m).published <+: (σ i).done := exec_stays hx (p := fun s => (σ m).published <+: s.done)
    (fun i l _ _ hp h => hp.trans (done_step h)) hdone
  obtain ⟨u0, hu0⟩ : ∃ u, (σ n).sub id = some u := by
    have hp := hprompt n (by omega)
    rcases hp.known with hk | ⟨u, hu, hui⟩
    · have h1 := (hp.waiting hk).1
      have h2 := hdone.length_le
      omega
    · rcases List.mem_append.mp hu with hu | hu
      · cases hs : (σ n).sub id with
        | some v => exact ⟨v, rfl⟩
        | none =>
          have := List.find?_eq_none.mp hs u hu
          simp [hui] at this
      · have := hkept n u (List.mem_append_right _ hu) hui
        rw [(hI n).gone u hu] at this; cases this
  -- it stays the same subscriber
  have hsub : ∀ i, n ≤ i → ∃ u, (σ i).sub id = some u ∧ u.start = u0.start := exec_stays hx
    (p := fun s => ∃ u, s.sub id = some u ∧ u.start = u0.start) (fun i l _ _ ⟨u, hu, hst⟩ h => by
      obtain ⟨u', h1, h2, _⟩ := sub_step hu (hkept (i + 1)) h
      exact ⟨u', h1, h2.trans hst⟩) ⟨u0, hu0, rfl⟩
  have hfacts : ∀ i u, n ≤ i → (σ i).sub id = some u → SubOk u ∧ u.start ≤ (σ k).published.length ∧
      u.recv ++ u.rest = ((σ i).done.drop u.start).flatMap Event.line := fun i u hi hu => by
    have hmem : u ∈ (σ i).subs := List.mem_of_find?_eq_some hu
    have hid : u.id = id := by simpa using List.find?_some hu
    exact ⟨(hI i).ok u (List.mem_append_left _ hmem), (hprompt i (by omega)).served u (List.mem_append_left _ hmem) hid,
      C51_nothing_missing wakeCap hc _ _ (hrun i) u hmem (hkept i u (List.mem_append_left _ hmem) hid)⟩
  have hpre : ∀ i u, n ≤ i → (σ i).sub id = some u →
      ((σ m).published.drop u.start).flatMap Event.line <+: ((σ i).done.drop u.start).flatMap Event.line := fun i u hi hu => by
    obtain ⟨t, ht⟩ := hdone' i hi
    have hle : u.start ≤ (σ m).published.length := by have := (hfacts i u hi hu).2.1; omega
    rw [← ht, List.drop_append_of_le_length hle, List.flatMap_append]
    exact List.prefix_append _ _
  refine Classical.byContradiction fun hno => ?_
  have hshort : ∀ i u, n ≤ i → (σ i).sub id = some u → u.recv.length < (((σ m).published.drop u.start).flatMap Event.line).length := by
    intro i u hi hu
    refine Nat.lt_of_not_le fun hle => hno ⟨i, u, by omega, hu, (hfacts i u hi hu).2.1, ?_⟩
    exact List.prefix_of_prefix_length_le (hpre i u hi hu) (by rw [← (hfacts i u hi hu).2.2]; exact List.prefix_append _ _) hle
  have hpend : ∀ i u, n ≤ i → (σ i).sub id = some u → u.pending ≠ [] := by
    intro i u hi hu hp
    have h1 := hshort i u hi hu
    have h2 := (hpre i u hi hu).length_le
    rw [← (hfacts i u hi hu).2.2] at h2
    simp [Sub.rest, hp] at h2 h1
    omega
  have hT : ∀ i u, n ≤ i → (σ i).sub id = some u → u.start = u0.start := fun i u hi hu => by
    obtain ⟨v, hv, hst⟩ := hsub i hi
    rw [hu] at hv; cases hv; exact hst
  let got : St → Nat := fun s => match s.sub id with
    | some u => u.recv.length
    | none => 0
  let T := (((σ m).published.drop u0.start).flatMap Event.line).length
  have hgot : ∀ i l, n ≤ i → lab i = some l → got (σ i) ≤ got (σ (i + 1)) ∧ (Takes id (σ i) l → got (σ i) < got (σ (i + 1))) := by
    intro i l hi hl
    obtain ⟨u, hu, _⟩ := hsub i hi
    obtain ⟨u', h1, _, h3, h4⟩ := sub_step hu (hkept (i + 1)) (exec_at hx hl)
    simp only [got, hu, h1]
    exact ⟨h3.length_le, fun ht => h4 ht (hfacts i u hi hu).1 (hpend i u hi hu)⟩
  have hlt : ∀ i, n ≤ i → got (σ i) < T := fun i hi => by
    obtain ⟨u, hu, hst⟩ := hsub i hi
    simp only [got, hu, T]
    have := hshort i u hi hu
    rw [hst] at this
    exact this
  obtain ⟨_, _, h⟩ := reaches (σ := σ) (Goal := fun _ => False) (fun s => T - got s) (m := n) (fun i hi _ => by
    rcases hx i with ⟨_, h3⟩ | ⟨l, hli, h3⟩
    · rw [h3]; exact Nat.le_refl _
    · have := (hgot i l hi hli).1
      show T - _ ≤ T - _
      omega) (fun j hj hrest => by
    obtain ⟨i, hi, l, hl, ht⟩ := hreads ⟨n, fun i hi => by
      obtain ⟨u, hu, _⟩ := hsub i hi
      exact ⟨u, hu, hpend i u hi hu⟩⟩ j
    have h1 := (hgot i l (by omega) hl).2 ht
    have h2 := (hrest i hi).2
    have h3 := (hrest (i + 1) (by omega)).2
    have h4 := hlt (i + 1) (by omega)
    omega)
  exact h

/-- A subscriber connects to an idle sink; an event is published; the first write takes ten bytes, a later one the rest. -/
def delivery : List Label :=
  [.connect 7, .send .created, .wakeWrite, .poll, .accept, .drain, .recv (fun _ => [.wrote 10]), .recv (fun _ => []), .finish (fun _ => .quiet),
   .poll, .accept, .finish (fun _ => .ready [.wrote 100])]

example : Exec (step 1) (thenRests (step 1) init delivery) (fun i => delivery[i]?) ∧
    Fair 1 (thenRests (step 1) init delivery) (fun i => delivery[i]?) ∧ delivery[0]? = some (.connect 7) ∧
    ¬ (thenRests (step 1) init delivery 0).broadcasting ∧ (∀ (i : Nat) (l : Label), delivery[i]? = some l → l.gets 7) ∧
    ((∃ n, ∀ i, n ≤ i → ∃ u, (thenRests (step 1) init delivery i).sub 7 = some u ∧ u.pending ≠ []) →
      ∀ n, ∃ i, n ≤ i ∧ ∃ l, delivery[i]? = some l ∧ Takes 7 (thenRests (step 1) init delivery i) l) ∧
    (∀ i, ∀ v ∈ (thenRests (step 1) init delivery i).subs ++ (thenRests (step 1) init delivery i).gone, v.id = 7 → v.dropped = false) ∧
    (thenRests (step 1) init delivery 0).published.length < (thenRests (step 1) init delivery 2).published.length ∧
    ((thenRests (step 1) init delivery 9).sub 7).map (·.recv) = some "{\"type\":\"s".toList ∧
    ((thenRests (step 1) init delivery 12).sub 7).map (·.recv) = some "{\"type\":\"session.created\"}\n".toList := by
  obtain ⟨s', hr, hp, hw, hm, hs, hg⟩ : ∃ s', runSteps (step 1) init delivery = some s' ∧ s'.phase = .polling ∧ s'.wake = 0 ∧ s'.mid = 0 ∧
      (∀ v ∈ s'.subs, v.dropped = false ∧ v.pending = []) ∧ s'.gone = [] := ⟨_, rfl, rfl, rfl, rfl, by decide, rfl⟩
  obtain ⟨h1, h2⟩ := thenRests_exec hr
  refine ⟨h1, ⟨(fair_at_rest h2 fun l hl => ?_).1, fun ⟨n, hn⟩ => ?_, (fair_at_rest h2 fun l hl => ?_).1, fun i h => ?_⟩, rfl,
    by simp [thenRests, runSteps, St.broadcasting, init], fun i l h => ?_, fun ⟨n, hn⟩ => ?_, fun i v hv _ => ?_, by decide, by decide, by decide⟩
  · cases l <;> simp [isWork] at hl <;> simp [step, hp]
  · have := (hn (n + 12) (by omega)).2
    rw [h2 _ (by simp [delivery]), hw] at this
    omega
  · cases l <;> simp [isWakeWrite] at hl
    simp [step, hm]
  · have := List.mem_of_getElem? h
    simp [delivery] at this
  · have := List.mem_of_getElem? h
    simp only [delivery, List.mem_cons, List.not_mem_nil, or_false] at this
    rcases this with h | h | h | h | h | h | h | h | h | h | h | h <;> subst h <;> trivial
  · obtain ⟨u, hu, hpe⟩ := hn (n + 12) (by omega)
    rw [h2 _ (by simp [delivery])] at hu
    exact absurd (hs u (List.mem_of_find?_eq_some hu)).2 hpe
  · by_cases hi : i < 12
    · have : ∀ i, i < 12 → ∀ v ∈ (thenRests (step 1) init delivery i).subs ++ (thenRests (step 1) init delivery i).gone, v.dropped = false := by
        decide
      exact this i hi v hv
    · rw [h2 i (by simp [delivery]; omega), hg, List.append_nil] at hv
      exact (hs v hv).1

end Shpool.Events
