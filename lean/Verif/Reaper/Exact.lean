import Verif.Reaper.Fair
/-! # Exactly which sessions the reaper takes away, and for which registration (C56, C57) -/

namespace Shpool.Reaper
variable {N : Type} [DecidableEq N]

theorem countOf_pos {n : N} {l : List (N × Nat)} : countOf n l = 0 ↔ ∀ d, (n, d) ∉ l := by
  rw [countOf_eq, List.length_eq_zero_iff, of, List.filter_eq_nil_iff]
  constructor
  · intro h d hd
    exact h _ hd (by simp)
  · rintro h ⟨m, d⟩ hm he
    have : m = n := by simpa using he
    subst this
    exact h d hm

/-- **C57** (exactly which): when the reaper serves an entry, it takes away exactly the session in the table under the entry's name, and that
exactly if the entry is for the last registration of the name it has received: whether that session was registered itself plays no part. -/
theorem C57_takes_exact (ls : List (Label N)) (s s' : St N) (h : Run ls s) (e : Reapable N) (hs : step s (.reap e) = some s') (n : N) :
    s'.table n ≠ s.table n ↔ n = e.name ∧ s.table n ≠ none ∧ e.gen = countOf n s.received := by
  have hi := inv_run h
  simp only [step] at hs
  split at hs
  · split at hs
    · next hgen =>
      cases hs
      refine ⟨fun hne => absurd rfl hne, ?_⟩
      rintro ⟨rfl, -, hg⟩
      exact absurd ((hi.gens _).trans hg.symm) hgen
    · next hgen =>
      have hg : s.gens e.name = e.gen := Classical.byContradiction hgen
      split at hs
      · next ht =>
        cases hs
        refine ⟨fun hne => absurd rfl hne, ?_⟩
        rintro ⟨rfl, hn, -⟩
        exact absurd ht hn
      · next sess ht =>
        cases hs
        constructor
        · intro hne
          have hn : n = e.name := Classical.byContradiction fun hn => hne (if_neg hn)
          subst hn
          exact ⟨rfl, by rw [ht]; simp, by rw [← hi.gens, hg]⟩
        · rintro ⟨rfl, hn, -⟩
          dsimp only
          rw [if_pos rfl]
          exact Ne.symm hn
  · cases hs

example : ∃ (s s' : St Nat), Run [.spawn 0 (some 1), .insert ⟨0, 0, some 1, 1⟩, .recv, .remove 0, .spawn 0 none, .insert ⟨0, 1, none, 0⟩, .tick] s ∧
    step s (.reap ⟨0, 1, 1⟩) = some s' ∧ s'.table 0 ≠ s.table 0 ∧ s.table 0 ≠ none := ⟨_, _, rfl, rfl, by decide, by decide⟩

/-- **C56** (exactly when): the reaper takes a session away for the last registration of its name exactly if no registration of that name is
on its way to the reaper at that moment. -/
theorem C56_exact (ls : List (Label N)) (s s' : St N) (h : Run ls s) (e : Reapable N) (hs : step s (.reap e) = some s') (n : N)
    (hn : s'.table n ≠ s.table n) : e.gen = countOf n s.sent ↔ ∀ d, (n, d) ∉ s.mail := by
  obtain ⟨-, -, hg⟩ := (C57_takes_exact ls s s' h e hs n).mp hn
  rw [St.sent, countOf_append, hg, ← countOf_pos]
  omega

/-- The reaper has a registration of the name before it: one is on its way, or the last one it received is still waiting for its time. -/
def Armed (s : St N) (n : N) : Prop := (∃ d, (n, d) ∈ s.mail) ∨ ∃ e ∈ s.heap, e.name = n ∧ e.gen = countOf n s.received

theorem armed_step {s s' : St N} {l : Label N} {n : N} (hi : Inv s) (ha : Armed s n) (hs : step s l = some s') :
    Armed s' n ∨ s'.table n = none := by
  cases l with
  | tick => cases hs; exact .inl ha
  | spawn m ttl =>
    left
    cases ttl with
    | none => cases hs; exact ha
    | some t =>
      simp only [step] at hs
      split at hs <;> cases hs
      rcases ha with ⟨d, hd⟩ | hh
      · exact .inl ⟨d, List.mem_append_left _ hd⟩
      · exact .inr hh
  | insert c => simp only [step] at hs; split at hs <;> cases hs; exact .inl ha
  | remove m => cases hs; exact .inl ha
  | recv =>
    left
    simp only [step] at hs
    split at hs
    · cases hs
    · rename_i m t rest hm
      cases hs
      by_cases hmn : m = n
      · subst hmn
        refine .inr ⟨⟨m, s.gens m + 1, t⟩, by simp, rfl, ?_⟩
        dsimp only
        rw [countOf_append, countOf_eq m [(m, t)], of_self, hi.gens]
        rfl
      · rcases ha with ⟨d, hd⟩ | ⟨e, he, h1, h2⟩
        · left
          rw [hm] at hd
          rcases List.mem_cons.mp hd with hd | hd
          · cases hd; exact absurd rfl hmn
          · exact ⟨d, hd⟩
        · refine .inr ⟨e, List.mem_append_left _ he, h1, ?_⟩
          dsimp only
          rw [countOf_append, countOf_eq n [(m, t)], of_other _ hmn, h2]
          rfl
  | reap e =>
    simp only [step] at hs
    split at hs
    · rename_i hc
      rcases ha with hd | ⟨E, hE, h1, h2⟩
      · left
        (repeat' split at hs) <;> cases hs <;> exact .inl hd
      · by_cases hee : E = e
        · right
          subst hee
          rw [if_neg (by rw [hi.gens, h1, h2]; simp)] at hs
          subst h1
          split at hs
          · next ht => cases hs; exact ht
          · cases hs; exact if_pos rfl
        · left
          have hm : E ∈ s.heap.erase e := (List.mem_erase_of_ne hee).mpr hE
          (repeat' split at hs) <;> cases hs <;> exact .inr ⟨E, hm, h1, h2⟩
    · cases hs

theorem unarmed_step {s s' : St N} {l : Label N} {n : N} (hi : Inv s) (ha : ¬ Armed s n) (hs : step s l = some s')
    (hl : ∀ t, l ≠ .spawn n (some t)) : ¬ Armed s' n ∧ ∀ e, l = .reap e → s'.table n = s.table n := by
  cases l with
  | tick => cases hs; exact ⟨ha, nofun⟩
  | spawn m ttl =>
    cases ttl with
    | none => cases hs; exact ⟨ha, nofun⟩
    | some t =>
      simp only [step] at hs
      split at hs <;> cases hs
      refine ⟨?_, nofun⟩
      rintro (⟨d, hd⟩ | hh)
      · rcases List.mem_append.mp hd with hd | hd
        · exact ha (.inl ⟨d, hd⟩)
        · have := List.mem_singleton.mp hd
          cases this
          exact hl t rfl
      · exact ha (.inr hh)
  | insert c => simp only [step] at hs; split at hs <;> cases hs; exact ⟨ha, nofun⟩
  | remove m => cases hs; exact ⟨ha, nofun⟩
  | recv =>
    simp only [step] at hs
    split at hs
    · cases hs
    · rename_i m t rest hm
      cases hs
      refine ⟨?_, nofun⟩
      have hmn : m ≠ n := by
        rintro rfl
        exact ha (.inl ⟨t, by rw [hm]; simp⟩)
      rintro (⟨d, hd⟩ | ⟨e, he, h1, h2⟩)
      · exact ha (.inl ⟨d, by rw [hm]; exact List.mem_cons_of_mem _ hd⟩)
      · dsimp only at h2
        rw [countOf_append, countOf_eq n [(m, t)], of_other _ hmn] at h2
        rcases List.mem_append.mp he with he | he
        · exact ha (.inr ⟨e, he, h1, by simpa using h2⟩)
        · rw [List.mem_singleton.mp he] at h1
          exact hmn h1
  | reap e =>
    simp only [step] at hs
    split at hs
    · rename_i hc
      have hsub : ∀ s'' : St N, s''.mail = s.mail → s''.received = s.received → s''.heap = s.heap.erase e → ¬ Armed s'' n := by
        intro s'' h1 h2 h3
        rintro (⟨d, hd⟩ | ⟨E, hE, h4, h5⟩)
        · exact ha (.inl ⟨d, by rw [← h1]; exact hd⟩)
        · rw [h3] at hE
          rw [h2] at h5
          exact ha (.inr ⟨E, List.mem_of_mem_erase hE, h4, h5⟩)
      split at hs
      · cases hs; exact ⟨hsub _ rfl rfl rfl, fun _ _ => rfl⟩
      · next hgen =>
        have hg : s.gens e.name = e.gen := Classical.byContradiction hgen
        have hne : n ≠ e.name := by
          rintro rfl
          exact ha (.inr ⟨e, (isTop_mem hc.1).1, rfl, by rw [← hi.gens, hg]⟩)
        split at hs
        · cases hs; exact ⟨hsub _ rfl rfl rfl, fun _ _ => rfl⟩
        · cases hs; exact ⟨hsub _ rfl rfl rfl, fun _ _ => if_neg hne⟩
    · cases hs

theorem received_grows {s s' : St N} {l : Label N} (h : step s l = some s') : ∃ x, s'.received = s.received ++ x := by
  cases l with
  | tick => cases h; exact ⟨[], by simp⟩
  | spawn k ttl =>
    cases ttl with
    | none => cases h; exact ⟨[], by simp⟩
    | some t => simp only [step] at h; split at h <;> cases h; exact ⟨[], by simp⟩
  | insert c => simp only [step] at h; split at h <;> cases h; exact ⟨[], by simp⟩
  | remove k => cases h; exact ⟨[], by simp⟩
  | recv => simp only [step] at h; split at h <;> cases h; exact ⟨_, rfl⟩
  | reap e =>
    simp only [step] at h
    split at h
    · (repeat' split at h) <;> cases h <;> exact ⟨[], by simp⟩
    · cases h

theorem table_step {s s' : St N} {l : Label N} {n : N} (h : step s l = some s') :
    s'.table n = s.table n ∨ (∃ c, l = .insert c ∧ c.name = n) ∨ l = .remove n ∨ ∃ e, l = .reap e ∧ s'.table n ≠ s.table n := by
  cases l with
  | tick => cases h; exact .inl rfl
  | spawn k ttl =>
    cases ttl with
    | none => cases h; exact .inl rfl
    | some t => simp only [step] at h; split at h <;> cases h; exact .inl rfl
  | insert c =>
    simp only [step] at h
    split at h <;> cases h
    by_cases hc : c.name = n
    · exact .inr (.inl ⟨c, rfl, hc⟩)
    · exact .inl (if_neg (Ne.symm hc))
  | remove k =>
    cases h
    by_cases hc : k = n
    · exact .inr (.inr (.inl (by rw [hc])))
    · exact .inl (if_neg (Ne.symm hc))
  | recv => simp only [step] at h; split at h <;> cases h; exact .inl rfl
  | reap e =>
    by_cases ht : s'.table n = s.table n
    · exact .inl ht
    · exact .inr (.inr (.inr ⟨e, rfl, ht⟩))

/-- **C57** (never): once the reaper has no registration of a name before it, it takes no session of that name away, whatever happens, until
the name is registered again. -/
theorem C57_never (ls ls1 ls2 : List (Label N)) (s s1 s2 : St N) (h : Run ls s) (n : N) (ha : ¬ Armed s n) (hr : runSteps step s ls1 = some s1)
    (hno : ∀ t, .spawn n (some t) ∉ ls1) (e : Reapable N) (hs : step s1 (.reap e) = some s2) : s2.table n = s1.table n := by
  have key : ∀ (ls1 : List (Label N)) (s : St N), Inv s → ¬ Armed s n → (∀ t, .spawn n (some t) ∉ ls1) → runSteps step s ls1 = some s1 →
      Inv s1 ∧ ¬ Armed s1 n := by
    intro ls1
    induction ls1 with
    | nil => intro s hi ha _ hr; cases hr; exact ⟨hi, ha⟩
    | cons l ls1 ih =>
      intro s hi ha hno hr
      obtain ⟨s', h1, h2⟩ := Shpool.run_cons_some hr
      exact ih s' (inv_step s l s' hi h1) (unarmed_step hi ha h1 (fun t e => hno t (by rw [e]; simp))).1
        (fun t ht => hno t (List.mem_cons_of_mem _ ht)) h2
  obtain ⟨hi1, ha1⟩ := key ls1 s (inv_run h) ha hno hr
  exact (unarmed_step hi1 ha1 hs nofun).2 e rfl

/-- **C57** (exactly when, over time): in every execution in which time goes on and the reaper is not starved, a session that nobody else
removes or replaces, and whose name is not registered again, leaves the table exactly if the reaper has a registration of its name before
it: with a time to live or without, its own registration or another one's. -/
theorem C57_exact {σ : Nat → St N} {lab : Nat → Option (Label N)} (hx : Exec step σ lab) (h0 : σ 0 = init) (hf : Fair σ lab)
    {m : Nat} {n : N} {sess : Sess} (hn : (σ m).table n = some sess) (hspawn : ∀ i t, m ≤ i → lab i ≠ some (.spawn n (some t)))
    (hrem : ∀ i, m ≤ i → lab i ≠ some (.remove n)) (hins : ∀ i c, m ≤ i → lab i = some (.insert c) → c.name ≠ n) :
    (∃ i, m ≤ i ∧ (σ i).table n ≠ some sess) ↔ Armed (σ m) n := by
  have hI : ∀ i, Inv (σ i) := fun i => inv_run (ls := performed lab i) (by
    have h := exec_run hx i
    rw [h0] at h
    exact h)
  constructor
  · rintro ⟨i, hi, hne⟩
    refine Classical.byContradiction fun ha => hne ?_
    have := exec_stays hx (p := fun s => ¬ Armed s n ∧ s.table n = some sess) (m := m) (fun i l hi hl hp h => by
      obtain ⟨h1, h2⟩ := unarmed_step (hI i) hp.1 h (fun t e => hspawn i t hi (by rw [hl, e]))
      refine ⟨h1, ?_⟩
      rw [← hp.2]
      exact (table_step h).resolve_right fun hr => by
        rcases hr with ⟨c, rfl, e⟩ | rfl | ⟨e, rfl, he⟩
        · exact hins i c hi hl e
        · exact hrem i hi hl
        · exact he (h2 e rfl)) ⟨ha, hn⟩ i hi
    exact this.2
  · intro ha
    refine Classical.byContradiction fun hnot => ?_
    have htab : ∀ i, m ≤ i → (σ i).table n = some sess := fun i hi => Classical.byContradiction fun h => hnot ⟨i, hi, h⟩
    have harm : ∀ i, m ≤ i → Armed (σ i) n := exec_stays hx (p := fun s => Armed s n) (m := m) (fun i l hi hl hp h =>
      (armed_step (hI i) hp h).resolve_right (by rw [htab (i + 1) (by omega)]; simp)) ha
    have hcnt : ∀ i, m ≤ i → countOf n (σ i).sent = countOf n (σ m).sent := exec_stays hx (p := fun s => countOf n s.sent = countOf n (σ m).sent)
      (fun i l hi hl hp h => by
        rcases sent_step h with ⟨n', t, rfl, e⟩ | ⟨_, e⟩
        · have : n' ≠ n := by rintro rfl; exact hspawn i t hi hl
          rw [e, countOf_append, countOf_eq n [(n', _)], of_other _ this]
          simpa using hp
        · rw [e]; exact hp) rfl
    have hmono : ∀ i, m ≤ i → (σ m).sent.length ≤ (σ i).sent.length ∧ (∃ x, (σ i).sent = (σ m).sent ++ x) :=
      exec_stays hx (p := fun s => (σ m).sent.length ≤ s.sent.length ∧ ∃ x, s.sent = (σ m).sent ++ x)
        (fun i l hi hl hp h => by
          obtain ⟨hp1, x, hp2⟩ := hp
          rcases sent_step h with ⟨n', t, rfl, e⟩ | ⟨_, e⟩
          · rw [e]; exact ⟨by simp; omega, x ++ [(n', _)], by rw [hp2, List.append_assoc]⟩
          · rw [e]; exact ⟨hp1, x, hp2⟩) ⟨Nat.le_refl _, [], by simp⟩
    -- everything registered before is received
    obtain ⟨k, hk, hrec⟩ : ∃ k, m ≤ k ∧ (σ m).sent.length ≤ (σ k).received.length := by
      refine reaches (σ := σ) (Goal := fun s => (σ m).sent.length ≤ s.received.length) (fun s => (σ m).sent.length - s.received.length) (fun i hi _ => ?_) (fun k hk hrest => ?_)
      · rcases hx i with ⟨_, h2⟩ | ⟨l, _, h2⟩
        · rw [h2]; exact Nat.le_refl _
        · have := (received_step h2).1
          omega
      · obtain ⟨i, l, hi, hl, ha⟩ := hf.recv ⟨k, fun i hi => ⟨.recv, rfl, by
          have h1 := (hrest i hi).1
          have h2 := (hmono i (by omega)).1
          simp only [St.sent, List.length_append] at h1 h2
          cases hm : (σ i).mail with
          | nil => rw [hm] at h2; simp at h2; omega
          | cons a b => simp [step, hm]⟩⟩ k
        have h1 := hrest i hi
        have h2 := hrest (i + 1) (by omega)
        have := (received_step (exec_at hx hl)).1
        rw [ha] at this
        simp only [if_true] at this
        omega
    have hrec' : ∀ i, k ≤ i → (σ m).sent.length ≤ (σ i).received.length :=
      exec_stays hx (p := fun s => (σ m).sent.length ≤ s.received.length) (fun i l _ _ hp h => by
        have := (received_step h).1; omega) hrec
    -- so the last registration of the name is in the heap
    have hall : ∀ i, k ≤ i → countOf n (σ i).received = countOf n (σ m).sent ∧ ∀ d, (n, d) ∉ (σ i).mail := by
      intro i hi
      obtain ⟨_, x, hxs⟩ := hmono i (by omega)
      have hp : (σ m).sent <+: (σ i).received := by
        refine List.prefix_of_prefix_length_le ⟨x, hxs.symm⟩ ⟨(σ i).mail, rfl⟩ (hrec' i hi)
      obtain ⟨y, hy⟩ := hp
      have h1 := hcnt i (by omega)
      rw [St.sent, countOf_append] at h1
      have h2 : countOf n (σ m).sent ≤ countOf n (σ i).received := by rw [← hy, countOf_append]; omega
      exact ⟨by omega, countOf_pos.mp (by omega)⟩
    obtain ⟨d, hd⟩ : ∃ d, (of n (σ k).received)[countOf n (σ m).sent - 1]? = some (n, d) := by
      rcases harm k hk with ⟨d, hd⟩ | ⟨e, he, h1, h2⟩
      · exact absurd hd ((hall k (Nat.le_refl _)).2 d)
      · have := (hI k).heap e he
        rw [h1, h2, (hall k (Nat.le_refl _)).1] at this
        exact ⟨e.at_, this.2⟩
    have hd' : ∀ i, k ≤ i → (of n (σ i).received)[countOf n (σ m).sent - 1]? = some (n, d) := by
      refine exec_stays hx (p := fun s => (of n s.received)[countOf n (σ m).sent - 1]? = some (n, d)) (fun i l hi hl hp h => ?_) hd
      obtain ⟨x, hxr⟩ := received_grows h
      rw [hxr, of_append, List.getElem?_append_left (List.getElem?_eq_some_iff.mp hp).1]
      exact hp
    have hheap : ∀ i, k ≤ i → (⟨n, countOf n (σ m).sent, d⟩ : Reapable N) ∈ (σ i).heap := by
      intro i hi
      rcases harm i (by omega) with ⟨d', hd''⟩ | ⟨e, he, h1, h2⟩
      · exact absurd hd'' ((hall i hi).2 d')
      · have h3 := ((hI i).heap e he).2
        rw [h1, h2, (hall i hi).1, hd' i hi] at h3
        rw [(hall i hi).1] at h2
        have h4 : d = e.at_ := by simpa using h3
        have : (⟨n, countOf n (σ m).sent, d⟩ : Reapable N) = e := by
          rw [← h2, ← h1, h4]
        rw [this]; exact he
    -- the deadline passes
    obtain ⟨j, hj, hnow⟩ : ∃ j, k ≤ j ∧ d < (σ j).now := by
      refine reaches (σ := σ) (Goal := fun s => d < s.now) (fun s => d + 1 - s.now) (fun i hi _ => ?_) (fun j hj hrest => ?_)
      · rcases hx i with ⟨_, h2⟩ | ⟨l, _, h2⟩
        · rw [h2]; exact Nat.le_refl _
        · have := (received_step h2).2
          omega
      · obtain ⟨i, l, hi, hl, ha⟩ := hf.time j
        have h1 := hrest i hi
        have h2 := hrest (i + 1) (by omega)
        have := (received_step (exec_at hx hl)).2
        rw [ha] at this
        simp only [if_true] at this
        omega
    have hnow' : ∀ i, j ≤ i → d < (σ i).now := exec_stays hx (p := fun s => d < s.now) (fun i l _ _ hp h => by
      have := (received_step h).2; omega) hnow
    -- the reaper deals with the deadlines up to it, one by one
    obtain ⟨i, _, hi⟩ : ∃ i, j ≤ i ∧ False := by
      refine reaches (σ := σ) (Goal := fun _ => False) (due d) (fun i hi _ => ?_) (fun q hq hrest => ?_)
      · rcases hx i with ⟨_, h2⟩ | ⟨l, _, h2⟩
        · rw [h2]; exact Nat.le_refl _
        · exact (due_step (hnow' i hi) h2).1
      · obtain ⟨i, l, hi, hl, ha⟩ := hf.reap ⟨q, fun i hi => by
          have hmem := hheap i (by omega)
          obtain ⟨e, he⟩ := exists_top (σ i).heap (List.ne_nil_of_mem hmem)
          refine ⟨.reap e, rfl, ?_⟩
          have h1 := (isTop_mem he).2 _ hmem
          have h2 := hnow' i (by omega)
          have hc : isTop (σ i).heap e = true ∧ e.at_ ≤ (σ i).now := ⟨he, by dsimp only at h1; omega⟩
          simp only [step, if_pos hc]
          (repeat' split) <;> rfl⟩ q
        have h1 := (due_step (hnow' i (by omega)) (exec_at hx hl)).2 ha ⟨_, hheap i (by omega), Nat.le_refl d⟩
        have h2 := (hrest i hi).2
        have h3 := (hrest (i + 1) (by omega)).2
        omega
    exact hi

/-- The execution of `lab1` meets the conditions from its second step on, and there the reaper has the registration before it. -/
example : Armed (follow step init lab1 2) 0 ∧ (∀ i, 2 ≤ i → some (lab1 i) ≠ some (.remove 0)) ∧
    ∀ i c, 2 ≤ i → some (lab1 i) = some (.insert c) → c.name ≠ 0 := by
  refine ⟨.inl ⟨2, by decide⟩, fun i hi h => ?_, fun i c hi h => ?_⟩
  · match i, hi with
    | 2, _ | 3, _ | 4, _ | 5, _ | 6, _ | _ + 7, _ => simp [lab1] at h
  · match i, hi with
    | 2, _ | 3, _ | 4, _ | 5, _ | 6, _ | _ + 7, _ => simp [lab1] at h

/-- The session whose time was over before it was in the table: nothing is before the reaper any more. -/
example : ∃ (s : St Nat), Run [.spawn 0 (some 0), .recv, .reap ⟨0, 1, 0⟩, .insert ⟨0, 0, some 0, 1⟩] s ∧ ¬ Armed s 0 ∧ s.table 0 ≠ none := by
  refine ⟨_, rfl, ?_, by decide⟩
  rintro (⟨d, hd⟩ | ⟨e, he, -⟩)
  · cases hd
  · cases he

end Shpool.Reaper
