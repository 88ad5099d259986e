import Verif.Server.Model
/-!
# Auxiliary lemmas for the session table
-/

namespace Shpool.Server

@[simp] theorem upd_self {α : Type} (f : Nat → α) (i : Nat) (x : α) : upd f i x i = x := by simp [upd]
theorem upd_ne {α : Type} (f : Nat → α) {i j : Nat} (x : α) (h : j ≠ i) : upd f i x j = f j := by simp [upd, h]
theorem upd_apply {α : Type} (f : Nat → α) (i j : Nat) (x : α) : upd f i x j = if j = i then x else f j := rfl

@[simp] theorem find_nil (n : Name) : find n [] = none := rfl

theorem find_cons (n : Name) (p : Name × Nat) (tb : Table) :
    find n (p :: tb) = if p.1 = n then some p.2 else find n tb := by
  by_cases h : p.1 = n <;> simp [find, h]

theorem find_erase (m n : Name) (tb : Table) : find m (erase n tb) = if m = n then none else find m tb := by
  induction tb with
  | nil => simp [erase]
  | cons p tb ih =>
    by_cases h : p.1 = n
    · have : erase n (p :: tb) = erase n tb := by simp [erase, h]
      rw [this, ih, find_cons]
      by_cases hm : m = n
      · simp [hm]
      · have h2 : ¬ p.1 = m := fun e => hm (e.symm.trans h)
        rw [if_neg hm, if_neg hm, if_neg h2]
    · have : erase n (p :: tb) = p :: erase n tb := by simp [erase, h]
      rw [this, find_cons, find_cons, ih]
      by_cases hm : m = n
      · subst hm
        simp [h]
      · simp [hm]

@[simp] theorem find_erase_self (n : Name) (tb : Table) : find n (erase n tb) = none := by simp [find_erase]
theorem find_erase_ne {m n : Name} (h : m ≠ n) (tb : Table) : find m (erase n tb) = find m tb := by simp [find_erase, h]

theorem find_insert (m n : Name) (x : Nat) (tb : Table) :
    find m (insert n x tb) = if m = n then some x else find m tb := by
  rw [insert, find_cons, find_erase]
  by_cases h : m = n
  · simp [h]
  · rw [if_neg (fun e => h e.symm), if_neg h, if_neg h]

theorem find_eq_none (n : Name) (tb : Table) : find n tb = none ↔ n ∉ tb.map (·.1) := by
  induction tb with
  | nil => simp
  | cons p tb ih =>
    rw [find_cons]
    by_cases h : p.1 = n
    · simp [h]
    · rw [if_neg h, ih]
      simp [Ne.symm h]

theorem find_isSome (n : Name) (tb : Table) : (find n tb).isSome ↔ n ∈ tb.map (·.1) := by
  have := find_eq_none n tb
  cases h : find n tb <;> simp_all

theorem find_mem {n : Name} {x : Nat} {tb : Table} (h : find n tb = some x) : (n, x) ∈ tb := by
  induction tb with
  | nil => simp at h
  | cons p tb ih =>
    rw [find_cons] at h
    split at h
    · cases h
      rename_i e
      subst e
      exact List.mem_cons_self
    · exact List.mem_cons_of_mem _ (ih h)

theorem mem_find {n : Name} {x : Nat} {tb : Table} (hn : (tb.map (·.1)).Nodup) (h : (n, x) ∈ tb) : find n tb = some x := by
  induction tb with
  | nil => simp at h
  | cons p tb ih =>
    rw [List.map_cons, List.nodup_cons] at hn
    rw [find_cons]
    rcases List.mem_cons.mp h with e | e
    · subst e
      simp
    · rw [if_neg, ih hn.2 e]
      intro e'
      exact hn.1 (e' ▸ List.mem_map.mpr ⟨_, e, rfl⟩)

theorem erase_nodup {n : Name} {tb : Table} (h : (tb.map (·.1)).Nodup) : ((erase n tb).map (·.1)).Nodup :=
  h.sublist (List.Sublist.map _ List.filter_sublist)

theorem insert_nodup {n : Name} {x : Nat} {tb : Table} (h : (tb.map (·.1)).Nodup) : ((insert n x tb).map (·.1)).Nodup := by
  rw [insert, List.map_cons, List.nodup_cons]
  exact ⟨(find_eq_none n _).mp (find_erase_self n tb), erase_nodup h⟩

theorem erase_none {n : Name} {tb : Table} (h : find n tb = none) : erase n tb = tb := by
  rw [erase, List.filter_eq_self]
  intro p hp
  have := (find_eq_none n tb).mp h
  simp only [ne_eq, decide_not, Bool.not_eq_true', decide_eq_false_iff_not]
  intro e
  exact this (List.mem_map.mpr ⟨p, hp, e⟩)

theorem erase_length {n : Name} {tb : Table} (hn : (tb.map (·.1)).Nodup) (h : (find n tb).isSome) :
    (erase n tb).length + 1 = tb.length := by
  induction tb with
  | nil => simp at h
  | cons p tb ih =>
    rw [List.map_cons, List.nodup_cons] at hn
    by_cases e : p.1 = n
    · have h1 : erase n (p :: tb) = erase n tb := by simp [erase, e]
      rw [h1, erase_none ((find_eq_none n tb).mpr (e ▸ hn.1)), List.length_cons]
    · have h1 : erase n (p :: tb) = p :: erase n tb := by simp [erase, e]
      rw [find_cons, if_neg e] at h
      rw [h1, List.length_cons, List.length_cons, ih hn.2 h]

/-- Removing several names. -/
abbrev eraseAll (ns : List Name) (tb : Table) : Table := ns.foldl (fun tb n => erase n tb) tb

theorem find_eraseAll (m : Name) (ns : List Name) (tb : Table) :
    find m (eraseAll ns tb) = if m ∈ ns then none else find m tb := by
  induction ns generalizing tb with
  | nil => simp [eraseAll]
  | cons n ns ih =>
    have := ih (erase n tb)
    simp only [eraseAll, List.foldl_cons] at this ⊢
    rw [this, find_erase]
    by_cases h : m = n
    · simp [h]
    · simp [h]

theorem eraseAll_nodup {ns : List Name} {tb : Table} (h : (tb.map (·.1)).Nodup) : ((eraseAll ns tb).map (·.1)).Nodup := by
  induction ns generalizing tb with
  | nil => exact h
  | cons n ns ih => exact ih (erase_nodup h)

theorem eraseAll_length {ns : List Name} {tb : Table} (hn : (tb.map (·.1)).Nodup) (hd : ns.Nodup)
    (h : ∀ n ∈ ns, (find n tb).isSome) : (eraseAll ns tb).length + ns.length = tb.length := by
  induction ns generalizing tb with
  | nil => rfl
  | cons n ns ih =>
    rw [List.nodup_cons] at hd
    have h1 := erase_length hn (h n List.mem_cons_self)
    have h2 := ih (tb := erase n tb) (erase_nodup hn) hd.2 (by
      intro m hm
      have hne : m ≠ n := by
        rintro rfl
        exact hd.1 hm
      rw [find_erase_ne hne]
      exact h m (List.mem_cons_of_mem _ hm))
    simp only [eraseAll, List.foldl_cons, List.length_cons] at h2 ⊢
    omega

/-! ## The loops -/

theorem killLoop_sess (tb : Table) (names : List Name) : ∀ (σ : Nat → Sess) (fail : Option Nat) (x : Nat),
    (killLoop tb σ names fail).sess x = σ x ∨
      ((killLoop tb σ names fail).sess x = { σ x with alive := false } ∧ ∃ n ∈ names, find n tb = some x) := by
  induction names with
  | nil => intro σ fail x; exact .inl rfl
  | cons n ns ih =>
    intro σ fail x
    rw [killLoop]
    cases h : find n tb with
    | none =>
      rcases ih σ fail x with e | ⟨e, m, hm, hf⟩
      · exact .inl e
      · exact .inr ⟨e, m, List.mem_cons_of_mem _ hm, hf⟩
    | some y =>
      have key : ∀ f', (killLoop tb (upd σ y { σ y with alive := false }) ns f').sess x = σ x ∨
          ((killLoop tb (upd σ y { σ y with alive := false }) ns f').sess x = { σ x with alive := false } ∧
            ∃ m ∈ n :: ns, find m tb = some x) := by
        intro f'
        rcases ih (upd σ y { σ y with alive := false }) f' x with e | ⟨e, m, hm, hf⟩
        · by_cases hx : x = y
          · subst hx
            rw [upd_self] at e
            exact .inr ⟨e, n, List.mem_cons_self, h⟩
          · rw [upd_ne _ _ hx] at e
            exact .inl e
        · refine .inr ⟨?_, m, List.mem_cons_of_mem _ hm, hf⟩
          rw [e]
          by_cases hx : x = y
          · subst hx; simp
          · rw [upd_ne _ _ hx]
      dsimp only
      split
      · exact .inl rfl
      · exact key _

theorem killLoop_ok (tb : Table) (names : List Name) : ∀ (σ : Nat → Sess) (fail : Option Nat),
    (killLoop tb σ names fail).ok = true →
    (killLoop tb σ names fail).toRemove = names.filter (fun n => (find n tb).isSome) ∧
    (killLoop tb σ names fail).notFound = names.filter (fun n => (find n tb).isNone) ∧
    ∀ n ∈ names, ∀ x, find n tb = some x → ((killLoop tb σ names fail).sess x).alive = false := by
  induction names with
  | nil => intro σ fail _; exact ⟨rfl, rfl, by simp⟩
  | cons n ns ih =>
    intro σ fail
    rw [killLoop]
    cases h : find n tb with
    | none =>
      intro hok
      obtain ⟨h1, h2, h3⟩ := ih σ fail hok
      refine ⟨by simp [h, h1], by simp [h, h2], ?_⟩
      intro m hm x hf
      rcases List.mem_cons.mp hm with e | e
      · subst e; rw [h] at hf; cases hf
      · exact h3 m e x hf
    | some y =>
      dsimp only
      split
      · intro hok; cases hok
      · intro hok
        obtain ⟨h1, h2, h3⟩ := ih _ _ hok
        refine ⟨by simp [h, h1], by simp [h, h2], ?_⟩
        intro m hm x hf
        rcases List.mem_cons.mp hm with e | e
        · subst e
          rw [h] at hf
          cases hf
          rcases killLoop_sess tb ns (upd σ y { σ y with alive := false }) (fail.map (· - 1)) y with e | ⟨e, -⟩
          · rw [e, upd_self]
          · rw [e]
        · exact h3 m e x hf

theorem killLoop_ok_of_none (tb : Table) (names : List Name) : ∀ (σ : Nat → Sess), (killLoop tb σ names none).ok = true := by
  induction names with
  | nil => intro σ; rfl
  | cons n ns ih =>
    intro σ
    rw [killLoop]
    cases h : find n tb with
    | none => exact ih σ
    | some y => exact ih _

theorem detachLoop_sess (tb : Table) (now : Nat) (names : List Name) : ∀ (σ : Nat → Sess) (x : Nat),
    (detachLoop tb now σ names).sess x = σ x ∨
      ((detachLoop tb now σ names).sess x = { (σ x).recordDetached now with conn := false } ∧ (σ x).conn = true ∧
        ∃ n ∈ names, find n tb = some x) := by
  induction names with
  | nil => intro σ x; exact .inl rfl
  | cons n ns ih =>
    intro σ x
    rw [detachLoop]
    cases h : find n tb with
    | none =>
      rcases ih σ x with e | ⟨e, hc, m, hm, hf⟩
      · exact .inl e
      · exact .inr ⟨e, hc, m, List.mem_cons_of_mem _ hm, hf⟩
    | some y =>
      dsimp only
      split
      · exact .inl rfl
      · split
        · rename_i hc
          rcases ih (upd σ y { (σ y).recordDetached now with conn := false }) x with e | ⟨e, hc', m, hm, hf⟩
          · by_cases hx : x = y
            · subst hx
              rw [upd_self] at e
              exact .inr ⟨e, hc, n, List.mem_cons_self, h⟩
            · rw [upd_ne _ _ hx] at e
              exact .inl e
          · by_cases hx : x = y
            · subst hx
              rw [upd_self] at hc'
              cases hc'
            · rw [upd_ne _ _ hx] at e hc'
              exact .inr ⟨e, hc', m, List.mem_cons_of_mem _ hm, hf⟩
        · rcases ih σ x with e | ⟨e, hc, m, hm, hf⟩
          · exact .inl e
          · exact .inr ⟨e, hc, m, List.mem_cons_of_mem _ hm, hf⟩

/-! ## One constructor per path -/

inductive Eff (s : St) : Label → St → Prop
  | fresh (t n j) : s.thr t = .idle → s.lock = none → find n s.table = none →
      Eff s (.select t n j) (setThr s t (.making n))
  | busy (t n j x o) : s.thr t = .idle → s.lock = none → find n s.table = some x → (s.sess x).owner = some o →
      Eff s (.select t n j) (setThr s t (.done .busy))
  | reattach (t n j x) : s.thr t = .idle → s.lock = none → find n s.table = some x → (s.sess x).owner = none →
      (s.sess x).alive = true → ((s.sess x).handle && !(s.sess x).s2c) = false →
      Eff s (.select t n j) { setThr (setSess s x { (s.sess x).recordAttached t s.now with stream := some t, owner := some t }) t
        (.owns n x) with events := s.events ++ [.attached] }
  | clobber (t n j x p) : s.thr t = .idle → s.lock = none → find n s.table = some x → (s.sess x).owner = none →
      (s.sess x).alive = true → ((s.sess x).handle && !(s.sess x).s2c) = true → (p = .making n ∨ p = .done .error) →
      Eff s (.select t n j) (setThr (setSess s x { (s.sess x).recordAttached t s.now with stream := some t, handle := false }) t p)
  | stale (t n j x v p) : s.thr t = .idle → s.lock = none → find n s.table = some x → (s.sess x).owner = none →
      (s.sess x).alive = false → (v = s.sess x ∨ v = { s.sess x with handle := false }) → (p = .making n ∨ p = .done .error) →
      Eff s (.select t n j) (setThr (setSess s x v) t p)
  | spawn (t n) : s.thr t = .making n →
      Eff s (.spawn t) { setThr s t (.spawned n s.next) with
        sess := upd s.sess s.next ⟨n, true, true, true, false, none, some t, some s.now, none, some t, s.now⟩
        next := s.next + 1 }
  | spawnFails (t n) : s.thr t = .making n → Eff s (.spawnFails t) (setThr s t (.done .error))
  | insert (t n x) : s.thr t = .spawned n x → s.lock = none →
      Eff s (.insert t) { setThr s t (.inserted n x) with
          table := Server.insert n x s.table
          events := s.events ++ (if (find n s.table).isSome then [.removed] else []) ++ [.created, .attached] }
  | lost (t n x) : s.thr t = .inserted n x → s.lock = none → find n s.table = none → Eff s (.lookup t) (setThr s t (.done .lost))
  | lookup (t n x y) : s.thr t = .inserted n x → s.lock = none → find n s.table = some y → (s.sess y).owner = none →
      Eff s (.lookup t) (setThr (setSess s y { s.sess y with owner := some t }) t (.owns n y))
  | block (t n x y o) : s.thr t = .inserted n x → s.lock = none → find n s.table = some y → (s.sess y).owner = some o →
      Eff s (.lookup t) { setThr s t (.blocked n y) with lock := some t }
  | acquire (t n y) : s.thr t = .blocked n y → (s.sess y).owner = none →
      Eff s (.acquire t) { setThr (setSess s y { s.sess y with owner := some t }) t (.owns n y) with lock := none }
  | start (t n x) : s.thr t = .owns n x →
      Eff s (.start t) (setThr (setSess s x { s.sess x with conn := (s.sess x).s2c }) t (.streaming n x))
  | abort (t n x) : s.thr t = .owns n x → Eff s (.abort t) (setThr s t (.leaving x))
  | clientGone (t n x) : s.thr t = .streaming n x →
      Eff s (.clientGone t) (setThr (setSess s x { s.sess x with conn := false }) t (.ending n x false))
  | childDone (t n x) : s.thr t = .streaming n x → (s.sess x).alive = false →
      Eff s (.childDone t) (setThr (setSess s x { s.sess x with conn := false }) t (.ending n x true))
  | unlinkDone (t n x) : s.thr t = .ending n x true → s.lock = none →
      Eff s (.unlink t) { setThr s t (.leaving x) with
          table := erase n s.table
          events := s.events ++ (if (find n s.table).isSome then [.removed] else []) }
  | unlinkGone (t n x y) : s.thr t = .ending n x false → s.lock = none → find n s.table = some y →
      Eff s (.unlink t) { setThr (setSess s y ((s.sess y).recordDetached s.now)) t (.leaving x) with events := s.events ++ [.detached] }
  | unlinkNone (t n x) : s.thr t = .ending n x false → s.lock = none → find n s.table = none →
      Eff s (.unlink t) (setThr s t (.leaving x))
  | release (t x) : s.thr t = .leaving x →
      Eff s (.release t) (setThr (setSess s x { s.sess x with owner := none }) t (.done .served))
  | exit (x) : x < s.next → Eff s (.exit x) (setSess s x { s.sess x with alive := false })
  | s2cEnds (x) : x < s.next → Eff s (.s2cEnds x) (setSess s x { s.sess x with s2c := false, conn := false })
  | kill (names fail) : s.lock = none → Eff s (.kill names fail) (kill s names fail).1
  | reapNone (n fails) : s.lock = none → find n s.table = none → Eff s (.reap n fails) s
  | reap (n fails x) : s.lock = none → find n s.table = some x →
      Eff s (.reap n fails) { setSess s x { s.sess x with alive := fails && (s.sess x).alive } with
          table := erase n s.table
          events := s.events ++ [.removed] }
  | detach (names) : s.lock = none → Eff s (.detach names) (detach s names).1
  | tick (d) : Eff s (.tick d) { s with now := s.now + d }

theorem setSess_self (s : St) (x : Nat) : setSess s x (s.sess x) = s := by
  have : upd s.sess x (s.sess x) = s.sess := by
    funext j
    by_cases h : j = x
    · subst h; simp
    · rw [upd_ne _ _ h]
  simp [setSess, this]

theorem step_eff {s s' : St} {l : Label} (h : step s l = some s') : Eff s l s' := by
  cases l with
  | select t n j =>
    simp only [step] at h
    split at h
    · rename_i hc
      obtain ⟨hi, hl⟩ := hc
      cases h
      unfold select
      cases hf : find n s.table with
      | none => exact .fresh t n j hi hl hf
      | some x =>
        dsimp only
        cases ho : (s.sess x).owner with
        | some o => exact .busy t n j x o hi hl hf ho
        | none =>
          dsimp only
          by_cases ha : (s.sess x).alive = true
          · rw [if_pos ha]
            by_cases hfin : ((s.sess x).handle && !(s.sess x).s2c) = true
            · rw [if_pos hfin]
              refine .clobber t n j x _ hi hl hf ho ha hfin ?_
              cases j <;> simp [hfin]
            · rw [if_neg hfin]
              exact .reattach t n j x hi hl hf ho ha (by simpa using hfin)
          · rw [if_neg ha]
            have ha' : (s.sess x).alive = false := by simpa using ha
            by_cases hfin : ((s.sess x).handle && !(s.sess x).s2c) = true
            · rw [if_pos hfin]
              refine .stale t n j x _ _ hi hl hf ho ha' (.inr (by simp only [ho])) ?_
              cases j <;> simp [hfin]
            · rw [if_neg hfin]
              have := Eff.stale (s := s) t n j x (s.sess x)
                (if ((s.sess x).handle && !(s.sess x).s2c) && j then .done .error else .making n) hi hl hf ho ha' (.inl rfl)
                (by simp [hfin])
              rwa [setSess_self] at this
    · cases h
  | spawn t =>
    simp only [step] at h
    split at h <;> cases h
    exact .spawn t _ ‹_›
  | spawnFails t =>
    simp only [step] at h
    split at h <;> cases h
    exact .spawnFails t _ ‹_›
  | insert t =>
    simp only [step] at h
    split at h
    · split at h <;> cases h
      exact .insert t _ _ ‹_› ‹_›
    · cases h
  | lookup t =>
    simp only [step] at h
    split at h
    · split at h
      · split at h
        · cases h
          exact .lost t _ _ ‹_› ‹_› ‹_›
        · split at h <;> cases h
          · exact .lookup t _ _ _ ‹_› ‹_› ‹_› ‹_›
          · exact .block t _ _ _ _ ‹_› ‹_› ‹_› ‹_›
      · cases h
    · cases h
  | acquire t =>
    simp only [step] at h
    split at h
    · split at h <;> cases h
      exact .acquire t _ _ ‹_› ‹_›
    · cases h
  | start t =>
    simp only [step] at h
    split at h <;> cases h
    exact .start t _ _ ‹_›
  | abort t =>
    simp only [step] at h
    split at h <;> cases h
    exact .abort t _ _ ‹_›
  | clientGone t =>
    simp only [step] at h
    split at h <;> cases h
    exact .clientGone t _ _ ‹_›
  | childDone t =>
    simp only [step] at h
    split at h
    · split at h <;> cases h
      rename_i hp ha
      exact .childDone t _ _ hp (by simpa using ha)
    · cases h
  | unlink t =>
    simp only [step] at h
    split at h
    · split at h <;> cases h
      exact .unlinkDone t _ _ ‹_› ‹_›
    · split at h
      · split at h <;> cases h
        · exact .unlinkGone t _ _ _ ‹_› ‹_› ‹_›
        · exact .unlinkNone t _ _ ‹_› ‹_› ‹_›
      · cases h
    · cases h
  | release t =>
    simp only [step] at h
    split at h <;> cases h
    exact .release t _ ‹_›
  | exit x =>
    simp only [step] at h
    split at h <;> cases h
    exact .exit x ‹_›
  | s2cEnds x =>
    simp only [step] at h
    split at h <;> cases h
    exact .s2cEnds x ‹_›
  | kill names fail =>
    simp only [step] at h
    split at h <;> cases h
    exact .kill names fail ‹_›
  | reap n fails =>
    simp only [step] at h
    split at h
    · split at h <;> cases h
      · exact .reapNone n fails ‹_› ‹_›
      · exact .reap n fails _ ‹_› ‹_›
    · cases h
  | detach names =>
    simp only [step] at h
    split at h <;> cases h
    exact .detach names ‹_›
  | tick d =>
    simp only [step] at h
    cases h
    exact .tick d

/-! ## What kill and detach requests leave alone -/

theorem kill_sess (s : St) (names : List Name) (fail : Option Nat) (x : Nat) :
    ((kill s names fail).1.sess x) = s.sess x ∨ ((kill s names fail).1.sess x) = { s.sess x with alive := false } := by
  have := killLoop_sess s.table names s.sess fail x
  unfold kill
  dsimp only
  split <;> grind

theorem kill_thr (s : St) (names : List Name) (fail : Option Nat) : (kill s names fail).1.thr = s.thr := by
  unfold kill; dsimp only; split <;> rfl

theorem kill_next (s : St) (names : List Name) (fail : Option Nat) : (kill s names fail).1.next = s.next := by
  unfold kill; dsimp only; split <;> rfl

theorem kill_lock (s : St) (names : List Name) (fail : Option Nat) : (kill s names fail).1.lock = s.lock := by
  unfold kill; dsimp only; split <;> rfl

theorem kill_now (s : St) (names : List Name) (fail : Option Nat) : (kill s names fail).1.now = s.now := by
  unfold kill; dsimp only; split <;> rfl

theorem kill_table (s : St) (names : List Name) (fail : Option Nat) : (kill s names fail).1.table = s.table ∨
    (kill s names fail).1.table = eraseAll (names.filter (fun n => (find n s.table).isSome)) s.table := by
  have := killLoop_ok s.table names s.sess fail
  unfold kill
  dsimp only
  split
  · rename_i hok
    exact .inr (by rw [← (this hok).1])
  · exact .inl rfl

theorem kill_find (s : St) (names : List Name) (fail : Option Nat) (n : Name) :
    find n (kill s names fail).1.table = find n s.table ∨ (find n (kill s names fail).1.table = none ∧ n ∈ names) := by
  rcases kill_table s names fail with e | e
  · rw [e]; exact .inl rfl
  · rw [e, find_eraseAll]
    split
    · rename_i h
      exact .inr ⟨rfl, (List.mem_filter.mp h).1⟩
    · exact .inl rfl

theorem detach_sess (s : St) (names : List Name) (x : Nat) : ((detach s names).1.sess x) = s.sess x ∨
   (((detach s names).1.sess x) = { (s.sess x).recordDetached s.now with conn := false } ∧ (s.sess x).conn = true ∧
      ∃ n ∈ names, find n s.table = some x) := detachLoop_sess s.table s.now names s.sess x

theorem kill_fields (s : St) (names : List Name) (fail : Option Nat) (x : Nat) :
    ((kill s names fail).1.sess x).name = (s.sess x).name ∧ ((kill s names fail).1.sess x).owner = (s.sess x).owner ∧
    ((kill s names fail).1.sess x).stream = (s.sess x).stream ∧
    ((s.sess x).alive = false → ((kill s names fail).1.sess x).alive = false) := by
  rcases kill_sess s names fail x with e | e <;> simp [e]

theorem detach_fields (s : St) (names : List Name) (x : Nat) :
    ((detach s names).1.sess x).name = (s.sess x).name ∧ ((detach s names).1.sess x).owner = (s.sess x).owner ∧
    ((detach s names).1.sess x).stream = (s.sess x).stream ∧ ((detach s names).1.sess x).alive = (s.sess x).alive := by
  rcases detach_sess s names x with e | ⟨e, -⟩ <;> simp [e, Sess.recordDetached]

end Shpool.Server
