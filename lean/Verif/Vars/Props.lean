import Verif.Vars.Model
/-!
# Session variables (C43)
-/

namespace Shpool.Vars

/-! ## Maps -/

private theorem get_insert (k v : Str) (m : Map) (k' : Str) : get k' (insert k v m) = if k' = k then some v else get k' m := by
  induction m with
  | nil =>
    by_cases h : k' = k
    · subst h; simp [get, insert]
    · have : ¬ k = k' := fun e => h e.symm
      simp [get, insert, h, this]
  | cons p m ih =>
    obtain ⟨a, b⟩ := p
    simp only [insert]
    by_cases ha : a = k
    · subst ha
      by_cases h : k' = a
      · subst h; simp [get]
      · have : ¬ a = k' := fun e => h e.symm
        simp [get, h, this]
    · rw [if_neg ha]
      by_cases hk : a = k'
      · subst hk
        simp [get, ha]
      · have e1 : get k' ((a, b) :: insert k v m) = get k' (insert k v m) := by simp [get, hk]
        have e2 : get k' ((a, b) :: m) = get k' m := by simp [get, hk]
        rw [e1, e2, ih]

private theorem get_remove (k : Str) (m : Map) (k' : Str) : get k' (remove k m) = if k' = k then none else get k' m := by
  induction m with
  | nil => simp [get, remove]
  | cons p m ih =>
    obtain ⟨a, b⟩ := p
    by_cases ha : a = k
    · subst ha
      have e : remove a ((a, b) :: m) = remove a m := by simp [remove]
      rw [e, ih]
      by_cases h : k' = a
      · subst h; simp
      · have : ¬ a = k' := fun e => h e.symm
        simp [h, get, this]
    · have e : remove k ((a, b) :: m) = (a, b) :: remove k m := by simp [remove, ha]
      rw [e]
      by_cases hk : a = k'
      · subst hk; simp [get, ha]
      · have e1 : get k' ((a, b) :: remove k m) = get k' (remove k m) := by simp [get, hk]
        have e2 : get k' ((a, b) :: m) = get k' m := by simp [get, hk]
        rw [e1, e2, ih]

private theorem names_insert (k v : Str) (m : Map) (h : (m.map (·.1)).Nodup) : ((insert k v m).map (·.1)).Nodup := by
  have hmem : ∀ m : Map, ∀ a, a ∈ (insert k v m).map (·.1) ↔ a = k ∨ a ∈ m.map (·.1) := by
    intro m a
    induction m with
    | nil => simp [insert]
    | cons p m ih =>
      simp only [insert]
      split
      · rename_i hp; simp [hp]
      · simp only [List.map_cons, List.mem_cons, ih]
        constructor
        · rintro (h | h | h) <;> simp [h]
        · rintro (h | h | h) <;> simp [h]
  induction m with
  | nil => simp [insert]
  | cons p m ih =>
    simp only [List.map_cons, List.nodup_cons] at h
    simp only [insert]
    split
    · rename_i hp
      simp only [List.map_cons, List.nodup_cons]
      exact ⟨by rw [← hp]; exact h.1, h.2⟩
    · rename_i hp
      simp only [List.map_cons, List.nodup_cons]
      refine ⟨?_, ih h.2⟩
      rw [hmem]
      rintro (e | e)
      · exact hp e
      · exact h.1 e

private theorem names_change (k : Str) (v : Option Str) (m : Map) (h : (m.map (·.1)).Nodup) :
    ((change k v m).map (·.1)).Nodup := by
  cases v with
  | some v => exact names_insert k v m h
  | none =>
    exact List.Nodup.sublist (List.Sublist.map _ List.filter_sublist) h

/-! ## The code paths -/

@[simp] private theorem upd_self {α : Type} (f : Nat → α) (i : Nat) (x : α) : upd f i x i = x := by simp [upd]

private theorem upd_ne {α : Type} (f : Nat → α) {i j : Nat} (x : α) (h : j ≠ i) : upd f i x j = f j := by simp [upd, h]

private inductive Eff (s : St) : Label → St → Prop where
  | change (i k v) : s.thr i = .idle →
      Eff s (.change i k v) { s with vars := Vars.change k v s.vars, thr := upd s.thr i (.changed (Vars.change k v s.vars)) }
  | gather (i m) : s.thr i = .changed m → Eff s (.gather i) { s with thr := upd s.thr i (.pushing m s.table) }
  | push (i m x todo) : s.thr i = .pushing m (x :: todo) → s.alive x = true →
      Eff s (.push i) { s with
          thr := upd s.thr i (.pushing m todo)
          queue := upd s.queue x (s.queue x ++ [m])
          pushed := upd s.pushed x (s.pushed x ++ [m]) }
  | deliver (x m q) : s.queue x = m :: q →
      Eff s (.deliver x) { s with
          queue := upd s.queue x q
          view := if (s.view x).isSome then upd s.view x (some m) else s.view }
  | pushFails (i m x todo) : s.thr i = .pushing m (x :: todo) → Eff s (.pushFails i) { s with thr := upd s.thr i .failed }
  | answer (i m) : s.thr i = .pushing m [] → Eff s (.answer i) { s with thr := upd s.thr i .answered }
  | fetch (c) : Eff s (.fetch c) { s with known := upd s.known c (some s.vars) }
  | create (x) : x ∉ s.table → Eff s (.create x) { s with table := s.table ++ [x], alive := upd s.alive x true }
  | attach (c x m) : s.known c = some m → x ∈ s.table → s.alive x = true → s.view x = none →
      Eff s (.attach c x) { s with known := upd s.known c none, view := upd s.view x (some m) }
  | detach (x) : Eff s (.detach x) { s with view := upd s.view x none }
  | exit (x) : s.view x = none → Eff s (.exit x) { s with alive := upd s.alive x false, queue := upd s.queue x [] }
  | remove (x) : Eff s (.remove x)
      { s with table := s.table.erase x, alive := upd s.alive x false, view := upd s.view x none, queue := upd s.queue x [] }

private theorem step_eff {s s' : St} {l : Label} (h : step s l = some s') : Eff s l s' := by
  cases l with
  | change i k v =>
    simp only [step] at h
    split at h
    · rename_i hi; cases h; exact .change i k v hi
    · cases h
  | gather i =>
    simp only [step] at h
    split at h <;> cases h
    rename_i m hm
    exact .gather i m hm
  | push i =>
    simp only [step] at h
    split at h
    · rename_i m x todo hm
      split at h
      · rename_i ha; cases h; exact .push i m x todo hm ha.1
      · cases h
    · cases h
  | deliver x =>
    simp only [step] at h
    split at h <;> cases h
    rename_i m q hq
    exact .deliver x m q hq
  | pushFails i =>
    simp only [step] at h
    split at h <;> cases h
    rename_i m x todo hm
    exact .pushFails i m x todo hm
  | answer i =>
    simp only [step] at h
    split at h <;> cases h
    rename_i m hm
    exact .answer i m hm
  | fetch c => cases h; exact .fetch c
  | create x =>
    simp only [step] at h
    split at h <;> cases h
    rename_i hx
    exact .create x hx
  | attach c x =>
    simp only [step] at h
    split at h
    · rename_i m hm
      split at h
      · rename_i hx; cases h; exact .attach c x m hm hx.1 hx.2.1 hx.2.2
      · cases h
    · cases h
  | detach x => cases h; exact .detach x
  | exit x =>
    simp only [step] at h
    split at h <;> cases h
    rename_i hx
    exact .exit x hx
  | remove x => cases h; exact .remove x

/-! ## The variables are a map -/

/-- Specification: the value of a name after a list of settings and unsettings (latest last), starting from `start`. -/
def valueAfter (start : Option Str) (k : Str) : List (Str × Option Str) → Option Str
  | [] => start
  | (k', v) :: rest => valueAfter (if k' = k then v else start) k rest

/-- The changes in a history, in the order in which they took effect. -/
def changes (ls : List Label) : List (Str × Option Str) :=
  ls.filterMap fun
    | .change _ k v => some (k, v)
    | _ => none

private theorem valueAfter_snoc (start : Option Str) (k : Str) (h : List (Str × Option Str)) (p : Str × Option Str) :
    valueAfter start k (h ++ [p]) = if p.1 = k then p.2 else valueAfter start k h := by
  induction h generalizing start with
  | nil => rfl
  | cons q h ih => simp only [List.cons_append, valueAfter, ih]

private theorem get_change (k : Str) (v : Option Str) (m : Map) (k' : Str) :
    get k' (change k v m) = if k = k' then v else get k' m := by
  cases v with
  | some v => simp only [change, get_insert, @eq_comm _ k' k]
  | none => simp only [change, get_remove, @eq_comm _ k' k]

private theorem get_collect (d : List (Str × Str)) (k : Str) :
    get k (collect d) = valueAfter none k (d.map fun p => (p.1, some p.2)) := by
  have : ∀ (d : List (Str × Str)) (m : Map), get k (d.foldl (fun m p => insert p.1 p.2 m) m) =
      valueAfter (get k m) k (d.map fun p => (p.1, some p.2)) := by
    intro d
    induction d with
    | nil => intro m; rfl
    | cons p d ih =>
      intro m
      rw [List.foldl_cons, ih, List.map_cons, valueAfter, get_insert]
      by_cases h : k = p.1 <;> simp [h, eq_comm]
  exact this d []

/-- **C43**: a daemon that starts with defaults has the variables it would have after setting them one by one, in order. -/
theorem C43_defaults (d : List (Str × Str)) (k : Str) :
    get k (init d).vars = valueAfter none k (d.map fun p => (p.1, some p.2)) := get_collect d k

/-- **C43**: after any history, whatever the threads and clients do at the same time, the value of every name is the one last set,
none if it was last unset, and the default if it was never changed. -/
theorem C43_map {d : List (Str × Str)} {ls : List Label} {s : St} (h : Run d ls s) (k : Str) :
    get k s.vars = valueAfter (get k (init d).vars) k (changes ls) := by
  refine run_hist (I := fun ls s => get k s.vars = valueAfter (get k (init d).vars) k (changes ls)) ?_ rfl h
  intro ls s l s' hI hs
  have hother : (∀ i k v, l ≠ .change i k v) → changes (ls ++ [l]) = changes ls := by
    intro hl
    cases l <;> simp [changes] at hl ⊢
  cases step_eff hs with
  | change i k0 v hi =>
    have : changes (ls ++ [.change i k0 v]) = changes ls ++ [(k0, v)] := by simp [changes]
    rw [this, valueAfter_snoc, ← hI, get_change]
  | _ => rw [hother (by simp)]; exact hI

/-- **C43**: every name is reported once. -/
theorem C43_names_once {d : List (Str × Str)} {ls : List Label} {s : St} (h : Run d ls s) : (s.vars.map (·.1)).Nodup := by
  refine run_inv (I := fun s => (s.vars.map (·.1)).Nodup) ?_ ?_ h
  · intro s l s' hI hs
    cases step_eff hs with
    | change i k v hi => exact names_change k v _ hI
    | _ => exact hI
  · have : ∀ (d : List (Str × Str)) (m : Map), (m.map (·.1)).Nodup → ((d.foldl (fun m p => insert p.1 p.2 m) m).map (·.1)).Nodup := by
      intro d
      induction d with
      | nil => intro m hm; exact hm
      | cons p d ih => intro m hm; exact ih _ (names_insert _ _ _ hm)
    exact this d [] (by simp)

/-- **C43**: a client that reads the variables gets the current ones. -/
theorem C43_read {s s' : St} {c : Nat} (h : step s (.fetch c) = some s') : s'.known c = some s.vars := by
  cases step_eff h with
  | fetch => exact upd_self ..

/-! ## Pushes -/

private def Owes (i : Nat) (m : Map) (xs : List Nat) (s : St) : Prop :=
  s.thr i = .failed ∨ s.thr i = .answered ∧ (∀ x ∈ xs, m ∈ s.pushed x) ∨
    ∃ todo, s.thr i = .pushing m todo ∧ ∀ x ∈ xs, x ∈ todo ∨ m ∈ s.pushed x

private theorem owes_step {i : Nat} {m : Map} {xs : List Nat} {s : St} {l : Label} {s' : St} (hI : Owes i m xs s)
    (hs : step s l = some s') : Owes i m xs s' := by
  have keep : ∀ (t : Nat → Thread) (p : Nat → List Map), t i = s.thr i → (∀ x, ∀ n ∈ s.pushed x, n ∈ p x) →
      ∀ (v : Map) (tb) (al) (vw) (kn) (qu), Owes i m xs ⟨v, t, tb, al, vw, kn, qu, p⟩ := by
    intro t p ht hp v tb al vw kn qu
    rcases hI with h | ⟨h, hx⟩ | ⟨todo, h, hx⟩
    · exact .inl (by simp only [ht, h])
    · exact .inr (.inl ⟨by simp only [ht, h], fun x hxm => hp x m (hx x hxm)⟩)
    · exact .inr (.inr ⟨todo, by simp only [ht, h], fun x hxm => (hx x hxm).imp_right (hp x m)⟩)
  have none' : ∀ k t, s.thr k = t → (t = .idle ∨ ∃ n, t = .changed n) → k ≠ i := by
    rintro k t hk ht rfl
    rcases hI with h | ⟨h, hx⟩ | ⟨todo, h, hx⟩ <;> rw [h] at hk <;> subst hk <;> simp at ht
  cases step_eff hs with
  | change k k0 v hi => exact keep _ _ (upd_ne _ _ (Ne.symm (none' k _ hi (.inl rfl)))) (fun _ _ h => h) _ _ _ _ _ _
  | gather k n hi => exact keep _ _ (upd_ne _ _ (Ne.symm (none' k _ hi (.inr ⟨n, rfl⟩)))) (fun _ _ h => h) _ _ _ _ _ _
  | push k n x todo hk ha =>
    have hp : ∀ y, ∀ n' ∈ s.pushed y, n' ∈ upd s.pushed x (s.pushed x ++ [n]) y := by
      intro y n' hn'
      by_cases e : y = x
      · subst e; simp [hn']
      · rwa [upd_ne _ _ e]
    by_cases e : k = i
    · subst e
      rcases hI with h | ⟨h, hx⟩ | ⟨todo', h, hx⟩ <;> rw [h] at hk <;> cases hk
      refine .inr (.inr ⟨todo, upd_self .., fun y hy => ?_⟩)
      rcases hx y hy with h' | h'
      · rcases List.mem_cons.1 h' with rfl | h''
        · right; simp
        · exact .inl h''
      · exact .inr (hp y _ h')
    · exact keep _ _ (upd_ne _ _ (Ne.symm e)) hp _ _ _ _ _ _
  | pushFails k n x todo hk =>
    by_cases e : k = i
    · subst e; exact .inl (upd_self ..)
    · exact keep _ _ (upd_ne _ _ (Ne.symm e)) (fun _ _ h => h) _ _ _ _ _ _
  | answer k n hk =>
    by_cases e : k = i
    · subst e
      rcases hI with h | ⟨h, hx⟩ | ⟨todo', h, hx⟩ <;> rw [h] at hk <;> cases hk
      refine .inr (.inl ⟨upd_self .., fun y hy => ?_⟩)
      rcases hx y hy with h' | h'
      · cases h'
      · exact h'
    · exact keep _ _ (upd_ne _ _ (Ne.symm e)) (fun _ _ h => h) _ _ _ _ _ _
  | deliver x n q hq => exact keep _ _ rfl (fun _ _ h => h) _ _ _ _ _ _
  | fetch c => exact keep _ _ rfl (fun _ _ h => h) _ _ _ _ _ _
  | create x hx => exact keep _ _ rfl (fun _ _ h => h) _ _ _ _ _ _
  | attach c x n hc hx ha hv => exact keep _ _ rfl (fun _ _ h => h) _ _ _ _ _ _
  | detach x => exact keep _ _ rfl (fun _ _ h => h) _ _ _ _ _ _
  | exit x hx => exact keep _ _ rfl (fun _ _ h => h) _ _ _ _ _ _
  | remove x => exact keep _ _ rfl (fun _ _ h => h) _ _ _ _ _ _

private theorem changed_stays {i : Nat} {m : Map} {s : St} {l : Label} {s' : St} (hI : s.thr i = .changed m) (hl : l ≠ .gather i)
    (hs : step s l = some s') : s'.thr i = .changed m := by
  have ne : ∀ k t p, s.thr k = t → t ≠ .changed m → upd s.thr k p i = .changed m := by
    intro k t p hk ht
    by_cases e : i = k
    · subst e; rw [hI] at hk; exact absurd hk.symm ht
    · rw [upd_ne _ _ e, hI]
  cases step_eff hs with
  | gather k n hk =>
    have : i ≠ k := by rintro rfl; exact hl rfl
    simp only [upd_ne _ _ this, hI]
  | change k _ _ hk => exact ne k _ _ hk (by simp)
  | push k _ _ _ hk _ => exact ne k _ _ hk (by simp)
  | pushFails k _ _ _ hk => exact ne k _ _ hk (by simp)
  | answer k _ hk => exact ne k _ _ hk (by simp)
  | _ => exact hI

/-- **C43**: a change that is answered has been pushed, with the variables as they were right after it, to every session that
was in the table when the sessions were gathered (after the change). -/
theorem C43_answered_pushed {d : List (Str × Str)} {ls1 ls2 ls3 : List Label} {i : Nat} {k : Str} {v : Option Str} {s1 s2 s : St}
    (h1 : Run d (ls1 ++ [.change i k v]) s1) (h2 : Run d (ls1 ++ [.change i k v] ++ ls2) s2) (hn : .gather i ∉ ls2)
    (h : Run d (ls1 ++ [.change i k v] ++ ls2 ++ .gather i :: ls3) s) (ha : s.thr i = .answered) :
    ∀ x ∈ s2.table, s1.vars ∈ s.pushed x := by
  have hc1 : s1.thr i = .changed s1.vars := by
    obtain ⟨s0, _, h0⟩ := run_append_some h1
    simp only [runSteps] at h0
    cases hs : step s0 (.change i k v) with
    | none => rw [hs] at h0; cases h0
    | some s' =>
      rw [hs] at h0
      cases h0
      cases step_eff hs with
      | change _ _ _ _ => exact upd_self ..
  have hc2 : s2.thr i = .changed s1.vars := by
    obtain ⟨s1', h1', h2'⟩ := run_append_some h2
    rw [show s1' = s1 from Option.some.inj (h1'.symm.trans h1)] at h2'
    clear h2 h h1 h1'
    generalize s1.vars = m at hc1 ⊢
    induction ls2 generalizing s1 with
    | nil => cases h2'; exact hc1
    | cons l ls2 ih =>
      unfold runSteps at h2'
      cases hs : step s1 l with
      | none => rw [hs] at h2'; cases h2'
      | some s' =>
        rw [hs] at h2'
        refine ih (fun hm => hn (by simp [hm])) h2' ?_
        exact changed_stays hc1 (fun e => hn (by simp [e])) hs
  obtain ⟨s2', h2', h3⟩ := run_append_some h
  rw [show s2' = s2 from Option.some.inj (h2'.symm.trans h2)] at h3
  unfold runSteps at h3
  cases hs : step s2 (.gather i) with
  | none => rw [hs] at h3; cases h3
  | some s3 =>
    rw [hs] at h3
    cases step_eff hs with
    | gather _ m hm =>
      rw [hc2] at hm
      cases hm
      have hO : Owes i s1.vars s2.table s := run_inv (I := Owes i s1.vars s2.table) (fun _ _ _ => owes_step)
        (.inr (.inr ⟨_, upd_self .., fun x hx => .inl hx⟩)) h3
      rcases hO with h' | ⟨_, h'⟩ | ⟨_, h', _⟩
      · rw [ha] at h'; cases h'
      · exact h'
      · rw [ha] at h'; cases h'

/-! ## What is false -/

/-- No change is under way and nothing is waiting to be delivered. -/
def Quiet (s : St) : Prop := (∀ i, s.thr i = .idle ∨ s.thr i = .answered ∨ s.thr i = .failed) ∧ ∀ x, s.queue x = []

/-- The full property, first part: no change ends without an answer. -/
def C43_answer_statement : Prop := ∀ d ls s, Run d ls s → ∀ i, s.thr i ≠ .failed

/-- The full property, second part: when no change is under way, every attached client knows the current variables. -/
def C43_view_statement : Prop := ∀ d ls s, Run d ls s → Quiet s → ∀ x m, s.view x = some m → m = s.vars

private def kA : Str := ['a']
private def one : Str := ['1']
private def two : Str := ['2']

/-- **C43 (defect)**: while a session whose shell exited without a client is in the table, setting a variable fails: there is no
answer, although the variable is changed ... -/
theorem C43_false : ¬ C43_answer_statement := by
  intro h
  have hr : ∃ s, Run [] [.create 0, .exit 0, .change 0 kA (some one), .gather 0, .pushFails 0] s ∧ s.thr 0 = .failed :=
    ⟨_, rfl, rfl⟩
  obtain ⟨s, hr, hf⟩ := hr
  exact h _ _ s hr 0 hf

private def Doomed (i x : Nat) (s : St) : Prop :=
  (s.alive x = false ∧ ∃ m todo, s.thr i = .pushing m todo ∧ x ∈ todo) ∨ s.thr i = .failed

private theorem doomed_step {i x : Nat} {s s' : St} {l : Label} (h : Doomed i x s) (hc : l ≠ .create x) (hs : step s l = some s') :
    Doomed i x s' := by
  have keep : ∀ (t : Nat → Thread) (al : Nat → Bool), t i = s.thr i → (s.alive x = false → al x = false) →
      ∀ (v : Map) (tb) (vw) (kn) (qu) (p), Doomed i x ⟨v, t, tb, al, vw, kn, qu, p⟩ := by
    intro t al ht ha v tb vw kn qu p
    rcases h with ⟨h1, m, todo, h2, h3⟩ | h
    · exact .inl ⟨ha h1, m, todo, by simp only [ht, h2], h3⟩
    · exact .inr (by simp only [ht, h])
  have ne : ∀ k t, s.thr k = t → (t = .idle ∨ ∃ n, t = .changed n) → i ≠ k := by
    rintro k t hk ht rfl
    rcases h with ⟨h1, m, todo, h2, h3⟩ | h
    · rw [h2] at hk; subst hk; simp at ht
    · rw [h] at hk; subst hk; simp at ht
  cases step_eff hs with
  | change k _ _ hk => exact keep _ _ (upd_ne _ _ (ne k _ hk (.inl rfl))) id _ _ _ _ _ _
  | gather k n hk => exact keep _ _ (upd_ne _ _ (ne k _ hk (.inr ⟨n, rfl⟩))) id _ _ _ _ _ _
  | push k n y td hk ha =>
    by_cases e : i = k
    · subst e
      rcases h with ⟨h1, m, todo, h2, h3⟩ | h
      · rw [hk] at h2
        cases h2
        refine .inl ⟨h1, n, td, upd_self .., ?_⟩
        rcases List.mem_cons.1 h3 with rfl | h4
        · rw [h1] at ha; cases ha
        · exact h4
      · rw [h] at hk; cases hk
    · exact keep _ _ (upd_ne _ _ e) id _ _ _ _ _ _
  | pushFails k n y td hk =>
    by_cases e : i = k
    · subst e; exact .inr (upd_self ..)
    · exact keep _ _ (upd_ne _ _ e) id _ _ _ _ _ _
  | answer k n hk =>
    by_cases e : i = k
    · subst e
      rcases h with ⟨h1, m, todo, h2, h3⟩ | h
      · rw [hk] at h2; cases h2; cases h3
      · rw [h] at hk; cases hk
    · exact keep _ _ (upd_ne _ _ e) id _ _ _ _ _ _
  | create y hy =>
    have : x ≠ y := by rintro rfl; exact hc rfl
    exact keep _ _ rfl (fun hd => by rw [upd_ne _ _ this, hd]) _ _ _ _ _ _
  | exit y hy =>
    refine keep _ _ rfl (fun hd => ?_) _ _ _ _ _ _
    by_cases e : x = y
    · subst e; exact upd_self ..
    · rw [upd_ne _ _ e, hd]
  | remove y =>
    refine keep _ _ rfl (fun hd => ?_) _ _ _ _ _ _
    by_cases e : x = y
    · subst e; exact upd_self ..
    · rw [upd_ne _ _ e, hd]
  | deliver y n q hq => exact keep _ _ rfl id _ _ _ _ _ _
  | fetch c => exact keep _ _ rfl id _ _ _ _ _ _
  | attach c y n _ _ _ _ => exact keep _ _ rfl id _ _ _ _ _ _
  | detach y => exact keep _ _ rfl id _ _ _ _ _ _

/-- ... and that holds for every change made as long as the dead session is in the table (that is, until somebody attaches to it
or kills it): if it is in the table when the sessions are gathered, the change is never answered, whatever happens. -/
theorem C43_false_forever {s s1 s2 : St} {i x : Nat} {ls : List Label} (hx : x ∈ s.table) (hd : s.alive x = false)
    (hg : step s (.gather i) = some s1) (hr : runSteps step s1 ls = some s2) (hc : .create x ∉ ls) : s2.thr i ≠ .answered := by
  have h1 : Doomed i x s1 := by
    cases step_eff hg with
    | gather _ m hm => exact .inl ⟨hd, m, s.table, upd_self .., hx⟩
  have h2 : Doomed i x s2 := by
    clear hg hx hd
    induction ls generalizing s1 with
    | nil => cases hr; exact h1
    | cons l ls ih =>
      unfold runSteps at hr
      cases hs : step s1 l with
      | none => rw [hs] at hr; cases hr
      | some s' =>
        rw [hs] at hr
        exact ih hr (fun hm => hc (by simp [hm])) (doomed_step h1 (fun e => hc (by simp [e])) hs)
  rcases h2 with ⟨_, m, todo, h, _⟩ | h <;> rw [h] <;> simp

/-- **C43 (defect)**: two changes at the same time can reach a session in the wrong order, and its client keeps the older
variables. -/
theorem C43_false_order : ¬ C43_view_statement := by
  intro h
  have hr : ∃ s, Run [] [.create 0, .fetch 0, .attach 0 0, .change 0 kA (some one), .change 1 kA (some two), .gather 1, .push 1,
      .answer 1, .gather 0, .push 0, .answer 0, .deliver 0, .deliver 0] s ∧ s.view 0 = some [(kA, one)] ∧ s.vars = [(kA, two)] ∧
      (∀ i, s.thr i = if i = 0 then .answered else if i = 1 then .answered else .idle) ∧ ∀ x, s.queue x = [] := by
    refine ⟨_, rfl, rfl, rfl, ?_, ?_⟩
    rotate_left
    · intro x
      by_cases h0 : x = 0
      · subst h0; rfl
      · simp [upd, init, h0]
    intro i
    by_cases h0 : i = 0
    · subst h0; rfl
    · by_cases h1 : i = 1
      · subst h1; rfl
      · simp [upd, init, h0, h1]
  obtain ⟨s, hr, hv, hm, hq, hqu⟩ := hr
  have := h _ _ s hr ⟨fun i => by rw [hq]; by_cases h0 : i = 0 <;> by_cases h1 : i = 1 <;> simp [h0, h1], hqu⟩ 0 _ hv
  rw [hm] at this
  exact absurd this (by decide)

/-- **C43 (defect)**: a change between a client's reading of the variables and its attaching is never told to it. -/
theorem C43_false_gap : ¬ C43_view_statement := by
  intro h
  have hr : ∃ s, Run [] [.create 0, .fetch 0, .change 0 kA (some one), .gather 0, .push 0, .deliver 0, .answer 0, .attach 0 0] s ∧
      s.view 0 = some [] ∧ s.vars = [(kA, one)] ∧ (∀ i, s.thr i = if i = 0 then .answered else .idle) ∧ ∀ x, s.queue x = [] := by
    refine ⟨_, rfl, rfl, rfl, ?_, ?_⟩
    rotate_left
    · intro x
      by_cases h0 : x = 0
      · subst h0; rfl
      · simp [upd, init, h0]
    intro i
    by_cases h0 : i = 0
    · subst h0; rfl
    · simp [upd, init, h0]
  obtain ⟨s, hr, hv, hm, hq, hqu⟩ := hr
  have := h _ _ s hr ⟨fun i => by rw [hq]; by_cases h0 : i = 0 <;> simp [h0], hqu⟩ 0 _ hv
  rw [hm] at this
  exact absurd this (by decide)

/-! ## What holds of the views -/

/-- A change starts only when no other is under way and no client is between reading the variables and attaching, and no push
fails. -/
def Orderly (d : List (Str × Str)) (ls : List Label) : Prop :=
  (∀ i, .pushFails i ∉ ls) ∧
  ∀ pre i k v post s, ls = pre ++ .change i k v :: post → Run d pre s → Quiet s ∧ ∀ c, s.known c = none

/-- Thread `i` is between its change and its answer, with the state `m`. -/
private def Going (s : St) (i : Nat) (m : Map) : Prop := s.thr i = .changed m ∨ ∃ t, s.thr i = .pushing m t

private def Fresh (s : St) : Prop :=
  (∀ c m, s.known c = some m → m = s.vars) ∧
  (∀ i m, Going s i m → m = s.vars) ∧
  (∀ x, ∀ m ∈ s.queue x, m = s.vars) ∧
  (∀ x m, s.view x = some m → x ∈ s.table ∧
    (m = s.vars ∨ s.queue x ≠ [] ∨ ∃ i n, s.thr i = .changed n ∨ ∃ t, s.thr i = .pushing n t ∧ x ∈ t))

private theorem orderly_prefix {d : List (Str × Str)} {ls : List Label} {l : Label} (h : Orderly d (ls ++ [l])) : Orderly d ls := by
  refine ⟨fun i hm => h.1 i (by simp [hm]), fun pre i k v post s e hr => h.2 pre i k v (post ++ [l]) s (by rw [e]; simp) hr⟩

private theorem fresh {d : List (Str × Str)} {ls : List Label} {s : St} (h : Run d ls s) (ho : Orderly d ls) : Fresh s := by
  have main : Run d ls s ∧ (Orderly d ls → Fresh s) := by
    refine run_hist (I := fun ls s => Run d ls s ∧ (Orderly d ls → Fresh s)) ?_ ⟨rfl, fun _ => ?_⟩ h
    · intro ls s l s' ⟨hrun, hI⟩ hs
      refine ⟨?_, ?_⟩
      · unfold Run at hrun ⊢
        rw [run_append, hrun]
        simp [runSteps, hs]
      intro ho
      obtain ⟨f1, f3, f4, f5⟩ := hI (orderly_prefix ho)
      cases step_eff hs with
      | change i k v hi =>
        obtain ⟨q, kn⟩ := ho.2 ls i k v [] s rfl hrun
        refine ⟨?_, ?_, ?_, ?_⟩
        · intro c m hc
          simp only [kn c] at hc
          cases hc
        · intro j m hj
          simp only [Going] at hj
          by_cases e : j = i
          · subst e
            simp only [upd_self] at hj
            rcases hj with hj | ⟨t, hj⟩ <;> cases hj
            rfl
          · simp only [upd_ne _ _ e] at hj
            rcases q.1 j with h | h | h <;> rw [h] at hj <;> simp at hj
        · intro x m hm
          simp only [q.2 x] at hm
          cases hm
        · intro x m hx
          exact ⟨(f5 x m hx).1, .inr (.inr ⟨i, _, .inl (upd_self ..)⟩)⟩
      | gather i n hi =>
        refine ⟨f1, ?_, f4, ?_⟩
        · intro j m hj
          simp only [Going] at hj
          by_cases e : j = i
          · subst e
            simp only [upd_self] at hj
            rcases hj with hj | ⟨t, hj⟩ <;> cases hj
            exact f3 j n (.inl hi)
          · rw [upd_ne _ _ e] at hj
            exact f3 j m hj
        · intro x m hx
          obtain ⟨ht, hm⟩ := f5 x m hx
          exact ⟨ht, .inr (.inr ⟨i, n, .inr ⟨s.table, upd_self .., ht⟩⟩)⟩
      | push i n x todo hi ha =>
        have hn : n = s.vars := f3 i n (.inr ⟨_, hi⟩)
        refine ⟨f1, ?_, ?_, ?_⟩
        · intro j m hj
          simp only [Going] at hj
          by_cases e : j = i
          · subst e
            simp only [upd_self] at hj
            rcases hj with hj | ⟨t, hj⟩ <;> cases hj
            exact hn
          · rw [upd_ne _ _ e] at hj
            exact f3 j m hj
        · intro y m hm
          by_cases e : y = x
          · subst e
            simp only [upd_self, List.mem_append, List.mem_singleton] at hm
            rcases hm with hm | hm
            · exact f4 y m hm
            · exact hm.trans hn
          · simp only [upd_ne _ _ e] at hm
            exact f4 y m hm
        · intro y m hy
          obtain ⟨ht, hm⟩ := f5 y m hy
          refine ⟨ht, ?_⟩
          by_cases e : y = x
          · subst e
            exact .inr (.inl (by simp))
          · simp only [upd_ne _ _ e]
            refine hm.imp_right fun hm => hm.imp_right ?_
            rintro ⟨j, n', hj⟩
            by_cases e' : j = i
            · subst e'
              refine ⟨j, n, .inr ⟨todo, upd_self .., ?_⟩⟩
              rcases hj with hj | ⟨t, hj, hyt⟩
              · rw [hi] at hj; cases hj
              · rw [hi] at hj
                cases hj
                rcases List.mem_cons.1 hyt with h | h
                · exact absurd h e
                · exact h
            · exact ⟨j, n', by simp only [upd_ne _ _ e']; exact hj⟩
      | deliver x n q hq =>
        have hn : n = s.vars := f4 x n (by rw [hq]; simp)
        refine ⟨f1, f3, ?_, ?_⟩
        · intro y m hm
          by_cases e : y = x
          · subst e
            simp only [upd_self] at hm
            exact f4 y m (by rw [hq]; simp [hm])
          · simp only [upd_ne _ _ e] at hm
            exact f4 y m hm
        · intro y m hy
          simp only at hy
          by_cases e : y = x
          · subst e
            split at hy
            · rename_i hsome
              obtain ⟨w, hw⟩ := Option.isSome_iff_exists.1 hsome
              simp only [upd_self] at hy
              cases hy
              exact ⟨(f5 y w hw).1, .inl hn⟩
            · rename_i hnone
              rw [hy] at hnone
              simp at hnone
          · have hy' : s.view y = some m := by
              split at hy
              · rwa [upd_ne _ _ e] at hy
              · exact hy
            obtain ⟨ht, hm⟩ := f5 y m hy'
            exact ⟨ht, by simp only [upd_ne _ _ e]; exact hm⟩
      | pushFails i _ _ _ _ => exact absurd (by simp) (ho.1 i)
      | answer i n hi =>
        refine ⟨f1, ?_, f4, ?_⟩
        · intro j m hj
          simp only [Going] at hj
          by_cases e : j = i
          · subst e
            simp only [upd_self] at hj
            rcases hj with hj | ⟨t, hj⟩ <;> cases hj
          · rw [upd_ne _ _ e] at hj
            exact f3 j m hj
        · intro x m hx
          obtain ⟨ht, hm⟩ := f5 x m hx
          refine ⟨ht, hm.imp_right fun hm => hm.imp_right ?_⟩
          rintro ⟨j, n', hj⟩
          have e' : j ≠ i := by
            rintro rfl
            rcases hj with hj | ⟨t, hj, hyt⟩
            · rw [hi] at hj; cases hj
            · rw [hi] at hj; cases hj; cases hyt
          exact ⟨j, n', by simp only [upd_ne _ _ e']; exact hj⟩
      | fetch c =>
        refine ⟨?_, f3, f4, f5⟩
        intro c' m hc
        by_cases e : c' = c
        · subst e; simp only [upd_self] at hc; cases hc; rfl
        · simp only [upd_ne _ _ e] at hc; exact f1 c' m hc
      | create x hx => exact ⟨f1, f3, f4, fun y m hy => ⟨by simp [(f5 y m hy).1], (f5 y m hy).2⟩⟩
      | attach c x n hc hx ha hv =>
        refine ⟨?_, f3, f4, ?_⟩
        · intro c' m hc'
          by_cases e : c' = c
          · subst e; simp only [upd_self] at hc'; cases hc'
          · simp only [upd_ne _ _ e] at hc'; exact f1 c' m hc'
        · intro y m hy
          by_cases e : y = x
          · subst e
            simp only [upd_self] at hy
            cases hy
            exact ⟨hx, .inl (f1 c _ hc)⟩
          · simp only [upd_ne _ _ e] at hy
            exact f5 y m hy
      | detach x =>
        refine ⟨f1, f3, f4, ?_⟩
        intro y m hy
        by_cases e : y = x
        · subst e; simp only [upd_self] at hy; cases hy
        · simp only [upd_ne _ _ e] at hy; exact f5 y m hy
      | exit x hx =>
        refine ⟨f1, f3, ?_, ?_⟩
        · intro y m hm
          by_cases e : y = x
          · subst e; simp only [upd_self] at hm; cases hm
          · simp only [upd_ne _ _ e] at hm; exact f4 y m hm
        · intro y m hy
          have e : y ≠ x := by
            rintro rfl
            simp only [hx] at hy
            cases hy
          obtain ⟨ht, hm⟩ := f5 y m hy
          exact ⟨ht, by simp only [upd_ne _ _ e]; exact hm⟩
      | remove x =>
        refine ⟨f1, f3, ?_, ?_⟩
        · intro y m hm
          by_cases e : y = x
          · subst e; simp only [upd_self] at hm; cases hm
          · simp only [upd_ne _ _ e] at hm; exact f4 y m hm
        · intro y m hy
          by_cases e : y = x
          · subst e; simp only [upd_self] at hy; cases hy
          · simp only [upd_ne _ _ e] at hy
            obtain ⟨ht, hm⟩ := f5 y m hy
            exact ⟨(List.mem_erase_of_ne e).2 ht, by simp only [upd_ne _ _ e]; exact hm⟩
    · refine ⟨?_, ?_, ?_, ?_⟩
      · intro c m hc; cases hc
      · rintro a m (h | ⟨t, h⟩) <;> cases h
      · intro x m hm; cases hm
      · intro x m hx; cases hx
  exact main.2 ho

/-- **C43 (part)**: if changes do not overlap with each other or with a client's start, and no push fails, then whenever no change
is under way and everything pushed was taken, every attached client knows the current variables. -/
theorem C43_views_partial {d : List (Str × Str)} {ls : List Label} {s : St} (h : Run d ls s) (ho : Orderly d ls) (hq : Quiet s) :
    ∀ x m, s.view x = some m → m = s.vars := by
  intro x m hx
  rcases (fresh h ho).2.2.2 x m hx |>.2 with h' | h' | ⟨i, n, hi⟩
  · exact h'
  · exact absurd (hq.2 x) h'
  · exfalso
    rcases hq.1 i with e | e | e <;> rw [e] at hi <;> simp at hi

/-- A history meeting the conditions, in which the client learns a change. -/
example : ∃ s, Run [(kA, one)] [.create 0, .fetch 0, .attach 0 0, .change 0 kA (some two), .gather 0, .push 0, .answer 0, .deliver 0] s ∧
    s.view 0 = some [(kA, two)] ∧ s.thr 0 = .answered ∧ s.pushed 0 = [[(kA, two)]] := ⟨_, rfl, rfl, rfl, rfl⟩

/-- `C43_answered_pushed`: a session that is there when the change is spread. -/
example : ∃ s1 s2 s, Run [] ([.create 0] ++ [.change 0 kA (some one)]) s1 ∧
    Run [] ([.create 0] ++ [.change 0 kA (some one)] ++ [.create 1]) s2 ∧ Label.gather 0 ∉ [Label.create 1] ∧
    Run [] ([.create 0] ++ [.change 0 kA (some one)] ++ [.create 1] ++ .gather 0 :: [.push 0, .push 0, .answer 0]) s ∧
    s.thr 0 = .answered ∧ 0 ∈ s2.table ∧ 1 ∈ s2.table :=
  ⟨_, _, _, rfl, rfl, by decide, rfl, rfl, by decide, by decide⟩

/-- `C43_false_forever`: a session whose shell has ended. -/
example : ∃ s s1, Run [] [.create 0, .exit 0, .change 0 kA (some one)] s ∧ 0 ∈ s.table ∧ s.alive 0 = false ∧
    step s (.gather 0) = some s1 := ⟨_, _, rfl, by decide, rfl, rfl⟩

/-- `C43_views_partial`: an orderly history with a client attached. -/
def orderlyDay : List Label := [.create 0, .fetch 0, .attach 0 0, .change 0 kA (some two), .gather 0, .push 0, .answer 0, .deliver 0]

example : Orderly [(kA, one)] orderlyDay := by
  refine ⟨fun i => by simp [orderlyDay], ?_⟩
  intro pre i k v post s he hr
  have hlen : orderlyDay[pre.length]? = some (.change i k v) := by rw [he]; simp
  have hp : pre.length = 3 := by
    have hlt : pre.length < 8 := by
      have := congrArg List.length he
      simp [orderlyDay] at this
      omega
    generalize pre.length = n at *
    match n, hlt with
    | 0, _ | 1, _ | 2, _ | 4, _ | 5, _ | 6, _ | 7, _ => simp [orderlyDay] at hlen
    | 3, _ => rfl
  have hpre : pre = [.create 0, .fetch 0, .attach 0 0] := by
    have : pre = orderlyDay.take 3 := by rw [he, ← hp]; simp
    rw [this]; rfl
  subst hpre
  have hr' : ∃ s', Run [(kA, one)] [.create 0, .fetch 0, .attach 0 0] s' ∧ Quiet s' ∧ ∀ c, s'.known c = none := by
    refine ⟨_, rfl, ⟨fun i => .inl rfl, fun x => ?_⟩, fun c => ?_⟩
    · by_cases h0 : x = 0 <;> simp [h0, upd, init]
    · by_cases h0 : c = 0 <;> simp [h0, upd, init]
  obtain ⟨s', h1, h2⟩ := hr'
  have : s = s' := by
    have e := hr.symm.trans h1
    exact Option.some.inj e
  rw [this]
  exact h2

end Shpool.Vars
