import Verif.Signals.Model
/-!
# Properties of ending the daemon by a signal (C115)
-/

namespace Shpool.Signals

/-- A signal arrives. -/
def Label.isSignal : Label → Bool
  | .signal _ => true
  | _ => false

/-- C115: a daemon that has been sent SIGTERM, SIGINT or SIGQUIT ends, without being sent another. -/
def C115_statement : Prop := ∀ socks ls x s, Run socks (ls ++ [.signal x]) s →
  ∃ ls' s', runSteps step s ls' = some s' ∧ (∀ l ∈ ls', l.isSignal = false) ∧ s'.ended.isSome = true

/-- Nothing is under way that ends the daemon. -/
def Deaf (s : St) : Prop := s.ended = none ∧ s.pending = false ∧ ∀ fs, s.thr ≠ .removing fs

theorem deaf_step {s : St} {l : Label} {s' : St} (hd : Deaf s) (hl : l.isSignal = false) (h : step s l = some s') : Deaf s' := by
  obtain ⟨h1, h2, h3⟩ := hd
  unfold Deaf
  cases l <;> simp only [step, h1] at h <;> (repeat' split at h) <;> (try cases h) <;> simp_all [Label.isSignal]

theorem deaf_run {ls : List Label} {s s' : St} (hd : Deaf s) (hl : ∀ l ∈ ls, l.isSignal = false) (h : runSteps step s ls = some s') :
    Deaf s' := by
  induction ls generalizing s with
  | nil => cases h; exact hd
  | cons l ls ih =>
    obtain ⟨s1, h1, h2⟩ := run_cons_some h
    exact ih (deaf_step hd (hl l (by simp)) h1) (fun l' hl' => hl l' (by simp [hl'])) h2

/-- C115 is false: a signal that arrives while the daemon installs its handlers is lost, and the daemon serves on. -/
theorem C115_false : ¬ C115_statement := by
  intro h
  obtain ⟨s, hs, hd⟩ : ∃ s, Run [1, 2] ([Label.next, Label.next] ++ [Label.signal .term]) s ∧ Deaf s :=
    ⟨_, rfl, rfl, rfl, nofun⟩
  obtain ⟨ls', s', h1, h2, h3⟩ := h _ _ _ _ hs
  have := (deaf_run hd h2 h1).1
  rw [this] at h3
  cases h3

/-- C115: what is registered once the handlers are installed. -/
structure Inv (s : St) : Prop where
  ready : s.todo = [] → s.thr ≠ .off ∧ ∀ x, s.acts x = [.shutdown, .arm, .note]
  rem : ∀ fs, s.thr = .removing fs → ∀ f ∈ s.socks, f ∈ s.files → f ∈ fs ∨ f ∈ s.failed
  left : s.ended = some (.exit 0) → ∀ f ∈ s.socks, f ∈ s.files → f ∈ s.failed
  sub : ∀ f ∈ s.files, f ∈ s.socks

/-- The main thread's progress determines what is registered. -/
def Installed (s : St) : Prop := ∃ n, n ≤ spawn.length ∧ s.todo = spawn.drop n ∧
  (∀ x, s.acts x = (spawn.take n).filterMap fun t => match t with | .reg y a => if y = x then some a else none | .thread => none) ∧
  (s.thr = .off ↔ .thread ∈ s.todo)

theorem runActs_frame (as : List Action) (s : St) : (runActs as s).todo = s.todo ∧ (runActs as s).acts = s.acts ∧
    (runActs as s).thr = s.thr ∧ (runActs as s).socks = s.socks ∧ (runActs as s).files = s.files ∧ (runActs as s).failed = s.failed ∧
    ((runActs as s).ended = s.ended ∨ (runActs as s).ended = some (.exit 1)) := by
  induction as generalizing s with
  | nil => exact ⟨rfl, rfl, rfl, rfl, rfl, rfl, .inl rfl⟩
  | cons a as ih =>
    cases a with
    | shutdown =>
      rw [runActs]; split
      · exact ⟨rfl, rfl, rfl, rfl, rfl, rfl, .inr rfl⟩
      · exact ih s
    | arm => rw [runActs]; exact ih _
    | note => rw [runActs]; exact ih _

theorem installed_init (socks : List Nat) : Installed (init socks) :=
  ⟨0, by decide, rfl, fun x => rfl, by simp [init, spawn]⟩

theorem installed_step (s : St) (l : Label) (s' : St) (hI : Installed s) (h : step s l = some s') : Installed s' := by
  obtain ⟨n, hn, h1, h2, h3⟩ := hI
  unfold step at h
  split at h
  · cases h
  cases l with
  | next =>
    simp only at h
    have hlt : s.todo ≠ [] → n < spawn.length := by
      intro hne
      rcases Nat.lt_or_ge n spawn.length with h | h
      · exact h
      · rw [List.drop_of_length_le h] at h1; exact absurd h1 hne
    split at h
    · cases h
    · rename_i x a todo heq
      have hlt := hlt (by rw [heq]; simp)
      have hd : spawn.drop n = spawn[n] :: spawn.drop (n + 1) := List.drop_eq_getElem_cons hlt
      rw [h1, hd] at heq
      injection heq with e1 e2
      cases h
      refine ⟨n + 1, hlt, e2.symm, fun y => ?_, ?_⟩
      · rw [List.take_succ_eq_append_getElem hlt, List.filterMap_append, e1, ← h2 y]
        by_cases hy : y = x
        · subst hy; simp
        · have : ¬ x = y := fun e => hy e.symm
          simp [hy, this]
      · have : (.thread ∈ todo) ↔ (.thread ∈ s.todo) := by rw [h1, hd, e1, e2]; simp
        rw [this]; exact h3
    · rename_i todo heq
      have hlt := hlt (by rw [heq]; simp)
      have hd : spawn.drop n = spawn[n] :: spawn.drop (n + 1) := List.drop_eq_getElem_cons hlt
      rw [h1, hd] at heq
      injection heq with e1 e2
      cases h
      refine ⟨n + 1, hlt, e2.symm, fun y => ?_, ?_⟩
      · rw [List.take_succ_eq_append_getElem hlt, List.filterMap_append, e1, ← h2 y]; simp
      · have h9 : n = 9 := by
          have : n < 10 := hlt
          match n, this with
          | 0, _ | 1, _ | 2, _ | 3, _ | 4, _ | 5, _ | 6, _ | 7, _ | 8, _ => simp [spawn, termSignals] at e1
          | 9, _ => rfl
        subst h9
        rw [← e2]
        simp [spawn, termSignals]
  | signal x =>
    simp only at h
    split at h
    · cases h; exact ⟨n, hn, h1, h2, h3⟩
    · cases h
      obtain ⟨f1, f2, f3, _⟩ := runActs_frame (s.acts x) s
      refine ⟨n, hn, f1.trans h1, fun y => ?_, ?_⟩
      · rw [f2]; exact h2 y
      · rw [f1, f3]; exact h3
  | wake =>
    simp only at h
    split at h
    · rename_i hw
      cases h
      refine ⟨n, hn, h1, h2, ?_⟩
      rw [hw.1] at h3
      simp only [reduceCtorEq, false_iff] at h3 ⊢
      exact h3
    · cases h
  | remove ok =>
    simp only at h
    split at h
    · rename_i f fs heq
      rw [heq] at h3
      split at h
      · cases h
        refine ⟨n, hn, h1, h2, ?_⟩
        simp only [reduceCtorEq, false_iff] at h3 ⊢
        exact h3
      · cases h
        refine ⟨n, hn, h1, h2, ?_⟩
        simp only [reduceCtorEq, false_iff] at h3 ⊢
        exact h3
    · cases h
  | leave =>
    simp only at h
    split at h
    · cases h; exact ⟨n, hn, h1, h2, h3⟩
    · cases h

theorem installed_ready {s : St} (hI : Installed s) (ht : s.todo = []) : s.thr ≠ .off ∧ ∀ x, s.acts x = [.shutdown, .arm, .note] := by
  obtain ⟨n, hn, h1, h2, h3⟩ := hI
  have hl : n = 10 := by
    have h10 : spawn.length = 10 := rfl
    rw [ht] at h1
    have := congrArg List.length h1
    rw [List.length_drop, List.length_nil] at this
    omega
  subst hl
  refine ⟨fun h => ?_, fun x => ?_⟩
  · have := h3.mp h; rw [ht] at this; cases this
  · rw [h2]; cases x <;> decide

theorem inv_init (socks : List Nat) : Inv (init socks) :=
  ⟨nofun, nofun, nofun, fun f hf => hf⟩

theorem inv_step (s : St) (l : Label) (s' : St) (hI : Installed s ∧ Inv s) (h : step s l = some s') : Installed s' ∧ Inv s' := by
  have hins := installed_step s l s' hI.1 h
  refine ⟨hins, installed_ready hins, ?_, ?_, ?_⟩
  all_goals
    obtain ⟨_, _, h2, h3, h4⟩ := hI
    unfold step at h
    split at h
    · cases h
  · cases l <;> simp only at h <;> (repeat' split at h) <;> (try cases h) <;> (try simp_all)
    · intro fs hfs
      obtain ⟨_, _, f3, f4, f5, f6, _⟩ := runActs_frame (s.acts ‹Sig›) s
      rw [f6, f4, f5]; rw [f3] at hfs; exact h2 fs hfs
    · grind
    · grind
  · cases l <;> simp only at h <;> (repeat' split at h) <;> (try cases h) <;> (try simp_all)
    · obtain ⟨_, _, f3, f4, f5, f6, f7⟩ := runActs_frame (s.acts ‹Sig›) s
      intro he
      rcases f7 with f7 | f7
      · rw [f7] at he; simp_all
      · rw [f7] at he; cases he
  · cases l <;> simp only at h <;> (repeat' split at h) <;> (try cases h) <;> (try simp_all)
    obtain ⟨_, _, f3, f4, f5, f6, f7⟩ := runActs_frame (s.acts ‹Sig›) s
    rw [f4, f5]; exact h4

theorem inv_run {socks : List Nat} {ls : List Label} {s : St} (h : Run socks ls s) : Installed s ∧ Inv s :=
  run_inv (I := fun s => Installed s ∧ Inv s) inv_step ⟨installed_init socks, inv_init socks⟩ h

theorem socks_run {socks : List Nat} {ls : List Label} {s : St} (h : Run socks ls s) : s.socks = socks := by
  refine run_inv (I := fun s => s.socks = socks) (fun s l s' hI h => ?_) rfl h
  unfold step at h
  split at h
  · cases h
  cases l <;> simp only at h <;> (repeat' split at h) <;> (try cases h) <;> (try exact hI)
  rw [(runActs_frame _ s).2.2.2.1]; exact hI

/-- C115: a daemon exits with status 0 only after it has removed its files, all those whose removal did not fail. -/
theorem C115_clean {socks : List Nat} {ls : List Label} {s : St} (h : Run socks ls s) (he : s.ended = some (.exit 0)) :
    ∀ f ∈ s.files, f ∈ s.failed := fun f hf => (inv_run h).2.left he f ((inv_run h).2.sub f hf) hf

/-- C115: a daemon that is sent no signal does not end and keeps its files. -/
theorem C115_unsignalled {socks : List Nat} {ls : List Label} {s : St} (h : Run socks ls s) (hl : ∀ l ∈ ls, l.isSignal = false) :
    s.ended = none ∧ s.files = socks := by
  have hd := deaf_run (s := init socks) ⟨rfl, rfl, by simp [init]⟩ hl h
  refine ⟨hd.1, ?_⟩
  have : ∀ (ls : List Label) (s0 : St), Deaf s0 → s0.files = socks → (∀ l ∈ ls, l.isSignal = false) → runSteps step s0 ls = some s → s.files = socks := by
    intro ls
    induction ls with
    | nil => intro s0 _ h1 _ h2; cases h2; exact h1
    | cons l ls ih =>
      intro s0 hd h1 hl h2
      obtain ⟨s1, h3, h4⟩ := run_cons_some h2
      refine ih s1 (deaf_step hd (hl l (by simp)) h3) ?_ (fun l' hl' => hl l' (by simp [hl'])) h4
      obtain ⟨d1, d2, d3⟩ := hd
      unfold step at h3
      rw [d1] at h3
      cases l <;> simp only [Option.isSome_none, Bool.false_eq_true, if_false] at h3 <;> (repeat' split at h3) <;> (try cases h3) <;>
        simp_all [Label.isSignal]
  exact this ls _ ⟨rfl, rfl, by simp [init]⟩ rfl hl h

/-- The end is under way, or has come in the orderly way. -/
def Going (s : St) : Prop := s.ended = some (.exit 0) ∨ (s.ended = none ∧ ((s.thr = .waiting ∧ s.pending = true) ∨ ∃ fs, s.thr = .removing fs))

theorem going_step {s : St} {l : Label} {s' : St} (hg : Going s ∧ s.todo = []) (hl : l.isSignal = false) (h : step s l = some s') :
    Going s' ∧ s'.todo = [] := by
  obtain ⟨hg, ht⟩ := hg
  unfold Going at *
  unfold step at h
  split at h
  · cases h
  cases l <;> simp only at h <;> (repeat' split at h) <;> (try cases h) <;> simp_all [Label.isSignal]

theorem going_ends {s : St} (hg : Going s) : ∃ ls' s', runSteps step s ls' = some s' ∧ (∀ l ∈ ls', l.isSignal = false ∧ l ≠ .remove false) ∧
    s'.ended = some (.exit 0) ∧ s'.failed = s.failed := by
  have hrem : ∀ fs (s : St), s.ended = none → s.thr = .removing fs → ∃ ls' s', runSteps step s ls' = some s' ∧
      (∀ l ∈ ls', l.isSignal = false ∧ l ≠ .remove false) ∧ s'.ended = some (.exit 0) ∧ s'.failed = s.failed := by
    intro fs
    induction fs with
    | nil =>
      intro s h1 h2
      have hst : step s .leave = some { s with ended := some (.exit 0) } := by simp [step, h1, h2]
      exact ⟨[.leave], { s with ended := some (.exit 0) }, by simp only [runSteps, hst], by simp [Label.isSignal], rfl, rfl⟩
    | cons f fs ih =>
      intro s h1 h2
      obtain ⟨ls', s', r1, r2, r3, r4⟩ := ih { s with thr := .removing fs, files := s.files.filter (· ≠ f) } h1 rfl
      have hst : step s (.remove true) = some { s with thr := .removing fs, files := s.files.filter (· ≠ f) } := by simp [step, h1, h2]
      refine ⟨.remove true :: ls', s', ?_, ?_, r3, r4⟩
      · simp only [runSteps, hst]; exact r1
      · intro l hl
        rcases List.mem_cons.mp hl with rfl | hl
        · simp [Label.isSignal]
        · exact r2 l hl
  rcases hg with h | ⟨h1, ⟨h2, h3⟩ | ⟨fs, h2⟩⟩
  · exact ⟨[], s, rfl, by simp, h, rfl⟩
  · obtain ⟨ls', s', r1, r2, r3, r4⟩ := hrem s.socks { s with thr := .removing s.socks, pending := false } h1 rfl
    have hst : step s .wake = some { s with thr := .removing s.socks, pending := false } := by simp [step, h1, h2, h3]
    refine ⟨.wake :: ls', s', ?_, ?_, r3, r4⟩
    · simp only [runSteps, hst]; exact r1
    · intro l hl
      rcases List.mem_cons.mp hl with rfl | hl
      · simp [Label.isSignal]
      · exact r2 l hl
  · exact hrem fs s h1 h2

theorem armed_run {socks : List Nat} {ls : List Label} {s : St} (h : Run socks ls s) (hl : ∀ l ∈ ls, l.isSignal = false) : s.armed = false := by
  have : ∀ (ls : List Label) (s0 : St), s0.armed = false → (∀ l ∈ ls, l.isSignal = false) → runSteps step s0 ls = some s → s.armed = false := by
    intro ls
    induction ls with
    | nil => intro s0 h1 _ h2; cases h2; exact h1
    | cons l ls ih =>
      intro s0 h1 hl h2
      obtain ⟨s1, h3, h4⟩ := run_cons_some h2
      refine ih s1 ?_ (fun l' hl' => hl l' (by simp [hl'])) h4
      have hll := hl l (by simp)
      unfold step at h3
      split at h3
      · cases h3
      cases l <;> simp only at h3 <;> (repeat' split at h3) <;> (try cases h3) <;> simp_all [Label.isSignal]
  exact this ls _ rfl hl h

/-- C115, proved part: once the handlers are installed, which is before the daemon serves anybody, the first signal ends the daemon:
whatever it does next, as long as it is not sent another, it can only end with status 0, and it can do so by itself from wherever it is;
all its files are gone then whose removal has not failed before. -/
theorem C115_first_partial {socks : List Nat} {ls ls' : List Label} {x : Sig} {s s' : St} (h : Run socks ls s)
    (hl : ∀ l ∈ ls, l.isSignal = false) (ht : s.todo = []) (hl' : ∀ l ∈ ls', l.isSignal = false)
    (h' : runSteps step s (.signal x :: ls') = some s') :
    (s'.ended = none ∨ s'.ended = some (.exit 0)) ∧
    (∃ ls'' s'', runSteps step s' ls'' = some s'' ∧ (∀ l ∈ ls'', l.isSignal = false) ∧ s''.ended = some (.exit 0) ∧
      ∀ f ∈ s''.files, f ∈ s'.failed) := by
  obtain ⟨s1, h1, h2⟩ := run_cons_some h'
  have hr := (inv_run h).2.ready ht
  have hun := C115_unsignalled h hl
  have harm := armed_run h hl
  have hd := deaf_run (s := init socks) ⟨rfl, rfl, by simp [init]⟩ hl h
  have hg1 : Going s1 ∧ s1.todo = [] := by
    unfold step at h1
    rw [hun.1] at h1
    simp only [Option.isSome_none, Bool.false_eq_true, if_false, hr.2 x] at h1
    cases h1
    simp only [runActs, harm, Bool.false_eq_true, if_false]
    refine ⟨.inr ⟨hun.1, .inl ⟨?_, rfl⟩⟩, ht⟩
    cases hthr : s.thr with
    | off => exact absurd hthr hr.1
    | waiting => rfl
    | removing fs => exact absurd hthr (hd.2.2 fs)
  have hg : Going s' ∧ s'.todo = [] := by
    clear h' h1 hun harm hd hr
    induction ls' generalizing s1 with
    | nil => cases h2; exact hg1
    | cons l ls' ih =>
      obtain ⟨s2, h3, h4⟩ := run_cons_some h2
      exact ih (fun l' hl'' => hl' l' (by simp [hl''])) s2 h4 (going_step hg1 (hl' l (by simp)) h3)
  refine ⟨?_, ?_⟩
  · rcases hg.1 with h | h
    · exact .inr h
    · exact .inl h.1
  · obtain ⟨ls'', s'', r1, r2, r3, r4⟩ := going_ends hg.1
    refine ⟨ls'', s'', r1, fun l hl => (r2 l hl).1, r3, ?_⟩
    have hrun : Run socks (ls ++ (.signal x :: ls' ++ ls'')) s'' := by
      unfold Run at *
      rw [run_append, h]
      show runSteps step s (.signal x :: ls' ++ ls'') = some s''
      rw [run_append, h']
      exact r1
    rw [← r4]
    exact C115_clean hrun r3

/-- The daemon has installed its handlers. -/
def installed : List Label := List.replicate 10 .next

example : ∃ s, Run [1, 2, 3] installed s ∧ s.todo = [] ∧ ∀ l ∈ installed, l.isSignal = false := ⟨_, rfl, rfl, by decide⟩

/-- C115: a second signal ends the daemon at once, with status 1, whatever it is doing. -/
theorem C115_second {socks : List Nat} {ls : List Label} {x : Sig} {s s' : St} (h : Run socks ls s) (ht : s.todo = [])
    (ha : s.armed = true) (h' : step s (.signal x) = some s') : s'.ended = some (.exit 1) := by
  have hr := (inv_run h).2.ready ht
  unfold step at h'
  split at h'
  · cases h'
  · simp only [hr.2 x, runActs, ha, if_true] at h'
    cases h'; rfl

/-- It may leave files behind. -/
example : ∃ s, Run [1, 2, 3] (installed ++ [.signal .int, .wake, .remove true, .signal .term]) s ∧ s.ended = some (.exit 1) ∧ s.files = [2, 3] :=
  ⟨_, rfl, rfl, by decide⟩

example : ∃ s, Run [1, 2, 3] (installed ++ [.signal .int, .wake, .remove true, .remove true, .remove true, .leave]) s ∧
    s.ended = some (.exit 0) ∧ s.files = [] := ⟨_, rfl, rfl, by decide⟩

/-- C115: the first signal does arm the second. -/
theorem C115_armed {socks : List Nat} {ls : List Label} {x : Sig} {s s' : St} (h : Run socks ls s) (ht : s.todo = [])
    (h' : step s (.signal x) = some s') : s'.ended.isSome = true ∨ (s'.armed = true ∧ s'.todo = []) := by
  have hr := (inv_run h).2.ready ht
  unfold step at h'
  split at h'
  · cases h'
  · simp only [hr.2 x, runActs] at h'
    split at h'
    · cases h'; exact .inl rfl
    · cases h'; exact .inr ⟨rfl, ht⟩

end Shpool.Signals
