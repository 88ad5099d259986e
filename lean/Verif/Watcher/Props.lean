import Verif.Watcher.Lemmas
import Verif.Util.List
/-!
# Properties C34 and C35: the configuration watcher
-/

namespace Shpool.Watcher

/-! ## Specification vocabulary -/

/-- `w` is the nearest ancestor of `t` (or `t` itself) that exists. -/
def IsNearest (fs : Fs) (t w : Path) : Prop :=
  w <:+ t ∧ ex fs w = true ∧ ∀ a, a <:+ t → ex fs a = true → a <:+ w

/-- Everything reported has been dealt with and no reload is due. -/
def Idle (s : St) : Prop := s.queue = [] ∧ s.deadline = none

/-- The runs of the watcher from a file system in which parents exist. -/
def Run (fs : Fs) (ls : List Label) (s : St) : Prop := Closed fs ∧ runSteps step (init fs) ls = some s

/-- What a step must satisfy in the partial theorems: no directory is moved away with its contents, and the event taken concerns at
most one of the watched files (and a watch not shared with another). -/
def Benign (s : St) : Label → Prop
  | .moveDir _ => False
  | .handle _ => ∀ e ∈ s.queue.head?, Alone s e
  | _ => True

def BenignRun (fs : Fs) (ls : List Label) : Prop :=
  ∀ a l b s1, ls = a ++ l :: b → runSteps step (init fs) a = some s1 → Benign s1 l

theorem step_inv {s s' : St} {l : Label} (h : Inv s) (hb : Benign s l) (hs : step s l = some s') :
    Inv s' ∧ (∀ en ∈ s.paths, ∃ en' ∈ s'.paths, en'.target = en.target) ∧ (∀ t, l = .add t → ∃ en ∈ s'.paths, en.target = t) := by
  have keep : s'.paths = s.paths → ∀ en ∈ s.paths, ∃ en' ∈ s'.paths, en'.target = en.target :=
    fun he en hen => ⟨en, by rw [he]; exact hen, rfl⟩
  cases l with
  | create p x =>
    refine ⟨inv_create h hs, keep ?_, fun t e => by cases e⟩
    simp only [step] at hs; split at hs <;> cases hs; rfl
  | write p x =>
    refine ⟨inv_write h hs, keep ?_, fun t e => by cases e⟩
    simp only [step] at hs; split at hs <;> cases hs; rfl
  | remove p =>
    refine ⟨inv_remove h hs, keep ?_, fun t e => by cases e⟩
    simp only [step] at hs; split at hs <;> cases hs; rfl
  | replace p x =>
    refine ⟨inv_replace h hs, keep ?_, fun t e => by cases e⟩
    simp only [step] at hs; split at hs <;> cases hs; rfl
  | moveDir p => exact hb.elim
  | noise e =>
    cases hs
    exact ⟨inv_noise h, keep rfl, fun t e => by cases e⟩
  | tick ms =>
    cases hs
    exact ⟨⟨h.closed, h.nodup, h.shape, fun en hen => h.watched en hen, fun en hen => h.fresh en hen⟩, keep rfl, fun t e => by cases e⟩
  | add t =>
    cases hs
    obtain ⟨h1, h2, h3⟩ := inv_add (t := t) h
    exact ⟨h1, h3, fun t' e => by cases e; exact h2⟩
  | handle order =>
    simp only [step] at hs
    split at hs
    · cases hs
    · next e rest hq =>
      split at hs
      · next hp =>
        cases hs
        have ha : Alone s e := hb e (by rw [hq]; rfl)
        obtain ⟨h1, h2⟩ := inv_handle h hq (List.isPerm_iff.mp hp) ha
        exact ⟨h1, h2, fun t e => by cases e⟩
      · cases hs
  | timeout =>
    refine ⟨inv_timeout h hs, keep ?_, fun t e => by cases e⟩
    simp only [step] at hs
    split at hs
    · split at hs <;> cases hs
      rfl
    · cases hs

theorem run_facts {fs : Fs} {ls : List Label} {s : St} (hr : Run fs ls s) (hb : BenignRun fs ls) :
    Inv s ∧ ∀ t, Label.add t ∈ ls → ∃ en ∈ s.paths, en.target = t := by
  obtain ⟨hc, hr⟩ := hr
  induction ls using snocInd generalizing s with
  | nil => cases hr; exact ⟨inv_init fs hc, by simp⟩
  | snoc ls l ih =>
    obtain ⟨s1, h1, h2⟩ := run_append_some hr
    obtain ⟨hi, hm⟩ := ih (fun a l' b s1 he => hb a l' (b ++ [l]) s1 (by rw [he]; simp)) h1
    simp only [runSteps] at h2
    cases hs : step s1 l with
    | none => rw [hs] at h2; cases h2
    | some s2 =>
      rw [hs] at h2; cases h2
      obtain ⟨k1, k2, k3⟩ := step_inv hi (hb ls l [] s1 (by simp) h1) hs
      refine ⟨k1, fun t ht => ?_⟩
      rcases List.mem_append.mp ht with ht | ht
      · obtain ⟨en, hen, rfl⟩ := hm t ht
        exact k2 en hen
      · rw [List.mem_singleton] at ht
        exact k3 t ht.symm

/-! ## C35 -/

/-- C35 in full: whenever all reports have been dealt with, the nearest existing ancestor of every path that was asked to be watched
is being watched. -/
def C35_statement : Prop := ∀ fs ls s t, Run fs ls s → Label.add t ∈ ls → s.queue = [] → ∃ w ∈ s.watches, IsNearest s.fs t w

/-- C35 (partial). It holds in runs in which no directory is moved away with its contents and no event concerns two of the watched
paths.  (What is missing: see the three counterexamples below.) -/
theorem C35_watched_partial (fs : Fs) (ls : List Label) (s : St) (t : Path) (hr : Run fs ls s) (hb : BenignRun fs ls)
    (ht : Label.add t ∈ ls) (hq : s.queue = []) : ∃ w ∈ s.watches, IsNearest s.fs t w := by
  obtain ⟨hi, hm⟩ := run_facts hr hb
  obtain ⟨en, hen, rfl⟩ := hm t ht
  obtain ⟨hsuf, hch⟩ := hi.shape en hen
  rcases hi.watched en hen with ⟨h1, h2, h3⟩ | ⟨e, he, -⟩
  · refine ⟨en.watched, h1, hsuf, h2, ?_⟩
    intro a ha hea
    rw [hch] at h3
    rw [← nearest_of_child hi.closed hsuf h2 h3]
    exact nearest_max _ _ _ ha hea
  · rw [hq] at he; cases he

/-- With one watched path every event is benign. -/
theorem benign_single (fs : Fs) (ls : List Label) (s : St) (t : Path) (hr : Run fs ls s) (hone : ∀ t', Label.add t' ∈ ls → t' = t)
    (hmv : ∀ p, Label.moveDir p ∉ ls) : BenignRun fs ls := by
  have hsub : ∀ (ps : List (Path × Path)) (s0 : St), (∀ tw ∈ ps, tw.1 = t) → (∀ en ∈ s0.paths, en.target = t) →
      ∀ en ∈ (rewatchAny s0 ps).1.paths, en.target = t := by
    intro ps
    induction ps with
    | nil => intro s0 _ h; exact h
    | cons tw ps ih =>
      intro s0 hps h
      have h1 : ∀ en ∈ (watchAndAdd { s0 with watches := s0.watches.filter (· ≠ tw.2) } tw.1).1.paths, en.target = t := by
        intro en hen
        simp only [watchAndAdd, List.mem_cons, List.mem_filter] at hen
        rcases hen with rfl | ⟨hen, -⟩
        · exact hps tw (by simp)
        · exact h en hen
      simp only [rewatchAny]
      split
      · exact h1
      · exact ih _ (fun tw' h' => hps tw' (List.mem_cons_of_mem _ h')) h1
  have inv : ∀ (a : List Label) (s1 : St), (∀ t', Label.add t' ∈ a → t' = t) → runSteps step (init fs) a = some s1 →
      ∀ en ∈ s1.paths, en.target = t := by
    intro a
    induction a using snocInd with
    | nil => intro s1 _ h; cases h; simp [init]
    | snoc a l ih =>
      intro s1 hone h
      obtain ⟨s0, h1, h2⟩ := run_append_some h
      have ih := ih s0 (fun t' h => hone t' (List.mem_append_left _ h)) h1
      simp only [runSteps] at h2
      cases hs : step s0 l with
      | none => rw [hs] at h2; cases h2
      | some s2 =>
        rw [hs] at h2; cases h2
        cases l with
        | create p x => simp only [step] at hs; split at hs <;> cases hs; exact ih
        | write p x => simp only [step] at hs; split at hs <;> cases hs; exact ih
        | remove p => simp only [step] at hs; split at hs <;> cases hs; exact ih
        | replace p x => simp only [step] at hs; split at hs <;> cases hs; exact ih
        | moveDir p => simp only [step] at hs; split at hs <;> cases hs; exact ih
        | noise e => cases hs; exact ih
        | tick ms => cases hs; exact ih
        | timeout =>
          simp only [step] at hs
          split at hs
          · split at hs <;> cases hs
            exact ih
          · cases hs
        | add t' =>
          cases hs
          have ht' := hone t' (by simp)
          have hw : ∀ en ∈ (watchAndAdd s0 t').1.paths, en.target = t := by
            intro en hen
            simp only [watchAndAdd, List.mem_cons, List.mem_filter] at hen
            rcases hen with rfl | ⟨hen, -⟩
            · exact ht'
            · exact ih en hen
          unfold addWatch
          split
          · exact ih
          · dsimp only
            split <;> exact hw
        | handle order =>
          simp only [step] at hs
          split at hs
          · cases hs
          · next e rest hq =>
            split at hs
            · next hp =>
              cases hs
              have hperm := List.isPerm_iff.mp hp
              have hps : ∀ tw ∈ toRewatch order e, tw.1 = t := by
                intro tw htw
                obtain ⟨en, hen, -, rfl⟩ := mem_toRewatch.mp htw
                exact ih en (hperm.mem_iff.mp hen)
              have := hsub (toRewatch order e) { s0 with queue := rest, paths := if drains e then [] else s0.paths } hps (by
                intro en hen
                dsimp only at hen
                split at hen
                · cases hen
                · exact ih en hen)
              unfold handle
              dsimp only
              generalize rewatchAny _ _ = r at this ⊢
              split <;> exact this
            · cases hs
  intro a l b s1 he ha
  have h1 := inv a s1 (fun t' h => hone t' (by rw [he]; exact List.mem_append_left _ h)) ha
  cases l with
  | moveDir p => exact (hmv p (by rw [he]; simp)).elim
  | handle order =>
    intro e _ en hen _ en' hen' hne
    exact absurd ((h1 en' hen').trans (h1 en hen).symm) hne
  | _ => trivial

/-- C35 (partial). With one configuration file (as when it is given on the command line) the path stays watched after any sequence of
file system changes and reports, rescans and errors included, short of moving whole directories. -/
theorem C35_single_partial (fs : Fs) (ls : List Label) (s : St) (t : Path) (hr : Run fs ls s)
    (hone : ∀ t', Label.add t' ∈ ls → t' = t) (hmv : ∀ p, Label.moveDir p ∉ ls) (ht : Label.add t ∈ ls) (hq : s.queue = []) :
    ∃ w ∈ s.watches, IsNearest s.fs t w :=
  C35_watched_partial fs ls s t hr (benign_single fs ls s t hr hone hmv) ht hq

/-- Two files in the root directory. -/
def fs2 : Fs := [([1], 0), ([2], 0)]

theorem closed_of_flat (fs : Fs) (h : ∀ e ∈ fs, e.1.tail = []) : Closed fs := by
  intro x p he
  unfold ex content at he
  simp only [Bool.or_eq_true, decide_eq_true_eq, reduceCtorEq, false_or, Option.isSome_map, List.find?_isSome] at he
  obtain ⟨e, h1, h2⟩ := he
  have := h e h1
  rw [h2] at this
  have hp : p = [] := this
  subst hp; rfl

/-- A rescan makes the watcher forget one of two existing files: the loop over the drained table stops at the first that asks for a
reload. -/
def forgetRun : List Label :=
  [.add [1], .add [2], .noise ⟨.rescan, []⟩, .handle [⟨[2], [2], [2]⟩, ⟨[1], [1], [1]⟩], .remove [1], .handle [⟨[2], [2], [2]⟩]]

/-- C35 fails: after a rescan one of the two standard files may be forgotten for good. -/
theorem C35_false : ¬ C35_statement := by
  intro h
  obtain ⟨w, hw, hn⟩ := h fs2 forgetRun _ [1] ⟨closed_of_flat _ (by decide), rfl⟩ (by decide) (by decide)
  have hw2 : w = [2] := by simpa [forgetRun] using (show w ∈ [[2]] from hw)
  subst hw2
  exact absurd hn.1 (by decide)

/-- The same without a rescan: two files in a directory that does not exist yet; the directory and the first file are created before
the watcher gets to look; then the second file appears and nobody notices. -/
theorem C35_false_shared : ∃ s, Run [] [.add [1, 9], .add [2, 9], .create [9] 0, .create [1, 9] 5,
      .handle [⟨[1, 9], [], [9]⟩, ⟨[2, 9], [], [9]⟩], .tick 100, .timeout, .create [2, 9] 6] s ∧
    Idle s ∧ content s.fs [2, 9] = some 6 ∧ content s.seen [2, 9] = none := by
  refine ⟨_, ⟨closed_of_flat _ (by decide), rfl⟩, ?_⟩
  exact ⟨⟨by decide, by decide⟩, by decide, by decide⟩

/-- Even a single file is lost if a directory above it is moved away: nothing is reported. -/
theorem C35_false_moved_directory : ∃ s, Run [([9], 0), ([8, 9], 0), ([1, 8, 9], 0)]
      [.add [1, 8, 9], .tick 100, .timeout, .moveDir [9], .create [9] 0, .create [8, 9] 0, .create [1, 8, 9] 7] s ∧
    Idle s ∧ content s.fs [1, 8, 9] = some 7 ∧ content s.seen [1, 8, 9] = some 0 := by
  refine ⟨_, ⟨?_, rfl⟩, ⟨by decide, by decide⟩, by decide, by decide⟩
  intro x p he
  unfold ex content at he
  simp only [Bool.or_eq_true, decide_eq_true_eq, reduceCtorEq, false_or, Option.isSome_map, List.find?_isSome] at he
  obtain ⟨e, h1, h2⟩ := he
  revert h1 h2
  simp only [List.mem_cons, List.not_mem_nil, or_false]
  rintro (rfl | rfl | rfl) h2 <;> (injection h2 with _ h3; subst h3; decide)

/-- And a file created between two attempts to find a watchable ancestor is missed: the watch ends up on its parent although the file
exists by then.  Without changes in between the search finds the nearest existing ancestor. -/
theorem C35_false_race : (∃ fs0 fs1 t, bestEffortRacy [fs0, fs1] t ≠ t ∧ ex fs1 t = true) ∧
    ∀ (fs : Fs) (t : Path), bestEffortRacy (List.replicate t.length fs) t = nearest fs t := by
  refine ⟨⟨[], [([1], 0)], [1], by decide, by decide⟩, ?_⟩
  intro fs t
  induction t with
  | nil => rfl
  | cons x p ih =>
    rw [List.length_cons, List.replicate_succ]
    simp only [bestEffortRacy, nearest, ih]

/-- A run meeting the hypotheses: create the directory, the file, edit it, replace it, remove it. -/
def demoRun : List Label := [.add [1, 9], .create [9] 0, .handle [⟨[1, 9], [], [9]⟩], .create [1, 9] 3, .handle [⟨[1, 9], [9], [1, 9]⟩],
  .write [1, 9] 4, .handle [⟨[1, 9], [1, 9], [1, 9]⟩], .replace [1, 9] 5, .handle [⟨[1, 9], [1, 9], [1, 9]⟩], .tick 100, .timeout]

example : ∃ s, Run [] demoRun s ∧ (∀ t', Label.add t' ∈ demoRun → t' = [1, 9]) ∧ (∀ p, Label.moveDir p ∉ demoRun) ∧
    Idle s ∧ s.watches = [[1, 9]] ∧ content s.seen [1, 9] = some 5 ∧ s.reloads = [100] := by
  refine ⟨_, ⟨closed_of_flat _ (by decide), rfl⟩, ?_, by simp [demoRun], ⟨by decide, by decide⟩, by decide, by decide, by decide⟩
  intro t' h
  simpa [demoRun] using h

/-! ## C34 -/

/-- C34 in full (no change is lost): when the watcher is idle, the last reload saw the current content of every file it was asked to
watch, present or absent. -/
def C34_statement : Prop := ∀ fs ls s t, Run fs ls s → BenignRun fs ls → Label.add t ∈ ls → Idle s → content s.seen t = content s.fs t

/-- C34 (no lost change, partial). When the watcher is idle, the last reload saw the current content of every watched file that
exists. -/
theorem C34_no_lost_change_partial (fs : Fs) (ls : List Label) (s : St) (t : Path) (x : Nat) (hr : Run fs ls s) (hb : BenignRun fs ls)
    (ht : Label.add t ∈ ls) (hidle : Idle s) (hx : content s.fs t = some x) : content s.seen t = some x := by
  obtain ⟨hi, hm⟩ := run_facts hr hb
  obtain ⟨en, hen, rfl⟩ := hm t ht
  rcases hi.fresh en hen x hx with h1 | h1 | ⟨e, he, -⟩
  · exact h1
  · rw [hidle.2] at h1; cases h1
  · rw [hidle.1] at he; cases he

/-- The run in which a removal is missed. -/
def missedRemoval : List Label := [.add [1, 9], .remove [1, 9], .remove [9], .handle [⟨[1, 9], [1, 9], [1, 9]⟩],
  .create [9] 0, .create [1, 9] 1, .tick 100, .timeout, .remove [1, 9], .handle [⟨[1, 9], [], [9]⟩]]

/-- C34 fails for absent files: a file loaded by a reload that happened to run while its directory was not yet watched, and removed
before it is, stays in force. -/
theorem C34_false : ¬ C34_statement := by
  intro h
  have hrun : ∃ s, Run [([9], 0), ([1, 9], 0)] missedRemoval s ∧ Idle s ∧ content s.seen [1, 9] = some 1 ∧ content s.fs [1, 9] = none := by
    refine ⟨_, ⟨?_, rfl⟩, ⟨by decide, by decide⟩, by decide, by decide⟩
    intro x p he
    unfold ex content at he
    simp only [Bool.or_eq_true, decide_eq_true_eq, reduceCtorEq, false_or, Option.isSome_map, List.find?_isSome] at he
    obtain ⟨e, h1, h2⟩ := he
    revert h1 h2
    simp only [List.mem_cons, List.not_mem_nil, or_false]
    rintro (rfl | rfl) h2 <;> (injection h2 with _ h3; subst h3; decide)
  obtain ⟨s, hr, hi, h1, h2⟩ := hrun
  have := h _ _ s [1, 9] hr (benign_single _ _ s [1, 9] hr (by intro t' h; simpa [missedRemoval] using h) (by simp [missedRemoval]))
    (by decide) hi
  rw [h1, h2] at this
  cases this

theorem watchAndAdd_time (s : St) (t : Path) : (watchAndAdd s t).1.deadline = s.deadline ∧ (watchAndAdd s t).1.now = s.now ∧
    (watchAndAdd s t).1.reloads = s.reloads := ⟨rfl, rfl, rfl⟩

theorem rewatchAny_time (s : St) (ps : List (Path × Path)) : (rewatchAny s ps).1.deadline = s.deadline ∧ (rewatchAny s ps).1.now = s.now ∧
    (rewatchAny s ps).1.reloads = s.reloads := by
  induction ps generalizing s with
  | nil => exact ⟨rfl, rfl, rfl⟩
  | cons tw ps ih =>
    simp only [rewatchAny]
    split
    · exact ⟨rfl, rfl, rfl⟩
    · obtain ⟨h1, h2, h3⟩ := ih (watchAndAdd { s with watches := s.watches.filter (· ≠ tw.2) } tw.1).1
      exact ⟨h1, h2, h3⟩

/-- A step other than a reload or the passing of time leaves the clock and a pending deadline alone, and sets a new one only to one
debounce period from now. -/
theorem step_time {s s' : St} {l : Label} (hs : step s l = some s') (hl : l ≠ .timeout) (ht : ∀ ms, l ≠ .tick ms) :
    s'.now = s.now ∧ s'.reloads = s.reloads ∧ (s'.deadline = s.deadline ∨ (s.deadline = none ∧ s'.deadline = some (s.now + debounce))) := by
  have trig : ∀ s1 : St, s1.now = s.now → s1.reloads = s.reloads → s1.deadline = s.deadline →
      (trigger s1).now = s.now ∧ (trigger s1).reloads = s.reloads ∧
      ((trigger s1).deadline = s.deadline ∨ (s.deadline = none ∧ (trigger s1).deadline = some (s.now + debounce))) := by
    intro s1 h1 h2 h3
    refine ⟨h1, h2, ?_⟩
    simp only [trigger, h1, h3]
    cases s.deadline with
    | none => exact .inr ⟨rfl, rfl⟩
    | some d => exact .inl rfl
  cases l with
  | create p x => simp only [step] at hs; split at hs <;> cases hs; exact ⟨rfl, rfl, .inl rfl⟩
  | write p x => simp only [step] at hs; split at hs <;> cases hs; exact ⟨rfl, rfl, .inl rfl⟩
  | remove p => simp only [step] at hs; split at hs <;> cases hs; exact ⟨rfl, rfl, .inl rfl⟩
  | replace p x => simp only [step] at hs; split at hs <;> cases hs; exact ⟨rfl, rfl, .inl rfl⟩
  | moveDir p => simp only [step] at hs; split at hs <;> cases hs; exact ⟨rfl, rfl, .inl rfl⟩
  | noise e => cases hs; exact ⟨rfl, rfl, .inl rfl⟩
  | tick ms => exact absurd rfl (ht ms)
  | timeout => exact absurd rfl hl
  | add t =>
    cases hs
    unfold addWatch
    split
    · exact ⟨rfl, rfl, .inl rfl⟩
    · dsimp only
      split
      · exact trig _ rfl rfl rfl
      · exact ⟨rfl, rfl, .inl rfl⟩
  | handle order =>
    simp only [step] at hs
    split at hs
    · cases hs
    · next e rest hq =>
      split at hs
      · cases hs
        obtain ⟨h1, h2, h3⟩ := rewatchAny_time { s with queue := rest, paths := if drains e then [] else s.paths } (toRewatch order e)
        unfold handle
        dsimp only
        generalize rewatchAny _ _ = r at h1 h2 h3 ⊢
        split
        · exact trig _ h2 h3 h1
        · exact ⟨h2, h3, .inl h1⟩
      · cases hs

/-- C34 (never postponed). Once a reload is due at some time, it stays due at that time until it happens, whatever else happens; and
it was at most one debounce period away when it was scheduled. -/
theorem C34_not_postponed (s s' : St) (ls : List Label) (h : runSteps step s ls = some s') (hnt : Label.timeout ∉ ls) :
    (∀ d, s.deadline = some d → s'.deadline = some d) ∧
    (∀ l s1, s.deadline = none → step s l = some s1 → ∀ d, s1.deadline = some d → d = s1.now + debounce) := by
  constructor
  · intro d hd
    induction ls generalizing s with
    | nil => cases h; exact hd
    | cons l ls ih =>
      simp only [runSteps] at h
      cases hs : step s l with
      | none => rw [hs] at h; cases h
      | some s1 =>
        rw [hs] at h
        refine ih s1 h (fun hm => hnt (List.mem_cons_of_mem _ hm)) ?_
        by_cases htk : ∃ ms, l = .tick ms
        · obtain ⟨ms, rfl⟩ := htk
          cases hs; exact hd
        · have hl : l ≠ .timeout := by intro e; exact hnt (by rw [e]; simp)
          rcases (step_time hs hl (fun ms e => htk ⟨ms, e⟩)).2.2 with h1 | ⟨h1, -⟩
          · rw [h1]; exact hd
          · rw [hd] at h1; cases h1
  · intro l s1 hn hs d hd
    by_cases htk : ∃ ms, l = .tick ms
    · obtain ⟨ms, rfl⟩ := htk
      cases hs; rw [hn] at hd; cases hd
    · by_cases hl : l = .timeout
      · subst hl
        simp only [step, hn] at hs; cases hs
      · obtain ⟨h1, -, h3⟩ := step_time hs hl (fun ms e => htk ⟨ms, e⟩)
        rcases h3 with h3 | ⟨-, h3⟩
        · rw [h3, hn] at hd; cases hd
        · rw [h3] at hd; cases hd; rw [h1]

/-- C34 (coalescing). Reloads are at least one debounce period apart, however many events there are. -/
theorem C34_spacing (fs : Fs) (ls : List Label) (s : St) (hr : runSteps step (init fs) ls = some s) :
    s.reloads.Pairwise (fun later earlier => earlier + debounce ≤ later) := by
  let I : St → Prop := fun s => (∀ r ∈ s.reloads, r ≤ s.now) ∧ (∀ d, s.deadline = some d → ∀ r ∈ s.reloads, r + debounce ≤ d) ∧
    s.reloads.Pairwise (fun later earlier => earlier + debounce ≤ later)
  have hstep : ∀ s l s', I s → step s l = some s' → I s' := by
    intro s l s' ⟨h1, h2, h3⟩ hs
    by_cases htk : ∃ ms, l = .tick ms
    · obtain ⟨ms, rfl⟩ := htk
      cases hs
      exact ⟨fun r hr => Nat.le_trans (h1 r hr) (Nat.le_add_right _ _), h2, h3⟩
    · by_cases hl : l = .timeout
      · subst hl
        simp only [step] at hs
        split at hs
        · next d hd =>
          split at hs
          · next hle =>
            cases hs
            refine ⟨?_, (fun d hd => by cases hd), ?_⟩
            · intro r hr
              rcases List.mem_cons.mp hr with rfl | hr
              · exact Nat.le_refl _
              · exact h1 r hr
            · exact List.pairwise_cons.mpr ⟨fun r hr => Nat.le_trans (h2 d hd r hr) hle, h3⟩
          · cases hs
        · cases hs
      · obtain ⟨k1, k2, k3⟩ := step_time hs hl (fun ms e => htk ⟨ms, e⟩)
        refine ⟨by rw [k1, k2]; exact h1, ?_, by rw [k2]; exact h3⟩
        intro d hd r hr
        rw [k2] at hr
        rcases k3 with k3 | ⟨-, k3⟩
        · exact h2 d (by rw [← k3]; exact hd) r hr
        · rw [k3] at hd; cases hd
          have := h1 r hr; omega
  exact (run_inv hstep (I := I) (⟨by simp [init], by simp [init], by simp [init]⟩) hr).2.2

/-- C34 (reload when due). A due reload can run at once, and the reload sees the files as they are at that moment; nothing else starts
a reload. -/
theorem C34_reload (s : St) :
    (∀ d, s.deadline = some d → d ≤ s.now → ∃ s', step s .timeout = some s' ∧ s'.seen = s.fs ∧ s'.deadline = none) ∧
    (s.deadline = none → step s .timeout = none) ∧ (∀ d, s.deadline = some d → s.now < d → step s .timeout = none) := by
  refine ⟨?_, ?_, ?_⟩
  · intro d hd hle
    simp only [step, hd, hle, if_true]
    exact ⟨_, rfl, rfl, rfl⟩
  · intro hd; simp only [step, hd]
  · intro d hd hlt
    simp only [step, hd]
    rw [if_neg (by omega)]

example : ∃ s, runSteps step (init fs2) [.add [1], .write [1] 4, .handle [⟨[1], [1], [1]⟩], .tick 100, .timeout, .write [1] 5,
    .handle [⟨[1], [1], [1]⟩], .tick 130, .timeout] = some s ∧ s.reloads = [230, 100] := ⟨_, rfl, rfl⟩

end Shpool.Watcher
