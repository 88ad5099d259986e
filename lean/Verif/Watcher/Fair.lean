import Verif.Watcher.Props
import Verif.Util.Fair

/-! # In every fair execution the last version of a configuration file is loaded -/

namespace Shpool.Watcher

def isHandle : Label → Bool
  | .handle _ => true
  | _ => false

def isTimeout : Label → Bool
  | .timeout => true
  | _ => false

/-- The watcher takes events as long as there are any, reloads when it is time, and time goes on. -/
structure Fair (σ : Nat → St) (lab : Nat → Option Label) : Prop where
  handle : WeakFair step σ lab isHandle
  timeout : WeakFair step σ lab isTimeout
  time : ∀ t, ∃ i, t ≤ (σ i).now

theorem now_mono {s s' : St} {l : Label} (hs : step s l = some s') : s.now ≤ s'.now := by
  by_cases htk : ∃ ms, l = .tick ms
  · obtain ⟨ms, rfl⟩ := htk; cases hs; simp
  · by_cases hl : l = .timeout
    · subst hl
      simp only [step] at hs
      split at hs
      · split at hs <;> cases hs; simp
      · cases hs
    · rw [(step_time hs hl (fun ms e => htk ⟨ms, e⟩)).1]; exact Nat.le_refl _

/-- A deadline stays until the reload. -/
theorem deadline_step {s s' : St} {l : Label} {d : Nat} (hd : s.deadline = some d) (hl : l ≠ .timeout) (hs : step s l = some s') :
    s'.deadline = some d :=
  (C34_not_postponed s s' [l] (by simp [runSteps, hs]) (by simpa using fun e => hl e.symm)).1 d hd

theorem now_from {σ : Nat → St} {lab : Nat → Option Label} (hx : Exec step σ lab) {m i : Nat} (h : m ≤ i) : (σ m).now ≤ (σ i).now :=
  exec_stays hx (p := fun s => (σ m).now ≤ s.now) (m := m) (fun _ _ _ _ hp hs => Nat.le_trans hp (now_mono hs)) (Nat.le_refl _) i h

/-- C34 over time: when a reload has been asked for, one happens, in every fair execution, whatever else happens meanwhile. -/
theorem C34_fair_reload {σ : Nat → St} {lab : Nat → Option Label} (hx : Exec step σ lab) (hf : Fair σ lab) {m : Nat}
    (hd : (σ m).deadline.isSome = true) : ∃ i, m ≤ i ∧ lab i = some .timeout := by
  refine Classical.byContradiction fun hno => ?_
  obtain ⟨d, hd⟩ := Option.isSome_iff_exists.mp hd
  have hdl : ∀ i, m ≤ i → (σ i).deadline = some d :=
    exec_stays hx (p := fun s => s.deadline = some d) (m := m)
      (fun i l hi hl hp hs => deadline_step hp (fun e => hno ⟨i, hi, by rw [hl, e]⟩) hs) hd
  obtain ⟨j, hj⟩ := hf.time d
  have hcan : ∀ i, max m j ≤ i → Can step isTimeout (σ i) := by
    intro i hi
    refine ⟨.timeout, rfl, ?_⟩
    have h1 := hdl i (by omega)
    have h2 : d ≤ (σ i).now := Nat.le_trans hj (now_from hx (by omega))
    simp only [step, h1]
    rw [if_pos h2]; rfl
  obtain ⟨i, l, hi, hl, ht⟩ := hf.timeout ⟨_, hcan⟩ m
  cases l <;> simp [isTimeout] at ht
  exact hno ⟨i, hi, hl⟩

/-- While no reload is asked for, an existing file keeps its entry, the events taken do not concern it, and others come after those in the queue. -/
theorem undue_step {s s' : St} {l : Label} {en : Entry} {x : Nat} (h : Inv s) (hb : Benign s l) (hs : step s l = some s') (hen : en ∈ s.paths)
    (hx : content s.fs en.target = some x) (hd : s.deadline = none) (hd' : s'.deadline = none) :
    en ∈ s'.paths ∧ (isHandle l = false → ∃ more, s'.queue = s.queue ++ more) ∧
    (isHandle l = true → ∃ e, s.queue = e :: s'.queue ∧ ¬ (Rel e en ∨ About e en.target)) := by
  cases l with
  | create p c => simp only [step] at hs; split at hs <;> cases hs; exact ⟨hen, fun _ => ⟨_, rfl⟩, nofun⟩
  | write p c => simp only [step] at hs; split at hs <;> cases hs; exact ⟨hen, fun _ => ⟨_, List.append_assoc _ _ _⟩, nofun⟩
  | remove p => simp only [step] at hs; split at hs <;> cases hs; exact ⟨hen, fun _ => ⟨_, List.append_assoc _ _ _⟩, nofun⟩
  | replace p c => simp only [step] at hs; split at hs <;> cases hs; exact ⟨hen, fun _ => ⟨_, List.append_assoc _ _ _⟩, nofun⟩
  | moveDir p => exact hb.elim
  | noise e => cases hs; exact ⟨hen, fun _ => ⟨_, rfl⟩, nofun⟩
  | tick ms => cases hs; exact ⟨hen, fun _ => ⟨[], by simp⟩, nofun⟩
  | timeout => simp only [step, hd] at hs; cases hs
  | add t =>
    cases hs
    unfold addWatch at hd' ⊢
    split at hd'
    · rename_i ha
      rw [if_pos ha]
      exact ⟨hen, fun _ => ⟨[], by simp⟩, nofun⟩
    · rename_i ha
      rw [if_neg ha]
      simp only at hd' ⊢
      have hne : en.target ≠ t := fun e => ha (by simpa using ⟨en, hen, e⟩)
      have hin : en ∈ (watchAndAdd s t).1.paths := by
        simp only [watchAndAdd, List.mem_cons, List.mem_filter, decide_eq_true_eq]
        exact .inr ⟨hen, hne⟩
      split
      · exact ⟨hin, fun _ => ⟨[], by simp [trigger, watchAndAdd]⟩, nofun⟩
      · exact ⟨hin, fun _ => ⟨[], by simp [watchAndAdd]⟩, nofun⟩
  | handle order =>
    simp only [step] at hs
    split at hs
    · cases hs
    · rename_i e rest hq
      split at hs
      · rename_i hp
        cases hs
        have ha : Alone s e := hb e (by rw [hq]; rfl)
        have htrig : ∀ s1 : St, (trigger s1).deadline ≠ none := by
          intro s1
          simp only [trigger]
          split <;> simp
        have hperm := List.isPerm_iff.mp hp
        rcases toRewatch_alone h hperm ha with hl | ⟨en0, hen0, hre0, hl⟩
        · have hnr : ∀ en ∈ s.paths, ¬ Rel e en := by
            intro en hen hre
            have : (en.target, en.watched) ∈ toRewatch order e := mem_toRewatch.mpr ⟨en, hperm.mem_iff.mpr hen, hre, rfl⟩
            rw [hl] at this; cases this
          have hdr : drains e = false := by
            cases hdr : drains e with
            | false => rfl
            | true =>
              simp only [drains, Bool.or_eq_true, decide_eq_true_eq] at hdr
              exact absurd (hdr.elim .inl fun h => .inr (.inl h)) (hnr en hen)
          unfold handle at hd' ⊢
          rw [hl] at hd' ⊢
          simp only [rewatchAny, Bool.or_false, hdr, Bool.false_eq_true, if_false] at hd' ⊢
          cases hr : eventReloads s.paths e with
          | true => rw [hr, if_pos rfl] at hd'; exact absurd hd' (htrig _)
          | false =>
            rw [if_neg (by simp)]
            refine ⟨hen, nofun, fun _ => ⟨e, hq, ?_⟩⟩
            rintro (h1 | h1)
            · exact hnr en hen h1
            · rw [eventReloads_of_about hen h1] at hr; cases hr
        · obtain ⟨r1, r2⟩ : eventReloads s.paths e = false ∧ nearest s.fs en0.target ≠ en0.target := by
            unfold handle at hd'
            rw [hl] at hd'
            simp only [rewatchAny, watchAndAdd] at hd'
            cases hr : eventReloads s.paths e with
            | true => rw [hr] at hd'; exact absurd hd' (by simpa using htrig _)
            | false =>
              refine ⟨rfl, fun hn => ?_⟩
              simp only [hr, hn, decide_true, if_true, Bool.or_true] at hd'
              exact htrig _ hd'
          have hne : en.target ≠ en0.target := by
            intro ht
            refine r2 ?_
            have hex := ex_of_content hx
            rw [ht] at hex
            exact suffix_antisymm (nearest_suffix _ _) (nearest_max _ _ _ (List.suffix_refl _) hex)
          obtain ⟨hnr, _⟩ := ha en0 hen0 hre0 en hen hne
          have hdr : drains e = false := by
            cases hdr : drains e with
            | false => rfl
            | true =>
              simp only [drains, Bool.or_eq_true, decide_eq_true_eq] at hdr
              exact absurd (hdr.elim .inl fun h => .inr (.inl h)) hnr
          unfold handle
          rw [hl]
          simp only [rewatchAny, watchAndAdd, hdr, r1, decide_eq_false r2, Bool.false_eq_true, if_false, Bool.or_false]
          refine ⟨?_, nofun, fun _ => ⟨e, hq, ?_⟩⟩
          · simp only [List.mem_cons, List.mem_filter, decide_eq_true_eq]
            exact .inr ⟨hen, hne⟩
          · rintro (h1 | h1)
            · exact hnr h1
            · rw [eventReloads_of_about hen h1] at r1; cases r1
      · cases hs

theorem rewatchAny_seen (s : St) (ps : List (Path × Path)) : (rewatchAny s ps).1.seen = s.seen := by
  induction ps generalizing s with
  | nil => rfl
  | cons tw ps ih =>
    simp only [rewatchAny]
    split
    · rfl
    · rw [ih]; rfl

/-- Only a reload changes what has been loaded, and it loads the files as they are. -/
theorem seen_step {s s' : St} {l : Label} (hs : step s l = some s') : (l ≠ .timeout ∧ s'.seen = s.seen) ∨ (l = .timeout ∧ s'.seen = s.fs) := by
  cases l with
  | create p c => simp only [step] at hs; split at hs <;> cases hs; exact .inl ⟨nofun, rfl⟩
  | write p c => simp only [step] at hs; split at hs <;> cases hs; exact .inl ⟨nofun, rfl⟩
  | remove p => simp only [step] at hs; split at hs <;> cases hs; exact .inl ⟨nofun, rfl⟩
  | replace p c => simp only [step] at hs; split at hs <;> cases hs; exact .inl ⟨nofun, rfl⟩
  | moveDir p => simp only [step] at hs; split at hs <;> cases hs; exact .inl ⟨nofun, rfl⟩
  | noise e => cases hs; exact .inl ⟨nofun, rfl⟩
  | tick ms => cases hs; exact .inl ⟨nofun, rfl⟩
  | timeout =>
    simp only [step] at hs
    split at hs
    · split at hs <;> cases hs; exact .inr ⟨rfl, rfl⟩
    · cases hs
  | add t =>
    cases hs
    refine .inl ⟨nofun, ?_⟩
    unfold addWatch
    split
    · rfl
    · simp only
      split <;> rfl
  | handle order =>
    simp only [step] at hs
    split at hs
    · cases hs
    · rename_i e rest _
      split at hs
      · cases hs
        refine .inl ⟨nofun, ?_⟩
        have hr := rewatchAny_seen { s with queue := rest, paths := if drains e then [] else s.paths } (toRewatch order e)
        unfold handle
        dsimp only
        generalize rewatchAny _ _ = r at hr ⊢
        split <;> exact hr
      · cases hs

open Classical in
/-- C34 over time (partial): a file that was asked to be watched, and is not changed any more, is loaded with its last content, and that
stays so, in every fair execution in which no directory is moved away with its contents and no event concerns two of the watched files. -/
theorem C34_fair_partial {σ : Nat → St} {lab : Nat → Option Label} {fs : Fs} (hx : Exec step σ lab) (h0 : σ 0 = init fs) (hc : Closed fs)
    (hb : ∀ n, BenignRun fs (performed lab n)) (hf : Fair σ lab) {t : Path} {x j m : Nat} (ha : lab j = some (.add t))
    (hcon : ∀ i, m ≤ i → content (σ i).fs t = some x) : ∃ k, ∀ i, k ≤ i → content (σ i).seen t = some x := by
  have hrun : ∀ i, Run fs (performed lab i) (σ i) := fun i => ⟨hc, by have h := exec_run hx i; rw [h0] at h; exact h⟩
  have hinv : ∀ i, Inv (σ i) := fun i => (run_facts (hrun i) (hb i)).1
  have hben : ∀ i l, lab i = some l → Benign (σ i) l := fun i l hl =>
    hb (i + 1) (performed lab i) l [] (σ i) (by simp [performed, hl]) (hrun i).2
  have hpath : ∀ i, j < i → ∃ en ∈ (σ i).paths, en.target = t := by
    intro i hi
    refine (run_facts (hrun i) (hb i)).2 t ?_
    have : ∀ n, j < n → Label.add t ∈ performed lab n := by
      intro n
      induction n with
      | zero => omega
      | succ n ih =>
        intro hn
        by_cases h : j = n
        · subst h; simp [performed, ha]
        · exact List.mem_append_left _ (ih (by omega))
    exact this i hi
  -- once it has been seen, it stays seen
  have hstay : ∀ k, m ≤ k → content (σ k).seen t = some x → ∀ i, k ≤ i → content (σ i).seen t = some x := by
    intro k hk hs
    refine exec_stays hx (p := fun s => content s.seen t = some x) (m := k) (fun i l hi _ hp h => ?_) hs
    rcases seen_step h with ⟨_, he⟩ | ⟨_, he⟩
    · rw [he]; exact hp
    · rw [he]; exact hcon i (by omega)
  refine Classical.byContradiction fun hno => ?_
  have hns : ∀ i, m ≤ i → content (σ i).seen t ≠ some x := fun i hi hs => hno ⟨i, hstay i hi hs⟩
  have hnt : ∀ i, m ≤ i → lab i ≠ some .timeout := by
    intro i hi hl
    refine hns (i + 1) (by omega) ?_
    rcases seen_step (exec_at hx hl) with ⟨h, _⟩ | ⟨_, he⟩
    · exact absurd rfl h
    · rw [he]; exact hcon i hi
  have hnd : ∀ i, m ≤ i → (σ i).deadline = none := by
    intro i hi
    cases hd : (σ i).deadline with
    | none => rfl
    | some d =>
      obtain ⟨k, hk, hl⟩ := C34_fair_reload hx hf (m := i) (by rw [hd]; rfl)
      exact absurd hl (hnt k (by omega))
  -- the event that will make the watcher reload comes nearer
  obtain ⟨en, hen, rfl⟩ := hpath (max m (j + 1)) (by omega)
  let A : Event → Bool := fun e => decide (Rel e en ∨ About e en.target)
  have hq : ∀ i, m ≤ i → en ∈ (σ i).paths → ∃ e ∈ (σ i).queue, A e = true := by
    intro i hi he
    rcases (hinv i).fresh en he x (hcon i hi) with h | h | ⟨e, he, h⟩
    · exact absurd h (hns i hi)
    · rw [hnd i hi] at h; cases h
    · exact ⟨e, he, decide_eq_true h⟩
  obtain ⟨_, _, h⟩ := fair_reaches hx hf.handle (B := fun s => en ∈ s.paths) (G := fun _ => False) (fun s => s.queue.findIdx A)
    (m := max m (j + 1)) hen (fun i hi he => by
      obtain ⟨e, he, _⟩ := hq i (by omega) he
      refine ⟨.handle (σ i).paths, rfl, ?_⟩
      simp only [step]
      split
      · rename_i hn; rw [hn] at he; cases he
      · rw [if_pos (List.isPerm_iff.mpr (List.Perm.refl _))]; rfl) (fun i l hi hl he hs => by
      obtain ⟨h1, h2, h3⟩ := undue_step (hinv i) (hben i l hl) hs he (hcon i (by omega)) (hnd i (by omega)) (hnd (i + 1) (by omega))
      refine .inr ⟨h1, ?_⟩
      cases hh : isHandle l with
      | false =>
        obtain ⟨more, hm⟩ := h2 hh
        refine ⟨?_, nofun⟩
        rw [hm, List.findIdx_append, if_pos (List.findIdx_lt_length.mpr (hq i (by omega) he))]
        exact Nat.le_refl _
      | true =>
        obtain ⟨e, hm, hne⟩ := h3 hh
        have : (σ i).queue.findIdx A = (σ (i + 1)).queue.findIdx A + 1 := by
          rw [hm, List.findIdx_cons]
          have : A e = false := decide_eq_false hne
          rw [this]; rfl
        omega)
  exact h

/-- C34 over time (partial), with one configuration file: only moving directories away has to be excluded. -/
theorem C34_fair_single_partial {σ : Nat → St} {lab : Nat → Option Label} {fs : Fs} (hx : Exec step σ lab) (h0 : σ 0 = init fs) (hc : Closed fs)
    {t : Path} (hone : ∀ i t', lab i = some (.add t') → t' = t) (hmv : ∀ i p, lab i ≠ some (.moveDir p)) (hf : Fair σ lab) {x j m : Nat}
    (ha : lab j = some (.add t)) (hcon : ∀ i, m ≤ i → content (σ i).fs t = some x) : ∃ k, ∀ i, k ≤ i → content (σ i).seen t = some x := by
  refine C34_fair_partial hx h0 hc (fun n => ?_) hf ha hcon
  refine benign_single fs _ (σ n) t ⟨hc, by have h := exec_run hx n; rw [h0] at h; exact h⟩ (fun t' h => ?_) (fun p h => ?_)
  · obtain ⟨i, _, hl⟩ := mem_performed h; exact hone i t' hl
  · obtain ⟨i, _, hl⟩ := mem_performed h; exact hmv i p hl

/-- A file is created, written and replaced, and then nothing happens any more. -/
def demoFor (i : Nat) : Label := demoRun[i]?.getD (.tick 1)

def demoEnd : St := { follow step (init []) demoFor 11 with now := 0 }

theorem demo_after (i : Nat) : follow step (init []) demoFor (11 + i) = { demoEnd with now := 100 + i } := by
  induction i with
  | zero => decide
  | succ i ih =>
    have hl : demoFor (11 + i) = .tick 1 := by
      simp only [demoFor]
      rw [List.getElem?_eq_none (by simp [demoRun])]; rfl
    show (step (follow step (init []) demoFor (11 + i)) (demoFor (11 + i))).getD _ = _
    rw [hl, ih]
    rfl

theorem demo_exec : Exec step (follow step (init []) demoFor) (fun i => some (demoFor i)) := by
  refine follow_exec fun i => ?_
  by_cases hi : i < 11
  · have : ∀ i : Fin 11, (step (follow step (init []) demoFor i) (demoFor i)).isSome = true := by decide
    exact this ⟨i, hi⟩
  · have hl : demoFor i = .tick 1 := by
      simp only [demoFor]
      rw [List.getElem?_eq_none (by simp [demoRun]; omega)]; rfl
    rw [hl]; rfl

example : ∃ σ lab, Exec step σ lab ∧ σ 0 = init [] ∧ Fair σ lab ∧ (∀ i t', lab i = some (.add t') → t' = [1, 9]) ∧
    (∀ i p, lab i ≠ some (.moveDir p)) ∧ lab 0 = some (.add [1, 9]) ∧ ∀ i, 11 ≤ i → content (σ i).fs [1, 9] = some 5 := by
  have hend : ∀ i, 11 ≤ i → ∃ n, follow step (init []) demoFor i = { demoEnd with now := 100 + n } := by
    intro i hi
    have := demo_after (i - 11)
    rw [show 11 + (i - 11) = i by omega] at this
    exact ⟨_, this⟩
  have hlab : ∀ i, demoFor i ∈ demoRun ∨ demoFor i = .tick 1 := by
    intro i
    simp only [demoFor]
    cases h : demoRun[i]? with
    | none => exact .inr rfl
    | some l => exact .inl (List.mem_of_getElem? h)
  refine ⟨_, _, demo_exec, rfl, ⟨fun ⟨n, h⟩ => ?_, fun ⟨n, h⟩ => ?_, fun t => ⟨11 + t, by rw [demo_after]; show t ≤ 100 + t; omega⟩⟩, ?_, ?_, rfl, ?_⟩
  · exfalso
    obtain ⟨l, hl, hs⟩ := h (max n 11) (by omega)
    obtain ⟨k, hk⟩ := hend (max n 11) (by omega)
    rw [hk] at hs
    cases l <;> simp [isHandle] at hl
    have : ∀ o, step { demoEnd with now := 100 + k } (.handle o) = none := fun _ => rfl
    rw [this] at hs; cases hs
  · exfalso
    obtain ⟨l, hl, hs⟩ := h (max n 11) (by omega)
    obtain ⟨k, hk⟩ := hend (max n 11) (by omega)
    rw [hk] at hs
    cases l <;> simp [isTimeout] at hl
    have : step { demoEnd with now := 100 + k } .timeout = none := rfl
    rw [this] at hs; cases hs
  · intro i t' h
    simp only [Option.some.injEq] at h
    rcases hlab i with hm | hm
    · rw [h] at hm; simpa [demoRun] using hm
    · rw [h] at hm; cases hm
  · intro i p h
    simp only [Option.some.injEq] at h
    rcases hlab i with hm | hm
    · rw [h] at hm; simp [demoRun] at hm
    · rw [h] at hm; cases hm
  · intro i hi
    obtain ⟨k, hk⟩ := hend i hi
    rw [hk]; rfl

end Shpool.Watcher
