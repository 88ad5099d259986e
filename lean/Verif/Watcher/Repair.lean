import Verif.Watcher.Props
/-!
# The configuration watcher, repaired (C34, C35)

Counterfactual: `rewatch`, `/repo/libshpool/src/config_watcher.rs` 344-366, looks at every entry an event concerns, whether or not one of them asks
for a reload, keeps the table, and does not give up a watch that another entry may share.
-/

namespace Shpool.Watcher

/-- `rewatch` (config_watcher.rs 344-366) without unwatching and without stopping at the first that asks for a reload. -/
def rewatchAll (s : St) : List Path → St × Bool
  | [] => (s, false)
  | t :: ts =>
    let (s', reload) := watchAndAdd s t
    let (s'', reload') := rewatchAll s' ts
    (s'', reload || reload')

/-- One event in `run`, config_watcher.rs 379-395, with it. -/
def handleR (s : St) (paths : List Entry) (e : Event) : St :=
  let (s', r) := rewatchAll s ((toRewatch paths e).map (·.1))
  if eventReloads s.paths e || r then trigger s' else s'

/-- The watcher (config_watcher.rs 368-408) with it. -/
def stepR (s : St) : Label → Option St
  | .handle order => match s.queue with
    | [] => none
    | e :: rest => if order.isPerm s.paths then some (handleR { s with queue := rest } order e) else none
  | l => step s l

private def Part (s : St) (T : List Path) (D : Prop) : Prop :=
  Closed s.fs ∧ (s.paths.map (·.target)).Nodup ∧ (∀ en ∈ s.paths, en.watched <:+ en.target ∧ en.child = child en.watched en.target) ∧
  ∀ en ∈ s.paths, en.target ∉ T → Watched s en ∧ (D ∨ Fresh s en)

private theorem part_add {s : St} {t : Path} {ts : List Path} {D : Prop} (h : Part s (t :: ts) D) :
    Part (watchAndAdd s t).1 ts (D ∨ (watchAndAdd s t).2 = true) := by
  obtain ⟨hcl, hnd, hsh, hwf⟩ := h
  refine ⟨hcl, ?_, ?_, ?_⟩
  · simp only [watchAndAdd, List.map_cons, List.nodup_cons, List.mem_map, List.mem_filter, decide_eq_true_eq]
    refine ⟨?_, ?_⟩
    · rintro ⟨en, ⟨-, h1⟩, h2⟩; exact h1 h2
    · exact (List.Sublist.map _ List.filter_sublist).nodup hnd
  · intro en hen
    simp only [watchAndAdd, List.mem_cons, List.mem_filter] at hen
    rcases hen with rfl | ⟨hen, -⟩
    · exact ⟨nearest_suffix _ _, rfl⟩
    · exact hsh en hen
  · intro en hen hT
    simp only [watchAndAdd, List.mem_cons, List.mem_filter, decide_eq_true_eq] at hen
    rcases hen with rfl | ⟨hen, hne⟩
    · refine ⟨.inl ⟨by simp [watchAndAdd], nearest_ex _ _, ?_⟩, ?_⟩
      · by_cases hwt : nearest s.fs t = t
        · exact .inl hwt
        · right
          obtain ⟨x, h1, h2⟩ := child_spec (nearest_suffix s.fs t) hwt
          dsimp only [watchAndAdd]
          rw [h1]
          cases he : ex s.fs (x :: nearest s.fs t) with
          | false => rfl
          | true =>
            have := (nearest_max s.fs t _ h2 he).length_le
            simp at this; omega
      · by_cases hr : (watchAndAdd s t).2 = true
        · exact .inl (.inr hr)
        · refine .inr fun x hx => ?_
          have hte : ex s.fs t = true := ex_of_content hx
          have : nearest s.fs t = t := suffix_antisymm (nearest_suffix _ _) (nearest_max _ _ _ (List.suffix_refl t) hte)
          simp [watchAndAdd, this] at hr
    · obtain ⟨hw, hf⟩ := hwf en hen (by simp [hne, hT])
      refine ⟨?_, ?_⟩
      · rcases hw with ⟨h1, h2, h3⟩ | h1
        · left
          refine ⟨?_, h2, h3⟩
          simp only [watchAndAdd, List.mem_cons, List.mem_filter, decide_eq_true_eq]
          by_cases he : en.watched = nearest s.fs t
          · exact .inl he
          · exact .inr ⟨h1, he⟩
        · exact .inr h1
      · rcases hf with hD | hf
        · exact .inl (.inl hD)
        · exact .inr hf

private theorem part_all {ts : List Path} {s : St} {D : Prop} (h : Part s ts D) : Part (rewatchAll s ts).1 [] (D ∨ (rewatchAll s ts).2 = true) ∧
    (∀ en ∈ s.paths, ∃ en' ∈ (rewatchAll s ts).1.paths, en'.target = en.target) := by
  induction ts generalizing s D with
  | nil =>
    refine ⟨⟨h.1, h.2.1, h.2.2.1, fun en hen hT => ?_⟩, fun en hen => ⟨en, hen, rfl⟩⟩
    obtain ⟨h1, h2⟩ := h.2.2.2 en hen hT
    exact ⟨h1, h2.elim (fun h => .inl (.inl h)) .inr⟩
  | cons t ts ih =>
    obtain ⟨⟨h1, h2, h3, h4⟩, h5⟩ := ih (part_add h)
    refine ⟨⟨h1, h2, h3, fun en hen hT => ?_⟩, fun en hen => ?_⟩
    · obtain ⟨k1, k2⟩ := h4 en hen hT
      refine ⟨k1, k2.elim (fun h => .inl ?_) .inr⟩
      simp only [rewatchAll, Bool.or_eq_true]
      exact or_assoc.mp h
    · by_cases ht : en.target = t
      · obtain ⟨en', k1, k2⟩ := h5 ⟨t, nearest s.fs t, child (nearest s.fs t) t⟩ (by simp [watchAndAdd])
        exact ⟨en', k1, k2.trans ht.symm⟩
      · exact h5 en (by simp [watchAndAdd, hen, ht])

private theorem inv_handleR {s : St} {e : Event} {rest : List Event} {order : List Entry} (h : Inv s) (hq : s.queue = e :: rest)
    (hp : order.Perm s.paths) : Inv (handleR { s with queue := rest } order e) ∧
    (∀ en ∈ s.paths, ∃ en' ∈ (handleR { s with queue := rest } order e).paths, en'.target = en.target) := by
  have h0 : Part { s with queue := rest } ((toRewatch order e).map (·.1)) (eventReloads s.paths e = true) := by
    refine ⟨h.closed, h.nodup, h.shape, fun en hen hT => ?_⟩
    have hnr : ¬ Rel e en := fun hre =>
      hT (List.mem_map.mpr ⟨(en.target, en.watched), mem_toRewatch.mpr ⟨en, hp.mem_iff.mpr hen, hre, rfl⟩, rfl⟩)
    refine ⟨watched_tail hq (h.watched en hen) hnr rfl rfl (fun h => h), ?_⟩
    by_cases hab : About e en.target
    · exact .inl (eventReloads_of_about hen hab)
    · exact .inr (fresh_tail hq (h.fresh en hen) hnr hab rfl rfl rfl rfl)
  obtain ⟨⟨h1, h2, h3, h4⟩, h5⟩ := part_all h0
  unfold handleR
  dsimp only
  generalize rewatchAll _ _ = r at h1 h2 h3 h4 h5 ⊢
  split
  · exact ⟨⟨h1, h2, h3, fun en hen => (h4 en hen (by simp)).1, fun en hen x hx => .inr (.inl (trigger_fs _).2.2.2.2.2.2.2)⟩, h5⟩
  · rename_i hr
    simp only [Bool.or_eq_true] at hr
    exact ⟨⟨h1, h2, h3, fun en hen => (h4 en hen (by simp)).1, fun en hen => (h4 en hen (by simp)).2.resolve_left hr⟩, h5⟩

private theorem stepR_inv {s s' : St} {l : Label} (h : Inv s) (hm : ∀ p, l ≠ .moveDir p) (hs : stepR s l = some s') :
    Inv s' ∧ (∀ en ∈ s.paths, ∃ en' ∈ s'.paths, en'.target = en.target) ∧ (∀ t, l = .add t → ∃ en ∈ s'.paths, en.target = t) := by
  cases l with
  | handle order =>
    simp only [stepR] at hs
    split at hs
    · cases hs
    · next e rest hq =>
      split at hs
      · next hp =>
        cases hs
        obtain ⟨h1, h2⟩ := inv_handleR h hq (List.isPerm_iff.mp hp)
        exact ⟨h1, h2, nofun⟩
      · cases hs
  | moveDir p => exact absurd rfl (hm p)
  | create | write | remove | replace | noise | tick | add | timeout => exact step_inv h trivial hs

private theorem runR_facts {fs : Fs} {ls : List Label} {s : St} (hc : Closed fs) (hr : runSteps stepR (init fs) ls = some s)
    (hm : ∀ p, Label.moveDir p ∉ ls) : Inv s ∧ ∀ t, Label.add t ∈ ls → ∃ en ∈ s.paths, en.target = t := by
  induction ls using snocInd generalizing s with
  | nil => cases hr; exact ⟨inv_init fs hc, by simp⟩
  | snoc ls l ih =>
    obtain ⟨s1, h1, h2⟩ := run_append_some hr
    obtain ⟨hi, hmem⟩ := ih h1 (fun p h => hm p (List.mem_append_left _ h))
    simp only [runSteps] at h2
    cases hs : stepR s1 l with
    | none => rw [hs] at h2; cases h2
    | some s2 =>
      rw [hs] at h2; cases h2
      obtain ⟨k1, k2, k3⟩ := stepR_inv hi (fun p e => hm p (by rw [e]; simp)) hs
      refine ⟨k1, fun t ht => ?_⟩
      rcases List.mem_append.mp ht with ht | ht
      · obtain ⟨en, hen, rfl⟩ := hmem t ht
        exact k2 en hen
      · rw [List.mem_singleton] at ht
        exact k3 t ht.symm

/-- **C35** (repaired).  Had `rewatch` looked at every entry and kept the watches, every path asked for would be watched, whatever is created, written,
removed, replaced or reported, for any number of files; only the moving of whole directories would still be missed. -/
theorem C35_repaired (fs : Fs) (ls : List Label) (s : St) (t : Path) (hc : Closed fs) (hr : runSteps stepR (init fs) ls = some s)
    (hm : ∀ p, Label.moveDir p ∉ ls) (ht : Label.add t ∈ ls) (hq : s.queue = []) : ∃ w ∈ s.watches, IsNearest s.fs t w := by
  obtain ⟨hi, hmem⟩ := runR_facts hc hr hm
  obtain ⟨en, hen, rfl⟩ := hmem t ht
  obtain ⟨hsuf, hch⟩ := hi.shape en hen
  rcases hi.watched en hen with ⟨h1, h2, h3⟩ | ⟨e, he, -⟩
  · refine ⟨en.watched, h1, hsuf, h2, ?_⟩
    intro a ha hea
    rw [hch] at h3
    rw [← nearest_of_child hi.closed hsuf h2 h3]
    exact nearest_max _ _ _ ha hea
  · rw [hq] at he; cases he

/-- **C34** (repaired in the same way).  No change of an existing file would be lost, for any number of files. -/
theorem C34_repaired (fs : Fs) (ls : List Label) (s : St) (t : Path) (x : Nat) (hc : Closed fs) (hr : runSteps stepR (init fs) ls = some s)
    (hm : ∀ p, Label.moveDir p ∉ ls) (ht : Label.add t ∈ ls) (hidle : Idle s) (hx : content s.fs t = some x) :
    content s.seen t = some x := by
  obtain ⟨hi, hmem⟩ := runR_facts hc hr hm
  obtain ⟨en, hen, rfl⟩ := hmem t ht
  rcases hi.fresh en hen x hx with h1 | h1 | ⟨e, he, -⟩
  · exact h1
  · rw [hidle.2] at h1; cases h1
  · rw [hidle.1] at he; cases he

/-- The run of `C35_false_shared`, with the second file created while it is watched for: it is loaded. -/
def sharedRun : List Label := [.add [1, 9], .add [2, 9], .create [9] 0, .create [1, 9] 5, .handle [⟨[2, 9], [], [9]⟩, ⟨[1, 9], [], [9]⟩],
  .tick 100, .timeout, .create [2, 9] 6, .handle [⟨[1, 9], [1, 9], [1, 9]⟩, ⟨[2, 9], [9], [2, 9]⟩], .tick 100, .timeout]

example : ∃ s, runSteps stepR (init []) sharedRun = some s ∧ Idle s ∧ content s.fs [2, 9] = some 6 ∧ content s.seen [2, 9] = some 6 :=
  ⟨_, rfl, ⟨by decide, by decide⟩, by decide, by decide⟩

end Shpool.Watcher
