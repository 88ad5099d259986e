import Verif.Server.Props
/-! # Exactly when the events account for the table (C46) -/

namespace Shpool.Server

theorem erase_length_le {n : Name} {tb : Table} (hn : (tb.map (·.1)).Nodup) : tb.length ≤ (erase n tb).length + 1 := by
  by_cases h : (find n tb).isSome
  · have := erase_length hn h; omega
  · have : erase n tb = tb := erase_none (by simpa using h)
    rw [this]; omega

theorem eraseAll_cons (n : Name) (ns : List Name) (tb : Table) : eraseAll (n :: ns) tb = eraseAll ns (erase n tb) := rfl

theorem eraseAll_length_le {ns : List Name} {tb : Table} (hn : (tb.map (·.1)).Nodup) : tb.length ≤ (eraseAll ns tb).length + ns.length := by
  induction ns generalizing tb with
  | nil => exact Nat.le_refl _
  | cons n ns ih =>
    have h1 := erase_length_le (n := n) hn
    have h2 := ih (tb := erase n tb) (erase_nodup hn)
    rw [eraseAll_cons, List.length_cons]
    omega

theorem eraseAll_length_absent {ns : List Name} {tb : Table} (hn : (tb.map (·.1)).Nodup) {n : Name} (hm : n ∈ ns) (hf : find n tb = none) :
    tb.length < (eraseAll ns tb).length + ns.length := by
  induction ns generalizing tb with
  | nil => cases hm
  | cons m ns ih =>
    rw [eraseAll_cons, List.length_cons]
    by_cases e : m = n
    · subst e
      rw [erase_none hf]
      have := eraseAll_length_le (ns := ns) hn
      omega
    · rcases List.mem_cons.mp hm with h | h
      · exact absurd h.symm e
      · have h1 := erase_length_le (n := m) hn
        have h2 := ih (tb := erase m tb) (erase_nodup hn) h (by rw [find_erase_ne (fun h => e h.symm)]; exact hf)
        omega

theorem eraseAll_length_twice {ns : List Name} {tb : Table} (hn : (tb.map (·.1)).Nodup) (hd : ¬ ns.Nodup) :
    tb.length < (eraseAll ns tb).length + ns.length := by
  induction ns generalizing tb with
  | nil => exact absurd List.nodup_nil hd
  | cons n ns ih =>
    rw [eraseAll_cons, List.length_cons]
    have h1 := erase_length_le (n := n) hn
    rw [List.nodup_cons] at hd
    by_cases hm : n ∈ ns
    · have := eraseAll_length_absent (ns := ns) (tb := erase n tb) (erase_nodup hn) hm (find_erase_self n tb)
      omega
    · have := ih (tb := erase n tb) (erase_nodup hn) (fun h => hd ⟨hm, h⟩)
      omega

/-- Spec: the request is an answered one to kill, and names a session there is twice. -/
def KillsTwice (s : St) : Label → Prop
  | .kill names fail => (kill s names fail).2 ≠ none ∧ ¬ (names.filter fun n => (find n s.table).isSome).Nodup
  | _ => False

instance (s : St) (l : Label) : Decidable (KillsTwice s l) := by
  cases l <;> unfold KillsTwice <;> infer_instance

/-- One step: the sum of sessions and removals is never behind, and gets ahead exactly by naming a session twice. -/
theorem count_step {ls : List Label} {s s' : St} {l : Label} (hr : Run ls s) (hs : step s l = some s') :
    s.table.length + s.events.count .removed + s'.events.count .created ≤ s'.table.length + s'.events.count .removed + s.events.count .created ∧
    (s.table.length + s.events.count .removed + s'.events.count .created = s'.table.length + s'.events.count .removed + s.events.count .created ↔
      ¬ KillsTwice s l) := by
  have hi := inv_of_run hr
  have he := step_eff hs
  cases he
  case kill names fail _ =>
    have hok := killLoop_ok s.table names s.sess fail
    simp only [KillsTwice]
    unfold kill
    dsimp only
    split
    · rename_i hk
      have h1 := (hok hk).1
      have hc1 : ∀ ns : List Name, (ns.map (fun _ => Event.removed)).count .removed = ns.length := by
        intro ns; induction ns <;> simp_all
      have hc2 : ∀ ns : List Name, (ns.map (fun _ => Event.removed)).count .created = 0 := by
        intro ns; induction ns <;> simp_all
      have hle := eraseAll_length_le (ns := (killLoop s.table s.sess names fail).toRemove) hi.nodup
      simp only [List.count_append, hc1, hc2]
      rw [← h1]
      have hcase : (eraseAll (killLoop s.table s.sess names fail).toRemove s.table).length +
          (killLoop s.table s.sess names fail).toRemove.length = s.table.length ↔ (killLoop s.table s.sess names fail).toRemove.Nodup := by
        constructor
        · intro e
          refine Classical.byContradiction fun hd => ?_
          have := eraseAll_length_twice hi.nodup hd
          omega
        · intro hd
          refine eraseAll_length hi.nodup hd ?_
          intro n hn
          rw [h1] at hn
          exact (List.mem_filter.mp hn).2
      have hcc : (¬ (some (killLoop s.table s.sess names fail).notFound ≠ none ∧ ¬ (killLoop s.table s.sess names fail).toRemove.Nodup)) ↔
          (killLoop s.table s.sess names fail).toRemove.Nodup := by simp
      rw [hcc, ← hcase]
      simp only [eraseAll] at hle ⊢
      omega
    · simp
  case insert t n x h1 h2 =>
    simp only [KillsTwice, not_false_eq_true, iff_true]
    by_cases hf : (find n s.table).isSome
    · have := erase_length hi.nodup hf
      simp only [if_pos hf, List.count_append, Server.insert, List.length_cons]
      simp
      omega
    · have : erase n s.table = s.table := erase_none (by simpa using hf)
      simp only [if_neg hf, List.count_append, Server.insert, List.length_cons, this]
      simp
      omega
  case unlinkDone t n x h1 h2 =>
    simp only [KillsTwice, not_false_eq_true, iff_true]
    by_cases hf : (find n s.table).isSome
    · have := erase_length hi.nodup hf
      simp only [if_pos hf, List.count_append]
      simp
      omega
    · have : erase n s.table = s.table := erase_none (by simpa using hf)
      simp only [if_neg hf, this]
      simp
  case reap n fails x h1 h2 =>
    simp only [KillsTwice, not_false_eq_true, iff_true]
    have := erase_length hi.nodup (n := n) (by rw [h2]; rfl)
    simp only [List.count_append]
    simp
    omega
  case detach names _ =>
    have h1 : (detach s names).1.table = s.table ∧ (detach s names).1.events = s.events  := ⟨rfl, rfl⟩
    simp [KillsTwice, h1.1, h1.2]
  all_goals simp [KillsTwice, List.count_append, setThr, setSess]

/-- **C46** (exactly when): there are never fewer sessions and removals than creations, and as many exactly if no answered kill request named a session
there was twice. -/
theorem C46_exact {ls : List Label} {s : St} (h : Run ls s) :
    s.events.count .created ≤ s.table.length + s.events.count .removed ∧
    (s.table.length + s.events.count .removed = s.events.count .created ↔ Always (fun s l => ¬ KillsTwice s l) ls) := by
  have key : Run ls s ∧ s.events.count .created ≤ s.table.length + s.events.count .removed ∧
      (s.table.length + s.events.count .removed = s.events.count .created ↔ Always (fun s l => ¬ KillsTwice s l) ls) := by
    refine run_hist (step := step) (s := init) (I := fun ls s => Run ls s ∧ s.events.count .created ≤ s.table.length + s.events.count .removed ∧
      (s.table.length + s.events.count .removed = s.events.count .created ↔ Always (fun s l => ¬ KillsTwice s l) ls)) ?_ ?_ h
    · rintro ls s l s' ⟨hr, h1, h2⟩ hs
      obtain ⟨h3, h4⟩ := count_step hr hs
      refine ⟨run_snoc hr hs, by omega, ?_⟩
      have : Always (fun s l => ¬ KillsTwice s l) (ls ++ [l]) ↔ Always (fun s l => ¬ KillsTwice s l) ls ∧ ¬ KillsTwice s l := by
        refine ⟨fun h => ⟨always_snoc h, always_last h hr⟩, ?_⟩
        rintro ⟨ha, hl⟩ pre l' post s0 e hr0
        rcases List.eq_nil_or_concat post with rfl | ⟨post', x, rfl⟩
        · obtain ⟨rfl, e2⟩ := List.append_inj' e rfl
          cases e2
          have : s0 = s := Option.some.inj (hr0.symm.trans hr)
          rw [this]; exact hl
        · rw [List.concat_eq_append, ← List.cons_append, ← List.append_assoc] at e
          obtain ⟨e1, -⟩ := List.append_inj' e rfl
          exact ha pre l' post' s0 e1 hr0
      rw [this, ← h2, ← h4]
      omega
    · refine ⟨rfl, by decide, fun _ => ?_, fun _ => by decide⟩
      intro pre l post s0 e _
      cases pre <;> cases e
  exact key.2

example : ∃ s, Run [.select 0 a false, .spawn 0, .insert 0] s ∧ KillsTwice s (.kill [a, b, a] none) ∧ ¬ KillsTwice s (.kill [a, b, b] none) :=
  ⟨_, rfl, by decide, by decide⟩

end Shpool.Server
