import Verif.Server.Lemmas
/-!
# The invariant of the session table
-/

namespace Shpool.Server

/-- What holds in every reachable state. -/
structure Inv (s : St) : Prop where
  nodup : (s.table.map (·.1)).Nodup
  own : ∀ t x, (s.thr t).holds x ↔ (s.sess x).owner = some t
  blank : ∀ x, s.next ≤ x → s.sess x = blank
  tbl : ∀ n x, find n s.table = some x → x < s.next ∧ (s.sess x).name = n
  spawned : ∀ t n x, s.thr t = .spawned n x → x < s.next ∧ (s.sess x).name = n ∧ (s.sess x).owner = none ∧
    (s.sess x).stream = some t ∧ ∀ m, find m s.table ≠ some x
  owns : ∀ t n x, s.thr t = .owns n x → x < s.next ∧ (s.sess x).name = n
  streaming : ∀ t n x, s.thr t = .streaming n x → x < s.next ∧ (s.sess x).name = n
  ending : ∀ t n x b, s.thr t = .ending n x b → x < s.next ∧ (s.sess x).name = n
  leaving : ∀ t x, s.thr t = .leaving x → x < s.next
  blk : ∀ t n x, s.thr t = .blocked n x → s.lock = some t ∧ find n s.table = some x
  lock : ∀ t, s.lock = some t → ∃ n x, s.thr t = .blocked n x
  dead : ∀ t n x, s.thr t = .ending n x true → x < s.next ∧ (s.sess x).alive = false

theorem inv_init : Inv init where
  nodup := List.nodup_nil
  own := by simp [init, Phase.holds, blank]
  blank := by simp [init]
  tbl := by simp [init]
  spawned := by simp [init]
  owns := by simp [init]
  streaming := by simp [init]
  ending := by simp [init]
  leaving := by simp [init]
  blk := by simp [init]
  lock := by simp [init]
  dead := by simp [init]

theorem own_step {s s' : St} {l : Label} (h : Inv s) (he : Eff s l s') :
    ∀ t x, (s'.thr t).holds x ↔ (s'.sess x).owner = some t := by
  have hb : ∀ x, s.next ≤ x → (s.sess x).owner = none := fun x hx => by rw [h.blank x hx]; rfl
  have h := h.own
  cases he
  case kill names fail _ =>
    intro t x
    have := kill_sess s names fail x
    have := h t x
    rw [kill_thr]
    grind
  case detach names _ =>
    intro t x
    have := detach_sess s names x
    have h1 := h t x
    change (s.thr t).holds x ↔ _
    grind [Sess.recordDetached]
  case release t0 x0 _ =>
    intro t x
    have h1 := h t x
    have h2 := h t0 x
    simp only [setThr, setSess, upd_apply]
    grind [Phase.holds]
  all_goals
    intro t x
    have h1 := h t x
    try simp only [setThr, setSess, upd_apply, Sess.recordAttached, Sess.recordDetached]
    try (rename_i t0 _ _ _ _ _; have h2 := h t0 x)
    grind [Phase.holds]

set_option maxHeartbeats 2000000 in
theorem inv_step {s s' : St} {l : Label} (h : Inv s) (he : Eff s l s') : Inv s' := by
  have hown := own_step h he
  cases he
  case kill names fail _ =>
    have k1 := kill_fields s names fail
    have k0 := kill_sess s names fail
    have k2 := kill_find s names fail
    have k3 := kill_thr s names fail
    have k4 := kill_next s names fail
    have k5 := kill_lock s names fail
    obtain ⟨a1, a2, a3, a4, a5, a6, a7, a8, a9, a10, a11, a12⟩ := h
    refine ⟨?_, hown, ?_, ?_, ?_, ?_, ?_, ?_, ?_, ?_, ?_, ?_⟩
    · rcases kill_table s names fail with e | e
      · rw [e]; exact a1
      · rw [e]; exact eraseAll_nodup a1
    · intro x hx
      rw [k4] at hx
      rcases k0 x with e | e <;> rw [e, a3 x hx] <;> rfl
    all_goals
      clear k0 hown
      simp only [k3, k4, k5]
      grind
  case detach names _ =>
    have k1 := detach_fields s names
    have k0 := detach_sess s names
    have k3 : (detach s names).1.thr = s.thr := rfl
    have k4 : (detach s names).1.next = s.next := rfl
    have k5 : (detach s names).1.lock = s.lock := rfl
    have k6 : (detach s names).1.table = s.table := rfl
    obtain ⟨a1, a2, a3, a4, a5, a6, a7, a8, a9, a10, a11, a12⟩ := h
    refine ⟨a1, hown, ?_, ?_, ?_, ?_, ?_, ?_, ?_, ?_, ?_, ?_⟩
    · intro x hx
      rcases k0 x with e | ⟨-, e, -⟩
      · rw [e, a3 x hx]
      · rw [a3 x hx] at e
        cases e
    all_goals
      clear k0 hown
      simp only [k3, k4, k5, k6]
      grind
  all_goals
    obtain ⟨a1, a2, a3, a4, a5, a6, a7, a8, a9, a10, a11, a12⟩ := h
    clear a2
    refine ⟨?_, hown, ?_, ?_, ?_, ?_, ?_, ?_, ?_, ?_, ?_, ?_⟩
    · first | exact a1 | exact insert_nodup a1 | exact erase_nodup a1
    all_goals
      try simp only [setThr, setSess, upd_apply, Sess.recordAttached, Sess.recordDetached, find_insert, find_erase]
      clear hown
      grind [Server.blank]

theorem inv_of_run {ls : List Label} {s : St} (h : Run ls s) : Inv s :=
  run_inv (fun _ _ _ hi hs => inv_step hi (step_eff hs)) inv_init h

end Shpool.Server
