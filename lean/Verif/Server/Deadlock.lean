import Verif.Server.Props
/-! # Exactly when the daemon is stuck for good (C48) -/

namespace Shpool.Server

/-- A request waits for a session holding the table's lock, and the request having the session is past the point where it can give it up
without the table. -/
private structure Stuck (t y o : Nat) (s : St) : Prop where
  lock : s.lock = some t
  waits : ∃ n, s.thr t = .blocked n y
  has : (s.sess y).owner = some o
  needs : (∃ n, s.thr o = .streaming n y) ∨ ∃ n d, s.thr o = .ending n y d
  next : y < s.next

private theorem stuck_step {t y o : Nat} {s s' : St} {l : Label} (hi : Inv s) (hd : Stuck t y o s) (hs : step s l = some s') :
    Stuck t y o s' := by
  obtain ⟨h1, h2, h3, h4, h5⟩ := hd
  have he := step_eff hs
  have hb := hi.blk
  have hown : ∀ t x, s.thr t = .leaving x → (s.sess x).owner = some t := fun t x e => (hi.own t x).mp (by rw [e]; rfl)
  have hto : t ≠ o := by
    rintro rfl
    obtain ⟨n, h2⟩ := h2
    rcases h4 with ⟨m, h4⟩ | ⟨m, d, h4⟩ <;> rw [h2] at h4 <;> cases h4
  clear hs hi
  cases he
  all_goals
    first
      | (exfalso; grind)
      | (refine ⟨?_, ?_, ?_, ?_, ?_⟩
         all_goals
           (try simp only [setThr, setSess, upd_apply]) <;> grind)

/-- **C48** (exactly when): a request that holds the table's lock, waiting for a session, can still get it — and the daemon go on — exactly
if the session is free, or whoever has it is either about to let it go or has not begun to pass bytes and may still give up.  Once
that one has begun to pass bytes, nobody ever uses the table again. -/
theorem C48_exact (ls : List Label) (s : St) (h : Run ls s) (t : Nat) (hl : s.lock = some t) :
    (∃ ls' s', runSteps step s ls' = some s' ∧ s'.lock = none) ↔
      ∃ n y, s.thr t = .blocked n y ∧ ∀ o, (s.sess y).owner = some o → (∃ m, s.thr o = .owns m y) ∨ s.thr o = .leaving y := by
  have hi := inv_of_run h
  obtain ⟨n, y, hb⟩ := hi.lock t hl
  constructor
  · rintro ⟨ls', s', hr, hl'⟩
    refine ⟨n, y, hb, fun o ho => Classical.byContradiction fun hn => ?_⟩
    have hh : (s.thr o).holds y := (hi.own o y).mpr ho
    have hneed : (∃ n, s.thr o = .streaming n y) ∨ ∃ n d, s.thr o = .ending n y d := by
      cases hp : s.thr o with
      | owns m x => rw [hp] at hh; cases hh; exact absurd (.inl ⟨m, hp⟩) hn
      | leaving x => rw [hp] at hh; cases hh; exact absurd (.inr hp) hn
      | streaming m x => rw [hp] at hh; cases hh; exact .inl ⟨m, rfl⟩
      | ending m x d => rw [hp] at hh; cases hh; exact .inr ⟨m, d, rfl⟩
      | _ => rw [hp] at hh; cases hh
    have hst : Stuck t y o s := ⟨hl, ⟨n, hb⟩, ho, hneed, by
      obtain ⟨m, e⟩ | ⟨m, d, e⟩ := hneed
      · exact (hi.streaming o m y e).1
      · exact (hi.ending o m y d e).1⟩
    have := (run_inv (I := fun s => Inv s ∧ Stuck t y o s) (fun _ _ _ h hs => ⟨inv_step h.1 (step_eff hs), stuck_step h.1 h.2 hs⟩)
      ⟨hi, hst⟩ hr).2.lock
    rw [hl'] at this
    cases this
  · rintro ⟨n', y', hb', ho⟩
    rw [hb] at hb'
    cases hb'
    have acq : ∀ s : St, s.thr t = .blocked n y → (s.sess y).owner = none → ∃ s', runSteps step s [.acquire t] = some s' ∧ s'.lock = none := by
      intro s h1 h2
      refine ⟨{ setThr (setSess s y { s.sess y with owner := some t }) t (.owns n y) with lock := none }, ?_, rfl⟩
      simp only [runSteps, step, h1, h2]
    have rel : ∀ (s : St) (o : Nat), t ≠ o → s.thr t = .blocked n y → s.thr o = .leaving y →
        ∃ s', runSteps step s [.release o, .acquire t] = some s' ∧ s'.lock = none := by
      intro s o hto h1 h2
      obtain ⟨s', h3, h4⟩ := acq (setThr (setSess s y { s.sess y with owner := none }) o (.done .served))
        (by simp [setThr, setSess, upd_ne _ _ hto, h1]) (by simp [setThr, setSess])
      exact ⟨s', by rw [← h3]; conv => lhs; unfold runSteps; simp only [step, h2], h4⟩
    cases hown : (s.sess y).owner with
    | none => exact ⟨_, acq s hb hown⟩
    | some o =>
      have hto : t ≠ o := by
        rintro rfl
        rcases ho t hown with ⟨m, e⟩ | e <;> rw [hb] at e <;> cases e
      rcases ho o hown with ⟨m, e⟩ | e
      · obtain ⟨s', h3, h4⟩ := rel (setThr s o (.leaving y)) o hto (by simp [setThr, upd_ne _ _ hto, hb]) (by simp [setThr])
        exact ⟨[.abort o, .release o, .acquire t], s', by rw [← h3]; conv => lhs; unfold runSteps; simp only [step, e], h4⟩
      · exact ⟨_, rel s o hto hb e⟩

/-- Both cases occur: the second client of a session just created, before and after it begins to pass bytes. -/
example : ∃ s s', Run [.select 0 a false, .spawn 0, .insert 0, .select 1 a false, .lookup 0] s ∧ s.lock = some 0 ∧
    s.thr 1 = .owns a 0 ∧ step s (.start 1) = some s' ∧ s'.lock = some 0 ∧ s'.thr 1 = .streaming a 0 := ⟨_, _, rfl, rfl, rfl, rfl, rfl, rfl⟩

end Shpool.Server
