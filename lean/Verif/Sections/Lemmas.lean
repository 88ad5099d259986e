import Verif.Sections.Model
import Verif.Listing.Props
import Verif.Server.Props
/-!
# Kill, detach and reaping taken apart are made of steps of the model of the session table, and the other way round
-/

namespace Shpool.Sections
open Server (Name Table)
open Listing (Kept snoc_induction)

/-! ## What the others do meanwhile -/

theorem free {l : Server.Label} (hw : whole l = false) (hn : needsTable l = false) : Listing.needsTable l = false := by
  cases l <;> simp_all [whole, needsTable, Listing.needsTable]

theorem srv_step {s s' : St} {l : Server.Label} (h : step s (.srv l) = some s') :
    whole l = false ∧ (s.sec.isSome → needsTable l = false) ∧ Server.step s.srv l = some s'.srv ∧ s'.sec = s.sec ∧
      s'.answers = s.answers := by
  simp only [step] at h
  split at h
  · cases h
  · rename_i hc
    split at h
    · rename_i v hv
      cases h
      refine ⟨?_, fun hi => ?_, hv, rfl, rfl⟩
      · cases hw : whole l with
        | false => rfl
        | true => exact absurd (.inl hw) hc
      · cases hw : needsTable l with
        | false => rfl
        | true => exact absurd (.inr ⟨hw, hi⟩) hc
    · cases h

/-- A shell that is dead stays so, nothing is published, and a client that is being detached does not come back. -/
theorem meanwhile {v v' : Server.St} {l : Server.Label} (hi : Server.Inv v) (hl : v.lock = none) (hn : Listing.needsTable l = false)
    (h : Server.step v l = some v') :
    v'.events = v.events ∧ (∀ x, x < v.next → (v.sess x).alive = false → (v'.sess x).alive = false) ∧
    ∀ x, x < v.next → (∃ t n b, v.thr t = .streaming n x ∨ v.thr t = .ending n x b) →
      (∃ t n b, v'.thr t = .streaming n x ∨ v'.thr t = .ending n x b) ∧ ((v.sess x).conn = false → (v'.sess x).conn = false) := by
  have he := Server.step_eff h
  have hblk := hi.blk
  have ho := hi.own
  cases he
  case acquire t n y ht ho =>
    rw [(hblk t n y ht).1] at hl; cases hl
  all_goals first | (simp only [Listing.needsTable] at hn; cases hn; done) | skip
  case start t m y ht =>
    refine ⟨rfl, fun x hx ha => ?_, fun x hx hh => ?_⟩
    · simp only [Server.setThr, Server.setSess, Server.upd_apply]; split
      · rename_i e; subst e; exact ha
      · exact ha
    · have h1 : (v.sess y).owner = some t := (ho t y).mp (by rw [ht]; rfl)
      obtain ⟨t', n, b, hh⟩ := hh
      have h2 : (v.sess x).owner = some t' := (ho t' x).mp (by rcases hh with e | e <;> rw [e] <;> rfl)
      have hne : t' ≠ t := by intro e; subst e; rw [ht] at hh; rcases hh with e | e <;> cases e
      have hxy : x ≠ y := by intro e; subst e; rw [h2] at h1; exact hne (Option.some.inj h1)
      refine ⟨⟨t', n, b, ?_⟩, fun hc => ?_⟩
      · simp only [Server.setThr, Server.setSess, Server.upd_apply, hne, if_false]; exact hh
      · simp only [Server.setThr, Server.setSess, Server.upd_apply, hxy, if_false]; exact hc
  all_goals
    refine ⟨rfl, fun x hx ha => ?_, fun x hx hh => ⟨?_, fun hc => ?_⟩⟩
    all_goals
      simp only [Server.setThr, Server.setSess, Server.upd_apply]
      grind

/-! ## What is known of a request at work -/

/-- There is such a session. -/
def found (tb : Table) (n : Name) : Bool := (Server.find n tb).isSome

structure Good (s : St) : Prop where
  inv : Server.Inv s.srv
  lock : s.sec.isSome → s.srv.lock = none
  kill : ∀ asked todo gone missing, s.sec = some (.kill asked todo gone missing) →
    ∃ done, asked = done ++ todo ∧ gone = done.filter (found s.srv.table) ∧ missing = done.filter (fun n => !found s.srv.table n) ∧
      ∀ n ∈ done, ∀ x, Server.find n s.srv.table = some x → (s.srv.sess x).alive = false
  reap : ∀ n b, s.sec = some (.reap n b) → ∃ x, Server.find n s.srv.table = some x

/-- What a step here is in the model of the session table. -/
def coarse (s : St) : Label → List Server.Label
  | .killNext true => match s.sec with
    | some (.kill _ (n :: _) _ _) => match Server.find n s.srv.table with
      | some x => [.exit x]
      | none => []
    | _ => []
  | .killEnd => match s.sec with
    | some (.kill asked _ _ _) => [.kill asked none]
    | _ => []
  | .detachNext => match s.sec with
    | some (.detach _ (n :: _) _ _) => [.detach [n]]
    | _ => []
  | .reapKill true => match s.sec with
    | some (.reap n _) => match Server.find n s.srv.table with
      | some x => [.exit x]
      | none => []
    | _ => []
  | .reapEnd => match s.sec with
    | some (.reap n _) => [.reap n true]
    | _ => []
  | .srv l => [l]
  | _ => []

theorem killLoop_dead (tb : Table) (names : List Name) (σ : Nat → Server.Sess)
    (h : ∀ n ∈ names, ∀ x, Server.find n tb = some x → (σ x).alive = false) :
    Server.killLoop tb σ names none = ⟨σ, names.filter (found tb), names.filter (fun n => !found tb n), true⟩ := by
  induction names with
  | nil => rfl
  | cons n ns ih =>
    have ih := ih fun m hm => h m (List.mem_cons_of_mem _ hm)
    rw [Server.killLoop]
    cases hf : Server.find n tb with
    | none => simp [ih, found, hf]
    | some x =>
      have : Server.upd σ x { σ x with alive := false } = σ := by
        funext j
        simp only [Server.upd]
        split
        · rename_i e
          subst e
          have := h n (List.mem_cons_self ..) j hf
          revert this
          rcases σ j with ⟨⟩
          intro e; cases e; rfl
        · rfl
      simp [this, ih, found, hf]

theorem exit_step {v : Server.St} {n : Name} {x : Nat} (hi : Server.Inv v) (hf : Server.find n v.table = some x) :
    Server.step v (.exit x) = some (dead v x) := by
  simp only [Server.step, dead]
  rw [if_pos (hi.tbl n x hf).1]

theorem detach_one {v : Server.St} (n : Name) :
    (Server.detach v [n]).1 = match Server.find n v.table with
      | none => v
      | some x => if (v.sess x).s2c = false then v else if (v.sess x).conn then
          Server.setSess v x { (v.sess x).recordDetached v.now with conn := false } else v := by
  simp only [Server.detach, Server.detachLoop]
  cases hf : Server.find n v.table with
  | none => rfl
  | some x =>
    dsimp only
    cases h1 : (v.sess x).s2c
    · simp
    · cases h2 : (v.sess x).conn
      · simp
      · simp [Server.setSess]

theorem coarse_step {s s' : St} {l : Label} (hg : Good s) (h : step s l = some s') :
    runSteps Server.step s.srv (coarse s l) = some s'.srv := by
  cases l with
  | killBegin names =>
    simp only [step] at h
    split at h <;> cases h
    rfl
  | detachBegin names =>
    simp only [step] at h
    split at h <;> cases h
    rfl
  | reapBegin n =>
    simp only [step] at h
    split at h
    · split at h <;> cases h <;> rfl
    · cases h
  | killNext ok =>
    simp only [step] at h
    split at h
    · rename_i asked n ns gone missing hs
      split at h
      · rename_i hf
        cases h
        cases ok <;> simp [coarse, hs, hf, runSteps]
      · rename_i x hf
        cases ok
        · cases h; rfl
        · cases h
          simp only [coarse, hs, hf, runSteps, exit_step hg.inv hf]
    · cases h
  | killEnd =>
    simp only [step] at h
    split at h
    · rename_i asked gone missing hs
      cases h
      obtain ⟨done, e1, e2, e3, e4⟩ := hg.kill _ _ _ _ hs
      rw [List.append_nil] at e1
      subst e1
      have hl := hg.lock (by rw [hs]; rfl)
      simp only [coarse, hs, runSteps, Server.step, hl, if_true, Server.kill, killLoop_dead _ _ _ e4, e2]
    · cases h
  | detachNext =>
    simp only [step] at h
    split at h
    · rename_i asked n ns missing unattached hs
      have hl := hg.lock (by rw [hs]; rfl)
      simp only [coarse, hs, runSteps, Server.step, hl, if_true, detach_one]
      split at h
      · rename_i hf
        cases h
        simp only [hf]
      · rename_i x hf
        simp only [hf]
        split at h
        · cases h; simp only [*, if_true]
        · split at h
          · cases h
            rename_i h1 h2
            simp [h1, h2]
          · cases h
            rename_i h1 h2
            simp [h1, h2]
    · cases h
  | detachEnd =>
    simp only [step] at h
    split at h <;> cases h
    rfl
  | reapKill ok =>
    simp only [step] at h
    split at h
    · rename_i n hs
      split at h
      · rename_i x hf
        cases h
        cases ok
        · rfl
        · simp only [coarse, hs, hf, runSteps, exit_step hg.inv hf, if_true]
      · cases h
    · cases h
  | reapEnd =>
    simp only [step] at h
    split at h
    · rename_i n hs
      cases h
      obtain ⟨x, hf⟩ := hg.reap _ _ hs
      have hl := hg.lock (by rw [hs]; rfl)
      have : Server.upd s.srv.sess x { s.srv.sess x with alive := true && (s.srv.sess x).alive } = s.srv.sess := by
        funext j
        simp only [Server.upd]
        split
        · rename_i e
          subst e
          rfl
        · rfl
      simp only [coarse, hs, runSteps, Server.step, hl, if_true, hf, Server.setSess, this]
    · cases h
  | srv l =>
    obtain ⟨-, -, hst, -, -⟩ := srv_step h
    simp only [coarse, runSteps, hst]

theorem good_init : Good init :=
  ⟨Server.inv_init, (by intro h; cases h), (by intro _ _ _ _ h; cases h), (by intro _ _ h; cases h)⟩

theorem good_step {s s' : St} {l : Label} (hg : Good s) (h : step s l = some s') : Good s' := by
  have hi : Server.Inv s'.srv := run_inv (I := Server.Inv) (fun _ _ _ hi hs => Server.inv_step hi (Server.step_eff hs)) hg.inv
    (coarse_step hg h)
  cases l with
  | killBegin names =>
    simp only [step] at h
    split at h
    · rename_i hc
      cases h
      refine ⟨hi, fun _ => hc.1, fun _ _ _ _ e => ?_, fun _ _ e => by cases e⟩
      cases e
      exact ⟨[], rfl, rfl, rfl, by simp⟩
    · cases h
  | detachBegin names =>
    simp only [step] at h
    split at h
    · rename_i hc
      cases h
      exact ⟨hi, fun _ => hc.1, fun _ _ _ _ e => (by cases e), fun _ _ e => by cases e⟩
    · cases h
  | reapBegin n =>
    simp only [step] at h
    split at h
    · rename_i hc
      split at h
      · cases h; exact hg
      · rename_i x hf
        cases h
        refine ⟨hi, fun _ => hc.1, fun _ _ _ _ e => by (cases e), fun _ _ e => ?_⟩
        cases e
        exact ⟨x, hf⟩
    · cases h
  | killNext ok =>
    simp only [step] at h
    split at h
    · rename_i asked n ns gone missing hs
      obtain ⟨done, e1, e2, e3, e4⟩ := hg.kill _ _ _ _ hs
      have hl := hg.lock (by rw [hs]; rfl)
      split at h
      · rename_i hf
        cases h
        refine ⟨hi, fun _ => hl, fun _ _ _ _ e => ?_, fun _ _ e => by cases e⟩
        cases e
        refine ⟨done ++ [n], by rw [e1]; simp, by simp [e2, found, hf], by simp [e3, found, hf], ?_⟩
        intro m hm x hx
        rcases List.mem_append.mp hm with hm | hm
        · exact e4 m hm x hx
        · rw [List.mem_singleton] at hm
          subst hm
          rw [hf] at hx; cases hx
      · rename_i x hf
        split at h
        · cases h
          refine ⟨hi, fun _ => hl, fun _ _ _ _ e => ?_, fun _ _ e => by cases e⟩
          cases e
          refine ⟨done ++ [n], by rw [e1]; simp, by simp [e2, found, dead, Server.setSess, hf], by
            simp [e3, found, dead, Server.setSess, hf], ?_⟩
          intro m hm y hy
          simp only [dead, Server.setSess, Server.upd]
          split
          · rfl
          · rename_i hne
            rcases List.mem_append.mp hm with hm | hm
            · exact e4 m hm y hy
            · rw [List.mem_singleton] at hm
              subst hm
              have hy : Server.find m s.srv.table = some y := hy
              rw [hf] at hy
              cases hy
              exact absurd rfl hne
        · cases h
          exact ⟨hi, fun e => (by cases e), fun _ _ _ _ e => (by cases e), fun _ _ e => by cases e⟩
    · cases h
  | killEnd =>
    simp only [step] at h
    split at h
    · cases h
      exact ⟨hi, fun e => (by cases e), fun _ _ _ _ e => (by cases e), fun _ _ e => by cases e⟩
    · cases h
  | detachNext =>
    simp only [step] at h
    split at h
    · rename_i asked n ns missing unattached hs
      have hl := hg.lock (by rw [hs]; rfl)
      split at h
      · cases h
        exact ⟨hi, fun _ => hl, fun _ _ _ _ e => (by cases e), fun _ _ e => by cases e⟩
      · split at h
        · cases h
          exact ⟨hi, fun e => (by cases e), fun _ _ _ _ e => (by cases e), fun _ _ e => by cases e⟩
        · split at h
          all_goals
            cases h
            exact ⟨hi, fun _ => hl, fun _ _ _ _ e => (by cases e), fun _ _ e => by cases e⟩
    · cases h
  | detachEnd =>
    simp only [step] at h
    split at h
    · cases h
      exact ⟨hi, fun e => (by cases e), fun _ _ _ _ e => (by cases e), fun _ _ e => by cases e⟩
    · cases h
  | reapKill ok =>
    simp only [step] at h
    split at h
    · rename_i n hs
      have hl := hg.lock (by rw [hs]; rfl)
      split at h
      · rename_i x hf
        cases h
        refine ⟨hi, fun _ => ?_, fun _ _ _ _ e => (by cases e), fun _ _ e => ?_⟩
        · cases ok <;> exact hl
        · cases e
          exact ⟨x, by cases ok <;> exact hf⟩
      · cases h
    · cases h
  | reapEnd =>
    simp only [step] at h
    split at h
    · cases h
      exact ⟨hi, fun e => (by cases e), fun _ _ _ _ e => (by cases e), fun _ _ e => by cases e⟩
    · cases h
  | srv l =>
    obtain ⟨hw, hn, hst, e1, -⟩ := srv_step h
    by_cases hs : s.sec.isSome
    · have hl := hg.lock hs
      have hn' := free hw (hn hs)
      have hk := Listing.kept_step hg.inv hl hn' hst
      have hm := meanwhile hg.inv hl hn' hst
      refine ⟨hi, fun _ => hk.lock, fun a b c d e => ?_, fun n b e => ?_⟩
      · rw [e1] at e
        obtain ⟨done, f1, f2, f3, f4⟩ := hg.kill _ _ _ _ e
        rw [hk.table]
        exact ⟨done, f1, f2, f3, fun n hn x hx => hm.2.1 x (hg.inv.tbl n x hx).1 (f4 n hn x hx)⟩
      · rw [e1] at e
        rw [hk.table]
        exact hg.reap n b e
    · have : s'.sec = none := by rw [e1]; simpa using hs
      exact ⟨hi, fun e => (by rw [this] at e; cases e), fun _ _ _ _ e => (by rw [this] at e; cases e), fun _ _ e => by
        rw [this] at e; cases e⟩

theorem good_run {ls : List Label} {s : St} (h : Run ls s) : Good s := run_inv (I := Good) (fun _ _ _ hg hs => good_step hg hs) good_init h

end Shpool.Sections
