import Verif.Server.Orphans
import Verif.Server.Follow
/-! # Exactly which shells are lost (C137), and which clients are told they are attached and get nothing (C92) -/

namespace Shpool.Server
open Shpool

/-- Spec: the step takes the name of the session `x`, whose shell runs, out of the table without ending the shell: the ttl reaper cannot kill the
shell; another session of the name is put in its place; the request of a client whose own shell is done removes what has that name. -/
def Loses (s : St) (l : Label) (x : Nat) : Prop :=
  (s.sess x).alive = true ∧ ∃ n, find n s.table = some x ∧
    (l = .reap n true ∨ (∃ t y, l = .insert t ∧ s.thr t = .spawned n y) ∨ ∃ t y, l = .unlink t ∧ s.thr t = .ending n y true)

private theorem stays_lost {s s' : St} {l : Label} {x : Nat} (hx : x < s.next) (hl : Lost s x) (hs : step s l = some s') :
    x < s'.next ∧ Lost s' x := by
  by_cases hn : l = .exit x
  · subst hn
    simp only [step, if_pos hx, Option.some.injEq] at hs
    subst hs
    exact ⟨hx, hl⟩
  · obtain ⟨h1, h2, _⟩ := lost_step hx hl hs hn
    exact ⟨h1, h2⟩

private theorem loses_step {s s' : St} {l : Label} {x : Nat} (hi : Inv s) (hl : Loses s l x) (hs : step s l = some s') :
    x < s'.next ∧ Lost s' x := by
  obtain ⟨ha, n, hf, hl⟩ := hl
  have hname : ∀ m, find m s.table = some x → m = n := fun m hm => (hi.tbl m x hm).2.symm.trans (hi.tbl n x hf).2
  have hsp : ∀ t m, s.thr t ≠ .spawned m x := fun t m e => (hi.spawned t m x e).2.2.2.2 n hf
  have hlt := (hi.tbl n x hf).1
  rcases hl with rfl | ⟨t, y, rfl, ht⟩ | ⟨t, y, rfl, ht⟩
  · simp only [step, hf] at hs
    split at hs <;> cases hs
    refine ⟨hlt, fun m hm => ?_, hsp⟩
    simp only [find_erase] at hm
    split at hm
    · cases hm
    · next hne => exact hne (hname m hm)
  · simp only [step, ht] at hs
    split at hs <;> cases hs
    refine ⟨hlt, fun m hm => ?_, fun t' m e => ?_⟩
    · simp only [find_insert] at hm
      split at hm
      · cases hm
        exact hsp t n ht
      · next hne => exact hne (hname m hm)
    · simp only [setThr, upd_apply] at e
      split at e
      · cases e
      · exact hsp t' m e
  · simp only [step, ht] at hs
    split at hs <;> cases hs
    refine ⟨hlt, fun m hm => ?_, fun t' m e => ?_⟩
    · simp only [find_erase] at hm
      split at hm
      · cases hm
      · next hne => exact hne (hname m hm)
    · simp only [setThr, upd_apply] at e
      split at e
      · cases e
      · exact hsp t' m e

private theorem kept_unless {s s' : St} {l : Label} {x : Nat} (hi : Inv s) (hk : ¬ Loses s l x) (hs : step s l = some s')
    (hI : (s.sess x).alive = true → ¬ Lost s x) : (s'.sess x).alive = true → ¬ Lost s' x := by
  have hI' : (s.sess x).alive = true → (∃ n, find n s.table = some x) ∨ ∃ t n, s.thr t = .spawned n x := by
    intro hx
    have := hI hx
    unfold Lost at this
    simp only [Classical.not_and_iff_not_or_not, ne_eq, Classical.not_forall, Classical.not_not] at this
    exact this
  suffices hh : (s'.sess x).alive = true → (∃ n, find n s'.table = some x) ∨ ∃ t n, s'.thr t = .spawned n x by
    rintro hx ⟨g1, g2⟩
    rcases hh hx with ⟨n, h⟩ | ⟨t, n, h⟩
    · exact g1 n h
    · exact g2 t n h
  clear hI
  have he := step_eff hs
  clear hs
  intro hx
  cases he
  case kill names fail _ =>
    rw [kill_thr]
    have hal : (s.sess x).alive = true := by
      have := (kill_fields s names fail x).2.2.2
      cases h : (s.sess x).alive with
      | true => rfl
      | false => rw [this h] at hx; cases hx
    rcases hI' hal with ⟨n, hn⟩ | h
    · rcases kill_find s names fail n with e | ⟨e, hm⟩
      · exact .inl ⟨n, e.trans hn⟩
      · exfalso
        have hok := killLoop_ok s.table names s.sess fail
        unfold kill at hx e
        dsimp only at hx e
        split at hx
        · rename_i hk
          rw [(hok hk).2.2 n hm x hn] at hx
          cases hx
        · rename_i hk
          rw [if_neg hk] at e
          dsimp only at e
          rw [hn] at e
          cases e
    · exact .inr h
  case detach names _ =>
    exact hI' ((detach_fields s names x).2.2.2 ▸ hx)
  case insert t m y g1 g2 =>
    rcases hI' hx with ⟨n, hn⟩ | ⟨t', n, h⟩
    · by_cases e : n = m
      · subst e
        exact absurd ⟨hx, n, hn, .inr (.inl ⟨t, y, rfl, g1⟩)⟩ hk
      · exact .inl ⟨n, by simp only [find_insert, if_neg e]; exact hn⟩
    · by_cases e : t' = t
      · subst e
        rw [g1] at h
        cases h
        exact .inl ⟨m, by simp [find_insert]⟩
      · exact .inr ⟨t', n, by simp [setThr, upd_apply, e, h]⟩
  case unlinkDone t m y g1 g2 =>
    rcases hI' hx with ⟨n, hn⟩ | ⟨t', n, h⟩
    · by_cases e : n = m
      · subst e
        exact absurd ⟨hx, n, hn, .inr (.inr ⟨t, y, rfl, g1⟩)⟩ hk
      · exact .inl ⟨n, by simp only [find_erase, if_neg e]; exact hn⟩
    · refine .inr ⟨t', n, ?_⟩
      have : t' ≠ t := by rintro rfl; rw [g1] at h; cases h
      simp [setThr, upd_apply, this, h]
  case reap m fails y g1 g2 =>
    by_cases hxy : x = y
    · subst hxy
      simp only [setSess, upd_apply, if_pos, Bool.and_eq_true] at hx
      obtain ⟨rfl, ha⟩ := hx
      exact absurd ⟨ha, m, g2, .inl rfl⟩ hk
    · have hal : (s.sess x).alive = true := by simpa [setSess, upd_apply, hxy] using hx
      rcases hI' hal with ⟨n, hn⟩ | h
      · by_cases e : n = m
        · subst e; rw [g2] at hn; cases hn; exact absurd rfl hxy
        · exact .inl ⟨n, by simp only [find_erase, if_neg e]; exact hn⟩
      · exact .inr h
  case spawn t n h =>
    by_cases e : x = s.next
    · exact .inr ⟨t, n, by simp [setThr, e]⟩
    · have hal : (s.sess x).alive = true := by simpa [upd_apply, e] using hx
      rcases hI' hal with h' | ⟨t', m, h'⟩
      · exact .inl h'
      · refine .inr ⟨t', m, ?_⟩
        have : t' ≠ t := by rintro rfl; rw [h] at h'; cases h'
        simp [setThr, upd_apply, this, h']
  all_goals
    (try simp only [setThr, setSess, upd_apply, Sess.recordAttached, Sess.recordDetached] at hx ⊢)
    clear hi hk
    grind

/-- **C137, exactly**: a shell that runs cannot be reached if and only if, at some moment in the past, the ttl reaper failed to kill it and took
its session out of the table, a session of its name created meanwhile was put in its place, or the request of a client whose own shell was
done removed it by its name. -/
theorem C137_exact {ls : List Label} {s : St} (h : Run ls s) {x : Nat} (hx : (s.sess x).alive = true) :
    Lost s x ↔ ∃ pre l post s1, ls = pre ++ l :: post ∧ Run pre s1 ∧ Loses s1 l x := by
  constructor
  · intro hl
    have key : Run ls s ∧ ((s.sess x).alive = true → Lost s x → ∃ pre l post s1, ls = pre ++ l :: post ∧ Run pre s1 ∧ Loses s1 l x) := by
      refine run_hist (I := fun ls s => Run ls s ∧ ((s.sess x).alive = true → Lost s x → ∃ pre l post s1, ls = pre ++ l :: post ∧ Run pre s1 ∧ Loses s1 l x))
        ?_ ⟨rfl, fun h => (by cases h)⟩ h
      intro ls s l s' ⟨hr, hI⟩ hs
      refine ⟨run_snoc hr hs, fun ha hl => ?_⟩
      by_cases hk : Loses s l x
      · exact ⟨ls, l, [], s, rfl, hr, hk⟩
      · by_cases hp : (s.sess x).alive = true ∧ Lost s x
        · obtain ⟨pre, l', post, s1, e, h1, h2⟩ := hI hp.1 hp.2
          exact ⟨pre, l', post ++ [l], s1, by simp [e], h1, h2⟩
        · exact absurd hl (kept_unless (inv_of_run hr) hk hs (fun h1 h2 => hp ⟨h1, h2⟩) ha)
    exact key.2 hx hl
  · rintro ⟨pre, l, post, s1, rfl, h1, h2⟩
    obtain ⟨s1', e1, e2⟩ := run_append_some h
    rw [show runSteps step init pre = some s1 from h1] at e1
    cases e1
    obtain ⟨s2, e3, e4⟩ := run_cons_some e2
    have h3 := loses_step (inv_of_run h1) h2 e3
    exact (run_inv (I := fun s => x < s.next ∧ Lost s x) (fun _ _ _ hi hs => stays_lost hi.1 hi.2 hs) h3 e4).2

/-- A shell lost to the reaper. -/
example : ∃ s s', Run otherUser.dropLast s ∧ Loses s (.reap a true) 0 ∧ Run otherUser s' ∧ (s'.sess 0).alive = true :=
  ⟨_, _, rfl, ⟨rfl, a, rfl, .inl rfl⟩, rfl, rfl⟩

private theorem s2c_step {ls : List Label} {s s' : St} {l : Label}
    (hI : (∀ x, x < s.next → ((s.sess x).s2c = true ↔ .s2cEnds x ∉ ls)) ∧ ∀ x, s.next ≤ x → .s2cEnds x ∉ ls) (hs : step s l = some s') :
    (∀ x, x < s'.next → ((s'.sess x).s2c = true ↔ .s2cEnds x ∉ ls ++ [l])) ∧ ∀ x, s'.next ≤ x → .s2cEnds x ∉ ls ++ [l] := by
  obtain ⟨h1, h2⟩ := hI
  have he := step_eff hs
  clear hs
  simp only [List.mem_append, List.mem_singleton, not_or]
  cases he
  case kill names fail _ =>
    rw [kill_next]
    have hk := fun x => (kill_fields s names fail x)
    refine ⟨fun x hx => ?_, fun x hx => ⟨h2 x hx, nofun⟩⟩
    have e : ((kill s names fail).1.sess x).s2c = (s.sess x).s2c := by
      have := killLoop_sess s.table names s.sess fail x
      unfold kill
      dsimp only
      split <;> grind
    rw [e, h1 x hx]
    simp
  case detach names _ =>
    refine ⟨fun x hx => ?_, fun x hx => ⟨h2 x hx, nofun⟩⟩
    have e : ((detach s names).1.sess x).s2c = (s.sess x).s2c := by
      rcases detach_sess s names x with e | e <;> grind [Sess.recordDetached]
    rw [e, h1 x hx]
    simp
  all_goals
    refine ⟨?_, ?_⟩
    all_goals
      (try simp only [setThr, setSess, upd_apply, Sess.recordAttached, Sess.recordDetached])
      grind

/-- **C92, exactly**: a client that was told it is attached is connected to the session when its request starts streaming if and only if the
session's shell-to-client thread has not ended, in every history and however requests race. -/
theorem C92_exact {ls : List Label} {s s' : St} {t n x} (h : Run ls s) (ht : s.thr t = .owns n x) (hs : step s (.start t) = some s') :
    s'.thr t = .streaming n x ∧ ((s'.sess x).conn = true ↔ .s2cEnds x ∉ ls) := by
  have hI := run_hist (I := fun ls s => (∀ x, x < s.next → ((s.sess x).s2c = true ↔ .s2cEnds x ∉ ls)) ∧ ∀ x, s.next ≤ x → .s2cEnds x ∉ ls)
    (fun _ _ _ _ hi hs => s2c_step hi hs) ⟨fun x hx => absurd hx (by simp [init]), fun _ _ => by simp⟩ h
  simp only [step, ht, Option.some.injEq] at hs
  subst hs
  refine ⟨by simp [setThr], ?_⟩
  have : (((setThr (setSess s x { s.sess x with conn := (s.sess x).s2c }) t (.streaming n x)).sess x).conn) = (s.sess x).s2c := by
    simp [setThr, setSess]
  rw [this]
  exact hI.1 x ((inv_of_run h).owns t n x ht).1

/-- Both cases. -/
example : ∃ s, Run [.select 0 a false, .spawn 0, .insert 0, .lookup 0] s ∧ s.thr 0 = .owns a 0 := ⟨_, rfl, rfl⟩
example : ∃ s, Run [.select 0 a false, .spawn 0, .insert 0, .s2cEnds 0, .lookup 0] s ∧ s.thr 0 = .owns a 0 := ⟨_, rfl, rfl⟩

end Shpool.Server
