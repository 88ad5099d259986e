import Verif.Listing.Props
import Verif.Server.Follow
/-!
# Following the daemon by its events, with lists as they are taken (C91)

`Server/Follow.lean` takes a list to be what `Server.list` says of one state.  Here it is the answer of a list request, which looks at the
sessions one after the other.
-/

namespace Shpool.Listing
open Server (Name Row)

/-- The steps of the daemon's other threads. -/
def others (ls : List Label) : List Server.Label := ls.filterMap fun
  | .srv l => some l
  | _ => none

theorem others_append (a b : List Label) : others (a ++ b) = others a ++ others b := List.filterMap_append

theorem others_run {ls : List Label} {s s' : St} (h : runSteps step s ls = some s') :
    runSteps Server.step s.srv (others ls) = some s'.srv := by
  induction ls generalizing s with
  | nil => cases h; rfl
  | cons l ls ih =>
    obtain ⟨s1, h1, h2⟩ := run_cons_some h
    have := ih h2
    cases l with
    | begin => rw [(step_begin h1).2] at this; exact this
    | look => obtain ⟨p, ps, -, e⟩ := step_look h1; rw [e] at this; exact this
    | finish => rw [(step_finish h1).2] at this; exact this
    | srv l =>
      show runSteps Server.step s.srv (l :: others ls) = _
      simp only [runSteps, (step_srv h1).2.1]
      exact this

end Shpool.Listing

namespace Shpool.Server

/-- From a settled state on, without an event. -/
theorem silent_run {ls ls' : List Label} {s s' : St} (h : Run ls s) (h' : runSteps step s ls' = some s')
    (hp : Always Orderly (ls ++ ls')) (he : s'.events = s.events) (hs : Settled s) : Silent s s' := by
  have key : Run (ls ++ ls') s' ∧ (∃ e, s'.events = s.events ++ e) ∧
      (Always Orderly (ls ++ ls') → s'.events = s.events → Silent s s') :=
    run_hist (I := fun pre s1 => Run (ls ++ pre) s1 ∧ (∃ e, s1.events = s.events ++ e) ∧
        (Always Orderly (ls ++ pre) → s1.events = s.events → Silent s s1))
      (fun pre s1 l s2 hi hst => by
        obtain ⟨i1, ⟨e, i2⟩, i3⟩ := hi
        obtain ⟨e', j2⟩ := eff_events (step_eff hst)
        rw [← List.append_assoc]
        refine ⟨run_snoc i1 hst, ⟨e ++ e', by rw [j2, i2, List.append_assoc]⟩, fun hp hev => ?_⟩
        have hev1 : s1.events = s.events := by
          rw [j2, i2, List.append_assoc, append_eq_self, List.append_eq_nil_iff] at hev
          rw [i2, hev.1, List.append_nil]
        have hp1 := always_snoc hp
        exact silent_step (inv_of_run i1) (live_of_run i1 (hp1.mono fun _ _ h => ⟨h.1, h.2.2.1⟩)) (conn_of_run i1)
          (always_last hp i1).2.2.2 (i3 hp1 hev1) (step_eff hst) (by rw [hev, hev1]))
      ⟨by simpa using h, ⟨[], by simp⟩, fun _ _ => silent_init hs⟩ h'
  exact key.2.2 hp he

/-- An attach request of the session is about to end. -/
def Leaves (s : St) (n : Name) (x : Nat) : Prop :=
  find n s.table = some x ∧ ((∃ t, s.thr t = .streaming n x ∧ (s.sess x).conn = false) ∨ ∃ t b, s.thr t = .ending n x b)

set_option maxHeartbeats 2000000 in
/-- It remains so until there is an event. -/
theorem leaves_step {s s' : St} {l : Label} {n : Name} {x : Nat} (hi : Inv s) (h : Leaves s n x) (he : Eff s l s')
    (hv : s'.events = s.events) : Leaves s' n x := by
  have htb := eff_silent_table he hv
  obtain ⟨hf, h⟩ := h
  refine ⟨by rw [htb]; exact hf, ?_⟩
  have ho := hi.own
  have hn := hi.tbl
  have hb := hi.blank
  cases he
  case kill names fail hk =>
    have k1 : ((kill s names fail).1.sess x).conn = (s.sess x).conn := by
      rcases kill_sess s names fail x with e | e <;> rw [e]
    rw [kill_thr, k1]
    exact h
  case reattach => simp at hv
  case insert => simp at hv
  case unlinkGone => simp at hv
  case reap => simp at hv
  case detach names hk =>
    have k1 := detach_sess s names
    have k2 : (detach s names).1.thr = s.thr := rfl
    rw [k2]
    grind
  case start t m y ht =>
    have hlt := (hn n x hf).1
    have h1 : (s.sess y).owner = some t := (ho t y).mp (by rw [ht]; rfl)
    have h2 : ∀ t', (s.thr t').holds x → (s.sess x).owner = some t' := fun t' => (ho t' x).mp
    simp only [setThr, setSess, upd_apply]
    rcases h with ⟨t', h3, h4⟩ | ⟨t', b, h3⟩
    · have := h2 t' (by rw [h3]; rfl)
      have hne : t' ≠ t := by intro e; rw [e, ht] at h3; cases h3
      have hxy : x ≠ y := by intro e; subst e; rw [this] at h1; exact hne (Option.some.inj h1)
      exact .inl ⟨t', by simp [hne, h3], by simp [hxy, h4]⟩
    · have hne : t' ≠ t := by intro e; rw [e, ht] at h3; cases h3
      exact .inr ⟨t', b, by simp [hne, h3]⟩
  case unlinkDone t m y h1 h2 =>
    have hm : find m s.table = none := by
      cases hf : find m s.table with
      | none => rfl
      | some y => simp [hf] at hv
    simp only [setThr, upd_apply]
    grind
  all_goals
    (try simp only [setThr, setSess, upd_apply, Sess.recordAttached])
    grind

theorem leaves_run {ls : List Label} {s s' : St} {n : Name} {x : Nat} (hi : Inv s) (h : Leaves s n x) (hr : runSteps step s ls = some s')
    (hv : s'.events = s.events) : Leaves s' n x := by
  induction ls generalizing s with
  | nil => cases hr; exact h
  | cons l ls ih =>
    obtain ⟨s1, h1, h2⟩ := run_cons_some hr
    obtain ⟨e1, e2⟩ := silent_cons h1 h2 hv
    exact ih (inv_step hi (step_eff h1)) (leaves_step hi h (step_eff h1) e1) h2 e2

theorem leaves_not_settled {s : St} {n : Name} {x : Nat} (h : Leaves s n x) (hs : Settled s) : False := by
  obtain ⟨-, ⟨t, e1, e2⟩ | ⟨t, b, e⟩⟩ := h
  · rcases hs t with h | ⟨_, _, h, h2⟩ | ⟨_, h⟩ <;> rw [h] at e1 <;> cases e1
    rw [e2] at h2; cases h2
  · rcases hs t with h | ⟨_, _, h, -⟩ | ⟨_, h⟩ <;> rw [h] at e <;> cases e

/-- Between two settled states without an event in between, the list is the same at every moment. -/
theorem settled_between {ls l1 l2 : List Label} {s v s' : St} (h : Run ls s) (h1 : runSteps step s l1 = some v)
    (h2 : runSteps step v l2 = some s') (hp : Always Orderly (ls ++ l1)) (he : s'.events = s.events) (hs : Settled s)
    (hs' : Settled s') : list v = list s := by
  obtain ⟨e1, j1⟩ := steps_events h1
  obtain ⟨e2, j2⟩ := steps_events h2
  have hz := he
  rw [j2, j1, List.append_assoc, append_eq_self, List.append_eq_nil_iff] at hz
  have hv : v.events = s.events := by rw [j1, hz.1, List.append_nil]
  have hv' : s'.events = v.events := by rw [j2, hz.2, List.append_nil]
  have hsil := silent_run h h1 hp hv hs
  have hr : Run (ls ++ l1) v := by rw [Run, run_append, show runSteps step init ls = some s from h]; exact h1
  have hi := inv_of_run hr
  unfold list
  rw [← hsil.table]
  refine List.map_congr_left fun p hp => ?_
  have hf := mem_find hi.nodup (show (p.1, p.2) ∈ v.table from hp)
  rcases hsil.row p.1 p.2 hf with ⟨e1, e2, e3, e4⟩ | h | h
  · rw [e1, e2, e3, e4]
  · exact (leaves_not_settled (leaves_run hi ⟨hf, .inl h⟩ h2 hv') hs').elim
  · exact (leaves_not_settled (leaves_run hi ⟨hf, .inr h⟩ h2 hv') hs').elim

end Shpool.Server

namespace Shpool.Listing
open Server (Name Row)

/-- **C91 (part)**, for lists as they are taken: in an orderly history, if a list request begins in a settled state `s0`, its answer is the
list of every settled state `s'` that comes after it and before the next event.  Missing: as in `C91_settled_partial`. -/
theorem C91_request_partial {ls0 ls ls1 : List Label} {r : List Row} {s0 s' : St} (h : Request ls0 ls r) (h0 : Run ls0 s0)
    (h1 : Run (ls0 ++ .begin :: ls ++ .finish :: ls1) s') (hp : Server.Always Server.Orderly (others (ls0 ++ ls ++ ls1)))
    (he : s'.srv.events = s0.srv.events) (hs : Server.Settled s0.srv) (hs' : Server.Settled s'.srv) : r = Server.list s'.srv := by
  have h0' : Server.Run (others ls0) s0.srv := others_run h0
  have hafter : ∀ pre suf σ, ls = pre ++ suf → Run (ls0 ++ .begin :: pre) σ → Server.list σ.srv = Server.list s0.srv := by
    intro pre suf σ e hσ
    rw [Run, run_append, h0] at hσ
    have e1 : ls0 ++ .begin :: ls ++ .finish :: ls1 = ls0 ++ ((.begin :: pre) ++ (suf ++ .finish :: ls1)) := by
      rw [e]; simp
    rw [Run, e1, run_append, h0] at h1
    have h1 : runSteps step s0 ((.begin :: pre) ++ (suf ++ .finish :: ls1)) = some s' := h1
    rw [run_append, show runSteps step s0 (.begin :: pre) = some σ from hσ] at h1
    have h1 : runSteps step σ (suf ++ .finish :: ls1) = some s' := h1
    have a1 := others_run (show runSteps step s0 (.begin :: pre) = some σ from hσ)
    have a2 := others_run h1
    have hp1 : Server.Always Server.Orderly (others ls0 ++ others (.begin :: pre)) := by
      intro p l post st ee hr
      refine hp p l (post ++ (others suf ++ others ls1)) st ?_ hr
      rw [others_append, others_append, e, others_append, ← List.append_assoc, List.append_assoc, List.append_assoc]
      rw [← List.append_assoc]
      rw [show others (.begin :: pre) = others pre from rfl] at ee
      rw [ee]; simp
    exact Server.settled_between h0' a1 a2 hp1 he hs hs'
  have hend : Server.list s'.srv = Server.list s0.srv := by
    rw [Run, List.append_assoc, run_append, h0] at h1
    have h1 : runSteps step s0 ((.begin :: ls) ++ .finish :: ls1) = some s' := h1
    refine Server.C91_settled_partial h0' (others_run h1) ?_ he hs hs'
    rw [← others_append]
    have : others (ls0 ++ ((.begin :: ls) ++ .finish :: ls1)) = others (ls0 ++ ls ++ ls1) := by
      simp [others_append, others]
    rw [this]
    exact hp
  rw [hend]
  apply List.ext_getElem?
  intro i
  obtain ⟨v, ⟨pre, suf, σ, e, hσ, hv⟩, hr⟩ := C153_each h i
  rw [hr, ← hv, hafter pre suf σ e hσ]

/-- Time goes by during the request, and afterwards a further client finds the session busy. -/
example : ∃ s0 s', Request (Server.one.map .srv) [.srv (.tick 5), .look] [⟨Server.a, true, some 0, none, some 0⟩] ∧
    Run (Server.one.map .srv) s0 ∧
    Run (Server.one.map .srv ++ .begin :: [.srv (.tick 5), .look] ++ .finish :: [.srv (.select 1 Server.a false)]) s' ∧
    s'.srv.events = s0.srv.events ∧ Server.Settled s0.srv ∧ Server.Settled s'.srv := by
  refine ⟨_, _, ⟨by decide, _, _, rfl, rfl, rfl⟩, rfl, rfl, rfl, ?_, ?_⟩
  · intro t
    rcases t with _ | t
    · exact .inr (.inl ⟨_, _, rfl, rfl⟩)
    · exact .inl rfl
  · intro t
    rcases t with _ | _ | t
    · exact .inr (.inl ⟨_, _, rfl, rfl⟩)
    · exact .inr (.inr ⟨_, rfl⟩)
    · exact .inl rfl
example : Server.Always Server.Orderly (others (Server.one.map .srv ++ [.srv (.tick 5), .look] ++ [.srv (.select 1 Server.a false)])) :=
  by
  refine Server.always_of_from ?_
  show Server.AlwaysFrom Server.Orderly Server.init (Server.one ++ [.tick 5, .select 1 Server.a false])
  iterate 7
    refine ⟨⟨?_, ?_, ?_, ?_⟩, fun s' h => ?_⟩
    rotate_left 4
    cases h
  · trivial
  all_goals first
    | trivial
    | (intro t' x h
       rcases t' with _ | _ | t' <;> cases h <;> rfl)
    | (intro t' h
       rcases t' with _ | _ | t' <;> cases h)

end Shpool.Listing
