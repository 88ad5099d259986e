import Verif.Background.Model
import Verif.Server.Fair
import Verif.Server.About
/-!
# Properties of attaching in the background: C151
-/

namespace Shpool.Background

open Server (Name Phase find)

/-- Request `u` gets the output of session `x`: it streams, and the session's output goes to a client. -/
def Served (s : Server.St) (u x : Nat) : Prop := (∃ n, s.thr u = .streaming n x) ∧ (s.sess x).conn = true

/-- What is claimed: the detach request a background attach ends with takes no one else's attachment away. -/
def C151_statement : Prop :=
  ∀ ls s s' t, Run ls s → step s (.detach t) = some s' → ∀ u x, u ≠ t → Served s.srv u x → Served s'.srv u x

def a : Name := ['a']

/-- A background client creates the session and closes its connection; the daemon notices and frees the session; before the client's detach
request gets there, someone else attaches. -/
def tooLate : List Label :=
  [.ask 0 a, .daemon (.select 0 a false), .daemon (.spawn 0), .daemon (.insert 0), .daemon (.lookup 0), .close 0, .daemon (.start 0),
   .daemon (.clientGone 0), .daemon (.unlink 0), .daemon (.release 0), .daemon (.select 1 a false), .daemon (.start 1)]

/-- C151 does not hold: the detach request names the session, not the attachment, and so ends that of whoever has attached since. -/
theorem C151_false : ¬ C151_statement := by
  intro h
  have := h tooLate _ _ 0 rfl rfl 1 0 (by decide) ⟨⟨a, rfl⟩, rfl⟩
  exact absurd this.2 (by decide)

/-! ## What the clients' steps do to the daemon -/

/-- The daemon's part of a step. -/
theorem srv_step {s s' : St} {l : Label} (h : step s l = some s') :
    (s'.srv = s.srv ∧ ∀ k, l ≠ .daemon k) ∨ ∃ k, Server.step s.srv k = some s'.srv ∧
      (l = .daemon k ∧ allowed s.cl k = true ∧ s'.cl = s.cl ∨ ∃ t n, l = .detach t ∧ s.cl t = .closed n ∧ k = .detach [n] ∧ s'.cl = Server.upd s.cl t (.ended n)) := by
  cases l with
  | ask t n =>
    simp only [step] at h
    split at h
    · cases h; exact .inl ⟨rfl, nofun⟩
    · cases h
  | close t =>
    simp only [step] at h
    repeat' split at h
    all_goals first | (cases h; exact .inl ⟨rfl, nofun⟩) | cases h
  | detach t =>
    simp only [step] at h
    split at h
    · rename_i n hc
      split at h
      · rename_i v hv
        cases h
        exact .inr ⟨_, hv, .inr ⟨t, n, rfl, hc, rfl, rfl⟩⟩
      · cases h
    · cases h
  | daemon k =>
    simp only [step] at h
    split at h
    · rename_i ha
      split at h
      · rename_i v hv
        cases h
        exact .inr ⟨k, hv, .inl ⟨rfl, ha, rfl⟩⟩
      · cases h
    · cases h

theorem inv_step {s s' : St} {l : Label} (hi : Server.Inv s.srv) (h : step s l = some s') : Server.Inv s'.srv := by
  rcases srv_step h with ⟨e, hnd⟩ | ⟨k, hk, -⟩
  · rw [e]; exact hi
  · exact Server.inv_step hi (Server.step_eff hk)

theorem inv_of_run {ls : List Label} {s : St} (h : Run ls s) : Server.Inv s.srv :=
  run_inv (I := fun s => Server.Inv s.srv) (fun _ _ _ hi hs => inv_step hi hs) Server.inv_init h

/-- What the detach request of a background client does to the daemon, whatever happened before. -/
theorem detach_does {s s' : St} {t : Nat} (h : step s (.detach t) = some s') :
    ∃ n, s.cl t = .closed n ∧ s'.cl t = .ended n ∧ s'.srv = (Server.detach s.srv [n]).1 := by
  simp only [step] at h
  split at h
  · rename_i n hc
    split at h
    · rename_i v hv
      cases h
      simp only [Server.step] at hv
      split at hv
      · cases hv
        exact ⟨n, hc, by simp, rfl⟩
      · cases hv
    · cases h
  · cases h

/-! ## Nobody else has the session -/

/-- Since client `t`'s request for `n` was taken up no one else works on that name. -/
structure Alone (t : Nat) (n : Name) (s : St) : Prop where
  inv : Server.Inv s.srv
  mine : s.cl t = .asked n ∨ s.cl t = .closed n ∨ s.cl t = .ended n
  begun : s.srv.thr t ≠ .idle
  creating : ∀ u, u ≠ t → (s.srv.thr u).creates ≠ some n
  free : ∀ u x, u ≠ t → find n s.srv.table = some x → ¬ (s.srv.thr u).holds x

/-- The request was told that the session is busy: the client closes nothing and detaches nothing. -/
def Refused (t : Nat) (n : Name) (s : St) : Prop := s.cl t = .asked n ∧ s.srv.thr t = .done .busy

/-- The daemon works on, and takes up no further request for that name. -/
theorem alone_srv {t : Nat} {n : Name} {s : Server.St} {s' : Server.St} {k : Server.Label} (hi : Server.Inv s)
    (hb : s.thr t ≠ .idle) (hc : ∀ u, u ≠ t → (s.thr u).creates ≠ some n)
    (hf : ∀ u x, u ≠ t → find n s.table = some x → ¬ (s.thr u).holds x) (hk : ∀ u j, k ≠ .select u n j) (hs : Server.step s k = some s') :
    s'.thr t ≠ .idle ∧ (∀ u, u ≠ t → (s'.thr u).creates ≠ some n) ∧ ∀ u x, u ≠ t → find n s'.table = some x → ¬ (s'.thr u).holds x := by
  have he := Server.step_eff hs
  obtain ⟨a1, a2, a3, a4, a5, a6, a7, a8, a9, a10, a11, a12⟩ := hi
  clear hs
  cases he
  case kill names fail h =>
    refine ⟨by rw [Server.kill_thr]; exact hb, by rw [Server.kill_thr]; exact hc, fun u x hu hx => ?_⟩
    rw [Server.kill_thr]
    refine hf u x hu ?_
    rcases Server.kill_table s names fail with e | e <;> rw [e] at hx
    · exact hx
    · grind [Server.find_eraseAll]
  case detach names h => exact ⟨hb, hc, hf⟩
  all_goals
    (try simp only [Server.setThr, Server.setSess, Server.upd_apply, Server.find_insert, Server.find_erase])
    refine ⟨?_, ?_, ?_⟩ <;> grind [Phase.creates, Phase.holds]

/-- The client's own state only moves on. -/
theorem cl_step {s s' : St} {l : Label} {t : Nat} {n : Name} (h : step s l = some s')
    (hm : s.cl t = .asked n ∨ s.cl t = .closed n ∨ s.cl t = .ended n) : s'.cl t = .asked n ∨ s'.cl t = .closed n ∨ s'.cl t = .ended n := by
  cases l with
  | ask u m =>
    simp only [step] at h
    split at h
    · rename_i hc
      cases h
      have : t ≠ u := fun e => by subst e; rw [hc.1] at hm; simp at hm
      simp only [Server.upd_ne _ _ this]
      exact hm
    · cases h
  | close u =>
    simp only [step] at h
    split at h
    · rename_i m hc
      split at h
      · cases h
        by_cases e : t = u
        · subst e
          rw [hc] at hm
          simp at hm
          subst hm
          exact .inr (.inl (by simp))
        · simp only [Server.upd_ne _ _ e]
          exact hm
      · cases h
    · cases h
  | detach u =>
    obtain ⟨m, h1, h2, -⟩ := detach_does h
    rcases srv_step h with ⟨e, hnd⟩ | ⟨k, hk, ⟨h1, -, -⟩ | ⟨t', m', h3, h4, -, h6⟩⟩
    · simp only [step, h1] at h
      split at h
      · cases h
        by_cases e : t = u
        · subst e
          rw [h1] at hm
          simp at hm
          subst hm
          exact .inr (.inr (by simp))
        · simp only [Server.upd_ne _ _ e]
          exact hm
      · cases h
    · cases h1
    · cases h3
      rw [h6]
      by_cases e : t = u
      · subst e
        rw [h4] at hm
        simp at hm
        subst hm
        exact .inr (.inr (by simp))
      · simp only [Server.upd_ne _ _ e]
        exact hm
  | daemon k =>
    rcases srv_step h with ⟨e, hnd⟩ | ⟨k', hk, ⟨h1, -, h3⟩ | ⟨t', m', h3, -⟩⟩
    · exact absurd rfl (hnd k)
    · rw [h3]; exact hm
    · cases h3

/-- A closed connection stays closed. -/
theorem not_back {s s' : St} {l : Label} {t : Nat} {n : Name} (h : step s l = some s') (hm : s.cl t = .closed n ∨ s.cl t = .ended n) (k : Name) :
    s'.cl t ≠ .asked k := by
  have other : ∀ (u : Nat) (c : Cl), t ≠ u → Server.upd s.cl u c t ≠ .asked k := fun u c e => by
    rw [Server.upd_ne _ _ e]
    rcases hm with e | e <;> rw [e] <;> simp
  cases l with
  | ask u m =>
    simp only [step] at h
    split at h
    · rename_i hc
      cases h
      exact other u _ (fun e => by subst e; rw [hc.1] at hm; simp at hm)
    · cases h
  | close u =>
    simp only [step] at h
    split at h
    · rename_i m hc
      split at h
      · cases h
        exact other u _ (fun e => by subst e; rw [hc] at hm; simp at hm)
      · cases h
    · cases h
  | detach u =>
    simp only [step] at h
    split at h
    · split at h
      · cases h
        by_cases e : t = u
        · subst e; simp
        · exact other u _ e
      · cases h
    · cases h
  | daemon w =>
    simp only [step] at h
    split at h
    · split at h
      · cases h
        rcases hm with e | e <;> simp [e]
      · cases h
    · cases h

theorem alone_step {t : Nat} {n : Name} {s s' : St} {l : Label} (ha : Alone t n s) (hl : ∀ u j, l ≠ .daemon (.select u n j))
    (h : step s l = some s') : Alone t n s' := by
  have hi := inv_step ha.inv h
  have hm := cl_step h ha.mine
  rcases srv_step h with ⟨e, hnd⟩ | ⟨k, hk, hcase⟩
  · exact ⟨hi, hm, by rw [e]; exact ha.begun, by rw [e]; exact ha.creating, by rw [e]; exact ha.free⟩
  · have hk' : ∀ u j, k ≠ .select u n j := by
      rintro u j rfl
      rcases hcase with ⟨h1, -, -⟩ | ⟨_, _, -, -, h1, -⟩
      · exact hl u j h1
      · cases h1
    obtain ⟨h1, h2, h3⟩ := alone_srv ha.inv ha.begun ha.creating ha.free hk' hk
    exact ⟨hi, hm, h1, h2, h3⟩

theorem done_stays {s s' : Server.St} {t : Nat} {r : Server.Result} {k : Server.Label} (h : s.thr t = .done r) (hs : Server.step s k = some s') :
    s'.thr t = .done r := by
  have he := Server.step_eff hs
  clear hs
  cases he
  case kill => rw [Server.kill_thr]; exact h
  case detach => exact h
  all_goals
    (try simp only [Server.setThr, Server.setSess, Server.upd_apply]) <;> grind

/-- A request taken up stays so. -/
theorem begun_stays {s s' : Server.St} {t : Nat} {k : Server.Label} (h : s.thr t ≠ .idle) (hs : Server.step s k = some s') : s'.thr t ≠ .idle := by
  have he := Server.step_eff hs
  clear hs
  cases he
  case kill => rw [Server.kill_thr]; exact h
  case detach => exact h
  all_goals
    (try simp only [Server.setThr, Server.setSess, Server.upd_apply]) <;> grind

/-- Only one who has been answered closes the connection. -/
theorem closed_begun {s s' : St} {l : Label} (h : step s l = some s')
    (hp : ∀ u k, s.cl u = .closed k ∨ s.cl u = .ended k → s.srv.thr u ≠ .idle) :
    ∀ u k, s'.cl u = .closed k ∨ s'.cl u = .ended k → s'.srv.thr u ≠ .idle := by
  intro u k hu
  have key : s.srv.thr u ≠ .idle := by
    cases l with
    | ask v m =>
      simp only [step] at h
      split at h
      · cases h
        by_cases e : u = v
        · subst e; simp at hu
        · simp only [Server.upd_ne _ _ e] at hu
          exact hp u k hu
      · cases h
    | close v =>
      simp only [step] at h
      split at h
      · split at h
        · rename_i hr
          cases h
          by_cases e : u = v
          · subst e
            intro hi
            rw [hi] at hr
            cases hr
          · simp only [Server.upd_ne _ _ e] at hu
            exact hp u k hu
        · cases h
      · cases h
    | detach v =>
      simp only [step] at h
      split at h
      · rename_i m hc
        split at h
        · cases h
          by_cases e : u = v
          · subst e
            exact hp u m (.inl hc)
          · simp only [Server.upd_ne _ _ e] at hu
            exact hp u k hu
        · cases h
      · cases h
    | daemon w =>
      simp only [step] at h
      split at h
      · split at h
        · cases h
          exact hp u k hu
        · cases h
      · cases h
  rcases srv_step h with ⟨e, hnd⟩ | ⟨w, hw, -⟩
  · rw [e]; exact key
  · exact begun_stays key hw

theorem refused_step {t : Nat} {n : Name} {s s' : St} {l : Label} (hr : Refused t n s) (h : step s l = some s') : Refused t n s' := by
  have hm := cl_step h (.inl hr.1)
  have hb : s'.srv.thr t = .done .busy := by
    rcases srv_step h with ⟨e, hnd⟩ | ⟨k, hk, -⟩
    · rw [e]; exact hr.2
    · exact done_stays hr.2 hk
  refine ⟨?_, hb⟩
  obtain ⟨h1, h2⟩ := hr
  cases l with
  | ask u m =>
    simp only [step] at h
    split at h
    · rename_i hc
      cases h
      have : t ≠ u := fun e => by subst e; rw [hc.1] at h1; cases h1
      simpa only [Server.upd_ne _ _ this] using h1
    · cases h
  | close u =>
    simp only [step] at h
    split at h
    · split at h
      · rename_i hp
        cases h
        have : t ≠ u := fun e => by subst e; rw [h2] at hp; cases hp
        simpa only [Server.upd_ne _ _ this] using h1
      · cases h
    · cases h
  | detach u =>
    simp only [step] at h
    split at h
    · rename_i m hc
      split at h
      · cases h
        have : t ≠ u := fun e => by subst e; rw [h1] at hc; cases hc
        simpa only [Server.upd_ne _ _ this] using h1
      · cases h
    · cases h
  | daemon k =>
    simp only [step] at h
    repeat' split at h
    all_goals first | (cases h; exact h1) | cases h

/-- The daemon takes the request up while no other request is creating a session of that name. -/
theorem taken_up {t : Nat} {n : Name} {j : Bool} {s s' : St} (hi : Server.Inv s.srv) (ha : s.cl t = .asked n)
    (hq : ∀ u, (s.srv.thr u).creates ≠ some n) (h : step s (.daemon (.select t n j)) = some s') : Alone t n s' ∨ Refused t n s' := by
  have hi' := inv_step hi h
  rcases srv_step h with ⟨e, hnd⟩ | ⟨k, hk, ⟨h1, -, h3⟩ | ⟨_, _, h3, -⟩⟩
  · exact absurd rfl (hnd _)
  · cases h1
    rw [← h3] at ha
    have hc : ∀ u, u ≠ t → (s'.srv.thr u).creates ≠ some n := fun u hu => by
      have he := Server.step_eff hk
      have : s'.srv.thr u = s.srv.thr u := by
        generalize s'.srv = w at he
        cases he <;> simp only [Server.setThr, Server.setSess, Server.upd_apply] <;> grind
      rw [this]; exact hq u
    have he := Server.step_eff hk
    have hown := hi.own
    have key : (s'.srv.thr t = .done .busy) ∨ (s'.srv.thr t ≠ .idle ∧ ∀ u x, u ≠ t → find n s'.srv.table = some x → ¬ (s'.srv.thr u).holds x) := by
      generalize s'.srv = w at he
      cases he <;> simp only [Server.setThr, Server.setSess, Server.upd_apply] <;> grind
    rcases key with k1 | ⟨k1, k2⟩
    · exact .inr ⟨ha, k1⟩
    · exact .inl ⟨hi', .inl ha, k1, hc, k2⟩
  · cases h3

/-- **C151**, as long as from the moment the daemon takes up the background client's request no other request for that name is under way (creating a
session at that moment, or taken up later): the detach request at the end takes no one else's attachment away. -/
theorem C151_alone_partial {ls ls' : List Label} {s0 s s' : St} {t : Nat} {n : Name} {j : Bool} (h0 : Run ls s0) (ha : s0.cl t = .asked n)
    (hq : ∀ u, (s0.srv.thr u).creates ≠ some n) (h : runSteps step s0 (.daemon (.select t n j) :: ls') = some s)
    (hl : ∀ u i, .daemon (.select u n i) ∉ ls') (hd : step s (.detach t) = some s') :
    ∀ u x, u ≠ t → Served s.srv u x → Served s'.srv u x := by
  obtain ⟨s1, h1, h2⟩ := run_cons_some h
  have hfin : Alone t n s ∨ Refused t n s := by
    have := taken_up (inv_of_run h0) ha hq h1
    clear h h1 hd
    induction ls' generalizing s1 with
    | nil => cases h2; exact this
    | cons l ls' ih =>
      obtain ⟨s2, h3, h4⟩ := run_cons_some h2
      refine ih (fun u i hm => hl u i (List.mem_cons_of_mem _ hm)) s2 h4 ?_
      rcases this with hA | hR
      · exact .inl (alone_step hA (fun u i e => hl u i (by rw [e]; exact List.mem_cons_self)) h3)
      · exact .inr (refused_step hR h3)
  obtain ⟨m, hc, -, hs⟩ := detach_does hd
  rcases hfin with hA | hR
  · rintro u x hu ⟨⟨m', hm'⟩, hconn⟩
    have hmn : m = n := by
      rcases hA.mine with e | e | e <;> rw [e] at hc <;> simp at hc
      exact hc.symm
    subst hmn
    refine ⟨⟨m', by rw [hs]; exact hm'⟩, ?_⟩
    rw [hs]
    rcases Server.detach_sess s.srv [m] x with e | ⟨-, -, m2, hm2, hf⟩
    · rw [e]; exact hconn
    · rw [List.mem_singleton.mp hm2] at hf
      exact absurd (show (s.srv.thr u).holds x by rw [hm']; rfl) (hA.free u x hu hf)
  · rw [hR.1] at hc
    cases hc

/-- A background attach next to someone attached to another session, and someone who had been attached to this one before. -/
example : ∃ s0 s s', Run [.daemon (.select 1 ['b'] false), .daemon (.spawn 1), .daemon (.insert 1), .daemon (.lookup 1), .daemon (.start 1), .daemon (.select 2 a false),
      .daemon (.spawn 2), .daemon (.insert 2), .daemon (.lookup 2), .daemon (.start 2), .daemon (.clientGone 2), .daemon (.unlink 2), .daemon (.release 2), .ask 0 a] s0 ∧
    runSteps step s0 [.daemon (.select 0 a false), .close 0, .daemon (.start 0)] = some s ∧ step s (.detach 0) = some s' ∧ s0.cl 0 = .asked a ∧
    Served s.srv 1 0 ∧ Served s'.srv 1 0 ∧ Served s.srv 0 1 ∧ ¬ Served s'.srv 0 1 :=
  ⟨_, _, _, rfl, rfl, rfl, rfl, ⟨⟨_, rfl⟩, rfl⟩, ⟨⟨_, rfl⟩, rfl⟩, ⟨⟨_, rfl⟩, rfl⟩, fun h => absurd h.2 (by decide)⟩

/-- **C151** (what is left).  Whatever happened before, the detach request at the end leaves every session in the list with its shell and its owner,
changes nothing in a session of another name, publishes nothing, and the named session's output goes to no client. -/
theorem C151_left {s s' : St} {t : Nat} (h : step s (.detach t) = some s') :
    ∃ n, s.cl t = .closed n ∧ s'.srv.table = s.srv.table ∧ s'.srv.events = s.srv.events ∧
      (∀ x, (s'.srv.sess x).alive = (s.srv.sess x).alive ∧ (s'.srv.sess x).owner = (s.srv.sess x).owner) ∧
      (∀ x, find n s.srv.table ≠ some x → s'.srv.sess x = s.srv.sess x) ∧
      ∀ x, find n s.srv.table = some x → (s.srv.sess x).s2c = true → (s'.srv.sess x).conn = false := by
  obtain ⟨n, hc, -, hs⟩ := detach_does h
  refine ⟨n, hc, by rw [hs]; rfl, by rw [hs]; rfl, fun x => ?_, fun x hx => ?_, fun x hx h2 => ?_⟩ <;> rw [hs]
  · rcases Server.detach_sess s.srv [n] x with e | ⟨e, -⟩ <;> rw [e] <;> exact ⟨rfl, rfl⟩
  · rcases Server.detach_sess s.srv [n] x with e | ⟨-, -, m, hm, hf⟩
    · exact e
    · rw [List.mem_singleton.mp hm] at hf
      exact absurd hf hx
  · simp only [Server.detach, Server.detachLoop, hx, h2]
    by_cases hcn : (s.srv.sess x).conn = true
    · simp [hcn]
    · simp [hcn]

/-! ## Exactly whose attachment it takes -/

/-- A session whose output goes to a client has its output thread. -/
def Carried (s : Server.St) : Prop := ∀ x, (s.sess x).conn = true → (s.sess x).s2c = true

theorem carried_upd {s : Server.St} (hC : Carried s) (x : Nat) (v : Server.Sess) (hv : v.conn = true → v.s2c = true) :
    Carried (Server.setSess s x v) := by
  intro y hy
  by_cases e : y = x
  · subst e; simp only [Server.setSess, Server.upd_self] at hy ⊢; exact hv hy
  · simp only [Server.setSess, Server.upd_ne _ _ e] at hy ⊢; exact hC y hy

theorem carried_step {s s' : Server.St} {l : Server.Label} (hC : Carried s) (h : Server.Eff s l s') : Carried s' := by
  cases h with
  | spawn t n =>
    intro y hy
    by_cases e : y = s.next
    · subst e; simp at hy
    · simp only [Server.upd_ne _ _ e] at hy ⊢; exact hC y hy
  | start t n x => exact carried_upd (s := s) hC x _ id
  | s2cEnds x => exact carried_upd hC x _ (fun h => by cases h)
  | clientGone t n x => exact carried_upd (s := s) hC x _ (fun h => by cases h)
  | childDone t n x => exact carried_upd (s := s) hC x _ (fun h => by cases h)
  | kill names fail =>
    intro y hy
    rcases Server.kill_sess s names fail y with e | e <;> rw [e] at hy ⊢ <;> exact hC y hy
  | detach names =>
    intro y hy
    rcases Server.detach_sess s names y with e | ⟨e, -⟩ <;> rw [e] at hy ⊢
    · exact hC y hy
    · cases hy
  | reattach t n j x => exact carried_upd (s := s) hC x _ (hC x)
  | clobber t n j x => exact carried_upd (s := s) hC x _ (hC x)
  | stale t n j x v p _ _ _ _ _ hv => exact carried_upd (s := s) hC x _ (by rcases hv with rfl | rfl <;> exact hC x)
  | lookup t n x y => exact carried_upd (s := s) hC y _ (hC y)
  | acquire t n y => exact carried_upd (s := s) hC y _ (hC y)
  | unlinkGone t n x y => exact carried_upd (s := s) hC y _ (hC y)
  | release t x => exact carried_upd (s := s) hC x _ (hC x)
  | exit x => exact carried_upd (s := s) hC x _ (hC x)
  | reap n fails x => exact carried_upd (s := s) hC x _ (hC x)
  | fresh | busy | spawnFails | insert | lost | block | abort | unlinkDone | unlinkNone | reapNone | tick => exact hC

theorem carried_run {ls : List Label} {s : St} (h : Run ls s) : Carried s.srv :=
  run_inv (I := fun s => Carried s.srv) (fun _ _ _ hi hs => by
    rcases srv_step hs with ⟨e, -⟩ | ⟨k, hk, -⟩
    · rw [e]; exact hi
    · exact carried_step hi (Server.step_eff hk)) (fun x hx => by cases hx) h

/-- **C151**, exactly: the detach request a background attach ends with takes the attachment of another request away iff that request is served
by the session that has the name now. -/
theorem C151_exact {ls : List Label} {s s' : St} {t : Nat} {n : Name} (h : Run ls s) (hc : s.cl t = .closed n)
    (hd : step s (.detach t) = some s') {u x : Nat} (hu : Served s.srv u x) : ¬ Served s'.srv u x ↔ find n s.srv.table = some x := by
  obtain ⟨m, hm, -, hs⟩ := detach_does hd
  rw [hc] at hm; cases hm
  obtain ⟨n', hn', -, -, -, hother, hthis⟩ := C151_left hd
  rw [hc] at hn'; cases hn'
  have hthr : s'.srv.thr = s.srv.thr := by rw [hs]; rfl
  obtain ⟨⟨k, hk⟩, hconn⟩ := hu
  constructor
  · intro hn
    refine Classical.byContradiction fun hf => hn ⟨⟨k, by rw [hthr]; exact hk⟩, ?_⟩
    rw [hother x hf]; exact hconn
  · intro hf hS
    have := hthis x hf (carried_run h x hconn)
    rw [hS.2] at this
    cases this

example : ∃ s s', Run tooLate s ∧ s.cl 0 = .closed a ∧ step s (.detach 0) = some s' ∧ Served s.srv 1 0 ∧ find a s.srv.table = some 0 :=
  ⟨_, _, rfl, rfl, rfl, ⟨⟨a, rfl⟩, rfl⟩, rfl⟩

/-! ## The session is given back -/

/-- A step of the daemon's thread serving client `t`, including that it notices the client is gone. -/
def serves (t : Nat) : Label → Bool
  | .daemon k => Server.own t k || Server.leaves t k
  | _ => false

/-- **C151** (given back), as long as an attach request is taken up only while no other request is creating a session of that name: once the background
client has closed its connection, the daemon's thread serving it comes to its end, in every execution that lets it go on. -/
theorem C151_given_back_partial {σ : Nat → St} {lab : Nat → Option Label} (hx : Exec step σ lab) (h0 : σ 0 = init) {t : Nat} {n : Name}
    (hf : WeakFair step σ lab (serves t)) (hq : ∀ i k, lab i = some (.daemon k) → Server.Quiet1 (σ i).srv k) {m : Nat}
    (hc : (σ m).cl t = .closed n ∨ (σ m).cl t = .ended n) : ∃ i r, m ≤ i ∧ (σ i).srv.thr t = .done r ∧ ∀ x, ¬ ((σ i).srv.sess x).owner = some t := by
  have hI : ∀ i, Server.Inv (σ i).srv ∧ Server.Ord1 (σ i).srv ∧ ∀ u k, (σ i).cl u = .closed k ∨ (σ i).cl u = .ended k → (σ i).srv.thr u ≠ .idle :=
    fun i => by
    refine exec_stays hx (m := 0) (p := fun s => Server.Inv s.srv ∧ Server.Ord1 s.srv ∧ ∀ u k, s.cl u = .closed k ∨ s.cl u = .ended k → s.srv.thr u ≠ .idle)
      (fun i l _ hl hp h => ⟨inv_step hp.1 h, ?_, ?_⟩)
      (h0 ▸ ⟨Server.inv_init, Server.ord1_init, fun u k hk => by simp [init] at hk⟩) i (Nat.zero_le _)
    · rcases srv_step h with ⟨e, hnd⟩ | ⟨k, hk, ⟨h1, -, -⟩ | ⟨_, _, -, -, h1, -⟩⟩
      · rw [e]; exact hp.2.1
      · exact Server.ord1_step hp.1 hp.2.1 (hq i k (by rw [hl, h1])) (Server.step_eff hk)
      · subst h1
        exact Server.ord1_step (l := .detach [_]) hp.1 hp.2.1 trivial (Server.step_eff hk)
    · exact closed_begun h hp.2.2
  have hcl : ∀ i, m ≤ i → ((σ i).cl t = .closed n ∨ (σ i).cl t = .ended n) := exec_stays hx
    (p := fun s => s.cl t = .closed n ∨ s.cl t = .ended n) (fun i l _ _ hp h => by
      rcases cl_step h (.inr hp) with e | e | e
      · exact absurd e (not_back h hp n)
      · exact .inl e
      · exact .inr e) hc
  have hend : ∀ i, m ≤ i → ((σ i).srv.thr t).busyWith = false → ∃ r, (σ i).srv.thr t = .done r := fun i hi hb => by
    have h1 := (hI i).2.2 t n (hcl i hi)
    cases h2 : (σ i).srv.thr t with
    | idle => exact absurd h2 h1
    | done r => exact ⟨r, rfl⟩
    | _ => rw [h2] at hb; cases hb
  have goal : ∃ i r, m ≤ i ∧ (σ i).srv.thr t = .done r := by
    by_cases hb : ((σ m).srv.thr t).busyWith = true
    · obtain ⟨i, hi, r, hr⟩ := fair_reaches hx hf (B := fun s => (s.srv.thr t).busyWith = true) (G := fun s => ∃ r, s.srv.thr t = .done r)
        (fun s => (s.srv.thr t).left) hb (fun i hi hb => by
          have hl := (hI i).2.1.lock
          have key : Can Server.step (fun k => Server.own t k || Server.leaves t k) (σ i).srv := by
            by_cases hst : ∃ n x, (σ i).srv.thr t = .streaming n x
            · obtain ⟨n, x, hst⟩ := hst
              exact ⟨.clientGone t, by simp [Server.leaves], by simp [Server.step, hst]⟩
            · obtain ⟨k, h1, h2⟩ := Server.own_can hb hl (hI i).1 (fun n x h => hst ⟨n, x, h⟩)
              exact ⟨k, by simp [h1], h2⟩
          obtain ⟨k, h1, h2⟩ := key
          refine ⟨.daemon k, h1, ?_⟩
          have h3 : allowed (σ i).cl k = true := by
            cases k <;> first | rfl | (simp [Server.own, Server.leaves] at h1)
          obtain ⟨v, hv⟩ := Option.isSome_iff_exists.mp h2
          simp [step, h3, hv]) (fun i l hi hl hb h => by
        rcases srv_step h with ⟨e, hnd⟩ | ⟨k, hk, hcase⟩
        · refine .inr ⟨by rw [e]; exact hb, by rw [e]; exact Nat.le_refl _, fun hA => ?_⟩
          cases l with
          | daemon k => exact absurd rfl (hnd k)
          | _ => cases hA
        · have h1 := Server.thr_step hb hk
          by_cases ho : Server.own t k = true ∨ Server.leaves t k = true
          · obtain ⟨h2, h3⟩ := h1.1 ho
            by_cases hb' : ((σ (i + 1)).srv.thr t).busyWith = true
            · exact .inr ⟨hb', Nat.le_of_lt h2, fun _ => h2⟩
            · exact .inl (hend (i + 1) (by omega) (by simpa using hb'))
          · simp only [not_or, Bool.not_eq_true] at ho
            have h2 := h1.2 ho.1 ho.2
            refine .inr ⟨by rw [h2]; exact hb, by rw [h2]; exact Nat.le_refl _, fun hA => ?_⟩
            rcases hcase with ⟨rfl, -, -⟩ | ⟨_, _, rfl, -⟩
            · simp [serves, ho.1, ho.2] at hA
            · cases hA)
      exact ⟨i, r, hi, hr⟩
    · obtain ⟨r, hr⟩ := hend m (Nat.le_refl _) (by simpa using hb)
      exact ⟨m, r, Nat.le_refl _, hr⟩
  obtain ⟨i, r, hi, hr⟩ := goal
  refine ⟨i, r, hi, hr, fun x hown => ?_⟩
  have := ((hI i).1.own t x).mpr hown
  rw [hr] at this
  exact this

/-- The background client's detach request gets there before the daemon has noticed anything. -/
def early : List Label :=
  [.ask 0 a, .daemon (.select 0 a false), .daemon (.spawn 0), .daemon (.insert 0), .daemon (.lookup 0), .close 0, .detach 0, .daemon (.start 0),
   .daemon (.clientGone 0), .daemon (.unlink 0), .daemon (.release 0)]

/-- The conditions are met by such an execution: at the instant 6 the connection is closed, in the end the session is there, detached. -/
example : ∃ σ lab, Exec step σ lab ∧ σ 0 = init ∧ WeakFair step σ lab (serves 0) ∧ (∀ i k, lab i = some (.daemon k) → Server.Quiet1 (σ i).srv k) ∧
    (σ 6).cl 0 = .closed a ∧ (σ 6).srv.thr 0 = .owns a 0 ∧ find a (σ 11).srv.table = some 0 ∧ ((σ 11).srv.sess 0).owner = none ∧
    ((σ 11).srv.sess 0).alive = true := by
  have hrun : ∃ s', runSteps step init early = some s' ∧ (s'.srv.thr 0).busyWith = false := ⟨_, rfl, rfl⟩
  obtain ⟨s', hr, hb⟩ := hrun
  obtain ⟨h1, h2⟩ := thenRests_exec hr
  refine ⟨_, _, h1, rfl, (fair_at_rest h2 (fun l hl => ?_)).1, fun i k hl => ?_, rfl, rfl, rfl, rfl, rfl⟩
  · cases l with
    | daemon k =>
      have := Server.quiet_thread hb k (by simpa [serves] using hl)
      simp only [step, this]
      split <;> rfl
    | _ => cases hl
  · match i with
    | 1 => cases hl; intro t'; cases t' <;> nofun
    | 0 | 5 | 6 => cases hl
    | 2 | 3 | 4 | 7 | 8 | 9 | 10 => cases hl; trivial
    | _ + 11 => cases hl

/-! ## Which session it has -/

/-- The name a background client asked for. -/
def Cl.name : Cl → Option Name
  | .other => none
  | .asked n | .closed n | .ended n => some n

theorem about_of_run {ls : List Label} {s : St} (h : Run ls s) : ∀ t n, (s.cl t).name = some n → Server.About s.srv n (s.srv.thr t) := by
  refine (run_inv (I := fun s => Server.Inv s.srv ∧ ∀ t n, (s.cl t).name = some n → Server.About s.srv n (s.srv.thr t))
    (fun s l s' hI hs => ⟨inv_step hI.1 hs, ?_⟩) ⟨Server.inv_init, fun t n h => by simp [init, Cl.name] at h⟩ h).2
  obtain ⟨hi, hA⟩ := hI
  intro t n hn
  cases l with
  | ask u m =>
    simp only [step] at hs
    split at hs
    · rename_i hc
      cases hs
      by_cases hu : t = u
      · subst hu; simp only [hc.2]; trivial
      · simp only [Server.upd_ne _ _ hu] at hn; exact hA t n hn
    · cases hs
  | close u =>
    simp only [step] at hs
    repeat' split at hs
    all_goals cases hs
    rename_i m hc _
    by_cases hu : t = u
    · subst hu; simp only [Server.upd_self, Cl.name] at hn; exact hA t n (by rw [hc]; exact hn)
    · simp only [Server.upd_ne _ _ hu] at hn; exact hA t n hn
  | detach u =>
    rcases srv_step hs with ⟨e, -⟩ | ⟨k, hk, ⟨h1, -, -⟩ | ⟨v, m, h1, hc, rfl, hcl⟩⟩
    · rcases detach_does hs with ⟨m, hc, -, -⟩
      simp only [step, hc] at hs
      split at hs
      · cases hs
        by_cases hu : t = u
        · subst hu; simp only [Server.upd_self, Cl.name] at hn; rw [e]; exact hA t n (by rw [hc]; exact hn)
        · simp only [Server.upd_ne _ _ hu] at hn; rw [e]; exact hA t n hn
      · cases hs
    · cases h1
    · cases h1
      refine Server.about_step hi (Server.step_eff hk) (hA t n ?_) (by simp)
      rw [hcl] at hn
      by_cases hu : t = u
      · subst hu; simp only [Server.upd_self, Cl.name] at hn; rw [hc]; exact hn
      · simp only [Server.upd_ne _ _ hu] at hn; exact hn
  | daemon k =>
    rcases srv_step hs with ⟨-, e⟩ | ⟨k', hk, ⟨h1, ha, hcl⟩ | ⟨_, _, h1, -⟩⟩
    · exact absurd rfl (e k)
    · cases h1
      rw [hcl] at hn
      refine Server.about_step hi (Server.step_eff hk) (hA t n hn) (fun m j e => ?_)
      subst e
      simp only [allowed] at ha
      cases hc : s.cl t <;> rw [hc] at ha hn <;> simp only [Cl.name, Option.some.injEq, reduceCtorEq] at ha hn
      · simp only [beq_iff_eq] at ha; rw [← ha, hn]
    · cases h1

/-- **C151** (which).  The session that the request of a background client has, as long as it has one, is of the name the client asked for. -/
theorem C151_which {ls : List Label} {s : St} {t x : Nat} {n : Name} (h : Run ls s) (hc : s.cl t = .asked n ∨ s.cl t = .closed n ∨ s.cl t = .ended n)
    (hx : (s.srv.sess x).owner = some t) : (s.srv.sess x).name = n := by
  have hA := about_of_run h t n (by rcases hc with hc | hc | hc <;> rw [hc] <;> rfl)
  have hh := ((inv_of_run h).own t x).mpr hx
  cases hp : s.srv.thr t <;> simp only [hp, Server.Phase.holds] at hh <;> subst hh <;> rw [hp] at hA <;> exact hA

/-- Client 0 has asked for session `a` and has closed its connection while it is attached. -/
example : ∃ s, Run (tooLate.take 7) s ∧ s.cl 0 = .closed a ∧ (s.srv.sess 0).owner = some 0 ∧ (s.srv.sess 0).name = a := ⟨_, rfl, rfl, rfl, rfl⟩

end Shpool.Background
