import Verif.Reading.Model
import Verif.Server.Fair
import Verif.Server.Life
import Verif.Force.Model
/-! # A client shown as attached can be detached -/

namespace Shpool.Reading

open Server (Name Phase find)

/-- The list shows the session of that name as attached. -/
def Shown (s : Server.St) (n : Name) : Prop := ∃ r ∈ Server.list s, r.name = n ∧ r.attached = true

/-- A step the daemon makes for request `t` on its own, once it is possible: those of the thread serving it, and the end of its streaming after its
client was detached.  What the user does (quitting the pager) is none. -/
def serves (t : Nat) : Label → Bool
  | .leave u => u == t
  | .daemon k => Server.own t k
  | _ => false

/-- An execution from the start, fair to the threads serving the requests, in which a request for a name is taken up only while no other one is
creating a session of that name. -/
structure Fair (p : Params) (σ : Nat → St) (lab : Nat → Option Label) : Prop where
  exec : Exec (step p) σ lab
  start : σ 0 = init
  fair : ∀ t, WeakFair (step p) σ lab (serves t)
  quiet : ∀ i k, lab i = some (.daemon k) → Server.Quiet1 (σ i).srv k

/-- The session of a name belongs to request `t`. -/
def Has (s : Server.St) (n : Name) (t : Nat) : Prop := ∃ x, find n s.table = some x ∧ (s.sess x).owner = some t

/-- **C170**: when a session that a request has is detached, that request ends, whatever its user does or does not do, and the session is free. -/
def C170_statement (p : Params) : Prop :=
  ∀ σ lab, Fair p σ lab → ∀ i n t, lab i = some (.detach n) → Has (σ i).srv n t →
    ∃ j r, i ≤ j ∧ (σ j).srv.thr t = .done r ∧ ∀ x, ((σ j).srv.sess x).owner ≠ some t

/-! ## What the steps do to the daemon -/

theorem srv_step {p : Params} {s s' : St} {l : Label} (h : step p s l = some s') :
    (s'.srv = s.srv ∧ ∃ t, l = .show t ∨ l = .quit t) ∨ ∃ k, Server.step s.srv k = some s'.srv ∧
      ((l = .daemon k ∧ allowed s.pg k = true ∧ s'.pg = s.pg) ∨ (∃ n, l = .detach n ∧ k = .detach [n] ∧ s'.pg = reached p s n) ∨
        ∃ t, l = .leave t ∧ k = .clientGone t ∧ s'.pg = s.pg) := by
  cases l with
  | «show» t =>
    simp only [step] at h
    (repeat' split at h) <;> cases h
    exact .inl ⟨rfl, t, .inl rfl⟩
  | quit t =>
    simp only [step] at h
    split at h <;> cases h
    exact .inl ⟨rfl, t, .inr rfl⟩
  | detach n =>
    simp only [step] at h
    split at h
    · rename_i v hv
      cases h
      exact .inr ⟨_, hv, .inr (.inl ⟨n, rfl, rfl, rfl⟩)⟩
    · cases h
  | leave t =>
    simp only [step] at h
    split at h
    · split at h
      · cases h
      · split at h
        · rename_i v hv
          cases h
          exact .inr ⟨_, hv, .inr (.inr ⟨t, rfl, rfl, rfl⟩)⟩
        · cases h
    · cases h
  | daemon k =>
    simp only [step] at h
    split at h
    · rename_i ha
      split at h
      · rename_i v hv
        cases h
        exact .inr ⟨k, hv, .inl ⟨rfl, ha, rfl⟩⟩
      · cases h
    · cases h

/-- A session whose thread has a client has that thread. -/
def Wired (s : Server.St) : Prop := ∀ x, (s.sess x).conn = true → (s.sess x).s2c = true

theorem wired_step {s s' : Server.St} {k : Server.Label} (h : Wired s) (hs : Server.step s k = some s') : Wired s' := by
  have he := Server.step_eff hs
  clear hs
  intro x
  have hx := h x
  cases he
  case kill names fail _ =>
    have := Server.kill_sess s names fail x
    grind
  case detach names _ =>
    have h1 := Server.detach_s2c s names x
    have h2 := Server.detach_sess s names x
    grind
  all_goals
    (try simp only [Server.setThr, Server.setSess, Server.upd_apply, Server.Sess.recordAttached, Server.Sess.recordDetached]) <;> grind

structure Good (s : Server.St) : Prop where
  inv : Server.Inv s
  conn : Server.Conn s
  wired : Wired s

theorem good_step {p : Params} {s s' : St} {l : Label} (hg : Good s.srv) (h : step p s l = some s') : Good s'.srv := by
  rcases srv_step h with ⟨e, -⟩ | ⟨k, hk, -⟩
  · rw [e]; exact hg
  · exact ⟨Server.inv_step hg.inv (Server.step_eff hk), Server.conn_step hg.conn (Server.step_eff hk), wired_step hg.wired hk⟩

theorem good_init : Good init.srv := ⟨Server.inv_init, (fun x hx => by cases hx), (fun x hx => by cases hx)⟩

theorem good_of_run {p : Params} {ls : List Label} {s : St} (h : Run p ls s) : Good s.srv :=
  run_inv (I := fun s => Good s.srv) (fun _ _ _ hi hs => good_step hi hs) good_init h

/-! ## The list and the answers -/

theorem shown_iff {s : Server.St} (hg : Good s) (n : Name) : Shown s n ↔ ∃ t, Has s n t := by
  constructor
  · rintro ⟨r, hr, rfl, ha⟩
    obtain ⟨q, hq, rfl⟩ := List.mem_map.mp hr
    obtain ⟨t, ht⟩ := Option.isSome_iff_exists.mp ha
    exact ⟨t, q.2, Server.mem_find hg.inv.nodup hq, ht⟩
  · rintro ⟨t, x, hf, ht⟩
    exact ⟨_, List.mem_map.mpr ⟨(n, x), Server.find_mem hf, rfl⟩, rfl, by simp [ht]⟩

/-- What the list shows as attached is what some request has. -/
theorem C170_shown {p : Params} {ls : List Label} {s : St} (h : Run p ls s) (n : Name) : Shown s.srv n ↔ ∃ t, Has s.srv n t :=
  shown_iff (good_of_run h) n

theorem detach_one {s : Server.St} {n : Name} {x : Nat} (hf : find n s.table = some x) :
    Server.detach s [n] = if (s.sess x).s2c = false then (s, none) else
      if (s.sess x).conn then ({ s with sess := Server.upd s.sess x { (s.sess x).recordDetached s.now with conn := false } }, some ([], []))
      else (s, some ([], [n])) := by
  simp only [Server.detach, Server.detachLoop, hf]
  split
  · rfl
  · split <;> rfl

/-- **C170** (lost).  While the request that has the session does not stream yet (the user reads the message), a detach request changes nothing
at all, and is answered that nobody is attached (or fails, if the session's thread has gone), although the list shows the session as attached. -/
theorem C170_lost {ls : List Label} {s s' : St} {n m : Name} {t x : Nat} (h : Run code ls s) (hf : find n s.srv.table = some x)
    (ht : s.srv.thr t = .owns m x) (hs : step code s (.detach n) = some s') :
    s' = s ∧ Shown s.srv n ∧
      (Server.detach s.srv [n]).2 = if (s.srv.sess x).s2c then some ([], [n]) else none := by
  have hg := good_of_run h
  have ho : (s.srv.sess x).owner = some t := (hg.inv.own t x).mp (by rw [ht]; rfl)
  have hc : (s.srv.sess x).conn = false := by
    cases hc : (s.srv.sess x).conn with
    | false => rfl
    | true =>
      obtain ⟨u, m', hu⟩ := hg.conn x hc
      have : (s.srv.sess x).owner = some u := (hg.inv.own u x).mp (by rw [hu]; rfl)
      rw [ho] at this
      cases this
      rw [ht] at hu; cases hu
  have hd := detach_one hf
  rw [hc] at hd
  have e1 : (Server.detach s.srv [n]).1 = s.srv := by rw [hd]; split <;> rfl
  refine ⟨?_, (shown_iff hg n).mpr ⟨t, x, hf, ho⟩, ?_⟩
  · simp only [step] at hs
    split at hs
    · rename_i v hv
      cases hs
      simp only [Server.step] at hv
      split at hv
      · cases hv
        have : reached code s n = s.pg := by funext u; simp [reached, code]
        rw [this, e1]
      · cases hv
    · cases hs
  · rw [hd]
    cases (s.srv.sess x).s2c <;> simp

/-! ## The witness -/

def a : Name := ['a']

/-- A session is made and its client attached; it is shown the message. -/
def reading : List Label := [.daemon (.select 0 a false), .daemon (.spawn 0), .daemon (.insert 0), .daemon (.lookup 0), .show 0]

/-- The state then. -/
theorem reading_run : ∃ s, Run code reading s ∧ find a s.srv.table = some 0 ∧ s.srv.thr 0 = .owns a 0 ∧ s.pg 0 = .up ∧
    (∀ t, t ≠ 0 → s.srv.thr t = .idle) ∧ (s.srv.sess 0).owner = some 0 ∧ (s.srv.sess 0).s2c = true ∧ s.srv.lock = none :=
  ⟨_, rfl, rfl, rfl, rfl, fun t ht => by cases t with | zero => exact absurd rfl ht | succ t => rfl, rfl, rfl, rfl⟩

theorem nothing_at {s : St} (h1 : s.srv.thr 0 = .owns a 0) (h2 : s.pg 0 = .up) (h3 : ∀ t, t ≠ 0 → s.srv.thr t = .idle) (t : Nat) (l : Label)
    (hl : serves t l = true) : step code s l = none := by
  by_cases ht : t = 0
  · subst ht
    cases l with
    | leave u =>
      simp only [serves, beq_iff_eq] at hl
      subst hl
      simp [step, h1]
    | daemon k =>
      simp only [serves] at hl
      cases k <;> simp only [Server.own, beq_iff_eq, Bool.false_eq_true] at hl <;> subst hl <;> simp [step, allowed, h2, Server.step, h1]
    | _ => cases hl
  · have hi := h3 t ht
    cases l with
    | leave u =>
      simp only [serves, beq_iff_eq] at hl
      subst hl
      simp [step, hi]
    | daemon k =>
      have := Server.quiet_thread (s := s.srv) (t := t) (by rw [hi]; rfl) k (.inl (by simpa [serves] using hl))
      simp only [step, this]
      split <;> rfl
    | _ => cases hl

/-- **C170** is false, for ever: the user leaves the message on the terminal, and the session is detached again and again.  Every time the list shows it
as attached and the answer is that nobody is attached; nothing happens. -/
theorem C170_false_for_ever : ∃ σ lab, Fair code σ lab ∧ ∀ i, 5 ≤ i → lab i = some (.detach a) ∧ Has (σ i).srv a 0 ∧ Shown (σ i).srv a ∧
    (Server.detach (σ i).srv [a]).2 = some ([], [a]) ∧ (σ i).srv.thr 0 = .owns a 0 := by
  obtain ⟨s, hr, hf, h1, h2, h3, ho, hsc, hlk⟩ := reading_run
  obtain ⟨hx, hrest⟩ := thenRests_exec hr
  have hr5 : ∀ i, 5 ≤ i → thenRests (step code) init reading i = s := hrest
  have hst : step code s (.detach a) = some s := by
    have : ∃ s', step code s (.detach a) = some s' := by
      simp only [step, Server.step, hlk, if_true]
      exact ⟨_, rfl⟩
    obtain ⟨s', hs'⟩ := this
    rw [hs', (C170_lost hr hf h1 hs').1]
  have hl := C170_lost hr hf h1 hst
  rw [hsc] at hl
  refine ⟨thenRests (step code) init reading, fun i => if i < 5 then reading[i]? else some (.detach a), ⟨?_, rfl, ?_, ?_⟩, ?_⟩
  · intro i
    by_cases hi : i < 5
    · have := hx i
      simp only [hi, if_true]
      exact this
    · refine .inr ⟨.detach a, by simp [hi], ?_⟩
      rw [hr5 i (by omega), hr5 (i + 1) (by omega)]
      exact hst
  · exact fun t => (fair_at_rest hr5 (nothing_at h1 h2 h3 t)).1
  · intro i k hk
    match i with
    | 0 => cases hk; intro t'; nofun
    | 1 | 2 | 3 => cases hk; trivial
    | 4 => cases hk
    | n + 5 => rw [if_neg (by omega)] at hk; cases hk
  · intro i hi
    refine ⟨by simp [show ¬ i < 5 by omega], ?_⟩
    rw [hr5 i hi]
    exact ⟨⟨0, hf, ho⟩, hl.2.1, by simpa using hl.2.2, h1⟩

theorem C170_false : ¬ C170_statement code := by
  intro h
  obtain ⟨σ, lab, hfair, hw⟩ := C170_false_for_ever
  obtain ⟨j, r, hj, hd, -⟩ := h σ lab hfair 5 a 0 (hw 5 (Nat.le_refl _)).1 (hw 5 (Nat.le_refl _)).2.1
  rw [(hw j hj).2.2.2.2] at hd
  cases hd

/-- Client 1 attaches with `--force` while client 0 reads the message: the first try and the detach request, then as many tries as it makes. -/
def forced : List Force.Label :=
  [.daemon (.select 0 a false), .daemon (.spawn 0), .daemon (.insert 0), .daemon (.lookup 0), .begin 1 a 1, .daemon (.select 1 a false), .refused 1,
   .detach 1] ++ (List.range 21).flatMap (fun k => [.again 1 (k + 2), .daemon (.select (k + 2) a false), .refused 1]) ++ [.giveUp 1]

/-- **C170** is false also of `--force`: with nobody else about, the forced client gives up, and the one that reads the message has the session still. -/
theorem C170_false_force : ∃ s, Force.Run forced s ∧ s.cl 1 = .failed a ∧ s.srv.thr 0 = .owns a 0 ∧ Has s.srv a 0 ∧ (s.srv.sess 0).alive = true :=
  ⟨_, rfl, rfl, rfl, ⟨0, rfl, rfl⟩, rfl⟩

/-- **C170** (disconnected).  A session that the list does not show as attached is not detached by any request: the answer is that nobody is
attached, and nothing changes. -/
theorem C170_disconnected {p : Params} {ls : List Label} {s : St} {n : Name} {x : Nat} (h : Run p ls s) (hf : find n s.srv.table = some x)
    (hs : ¬ Shown s.srv n) (hsc : (s.srv.sess x).s2c = true) : Server.detach s.srv [n] = (s.srv, some ([], [n])) := by
  have hg := good_of_run h
  rw [detach_one hf]
  cases hc : (s.srv.sess x).conn with
  | false => simp [hsc]
  | true =>
    obtain ⟨u, m, hu⟩ := hg.conn x hc
    exact absurd ((shown_iff hg n).mpr ⟨u, x, hf, (hg.inv.own u x).mp (by rw [hu]; rfl)⟩) hs

/-- A session without client. -/
def left : List Label := [.daemon (.select 0 a false), .daemon (.spawn 0), .daemon (.insert 0), .daemon (.lookup 0), .daemon (.start 0),
  .daemon (.clientGone 0), .daemon (.unlink 0), .daemon (.release 0)]

example : ∃ s, Run code left s ∧ find a s.srv.table = some 0 ∧ ¬ Shown s.srv a ∧ (s.srv.sess 0).s2c = true := by
  refine ⟨_, rfl, rfl, ?_, rfl⟩
  rintro ⟨r, hr, -, ha⟩
  cases hr with
  | head => cases ha
  | tail _ h => cases h

/-! ## Otherwise the request ends -/

/-- On its way out: its client was taken from the session's thread, or its streaming is over; or (repair) it was told to end. -/
def Out (t : Nat) (s : St) : Prop :=
  (∃ n x, s.srv.thr t = .streaming n x ∧ (s.srv.sess x).conn = false) ∨ (∃ n x b, s.srv.thr t = .ending n x b) ∨ (∃ x, s.srv.thr t = .leaving x) ∨
    (∃ n x, s.srv.thr t = .owns n x) ∧ s.pg t = .told

theorem out_srv {s s' : Server.St} {k : Server.Label} {t : Nat} (hi : Server.Inv s) (hs : Server.step s k = some s') {n : Name} {x : Nat}
    (h : s.thr t = .streaming n x) (hc : (s.sess x).conn = false) :
    (s'.thr t = .streaming n x ∧ (s'.sess x).conn = false) ∨ ∃ b, s'.thr t = .ending n x b := by
  have he := Server.step_eff hs
  have ho := hi.own
  have ht : (s.thr t).holds x := by rw [h]; rfl
  have hx := (ho t x).mp ht
  have hlt := (hi.streaming t n x h).1
  have hsp := hi.spawned
  clear hs hi
  cases he
  case kill names fail _ =>
    have := Server.kill_sess s names fail x
    rw [Server.kill_thr]
    grind
  case detach names _ =>
    have h2 := Server.detach_sess s names x
    exact .inl ⟨h, by rcases h2 with e | ⟨e, -⟩ <;> simp [e, hc]⟩
  case start u m y hu =>
    have h3 : (s.thr u).holds y := by rw [hu]; rfl
    have h4 := (ho u y).mp h3
    by_cases huy : y = x
    · subst huy
      rw [hx] at h4
      cases h4
      rw [h] at hu; cases hu
    · have : u ≠ t := fun e => by subst e; rw [h] at hu; cases hu
      simp [Server.setThr, Server.setSess, Server.upd_apply, Ne.symm huy, Ne.symm this, h, hc]
  all_goals
    (try simp only [Server.setThr, Server.setSess, Server.upd_apply, Server.Sess.recordAttached, Server.Sess.recordDetached]) <;> grind

theorem told_stays {p : Params} {s s' : St} {l : Label} {t : Nat} (ht : s.pg t = .told) (h : step p s l = some s') : s'.pg t = .told := by
  cases l with
  | «show» u =>
    simp only [step] at h
    (repeat' split at h) <;> cases h
    rename_i hn
    by_cases e : t = u
    · subst e; rw [ht] at hn; cases hn
    · simp [Server.upd_apply, e, ht]
  | quit u =>
    simp only [step] at h
    split at h <;> cases h
    rename_i hn
    by_cases e : t = u
    · subst e; rw [ht] at hn; cases hn
    · simp [Server.upd_apply, e, ht]
  | detach n =>
    simp only [step] at h
    split at h <;> cases h
    simp [reached, ht]
  | leave u =>
    simp only [step] at h
    (repeat' split at h) <;> cases h
    exact ht
  | daemon k =>
    simp only [step] at h
    (repeat' split at h) <;> cases h
    exact ht

theorem out_step {p : Params} {s s' : St} {l : Label} {t : Nat} (hg : Good s.srv) (ho : Out t s) (h : step p s l = some s') :
    Out t s' ∨ ∃ r, s'.srv.thr t = .done r := by
  rcases srv_step h with ⟨e, -⟩ | ⟨k, hk, hc⟩
  · refine .inl ?_
    rcases ho with ho | ho | ho | ⟨ho, h1⟩
    · exact .inl (by rw [e]; exact ho)
    · exact .inr (.inl (by rw [e]; exact ho))
    · exact .inr (.inr (.inl (by rw [e]; exact ho)))
    · exact .inr (.inr (.inr ⟨by rw [e]; exact ho, told_stays h1 h⟩))
  · have same : (s.srv.thr t).busyWith = true → Server.own t k = false → Server.leaves t k = false → s'.srv.thr t = s.srv.thr t :=
      fun hb => (Server.thr_step hb hk).2
    rcases ho with ⟨n, x, h1, h2⟩ | ⟨n, x, b, h1⟩ | ⟨x, h1⟩ | ⟨⟨n, x, h1⟩, h2⟩
    · rcases out_srv hg.inv hk h1 h2 with ⟨h3, h4⟩ | ⟨b, h3⟩
      · exact .inl (.inl ⟨n, x, h3, h4⟩)
      · exact .inl (.inr (.inl ⟨n, x, b, h3⟩))
    · by_cases hb : Server.own t k = true ∨ Server.leaves t k = true
      · have he := Server.step_eff hk
        have : ∃ x, s'.srv.thr t = .leaving x := by
          revert hb
          clear hc same hk h
          generalize s'.srv = v at he
          cases he <;>
            ((try simp only [Server.own, Server.leaves, Server.setThr, Server.setSess, Server.upd_apply, beq_iff_eq, Bool.false_eq_true, or_false]) <;>
              first | grind | (intro hb; subst hb; exact ⟨_, if_pos rfl⟩))
        exact .inl (.inr (.inr (.inl this)))
      · simp only [not_or, Bool.not_eq_true] at hb
        exact .inl (.inr (.inl ⟨n, x, b, by rw [same (by rw [h1]; rfl) hb.1 hb.2, h1]⟩))
    · by_cases hb : Server.own t k = true ∨ Server.leaves t k = true
      · have he := Server.step_eff hk
        have : ∃ r, s'.srv.thr t = .done r := by
          revert hb
          clear hc same hk h
          generalize s'.srv = v at he
          cases he <;>
            ((try simp only [Server.own, Server.leaves, Server.setThr, Server.setSess, Server.upd_apply, beq_iff_eq, Bool.false_eq_true, or_false]) <;>
              first | grind | (intro hb; subst hb; exact ⟨_, if_pos rfl⟩))
        exact .inr this
      · simp only [not_or, Bool.not_eq_true] at hb
        exact .inl (.inr (.inr (.inl ⟨x, by rw [same (by rw [h1]; rfl) hb.1 hb.2, h1]⟩)))
    · by_cases hb : Server.own t k = true ∨ Server.leaves t k = true
      · have he := Server.step_eff hk
        have hns : k ≠ .start t := by
          rintro rfl
          rcases hc with ⟨-, ha, -⟩ | ⟨_, -, ha, -⟩ | ⟨_, -, ha, -⟩
          · simp [allowed, h2] at ha
          · cases ha
          · cases ha
        have : ∃ x, s'.srv.thr t = .leaving x := by
          revert hb
          clear hc same hk h
          generalize s'.srv = v at he
          cases he <;>
            ((try simp only [Server.own, Server.leaves, Server.setThr, Server.setSess, Server.upd_apply, beq_iff_eq, Bool.false_eq_true, or_false]) <;>
              first | grind | (intro hb; subst hb; exact ⟨_, if_pos rfl⟩))
        exact .inl (.inr (.inr (.inl this)))
      · simp only [not_or, Bool.not_eq_true] at hb
        exact .inl (.inr (.inr (.inr ⟨⟨n, x, by rw [same (by rw [h1]; rfl) hb.1 hb.2, h1]⟩, told_stays h2 h⟩)))

/-- A request on its way out can make a step towards its end. -/
theorem out_can {p : Params} {s : St} {t : Nat} (hl : s.srv.lock = none) (ho : Out t s) : Can (step p) (serves t) s := by
  rcases ho with ⟨n, x, h1, h2⟩ | ⟨n, x, b, h1⟩ | ⟨x, h1⟩ | ⟨⟨n, x, h1⟩, h2⟩
  · exact ⟨.leave t, by simp [serves], by simp [step, h1, h2, Server.step]⟩
  · refine ⟨.daemon (.unlink t), by simp [serves, Server.own], ?_⟩
    cases b <;> simp only [step, allowed, Server.step, h1, hl, if_true]
    · cases find n s.srv.table <;> rfl
    · rfl
  · exact ⟨.daemon (.release t), by simp [serves, Server.own], by simp [step, allowed, Server.step, h1]⟩
  · exact ⟨.daemon (.abort t), by simp [serves, Server.own], by simp [step, allowed, Server.step, h1, h2]⟩

theorem busy_of_out {t : Nat} {s : St} (ho : Out t s) : (s.srv.thr t).busyWith = true := by
  rcases ho with ⟨n, x, h1, h2⟩ | ⟨n, x, b, h1⟩ | ⟨x, h1⟩ | ⟨⟨n, x, h1⟩, h2⟩ <;> rw [h1] <;> rfl

theorem good_at {p : Params} {σ : Nat → St} {lab : Nat → Option Label} (hF : Fair p σ lab) (i : Nat) :
    Good (σ i).srv ∧ Server.Ord1 (σ i).srv := by
  refine exec_stays hF.exec (m := 0) (p := fun s => Good s.srv ∧ Server.Ord1 s.srv)
    (fun i l _ hl hp h => ⟨good_step hp.1 h, ?_⟩) (hF.start ▸ ⟨good_init, Server.ord1_init⟩) i (Nat.zero_le _)
  rcases srv_step h with ⟨e, -⟩ | ⟨k, hk, ⟨h1, -, -⟩ | ⟨n, -, h1, -⟩ | ⟨t, -, h1, -⟩⟩
  · rw [e]; exact hp.2
  · exact Server.ord1_step hp.1.inv hp.2 (hF.quiet i k (by rw [hl, h1])) (Server.step_eff hk)
  · subst h1
    exact Server.ord1_step (l := .detach [_]) hp.1.inv hp.2 trivial (Server.step_eff hk)
  · subst h1
    exact Server.ord1_step (l := .clientGone _) hp.1.inv hp.2 trivial (Server.step_eff hk)

theorem out_ends {p : Params} {σ : Nat → St} {lab : Nat → Option Label} (hF : Fair p σ lab) {m t : Nat} (ho : Out t (σ m)) :
    ∃ j r, m ≤ j ∧ (σ j).srv.thr t = .done r ∧ ∀ x, ((σ j).srv.sess x).owner ≠ some t := by
  obtain ⟨j, hj, r, hr⟩ := fair_reaches hF.exec (hF.fair t) (B := Out t) (G := fun s => ∃ r, s.srv.thr t = .done r)
    (fun s => (s.srv.thr t).left) ho (fun i _ hb => out_can (good_at hF i).2.lock hb) (fun i l _ hl hb h => by
      rcases out_step (good_at hF i).1 hb h with h1 | h1
      · refine .inr ⟨h1, ?_⟩
        rcases srv_step h with ⟨e, u, hu⟩ | ⟨k, hk, hc⟩
        · refine ⟨by rw [e]; exact Nat.le_refl _, fun hA => ?_⟩
          rcases hu with rfl | rfl <;> cases hA
        · have h2 := Server.thr_step (busy_of_out hb) hk
          by_cases hown : Server.own t k = true ∨ Server.leaves t k = true
          · exact ⟨Nat.le_of_lt (h2.1 hown).1, fun _ => (h2.1 hown).1⟩
          · simp only [not_or, Bool.not_eq_true] at hown
            refine ⟨by rw [h2.2 hown.1 hown.2]; exact Nat.le_refl _, fun hA => ?_⟩
            rcases hc with ⟨rfl, -, -⟩ | ⟨_, rfl, -, -⟩ | ⟨u, rfl, rfl, -⟩
            · simp [serves, hown.1] at hA
            · cases hA
            · simp only [serves, beq_iff_eq] at hA
              simp [Server.leaves, hA] at hown
      · exact .inl h1)
  refine ⟨j, r, hj, hr, fun x hown => ?_⟩
  have := ((good_at hF j).1.inv.own t x).mpr hown
  rw [hr] at this
  exact this

/-- What a detach request does to the request that has the session. -/
theorem detach_out {p : Params} {s s' : St} {n : Name} {t : Nat} (hg : Good s.srv) (hh : Has s.srv n t) (hs : step p s (.detach n) = some s')
    (hc : p.reach = true ∨ ∀ m x, s.srv.thr t ≠ .owns m x) : Out t s' := by
  obtain ⟨x, hf, ho⟩ := hh
  have hold := (hg.inv.own t x).mpr ho
  rcases srv_step hs with ⟨-, u, hu⟩ | ⟨k, hk, ⟨hu, -⟩ | ⟨n', hu, rfl, hpg⟩ | ⟨u, hu, -⟩⟩
  · rcases hu with hu | hu <;> cases hu
  · cases hu
  · cases hu
    have e : s'.srv = (Server.detach s.srv [n]).1 := by
      simp only [Server.step] at hk
      split at hk
      · exact (Option.some.inj hk).symm
      · cases hk
    have eth : s'.srv.thr = s.srv.thr := by rw [e]; rfl
    cases hp : s.srv.thr t with
    | owns m y =>
      rw [hp] at hold
      have hxy : y = x := hold
      subst hxy
      rcases hc with hr | hr
      · refine .inr (.inr (.inr ⟨⟨m, y, by rw [eth, hp]⟩, ?_⟩))
        rw [hpg]
        simp [reached, hr, before, hp, hf]
      · exact absurd hp (hr m y)
    | streaming m y =>
      rw [hp] at hold
      have hxy : y = x := hold
      subst hxy
      refine .inl ⟨m, y, by rw [eth, hp], ?_⟩
      rw [e, detach_one hf]
      cases h1 : (s.srv.sess y).s2c with
      | false =>
        simp only [if_true]
        cases h2 : (s.srv.sess y).conn with
        | false => rfl
        | true => rw [hg.wired y h2] at h1; cases h1
      | true =>
        simp only [Bool.true_eq_false, if_false]
        split
        · simp
        · rename_i h2
          simpa using h2
    | ending m y b => exact .inr (.inl ⟨m, y, b, by rw [eth, hp]⟩)
    | leaving y => exact .inr (.inr (.inl ⟨y, by rw [eth, hp]⟩))
    | _ => rw [hp] at hold; exact absurd hold id
  · cases hu

/-- **C170** in part: proved of a request that streams (its message has been read, or there was none) or is about to end. -/
theorem C170_partial {σ : Nat → St} {lab : Nat → Option Label} (hF : Fair code σ lab) {i : Nat} {n : Name} {t : Nat}
    (hl : lab i = some (.detach n)) (hh : Has (σ i).srv n t) (hno : ∀ m x, (σ i).srv.thr t ≠ .owns m x) :
    ∃ j r, i ≤ j ∧ (σ j).srv.thr t = .done r ∧ ∀ x, ((σ j).srv.sess x).owner ≠ some t := by
  obtain ⟨j, r, hj, h⟩ := out_ends hF (detach_out (good_at hF i).1 hh (exec_at hF.exec hl) (.inr hno))
  exact ⟨j, r, by omega, h⟩

/-- **C170** would hold if a detach request also reached a request that does not stream yet. -/
theorem C170_repaired : C170_statement ⟨true⟩ := by
  intro σ lab hF i n t hl hh
  obtain ⟨j, r, hj, h⟩ := out_ends hF (detach_out (good_at hF i).1 hh (exec_at hF.exec hl) (.inl rfl))
  exact ⟨j, r, by omega, h⟩

/-- The message is read, the client detached. -/
def read : List Label := reading ++ [.quit 0, .daemon (.start 0), .detach a, .leave 0, .daemon (.unlink 0), .daemon (.release 0)]

/-- The conditions of `C170_partial` are met. -/
example : ∃ σ lab, Fair code σ lab ∧ lab 7 = some (.detach a) ∧ Has (σ 7).srv a 0 ∧ Shown (σ 7).srv a ∧ (σ 7).srv.thr 0 = .streaming a 0 ∧
    (Server.detach (σ 7).srv [a]).2 = some ([], []) ∧ (σ 11).srv.thr 0 = .done .served := by
  have hr : ∃ s, Run code read s ∧ ∀ t, (s.srv.thr t).busyWith = false :=
    ⟨_, rfl, fun t => by cases t <;> rfl⟩
  obtain ⟨s, hr, hb⟩ := hr
  obtain ⟨hx, hrest⟩ := thenRests_exec hr
  refine ⟨_, _, ⟨hx, rfl, fun t => (fair_at_rest hrest (fun l hl => ?_)).1, fun i k hk => ?_⟩, rfl, ⟨0, rfl, rfl⟩, ?_, rfl, rfl, ?_⟩
  · cases l with
    | leave u =>
      have := hb u
      simp only [step]
      split
      · rename_i h1; rw [h1] at this; cases this
      · rfl
    | daemon k =>
      have := Server.quiet_thread (hb t) k (.inl (by simpa [serves] using hl))
      simp only [step, this]
      split <;> rfl
    | _ => cases hl
  · match i with
    | 0 => cases hk; intro t'; nofun
    | 1 | 2 | 3 | 6 | 9 | 10 => cases hk; trivial
    | 4 | 5 | 7 | 8 => cases hk
    | n + 11 => cases hk
  · exact ⟨_, List.mem_map.mpr ⟨(a, 0), List.mem_cons_self, rfl⟩, rfl, rfl⟩
  · rfl

end Shpool.Reading
