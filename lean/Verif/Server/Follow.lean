import Verif.Server.Props
/-!
# Following the daemon by its events (C91), attaching to what is listed (C92)

EVENTS.md: a program can "call `shpool list` after each event so that its model is always consistent with shpool's state".
-/

namespace Shpool.Server

theorem append_eq_self {α : Type} {l e : List α} : l ++ e = l ↔ e = [] := by simp

/-- No request is between its beginning and its streaming, or between its streaming and its end, and the clients of the streaming
ones are connected. -/
def Settled (s : St) : Prop := ∀ t, s.thr t = .idle ∨ (∃ n x, s.thr t = .streaming n x ∧ (s.sess x).conn = true) ∨
  ∃ r, s.thr t = .done r

/-- The full claim: a program lists in state `s`, after some event.  If no further event comes, its list is right in every settled
state to come. -/
def C91_statement : Prop := ∀ ls ls' s s', Run ls s → runSteps step s ls' = some s' → s'.events = s.events → Settled s' →
  list s' = list s

def one : List Label := [.select 0 a false, .spawn 0, .insert 0, .lookup 0, .start 0]
def oneGone : List Label := one ++ [.clientGone 0, .unlink 0]

/-- **C91 fails** (detached): the event is published while the session still counts as attached; a program that lists at once shows an
attached session for ever after. -/
theorem C91_false : ¬ C91_statement := by
  intro h
  have := h oneGone [.release 0] _ _ rfl rfl rfl (by
    intro t
    cases t with
    | zero => exact .inr (.inr ⟨_, rfl⟩)
    | succ t => exact .inl rfl)
  revert this
  decide

/-- **C91 fails** (created): both events are published before the session counts as attached. -/
theorem C91_false_created : ∃ s s', Run (one.take 3) s ∧ runSteps step s [.lookup 0, .start 0] = some s' ∧
    s.events = [.created, .attached] ∧ s'.events = s.events ∧ Settled s' ∧ list s = [⟨a, false, some 0, none, some 0⟩] ∧
    list s' = [⟨a, true, some 0, none, some 0⟩] := by
  refine ⟨_, _, rfl, rfl, rfl, rfl, ?_, by decide, by decide⟩
  intro t
  cases t with
  | zero => exact .inr (.inl ⟨_, _, rfl, rfl⟩)
  | succ t => exact .inl rfl

/-- **C91 fails** (early end): a client that hangs up on the pager leaves without any event. -/
theorem C91_false_abort : ∃ s s', Run (one.take 4) s ∧ runSteps step s [.abort 0, .release 0] = some s' ∧
    s'.events = s.events ∧ Settled s' ∧ list s = [⟨a, true, some 0, none, some 0⟩] ∧ list s' = [⟨a, false, some 0, none, some 0⟩] := by
  refine ⟨_, _, rfl, rfl, rfl, ?_, by decide, by decide⟩
  intro t
  cases t with
  | zero => exact .inr (.inr ⟨_, rfl⟩)
  | succ t => exact .inl rfl

theorem eff_events {s s' : St} {l : Label} (he : Eff s l s') : ∃ e, s'.events = s.events ++ e := by
  cases he
  case kill names fail _ =>
    simp only [kill]
    split
    · exact ⟨_, rfl⟩
    · exact ⟨[], by simp⟩
  all_goals first
    | exact ⟨_, List.append_assoc _ _ _⟩
    | exact ⟨_, rfl⟩
    | exact ⟨[], (List.append_nil _).symm⟩

theorem kill_silent {s : St} {names : List Name} {fail : Option Nat} (h : (kill s names fail).1.events = s.events) :
    (kill s names fail).1.table = s.table := by
  simp only [kill] at h ⊢
  split
  · rename_i hok
    simp only [hok, if_true, append_eq_self, List.map_eq_nil_iff] at h
    simp [h]
  · rfl

theorem eff_silent_table {s s' : St} {l : Label} (he : Eff s l s') (h : s'.events = s.events) : s'.table = s.table := by
  cases he
  case kill => exact kill_silent h
  case insert => simp [setThr] at h
  case reap => simp [setSess] at h
  case unlinkDone t n x h1 h2 =>
    simp only [setThr, append_eq_self] at h
    cases hf : find n s.table with
    | none => exact erase_none hf
    | some y => simp [hf] at h
  all_goals rfl

theorem steps_events {ls : List Label} {s s' : St} (h : runSteps step s ls = some s') : ∃ e, s'.events = s.events ++ e :=
  run_inv (I := fun s1 => ∃ e, s1.events = s.events ++ e)
    (fun s1 l s2 hi hs => by
      obtain ⟨e, he⟩ := hi
      obtain ⟨e', he'⟩ := eff_events (step_eff hs)
      exact ⟨e ++ e', by rw [he', he, List.append_assoc]⟩) ⟨[], by simp⟩ h

/-- Events are only ever added. -/
theorem silent_cons {ls : List Label} {s s1 s' : St} {l : Label} (hs : step s l = some s1) (h : runSteps step s1 ls = some s')
    (he : s'.events = s.events) : s1.events = s.events ∧ s'.events = s1.events := by
  obtain ⟨e1, h1⟩ := eff_events (step_eff hs)
  obtain ⟨e2, h2⟩ := steps_events h
  rw [h2, h1, List.append_assoc, append_eq_self, List.append_eq_nil_iff] at he
  rw [h2, h1, he.1, he.2]; simp

/-- **C91 (part)**: without an event no session comes, goes or is replaced: the names in the list, and the sessions they stand for, stay
the same, in every state and under every interleaving. -/
theorem C91_names_partial {ls : List Label} {s s' : St} (h : runSteps step s ls = some s') (he : s'.events = s.events) :
    s'.table = s.table ∧ (list s').map (·.name) = (list s).map (·.name) := by
  have : s'.table = s.table := by
    induction ls generalizing s with
    | nil => cases h; rfl
    | cons l ls ih =>
      obtain ⟨s1, h1, h2⟩ := run_cons_some h
      obtain ⟨e1, e2⟩ := silent_cons h1 h2 he
      rw [ih h2 e2, eff_silent_table (step_eff h1) e1]
  refine ⟨this, ?_⟩
  simp [list, this]

structure Silent (s0 s : St) : Prop where
  table : s.table = s0.table
  ins : ∀ t n x, s.thr t ≠ .inserted n x
  blk : ∀ t n x, s.thr t ≠ .blocked n x
  owns : ∀ t n x, s.thr t ≠ .owns n x
  leaving : ∀ t x n, s.thr t = .leaving x → find n s.table ≠ some x
  row : ∀ n x, find n s.table = some x →
    (((s.sess x).owner = (s0.sess x).owner ∧ (s.sess x).lastConn = (s0.sess x).lastConn ∧ (s.sess x).lastDisc = (s0.sess x).lastDisc ∧
      (s.sess x).attachment = (s0.sess x).attachment)) ∨
    (∃ t, s.thr t = .streaming n x ∧ (s.sess x).conn = false) ∨ ∃ t b, s.thr t = .ending n x b

set_option maxHeartbeats 2000000 in
theorem silent_step {s0 s s' : St} {l : Label} (hi : Inv s) (hl : Live s) (hc : Conn s) (hq : NoAbort s l) (h : Silent s0 s) (he : Eff s l s')
    (hv : s'.events = s.events) : Silent s0 s' := by
  have htb := eff_silent_table he hv
  obtain ⟨b1, b2, b3, b4, b5, b6⟩ := h
  have ho := hi.own
  have hn := hi.tbl
  have he1 := hi.ending
  have hs1 := hi.streaming
  have hs2c := hl.s2c
  cases he
  case kill names fail hk =>
    have k1 := kill_fields s names fail
    have k2 := kill_times s names fail
    refine ⟨htb.trans b1, ?_, ?_, ?_, ?_, ?_⟩ <;> rw [kill_thr] <;> (try rw [htb])
    all_goals first
      | assumption
      | grind
  case abort => exact absurd hq (fun h => h)
  case reattach => simp at hv
  case insert => simp at hv
  case unlinkGone => simp at hv
  case reap => simp at hv
  case unlinkDone t n x h1 h2 =>
    have hf : find n s.table = none := by
      cases hf : find n s.table with
      | none => rfl
      | some y => simp [hf] at hv
    simp only [erase_none hf, setThr] at htb hv ⊢
    clear htb hv
    refine ⟨b1, ?_, ?_, ?_, ?_, ?_⟩ <;> simp only [upd_apply]
    all_goals grind
  case detach names hk =>
    unfold Conn at hc
    have k1 := detach_sess s names
    have k2 : (detach s names).1.thr = s.thr := rfl
    have k3 : (detach s names).1.table = s.table := rfl
    refine ⟨b1, ?_, ?_, ?_, ?_, ?_⟩ <;> rw [k2] <;> (try rw [k3])
    all_goals first
      | assumption
      | grind
  all_goals
    refine ⟨htb.trans b1, ?_, ?_, ?_, ?_, ?_⟩
    all_goals
      (try rw [htb]) <;>
      (try simp only [setThr, setSess, upd_apply, Sess.recordAttached]) <;>
      first
        | assumption
        | grind

theorem silent_init {s : St} (h : Settled s) : Silent s s := by
  refine ⟨rfl, ?_, ?_, ?_, ?_, ?_⟩
  · intro t n x e; rcases h t with h | ⟨_, _, h, -⟩ | ⟨_, h⟩ <;> rw [h] at e <;> cases e
  · intro t n x e; rcases h t with h | ⟨_, _, h, -⟩ | ⟨_, h⟩ <;> rw [h] at e <;> cases e
  · intro t n x e; rcases h t with h | ⟨_, _, h, -⟩ | ⟨_, h⟩ <;> rw [h] at e <;> cases e
  · intro t x n e; rcases h t with h | ⟨_, _, h, -⟩ | ⟨_, h⟩ <;> rw [h] at e <;> cases e
  · intro n x _; exact .inl ⟨rfl, rfl, rfl, rfl⟩

/-- **C91 (part)**: in an orderly history, a list taken in a settled state is right in every settled state up to the next event: every
line of it, with its times.  Missing: lists taken while a request is between two of its steps (the defects above), and histories
that are not orderly. -/
theorem C91_settled_partial {ls ls' : List Label} {s s' : St} (h : Run ls s) (h' : runSteps step s ls' = some s')
    (hp : Always Orderly (ls ++ ls')) (he : s'.events = s.events) (hs : Settled s) (hs' : Settled s') : list s' = list s := by
  have key : Run (ls ++ ls') s' ∧ (∃ e, s'.events = s.events ++ e) ∧
      (Always Orderly (ls ++ ls') → s'.events = s.events → Silent s s') :=
    run_hist (I := fun pre s1 => Run (ls ++ pre) s1 ∧ (∃ e, s1.events = s.events ++ e) ∧
        (Always Orderly (ls ++ pre) → s1.events = s.events → Silent s s1))
      (fun pre s1 l s2 hi hst => by
        obtain ⟨i1, ⟨e, i2⟩, i3⟩ := hi
        obtain ⟨e', j2⟩ := eff_events (step_eff hst)
        rw [← List.append_assoc]
        refine ⟨run_snoc i1 hst, ⟨e ++ e', by rw [j2, i2, List.append_assoc]⟩, fun hp hev => ?_⟩
        have hev1 : s1.events = s.events := by
          rw [j2, i2, List.append_assoc, append_eq_self, List.append_eq_nil_iff] at hev
          rw [i2, hev.1, List.append_nil]
        have hp1 := always_snoc hp
        exact silent_step (inv_of_run i1) (live_of_run i1 (hp1.mono fun _ _ h => ⟨h.1, h.2.2.1⟩)) (conn_of_run i1)
          (always_last hp i1).2.2.2 (i3 hp1 hev1) (step_eff hst) (by rw [hev, hev1]))
      ⟨by simpa using h, ⟨[], by simp⟩, fun _ _ => silent_init hs⟩ h'
  have hsil := key.2.2 hp he
  have hi := inv_of_run key.1
  unfold list
  rw [← hsil.table]
  refine List.map_congr_left fun p hp => ?_
  have hf := mem_find hi.nodup (show (p.1, p.2) ∈ s'.table from hp)
  rcases hsil.row p.1 p.2 hf with ⟨e1, e2, e3, e4⟩ | ⟨t, e1, e2⟩ | ⟨t, b, e⟩
  · rw [e1, e2, e3, e4]
  · rcases hs' t with h | ⟨_, _, h, h2⟩ | ⟨_, h⟩ <;> rw [h] at e1 <;> cases e1
    rw [e2] at h2; cases h2
  · rcases hs' t with h | ⟨_, _, h, -⟩ | ⟨_, h⟩ <;> rw [h] at e <;> cases e

/-- A settled state in an orderly history, a busy client later it still is, without an event. -/
example : ∃ s s', Run one s ∧ runSteps step s [.select 1 a false, .tick 5] = some s' ∧ s'.events = s.events ∧ Settled s ∧ Settled s' ∧
    list s' = [⟨a, true, some 0, none, some 0⟩] := by
  refine ⟨_, _, rfl, rfl, rfl, ?_, ?_, by decide⟩
  · intro t
    rcases t with _ | t
    · exact .inr (.inl ⟨_, _, rfl, rfl⟩)
    · exact .inl rfl
  · intro t
    rcases t with _ | _ | t
    · exact .inr (.inl ⟨_, _, rfl, rfl⟩)
    · exact .inr (.inr ⟨_, rfl⟩)
    · exact .inl rfl
example : Always Orderly (one ++ [.select 1 a false, .tick 5]) := by
  intro pre l post s e hr
  have : calm = (pre ++ l :: post) ++ calm.drop 7 := by rw [← e]; rfl
  exact calm_orderly pre l (post ++ calm.drop 7) s (by simpa using this) hr

/-! ## C92: attaching to a session that is listed -/

/-- The full claim: a client that was told it is attached to a session whose shell runs is connected to it. -/
def C92_statement : Prop := ∀ ls s t n x s', Run ls s → s.thr t = .owns n x → (s.sess x).alive = true →
  step s (.start t) = some s' → (s'.sess x).conn = true

/-- The shell-to-client thread of a session ends with an error while the shell runs; the next attach request takes the error. -/
def broken : List Label := one ++ [.s2cEnds 0, .clientGone 0, .unlink 0, .release 0, .select 1 a true]
def brokenThen : List Label := broken ++ [.select 2 a false]

/-- **C92 fails**: the attach request after that is told it is attached, but there is no thread to serve it. -/
theorem C92_false : ¬ C92_statement := by
  intro h
  have := h brokenThen _ 2 a 0 _ rfl rfl rfl rfl
  revert this
  decide

/-- A session whose thread is gone and was already joined. -/
def Broken (s : St) (x : Nat) : Prop := x < s.next ∧ (s.sess x).s2c = false ∧ (s.sess x).handle = false ∧ (s.sess x).conn = false

theorem broken_step {s s' : St} {l : Label} {x : Nat} (h : Broken s x) (he : Eff s l s') : Broken s' x := by
  obtain ⟨h0, h1, h2, h3⟩ := h
  unfold Broken
  cases he
  case kill names fail _ =>
    rw [kill_next]
    rcases kill_sess s names fail x with e | e <;> rw [e] <;> exact ⟨h0, h1, h2, h3⟩
  case detach names _ =>
    have : (detach s names).1.next = s.next := rfl
    rw [this]
    rcases detach_sess s names x with e | ⟨e, -⟩ <;> rw [e]
    · exact ⟨h0, h1, h2, h3⟩
    · exact ⟨h0, h1, h2, rfl⟩
  all_goals
    (try simp only [setThr, setSess, upd_apply, Sess.recordAttached, Sess.recordDetached])
    grind

/-- **C92 fails for good**: from then on, whatever happens, the session never has a thread again; as long as its shell runs, nobody else
has it and it stays in the table, every attach request for it is told it is attached and gets nothing. -/
theorem C92_forever : ∃ s, Run broken s ∧ find a s.table = some 0 ∧ (s.sess 0).alive = true ∧ (s.sess 0).owner = none ∧
    ∀ ls' s', runSteps step s ls' = some s' → find a s'.table = some 0 → (s'.sess 0).alive = true → (s'.sess 0).owner = none →
      s'.lock = none → ∀ t j, s'.thr t = .idle → ∃ s1 s2, step s' (.select t a j) = some s1 ∧ s1.events = s'.events ++ [.attached] ∧
        step s1 (.start t) = some s2 ∧ s2.thr t = .streaming a 0 ∧ (s2.sess 0).conn = false := by
  refine ⟨_, rfl, rfl, rfl, rfl, ?_⟩
  intro ls' s' hr hf ha ho hl t j ht
  have hb : Broken s' 0 := run_inv (I := fun s => Broken s 0) (fun _ _ _ hi hs => broken_step hi (step_eff hs))
    ⟨by decide, rfl, rfl, rfl⟩ hr
  obtain ⟨-, h1, h2, h3⟩ := hb
  have e1 : step s' (.select t a j) = some { setThr (setSess s' 0 { (s'.sess 0).recordAttached t s'.now with
      stream := some t, owner := some t }) t (.owns a 0) with events := s'.events ++ [.attached] } := by
    simp [step, ht, hl, select, hf, ho, ha, h2]
  refine ⟨_, _, e1, rfl, by simp only [step, setThr, setSess, upd, if_true]; rfl, ?_, ?_⟩
  · simp [upd]
  · simp [upd, Sess.recordAttached, h1]

/-- **C92** as long as attach requests of one name do not race and shell-to-client threads do not end before their shells. -/
theorem C92_connected_partial {ls : List Label} {s s' : St} {t n x} (h : Run ls s) (hp : Always (fun s l => Quiet1 s l ∧ Healthy s l) ls)
    (ht : s.thr t = .owns n x) (ha : (s.sess x).alive = true) (hs : step s (.start t) = some s') :
    s'.thr t = .streaming n x ∧ (s'.sess x).conn = true := by
  have := (live_of_run h hp).s2c x ha
  simp only [step, ht] at hs
  cases hs
  simp [setThr, setSess, upd, this]

example : ∃ s, Run (calm.take 12) s ∧ s.thr 2 = .owns a 0 ∧ (s.sess 0).alive = true := ⟨_, rfl, rfl, rfl⟩

end Shpool.Server
