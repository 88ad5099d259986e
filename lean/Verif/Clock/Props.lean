import Verif.Clock.Model
import Verif.Server.Life
/-!
# Properties of the times in the list: C171
-/

namespace Shpool.Clock
open Server (Name St Label Run find step)

/-! ## What is to be shown -/

/-- A number of milliseconds says when something happened: it is the full milliseconds from 1970 to what the clock showed. -/
def Says (m t : Int) : Prop := m * 1000000 ≤ t ∧ t < (m + 1) * 1000000

/-- The clock shows a time from 1970 on that can be sent: before the year 292 000 000. -/
def Good (t : Int) : Prop := 0 ≤ t ∧ t < 2 ^ 63 * 1000000

/-- What is said of something that may not have happened yet. -/
def SaysMaybe : Option Int → Option Int → Prop
  | none, none => True
  | some m, some t => Says m t
  | _, _ => False

/-- The answer tells of every session in the table, once, when it was started, last connected and last disconnected. -/
def Tells (w : Wall) (s : St) (rows : List Line) : Prop :=
  rows.map (·.name) = s.table.map (·.1) ∧
  ∀ r ∈ rows, ∃ x, find r.name s.table = some x ∧ Says r.started (w (s.sess x).started) ∧
    SaysMaybe r.lastConn ((s.sess x).lastConn.map w) ∧ SaysMaybe r.lastDisc ((s.sess x).lastDisc.map w)

/-- What the times say about a session fits: nobody connected before it was started; if somebody is attached, they connected after the last
disconnection; if nobody is, the last disconnection came after the last connection. -/
def InOrder (r : Line) : Prop :=
  (∀ c, r.lastConn = some c → r.started ≤ c) ∧
  (∀ c d, r.lastConn = some c → r.lastDisc = some d → if r.attachment.isSome then d ≤ c else c ≤ d)

/-! ## Helpers -/

theorem unixMs_none (t : Int) : unixMs t = none ↔ t < 0 := by
  unfold unixMs; split <;> simp [*]

theorem unixMs_good {t : Int} (h : Good t) : ∃ m, unixMs t = some m ∧ Says m t ∧ m = t / 1000000 := by
  obtain ⟨h0, h1⟩ := h
  have hn : ¬ t < 0 := by omega
  have e : asI64 (t.toNat / 1000000) = t / 1000000 := by
    unfold asI64
    have h2 : t.toNat / 1000000 < 2 ^ 63 := by omega
    have h3 : t.toNat / 1000000 % 2 ^ 64 = t.toNat / 1000000 := Nat.mod_eq_of_lt (by omega)
    rw [h3, if_pos h2]
    omega
  refine ⟨t / 1000000, by simp only [unixMs, if_neg hn, e], ?_, rfl⟩
  unfold Says
  omega

theorem maybeMs_none (t : Option Int) : maybeMs t = none ↔ ∃ v, t = some v ∧ v < 0 := by
  cases t with
  | none => simp [maybeMs]
  | some v =>
    have := unixMs_none v
    simp only [maybeMs]
    split
    · rename_i h; simp_all
    · rename_i h; simp_all

theorem collect_none {α : Type} (l : List (Option α)) : collect l = none ↔ none ∈ l := by
  induction l with
  | nil => simp [collect]
  | cons a r ih =>
    cases a with
    | none => simp [collect]
    | some a =>
      simp only [collect]
      split
      · rename_i h; simp [ih.mp h]
      · rename_i as h
        have : none ∉ r := fun hm => by rw [ih.mpr hm] at h; cases h
        simp [this]

theorem collect_some {α : Type} {l : List (Option α)} {as : List α} (h : collect l = some as) : l = as.map some := by
  induction l generalizing as with
  | nil => simp only [collect] at h; cases h; rfl
  | cons a r ih =>
    cases a with
    | none => cases h
    | some a =>
      simp only [collect] at h
      split at h
      · cases h
      · rename_i bs hb
        cases h
        rw [ih hb]; rfl

theorem line_none (w : Wall) (s : St) (p : Name × Nat) : line w s p = none ↔
    w (s.sess p.2).started < 0 ∨ (∃ c, (s.sess p.2).lastConn = some c ∧ w c < 0) ∨
      ∃ d, (s.sess p.2).lastDisc = some d ∧ w d < 0 := by
  have h1 := unixMs_none (w (s.sess p.2).started)
  have h2 := maybeMs_none ((s.sess p.2).lastConn.map w)
  have h3 := maybeMs_none ((s.sess p.2).lastDisc.map w)
  simp only [Option.map_eq_some_iff] at h2 h3
  have e2 : (∃ v, (∃ a, (s.sess p.2).lastConn = some a ∧ w a = v) ∧ v < 0) ↔ ∃ c, (s.sess p.2).lastConn = some c ∧ w c < 0 :=
    ⟨fun ⟨_, ⟨a, ha, e⟩, hv⟩ => ⟨a, ha, e ▸ hv⟩, fun ⟨c, hc, hv⟩ => ⟨_, ⟨c, hc, rfl⟩, hv⟩⟩
  have e3 : (∃ v, (∃ a, (s.sess p.2).lastDisc = some a ∧ w a = v) ∧ v < 0) ↔ ∃ c, (s.sess p.2).lastDisc = some c ∧ w c < 0 :=
    ⟨fun ⟨_, ⟨a, ha, e⟩, hv⟩ => ⟨a, ha, e ▸ hv⟩, fun ⟨c, hc, hv⟩ => ⟨_, ⟨c, hc, rfl⟩, hv⟩⟩
  rw [← e2, ← e3, ← h1, ← h2, ← h3]
  unfold line
  dsimp only
  cases maybeMs ((s.sess p.2).lastConn.map w) <;> cases maybeMs ((s.sess p.2).lastDisc.map w) <;>
    cases unixMs (w (s.sess p.2).started) <;> simp

theorem line_some {w : Wall} {s : St} {p : Name × Nat} {r : Line} (h : line w s p = some r) :
    r.name = p.1 ∧ unixMs (w (s.sess p.2).started) = some r.started ∧
    maybeMs ((s.sess p.2).lastConn.map w) = some r.lastConn ∧ maybeMs ((s.sess p.2).lastDisc.map w) = some r.lastDisc ∧
    r.attached = (s.sess p.2).owner.isSome ∧ r.attachment = (s.sess p.2).attachment := by
  unfold line at h
  dsimp only at h
  split at h
  · rename_i h1 h2 h3
    cases h
    exact ⟨rfl, h3, h1, h2, rfl, rfl⟩
  · cases h

theorem list_names {w : Wall} {s : St} {rows : List Line} (h : list w s = some rows) :
    rows.map (·.name) = s.table.map (·.1) := by
  have := collect_some h
  clear h
  generalize s.table = tb at *
  induction tb generalizing rows with
  | nil => cases rows <;> simp_all
  | cons p tb ih =>
    cases rows with
    | nil => simp at this
    | cons r rows =>
      simp only [List.map_cons, List.cons.injEq] at this ⊢
      exact ⟨(line_some this.1).1, ih this.2⟩

theorem list_mem {w : Wall} {s : St} {rows : List Line} (h : list w s = some rows) {r : Line} (hr : r ∈ rows) :
    ∃ p ∈ s.table, line w s p = some r := by
  have h1 : some r ∈ s.table.map (line w s) := by rw [collect_some h]; exact List.mem_map_of_mem hr
  obtain ⟨p, hp, e⟩ := List.mem_map.mp h1
  exact ⟨p, hp, e⟩

theorem maybeMs_good {t : Option Int} {m : Option Int} (hg : ∀ v, t = some v → Good v) (h : maybeMs t = some m) :
    SaysMaybe m t ∧ m = t.map (· / 1000000) := by
  cases t with
  | none => cases h; exact ⟨trivial, rfl⟩
  | some v =>
    obtain ⟨k, hk, hs, e⟩ := unixMs_good (hg v rfl)
    simp only [maybeMs, hk] at h
    cases h
    exact ⟨hs, by rw [e]; rfl⟩

/-- The instants recorded: when a session was started does not change, and it was first connected then. -/
structure Started (s : St) : Prop where
  now : ∀ x, x < s.next → (s.sess x).started ≤ s.now
  conn : ∀ x c, x < s.next → (s.sess x).lastConn = some c → (s.sess x).started ≤ c

open Server in
theorem started_same {s s' : St} {l : Label} (hs : step s l = some s') {x : Nat} (hx : x < s.next) :
    (s'.sess x).started = (s.sess x).started ∧ s.next ≤ s'.next := by
  have he := step_eff hs
  clear hs
  cases he
  case kill names fail _ =>
    rw [kill_next]
    rcases kill_sess s names fail x with e | e <;> rw [e] <;> exact ⟨rfl, Nat.le_refl _⟩
  case detach names _ =>
    rcases detach_sess s names x with e | ⟨e, -⟩ <;> rw [e] <;> exact ⟨rfl, Nat.le_refl _⟩
  case spawn => exact ⟨by dsimp only; rw [upd_ne _ _ (Nat.ne_of_lt hx)], Nat.le_succ _⟩
  all_goals
    refine ⟨?_, Nat.le_refl _⟩
    first
      | rfl
      | (simp only [setThr, setSess, upd_apply, Sess.recordAttached, Sess.recordDetached]; grind)

open Server in
theorem now_le {s s' : St} {l : Label} (hs : step s l = some s') : s.now ≤ s'.now := by
  have he := step_eff hs
  clear hs
  cases he
  case kill names fail _ => rw [kill_now]; exact Nat.le_refl _
  case tick d => exact Nat.le_add_right _ _
  all_goals exact Nat.le_refl _

open Server in
theorem spawned_started {s s' : St} {t : Nat} (hs : step s (.spawn t) = some s') :
    (s'.sess s.next).started = s.now ∧ s'.next = s.next + 1 := by
  simp only [step] at hs
  split at hs
  · cases hs; exact ⟨by dsimp only; rw [upd_self], rfl⟩
  · cases hs

open Server in
theorem next_same {s s' : St} {l : Label} (hs : step s l = some s') (hl : ∀ t, l ≠ .spawn t) : s'.next = s.next := by
  have he := step_eff hs
  clear hs
  cases he
  case kill names fail _ => rw [kill_next]
  case spawn t n _ => exact absurd rfl (hl t)
  all_goals rfl

open Server in
theorem started_of_run {ls : List Label} {s : St} (h : Run ls s) : Started s := by
  refine run_inv (I := Started) ?_ ⟨by simp [init], by simp [init]⟩ h
  intro s l s' hi hs
  have hn := now_le hs
  by_cases hl : ∃ t, l = .spawn t
  · obtain ⟨t, rfl⟩ := hl
    obtain ⟨h1, h2⟩ := spawned_started hs
    constructor
    · intro x hx
      by_cases hx' : x = s.next
      · subst hx'; omega
      · have hlt : x < s.next := by omega
        rw [(started_same hs hlt).1]
        exact Nat.le_trans (hi.now x hlt) hn
    · intro x c hx hc
      rcases rec_step (step_eff hs) x hx with ⟨h0, e1, -, -⟩ | ⟨_, _, _, _, e, _⟩ | ⟨_, -, e, e1, -, -⟩ | ⟨h0, hw, e1, -, -⟩
      · rw [(started_same hs h0).1]; exact hi.conn x c h0 (e1 ▸ hc)
      · cases e
      · subst e; rw [e1] at hc; cases hc; omega
      · rw [(started_same hs h0).1]; exact hi.conn x c h0 (e1 ▸ hc)
  · have hl' : ∀ t, l ≠ .spawn t := fun t e => hl ⟨t, e⟩
    have hnx := next_same hs hl'
    constructor
    · intro x hx
      rw [hnx] at hx
      rw [(started_same hs hx).1]
      exact Nat.le_trans (hi.now x hx) hn
    · intro x c hx hc
      have h0 : x < s.next := hnx ▸ hx
      rw [(started_same hs h0).1]
      rcases rec_step (step_eff hs) x hx with ⟨_, e1, -, -⟩ | ⟨_, _, _, _, _, _, _, e1, -, -⟩ | ⟨t, e, _⟩ | ⟨_, _, e1, -, -⟩
      · exact hi.conn x c h0 (e1 ▸ hc)
      · rw [e1] at hc; cases hc; exact hi.now x h0
      · exact absurd e (hl' t)
      · exact hi.conn x c h0 (e1 ▸ hc)

/-! ## C171: the list can be had whatever the clock shows -/

/-- The full claim: whatever the clock shows, a list request is answered and tells of all sessions when they were started, last connected
and last disconnected; and what it tells of a session fits. -/
def C171_statement : Prop :=
  ∀ (w : Wall) ls s, Run ls s → ∃ rows, list w s = some rows ∧ Tells w s rows ∧ ∀ r ∈ rows, InOrder r

abbrev a : Name := ['a']
abbrev b : Name := ['b']

/-- A session `a` is started at instant 0, a session `b` at instant 1. -/
def twoSessions : List Label :=
  [.select 0 a false, .spawn 0, .insert 0, .lookup 0, .start 0, .tick 1, .select 1 b false, .spawn 1, .insert 1, .lookup 1, .start 1]

/-- The clock is right from instant 1 on; before it showed a time before 1970. -/
def late : Wall := fun t => if t = 0 then -1 else 1800000000 * 1000000000

/-- **C171 fails**: a session was started while the clock showed a time before 1970; no session is listed any more. -/
theorem C171_false_all : ∃ s, Run twoSessions s ∧ (find b s.table).isSome ∧ Good (late (s.sess 1).started) ∧ list late s = none :=
  ⟨_, rfl, by decide, ⟨by decide, by decide⟩, by decide⟩

/-- The full claim is false. -/
theorem C171_false : ¬ C171_statement := fun h => by
  obtain ⟨s, hr, -, -, hl⟩ := C171_false_all
  obtain ⟨rows, e, -⟩ := h late _ s hr
  rw [hl] at e; cases e

/-- A client leaves at instant `i` and comes back at instant `j` (`d` later). -/
def comesBack (i d : Nat) : List Label :=
  [.select 0 a false, .spawn 0, .insert 0, .lookup 0, .start 0, .tick i, .clientGone 0, .unlink 0, .release 0, .tick d, .select 1 a false]

/-- The clock is set back by a second between the two. -/
def setBack : Wall := fun t => if t = 2 then 4000000000 else 5000000000

/-- **C171 fails** (order): with a clock that was set back, the list tells of a session that is attached that its last disconnection came
after its last connection. -/
theorem C171_false_order : ∃ s r, Run (comesBack 1 1) s ∧ list setBack s = some [r] ∧ r.attachment = some 1 ∧ r.attached = true ∧
    r.lastConn = some 4000 ∧ r.lastDisc = some 5000 ∧ ¬ InOrder r :=
  ⟨_, ⟨a, 5000, some 4000, some 5000, true, some 1⟩, rfl, by decide, rfl, rfl, rfl, rfl, fun h => by
    have := h.2 4000 5000 rfl rfl
    simp at this⟩

/-- **C171**, exactly: the list is refused if and only if the clock showed a time before 1970 when a session that is in the table was
started, last connected or last disconnected. -/
theorem C171_exact {w : Wall} {ls : List Label} {s : St} (h : Run ls s) : list w s = none ↔
    ∃ n x, find n s.table = some x ∧ (w (s.sess x).started < 0 ∨ (∃ c, (s.sess x).lastConn = some c ∧ w c < 0) ∨
      ∃ d, (s.sess x).lastDisc = some d ∧ w d < 0) := by
  have hi := Server.inv_of_run h
  unfold list
  rw [collect_none, List.mem_map]
  constructor
  · rintro ⟨p, hp, e⟩
    exact ⟨p.1, p.2, Server.mem_find hi.nodup hp, (line_none w s p).mp e⟩
  · rintro ⟨n, x, hf, e⟩
    exact ⟨(n, x), Server.find_mem hf, (line_none w s (n, x)).mpr e⟩

/-- **C171** (since when).  The time a session was started is what the clock showed when its shell was, whatever happened since. -/
theorem C171_started {ls1 ls2 : List Label} {t : Nat} {s1 s : St} (h1 : Run ls1 s1) (h : Run (ls1 ++ .spawn t :: ls2) s) :
    (s.sess s1.next).started = s1.now := by
  obtain ⟨s1', e1, h2⟩ := run_append_some h
  rw [h1] at e1
  cases e1
  obtain ⟨s2, hs, h3⟩ := run_cons_some h2
  have := spawned_started hs
  have key := run_inv (I := fun v : St => s1.next < v.next ∧ (v.sess s1.next).started = s1.now)
    (fun v l v' hv hs' => ⟨Nat.lt_of_lt_of_le hv.1 (started_same hs' hv.1).2, by rw [(started_same hs' hv.1).1]; exact hv.2⟩)
    ⟨by omega, this.1⟩ h3
  exact key.2

/-- **C171** (for how long).  As long as such a session is there, however the clock is set, there is no list. -/
theorem C171_stays {w : Wall} {ls more : List Label} {s s' : St} {n m : Name} {x : Nat} (h : Run ls s) (hf : find n s.table = some x)
    (hw : w (s.sess x).started < 0) (hm : runSteps step s more = some s') (hf' : find m s'.table = some x) : list w s' = none := by
  have h' : Run (ls ++ more) s' := run_append.trans (by rw [h]; exact hm)
  have hx := ((Server.inv_of_run h).tbl n x hf).1
  have key := run_inv (I := fun v : St => x < v.next ∧ (v.sess x).started = (s.sess x).started)
    (fun v l v' hv hs' => ⟨Nat.lt_of_lt_of_le hv.1 (started_same hs' hv.1).2, by rw [(started_same hs' hv.1).1]; exact hv.2⟩)
    ⟨hx, rfl⟩ hm
  exact (C171_exact h').mpr ⟨m, x, hf', .inl (by rw [key.2]; exact hw)⟩

/-- **C171** (part): if the clock has only shown times from 1970 on, the list is answered and tells of every session.  Missing: other
clocks. -/
theorem C171_tells_partial {w : Wall} {ls : List Label} {s : St} (h : Run ls s) (hw : ∀ t, t ≤ s.now → Good (w t)) :
    ∃ rows, list w s = some rows ∧ Tells w s rows := by
  have hi := Server.inv_of_run h
  have ht := Server.times_of_run h
  have hst := started_of_run h
  have hg : ∀ n x, find n s.table = some x → Good (w (s.sess x).started) ∧
      (∀ v, (s.sess x).lastConn.map w = some v → Good v) ∧ (∀ v, (s.sess x).lastDisc.map w = some v → Good v) := by
    intro n x hf
    have hx := (hi.tbl n x hf).1
    refine ⟨hw _ (hst.now x hx), ?_, ?_⟩
    · intro v hv
      obtain ⟨c, hc, rfl⟩ := Option.map_eq_some_iff.mp hv
      exact hw _ (ht.conn x c hx hc)
    · intro v hv
      obtain ⟨c, hc, rfl⟩ := Option.map_eq_some_iff.mp hv
      exact hw _ (ht.disc x c hx hc)
  cases hl : list w s with
  | none =>
    obtain ⟨n, x, hf, e⟩ := (C171_exact h).mp hl
    obtain ⟨g1, g2, g3⟩ := hg n x hf
    rcases e with e | ⟨c, hc, e⟩ | ⟨c, hc, e⟩
    · have := g1.1; omega
    · have := (g2 (w c) (by rw [hc]; rfl)).1; omega
    · have := (g3 (w c) (by rw [hc]; rfl)).1; omega
  | some rows =>
    refine ⟨rows, rfl, list_names hl, ?_⟩
    intro r hr
    obtain ⟨p, hp, e⟩ := list_mem hl hr
    obtain ⟨e1, e2, e3, e4, -, -⟩ := line_some e
    have hf := Server.mem_find hi.nodup hp
    obtain ⟨g1, g2, g3⟩ := hg p.1 p.2 hf
    refine ⟨p.2, by rw [e1]; exact hf, ?_, (maybeMs_good g2 e3).1, (maybeMs_good g3 e4).1⟩
    obtain ⟨m, hm, hs, -⟩ := unixMs_good g1
    rw [hm] at e2
    cases e2
    exact hs

/-- **C171**, exactly (order): for a clock that has only shown times from 1970 on, what the list tells of sessions always fits if and only if
the clock is never set back by so much that it shows an earlier millisecond. -/
theorem C171_order_exact {w : Wall} (hw : ∀ t, Good (w t)) :
    (∀ ls s rows, Run ls s → list w s = some rows → ∀ r ∈ rows, InOrder r) ↔ ∀ i j, i ≤ j → w i / 1000000 ≤ w j / 1000000 := by
  constructor
  · intro h i j hij
    obtain ⟨d, rfl⟩ := Nat.exists_eq_add_of_le hij
    obtain ⟨s, hr, ht, hc, hd, ha⟩ : ∃ s, Run (comesBack i d) s ∧ s.table = [(a, 0)] ∧ (s.sess 0).lastConn = some (0 + i + d) ∧
        (s.sess 0).lastDisc = some (0 + i) ∧ (s.sess 0).attachment = some 1 := ⟨_, rfl, rfl, rfl, rfl, rfl⟩
    obtain ⟨rows, hl, -⟩ := C171_tells_partial hr (fun t _ => hw t)
    have hn : (list w s).isSome := by rw [hl]; rfl
    have hlen := list_names hl
    rw [ht] at hlen
    cases rows with
    | nil => simp at hlen
    | cons r rows =>
      obtain ⟨p, hp, e⟩ := list_mem hl (List.mem_cons_self (a := r) (l := rows))
      rw [ht] at hp
      have hp : p = (a, 0) := by simpa using hp
      subst hp
      obtain ⟨-, -, e3, e4, -, e6⟩ := line_some e
      have m3 := (maybeMs_good (fun v hv => by obtain ⟨c, -, rfl⟩ := Option.map_eq_some_iff.mp hv; exact hw c) e3).2
      have m4 := (maybeMs_good (fun v hv => by obtain ⟨c, -, rfl⟩ := Option.map_eq_some_iff.mp hv; exact hw c) e4).2
      dsimp only at m3 m4 e6
      rw [hc] at m3
      rw [hd] at m4
      rw [ha] at e6
      have := (h _ s _ hr hl r (List.mem_cons_self ..)).2 _ _ m3 m4
      rw [e6] at this
      simpa using this
  · intro h ls s rows hr hl r hmem
    obtain ⟨p, hp, e⟩ := list_mem hl hmem
    obtain ⟨-, e2, e3, e4, -, e6⟩ := line_some e
    have hi := Server.inv_of_run hr
    have hx := (hi.tbl p.1 p.2 (Server.mem_find hi.nodup hp)).1
    have ht := Server.times_of_run hr
    have hst := started_of_run hr
    obtain ⟨m, hm, -, em⟩ := unixMs_good (hw (s.sess p.2).started)
    rw [hm] at e2
    have m3 := (maybeMs_good (fun v hv => by obtain ⟨c, -, rfl⟩ := Option.map_eq_some_iff.mp hv; exact hw c) e3).2
    have m4 := (maybeMs_good (fun v hv => by obtain ⟨c, -, rfl⟩ := Option.map_eq_some_iff.mp hv; exact hw c) e4).2
    obtain ⟨c0, hc0⟩ := ht.conn_some p.2 hx
    rw [hc0] at m3
    constructor
    · intro c hc
      rw [m3] at hc
      cases hc
      cases e2
      rw [em]
      exact h _ _ (hst.conn p.2 c0 hx hc0)
    · intro c d hc hd
      rw [m3] at hc
      cases hc
      rw [e6]
      cases hd0 : (s.sess p.2).lastDisc with
      | none => rw [m4, hd0] at hd; cases hd
      | some d0 =>
        rw [m4, hd0] at hd
        cases hd
        cases ha : (s.sess p.2).attachment with
        | some t => simpa using h _ _ (ht.attached p.2 t c0 d0 hx ha hc0 hd0)
        | none =>
          obtain ⟨d1, hd1, hle⟩ := ht.detached p.2 c0 hx ha hc0
          rw [hd0] at hd1
          cases hd1
          simpa using h _ _ hle

/-- **C171** (what helps).  Killing those sessions does not depend on the clock, and then there is a list again. -/
theorem C171_kill {w : Wall} {ls : List Label} {s : St} (h : Run ls s) (hl : s.lock = none) (names : List Name)
    (hn : ∀ n x, find n s.table = some x → n ∉ names → 0 ≤ w (s.sess x).started ∧ (∀ c, (s.sess x).lastConn = some c → 0 ≤ w c) ∧
      ∀ d, (s.sess x).lastDisc = some d → 0 ≤ w d) :
    ∃ s', step s (.kill names none) = some s' ∧ ∃ rows, list w s' = some rows := by
  have hs : step s (.kill names none) = some (Server.kill s names none).1 := by simp [step, hl]
  refine ⟨_, hs, ?_⟩
  have h' : Run (ls ++ [.kill names none]) (Server.kill s names none).1 := run_append.trans (by rw [h]; simp [runSteps, hs])
  cases e : list w (Server.kill s names none).1 with
  | some rows => exact ⟨rows, rfl⟩
  | none =>
    obtain ⟨n, x, hf, hc⟩ := (C171_exact h').mp e
    have hok := Server.killLoop_ok_of_none s.table names s.sess
    have ht : (Server.kill s names none).1.table = Server.eraseAll (names.filter (fun n => (find n s.table).isSome)) s.table := by
      have := Server.killLoop_ok s.table names s.sess none hok
      unfold Server.kill
      dsimp only
      rw [if_pos hok, ← this.1]
    rw [ht, Server.find_eraseAll] at hf
    split at hf
    · cases hf
    · rename_i hnot
      have hnn : n ∉ names := fun hm => hnot (List.mem_filter.mpr ⟨hm, by rw [hf]; rfl⟩)
      obtain ⟨g1, g2, g3⟩ := hn n x hf hnn
      have hk : ((Server.kill s names none).1.sess x).started = (s.sess x).started ∧
          ((Server.kill s names none).1.sess x).lastConn = (s.sess x).lastConn ∧
          ((Server.kill s names none).1.sess x).lastDisc = (s.sess x).lastDisc := by
        rcases Server.kill_sess s names none x with e | e <;> rw [e] <;> exact ⟨rfl, rfl, rfl⟩
      rw [hk.1, hk.2.1, hk.2.2] at hc
      rcases hc with hc | ⟨c, h1, h2⟩ | ⟨d, h1, h2⟩
      · omega
      · have := g2 c h1; omega
      · have := g3 d h1; omega

/-- The hypotheses are met: two sessions, a clock that shows 2027; and after killing `a` with the clock of `C171_false_all`. -/
example : ∃ s rows, Run twoSessions s ∧ (∀ t, Good ((fun _ => 1800000000 * 1000000000 : Wall) t)) ∧
    list (fun _ => 1800000000 * 1000000000) s = some rows ∧ rows.length = 2 :=
  ⟨_, _, rfl, fun _ => by show Good (1800000000 * 1000000000); exact ⟨by decide, by decide⟩, rfl, rfl⟩

example : ∃ s s' r, Run twoSessions s ∧ s.lock = none ∧ step s (.kill [a] none) = some s' ∧ list late s' = some [r] ∧
    r.started = 1800000000000 := ⟨_, _, _, rfl, rfl, rfl, rfl, rfl⟩

end Shpool.Clock
