import Verif.Conns.Lemmas
/-!
# Properties of the connections of attached clients: C143, C144
-/

namespace Shpool.Conns
open Shpool.Server

/-- The connection is open: nobody has shut it down, and somebody has a handle of it. -/
def Open (c : CSt) (k : Nat) : Prop :=
  c.shut k = false ∧ ((∃ t, c.hand t = some k) ∨ (∃ x, c.slot x = some k) ∨ ∃ x, c.relay x = some k)

/-! ## C143: a client whose request is over is let go -/

/-- The full claim: when an attach request is over, the connection of its client is closed. -/
def C143_statement : Prop := ∀ ls c t r, CRun ls c → c.base.thr t = .done r → ¬ Open c t

def a : Name := ['a']
def b : Name := ['b']

/-- A new session; its request fails before it streams (the file with the variables, or the pager). -/
def cutShort : List CLabel :=
  [.base (.select 0 a false), .base (.spawn 0), .base (.insert 0), .base (.lookup 0), .base (.abort 0), .base (.release 0)]

/-- Nothing but the session of that name has the connection, and no request is at work on that name. -/
structure Behind (c : CSt) (n : Name) (x k : Nat) : Prop where
  table : find n c.base.table = some x
  slot : c.slot x = some k
  shut : c.shut k = false
  creates : ∀ t, (c.base.thr t).creates ≠ some n
  serves : ∀ t y, (c.base.thr t).serves ≠ some (n, y)
  hand : ∀ t, c.hand t ≠ some k
  relay : ∀ y, c.relay y ≠ some k
  other : ∀ y, y ≠ x → c.slot y ≠ some k

theorem cutShort_end : ∃ c, CRun cutShort c ∧ c.base.thr 0 = .done .served ∧ Behind c a 0 0 := by
  refine ⟨_, rfl, rfl, rfl, rfl, rfl, ?_, ?_, ?_, ?_, ?_⟩
  · intro t
    by_cases h : t = 0
    · subst h; exact nofun
    · simp [after, moved, setThr, setSess, upd, h, Phase.creates, cinit, init, Server.select]
  · intro t y
    by_cases h : t = 0
    · subst h; exact nofun
    · simp [after, moved, setThr, setSess, upd, h, Phase.serves, cinit, init, Server.select]
  · intro t
    by_cases h : t = 0
    · subst h; exact nofun
    · simp [after, moved, setThr, setSess, upd, h, cinit, init, Server.select, takes]
  · intro y
    simp [after, moved, setThr, setSess, cinit, init, Server.select, takes]
  · intro y h
    simp [after, moved, setThr, setSess, upd, h, cinit, init, Server.select, takes, sweep]

/-- **C143 fails**: a request that ends early leaves the connection in the session, open; its client waits for an answer that nobody
will send. -/
theorem C143_false : ¬ C143_statement := by
  intro h
  obtain ⟨c, hr, hd, hb⟩ := cutShort_end
  exact h cutShort c 0 _ hr hd ⟨hb.shut, .inr (.inl ⟨0, hb.slot⟩)⟩

/-- The step is a request about the session of that name. -/
def names (n : Name) : CLabel → Bool
  | .base (.select _ m _) => m = n
  | .base (.kill ms _) => n ∈ ms
  | .base (.reap m _) => m = n
  | _ => false

theorem find_other {s s' : St} {l : Label} (he : Eff s l s') {n : Name} {x : Nat} (hf : find n s.table = some x)
    (hc : ∀ t, (s.thr t).creates ≠ some n) (hv : ∀ t y, (s.thr t).serves ≠ some (n, y)) (hn : names n (.base l) = false) :
    find n s'.table = some x := by
  cases he
  case kill ms fail _ =>
    have hn : n ∉ ms := by simpa [names] using hn
    rcases kill_find s ms fail n with e | ⟨-, e⟩
    · rw [e]; exact hf
    · exact absurd e hn
  case insert t m y ht _ =>
    have := hc t
    simp only [setThr, find_insert]
    rw [ht] at this
    grind [Phase.creates]
  case unlinkDone t m y ht _ =>
    have := hv t
    simp only [setThr, find_erase]
    rw [ht] at this
    grind [Phase.serves]
  case reap m fails y _ _ =>
    have hn : m ≠ n := by simpa [names] using hn
    simp only [setSess, find_erase]
    grind
  all_goals exact hf

theorem idle_other {s s' : St} {l : Label} (he : Eff s l s') (hi : Server.Inv s) {n : Name}
    (hc : ∀ t, (s.thr t).creates ≠ some n) (hv : ∀ t y, (s.thr t).serves ≠ some (n, y)) (hn : names n (.base l) = false) :
    (∀ t, (s'.thr t).creates ≠ some n) ∧ ∀ t y, (s'.thr t).serves ≠ some (n, y) := by
  rw [← forall_and]
  intro t
  have h1 := hc t
  have h2 := hv t
  have hb := hi.blk
  cases he
  case kill ms fail _ => rw [kill_thr]; exact ⟨h1, h2⟩
  case detach ms _ => exact ⟨h1, h2⟩
  all_goals
    try simp only [names] at hn
    (try simp only [setThr, setSess, upd_apply]) <;> grind [Phase.creates, Phase.serves]

theorem behind_left {s : St} {t : Nat} {m : Name} {y : Nat} {d : Bool} {n : Name} (ht : s.thr t = .owns m y ∨ s.thr t = .streaming m y)
    (hc : ∀ t, (s.thr t).creates ≠ some n) (hv : ∀ t y, (s.thr t).serves ≠ some (n, y)) :
    (∀ u, ((left s t m y d).thr u).creates ≠ some n) ∧ ∀ u z, ((left s t m y d).thr u).serves ≠ some (n, z) := by
  rw [← forall_and]
  intro u
  have h1 := hc u
  have h2 := hv u
  have h3 := hv t
  simp only [left, setThr, setSess, upd_apply]
  grind [Phase.creates, Phase.serves]

theorem dismiss_shut_false {c : CSt} {xs : List Nat} {k : Nat} (h : c.shut k = false) (hr : ∀ y, c.relay y ≠ some k) :
    (dismiss c xs).shut k = false := by
  simp only [dismiss, h, Bool.false_or, List.any_eq_false]
  intro y _
  simpa using hr y

theorem behind_step {c c' : CSt} {l : CLabel} {n : Name} {x k : Nat} (h : Behind c n x k) (hi : Server.Inv c.base) (hk : KInv c)
    (hn : names n l = false) (he : CEff c l c') : Behind c' n x k := by
  obtain ⟨h1, h2, h3, h4, h5, h6, h7, h8⟩ := h
  have hname : ∀ m, find m c.base.table = some x → m = n := fun m e => by
    rw [← (hi.tbl m x e).2, (hi.tbl n x h1).2]
  have hserve : ∀ t m y, c.base.thr t = .owns m y ∨ c.base.thr t = .streaming m y → y ≠ x := by
    rintro t m y ht rfl
    have hm : m = n := by
      rw [← (hi.tbl n y h1).2]
      rcases ht with e | e
      · exact (hi.owns t m y e).2.symm
      · exact (hi.streaming t m y e).2.symm
    subst hm
    exact h5 t y (by rcases ht with e | e <;> rw [e] <;> rfl)
  cases he with
  | base l s' ha he =>
    have g1 := find_other he h1 h4 h5 hn
    have g2 := idle_other he hi h4 h5 hn
    refine ⟨g1, ?_, ?_, g2.1, g2.2, ?_, ?_, ?_⟩
    · refine sweep_some.mpr ⟨?_, fun _ => held_of_find g1⟩
      cases l with
      | select t m j =>
        have hm : m ≠ n := by simpa [names] using hn
        have key : (match takes c.base m with
            | some x => { c with slot := upd c.slot x (some t) }
            | none => c).slot x = some k := by
          split
          · rename_i y hy
            have hxy : x ≠ y := by
              rintro rfl
              exact hm (hname m (takes_some hy).1)
            simpa [upd_ne _ _ hxy] using h2
          · exact h2
        simp only [moved]
        split <;> exact key
      | spawn t =>
        have : x ≠ c.base.next := Nat.ne_of_lt (hi.tbl n x h1).1
        simpa [moved, upd_ne _ _ this] using h2
      | start t =>
        simp only [moved]
        split
        · exact h2
        · rename_i y hy
          obtain ⟨m, hm⟩ := served_cases hy
          have hxy : x ≠ y := Ne.symm (hserve t m y hm)
          simpa [dismiss, upd_ne _ _ hxy] using h2
      | _ => exact h2
    · change (moved c s' l).shut k = false
      cases l with
      | select t m j =>
        rw [select_shut, h3]
        have : k ≠ t := by
          rintro rfl
          exact h6 k (hk.own k (.inl (by cases he <;> assumption)))
        simp [this]
      | start t =>
        simp only [moved]
        split
        · exact h3
        · exact dismiss_shut_false h3 h7
      | detach ms => exact dismiss_shut_false h3 h7
      | _ => exact h3
    · change ∀ t, (moved c s' l).hand t ≠ some k
      intro u
      have hu := h6 u
      cases l with
      | select t m j =>
        rw [select_hand]
        split
        · exact nofun
        · exact hu
      | spawn t =>
        simp only [moved, upd_apply]
        split
        · exact nofun
        · exact hu
      | spawnFails t =>
        simp only [moved, upd_apply]
        split
        · exact nofun
        · exact hu
      | start t =>
        simp only [moved]
        split
        · exact hu
        · rename_i y hy
          obtain ⟨m, hm⟩ := served_cases hy
          have := h8 y (hserve t m y hm)
          simp only [dismiss, upd_apply]
          split
          · exact this
          · exact hu
      | _ => exact hu
    · change ∀ y, (moved c s' l).relay y ≠ some k
      intro u
      have hu := h7 u
      cases l with
      | select t m j =>
        simp only [moved]
        split <;> split <;> exact hu
      | start t =>
        simp only [moved]
        split
        · exact hu
        · rename_i y hy
          obtain ⟨m, hm⟩ := served_cases hy
          have := h8 y (hserve t m y hm)
          simp only [upd_apply]
          split
          · exact this
          · exact fun e => hu (dismiss_relay e)
      | s2cEnds y =>
        simp only [moved, upd_apply]
        split
        · exact nofun
        · exact hu
      | detach ms => exact fun e => hu (dismiss_relay e)
      | _ => exact hu
    · intro y hy e
      obtain ⟨hm, -⟩ := sweep_some.mp e
      rcases moved_slot hm with ⟨e, -, -⟩ | ⟨t, m, j, rfl, ht, rfl⟩ | ⟨t, rfl, rfl, ht⟩
      · exact h8 y hy e
      · exact h6 k (hk.own k (.inl (by cases he <;> assumption)))
      · exact h6 t ht
  | startFails t m y k' hm hk' =>
    have g := behind_left (d := false) (.inl hm) h4 h5
    have := hserve t m y (.inl hm)
    refine ⟨h1, ?_, h3, g.1, g.2, h6, h7, ?_⟩ <;> simp only [upd_apply] <;> grind
  | handed t m y k' hm hk' hs =>
    have g := behind_left (d := false) (.inl hm) h4 h5
    have := hserve t m y (.inl hm)
    refine ⟨h1, ?_, dismiss_shut_false h3 h7, g.1, g.2, h6, ?_, ?_⟩ <;> simp only [upd_apply, dismiss] <;> grind
  | answered t m y child d hm hb =>
    have g := behind_left (d := d) (.inr hm) h4 h5
    refine ⟨h1, h2, dismiss_shut_false h3 h7, g.1, g.2, ?_, ?_, h8⟩ <;> simp only [upd_apply, dismiss] <;> grind
  | unsent t m y child d hm hb =>
    have g := behind_left (d := d) (.inr hm) h4 h5
    refine ⟨h1, h2, ?_, g.1, g.2, ?_, h7, h8⟩ <;> simp only [upd_apply] <;> grind
  | late t m y child hm hs =>
    have g := behind_left (d := false) (.inr hm) h4 h5
    refine ⟨h1, h2, h3, g.1, g.2, ?_, h7, h8⟩ <;> simp only [upd_apply] <;> grind
  | catchUp y hd =>
    refine ⟨h1, h2, dismiss_shut_false h3 h7, h4, h5, h6, ?_, h8⟩ <;> simp only [dismiss] <;> grind
  | drops y =>
    refine ⟨h1, h2, h3, h4, h5, h6, ?_, h8⟩ <;> simp only [upd_apply] <;> grind

/-- **C143** (for ever).  When only the session has the connection and no request is at work on its name, the client waits until somebody
attaches to the session or kills it, or its time is up, whatever else happens: the shell's exit and the end of the session's thread
do not help. -/
theorem C143_false_for_ever {ls ls' : List CLabel} {c c' : CSt} {n : Name} {x k : Nat} (h : CRun ls c) (hb : Behind c n x k)
    (hs : runSteps cstep c ls' = some c') (hn : ∀ l ∈ ls', names n l = false) : Open c' k := by
  have key : ∀ ls' c, Server.Inv c.base → KInv c → Behind c n x k → (∀ l ∈ ls', names n l = false) →
      runSteps cstep c ls' = some c' → Open c' k := by
    intro ls'
    induction ls' with
    | nil => intro c _ _ hb _ hs; cases hs; exact ⟨hb.shut, .inr (.inl ⟨x, hb.slot⟩)⟩
    | cons l ls ih =>
      intro c hi hk hb hn hs
      obtain ⟨c1, h1, h2⟩ := run_cons_some hs
      have he := cstep_eff h1
      exact ih c1 (inv_cstep hi he) (kinv_step hk hi he) (behind_step hb hi hk (hn l List.mem_cons_self) he)
        (fun l' hl => hn l' (List.mem_cons_of_mem _ hl)) h2
  have hi := kinv_of_run h
  exact key ls' c hi.1 hi.2 hb hn hs

/-- The shell exits, another client comes and goes: the first one still waits. -/
example : ∃ c c', CRun cutShort c ∧ Behind c a 0 0 ∧ runSteps cstep c [.base (.exit 0), .base (.s2cEnds 0), .base (.detach [a]),
    .base (.select 1 b false), .base (.spawn 1), .base (.insert 1), .base (.lookup 1), .base (.start 1), .ends 1 false .answered,
    .base (.unlink 1), .base (.release 1)] = some c' ∧ c'.base.thr 1 = .done .served := by
  obtain ⟨c, hr, -, hb⟩ := cutShort_end
  refine ⟨c, ?_⟩
  have hc : runSteps cstep cinit cutShort = some c := hr
  refine ⟨(runSteps cstep c [.base (.exit 0), .base (.s2cEnds 0), .base (.detach [a]),
    .base (.select 1 b false), .base (.spawn 1), .base (.insert 1), .base (.lookup 1), .base (.start 1), .ends 1 false .answered,
    .base (.unlink 1), .base (.release 1)]).getD c, hr, hb, ?_⟩
  cases hc
  exact ⟨rfl, rfl⟩

/-- A session is made, its client leaves; a second client attaches, a third is refused, the second leaves. -/
def comeAndGo : List CLabel :=
  [.base (.select 0 a false), .base (.spawn 0), .base (.insert 0), .base (.lookup 0), .base (.start 0), .ends 0 false .answered,
   .base (.unlink 0), .base (.release 0), .base (.select 1 a false), .base (.select 2 a false), .base (.start 1), .ends 1 false .unsent,
   .base (.unlink 1), .base (.release 1)]

/-- **C143** (busy).  A client that is refused since its session is taken is let go, in every history. -/
theorem C143_busy {ls : List CLabel} {c : CSt} {t : Nat} (h : CRun ls c) (ht : c.base.thr t = .done .busy) : ¬ Open c t := by
  intro ho
  have := (kinv_of_run h).2.busy t ht
  rw [ho.1] at this
  cases this

/-- The step tells the thread of the session to let go of its client: a detach request that reaches the session, the end of the
request that serves it (in time, or late), a new client. -/
def Tells (c : CSt) (x : Nat) : CLabel → Prop
  | .base (.detach ms) => (∃ n ∈ ms, find n c.base.table = some x) ∧ ∀ n ∈ ms, ∀ y, find n c.base.table = some y → (c.base.sess y).s2c = true
  | .base (.start t) => ∃ n, c.base.thr t = .owns n x
  | .startFails t handed => handed = true ∧ ∃ n, c.base.thr t = .owns n x
  | .ends t _ how => how = .answered ∧ ∃ n, c.base.thr t = .streaming n x
  | .catchUp y => y = x
  | _ => False

/-- **C143** (at once).  A client the thread of a session is told to let go is let go in that step, whoever else has handles of its
connection. -/
theorem C143_at_once {c c' : CSt} {l : CLabel} {x k : Nat} (hr : c.relay x = some k) (hl : Tells c x l) (hs : cstep c l = some c') :
    ¬ Open c' k := by
  suffices c'.shut k = true from fun ho => by rw [ho.1] at this; cases this
  have he := cstep_eff hs
  cases he with
  | base l s' ha he =>
    change (moved c s' l).shut k = true
    cases l with
    | detach ms =>
      obtain ⟨⟨n, hn, hf⟩, hall⟩ := hl
      refine dismiss_shut ?_ hr
      exact mem_reached hall hn hf
    | start t =>
      obtain ⟨n, hn⟩ := hl
      simp only [moved, servedBy, hn]
      exact dismiss_shut List.mem_cons_self hr
    | _ => exact absurd hl id
  | startFails t n y k' hn hk' => cases hl.1
  | handed t n y k' hn hk' hs' =>
    obtain ⟨-, m, hm⟩ := hl
    rw [hn] at hm
    cases hm
    exact dismiss_shut List.mem_cons_self hr
  | answered t n y child d hn hb =>
    obtain ⟨-, m, hm⟩ := hl
    rw [hn] at hm
    cases hm
    exact dismiss_shut List.mem_cons_self hr
  | unsent t n y child d hn hb => cases hl.1
  | late t n y child hn hs' => cases hl.1
  | catchUp y hd =>
    cases hl
    exact dismiss_shut List.mem_cons_self hr
  | drops y => cases hl

/-- **C143** (not taken).  When the thread does not take the message, the request itself closes the connection. -/
theorem C143_unsent {c c' : CSt} {t k : Nat} {child : Bool} (hh : c.hand t = some k) (hs : cstep c (.ends t child .unsent) = some c') :
    ¬ Open c' k := by
  suffices c'.shut k = true from fun ho => by rw [ho.1] at this; cases this
  have he := cstep_eff hs
  cases he with
  | unsent t n y child d hn hb => simp [hh]

/-- A client is detached by another one while its request still streams; another request ends without the thread. -/
example : ∃ c c' c'', CRun (comeAndGo.take 5) c ∧ c.relay 0 = some 0 ∧ Tells c 0 (.base (.detach [b, a])) ∧
    cstep c (.base (.detach [b, a])) = some c' ∧ c'.base.thr 0 = .streaming a 0 ∧ c'.hand 0 = some 0 ∧
    cstep c (.ends 0 false .unsent) = some c'' := by
  refine ⟨_, _, _, rfl, rfl, ⟨⟨a, by simp, rfl⟩, ?_⟩, rfl, rfl, rfl, rfl⟩
  intro n hn y hf
  simp only [List.mem_cons, List.not_mem_nil, or_false] at hn
  rcases hn with rfl | rfl
  · cases hf
  · cases hf
    rfl

/-- **C143** (attended), as long as no request is cut short: an open connection is in the hands of a request that is not over, or in a
session such a request has made or is going to serve. -/
theorem C143_attended_partial {ls : List CLabel} {c : CSt} {k : Nat} (h : CRun ls c) (hf : CAlways Fine ls) (ho : Open c k) :
    ∃ t, (∀ r, c.base.thr t ≠ .done r) ∧ (c.hand t = some k ∨ ∃ x n, c.slot x = some k ∧
      (c.base.thr t = .spawned n x ∨ c.base.thr t = .inserted n x ∨ c.base.thr t = .blocked n x ∨ c.base.thr t = .owns n x)) := by
  have hj : JInv c := chist_inv (I := JInv) jinv_init (fun _ _ _ hi hj hp hs => jinv_step hj hi hp (cstep_eff hs)) h hf
  have hk := (kinv_of_run h).2
  obtain ⟨hu, ⟨t, e⟩ | ⟨x, e⟩ | ⟨x, e⟩⟩ := ho
  · refine ⟨t, fun r hr => ?_, .inl e⟩
    have := hk.hand t k e
    rw [hr] at this
    simp at this
  · rcases hj.slot x k e with ⟨t, n, ht⟩ | ⟨-, t, n, ht⟩
    · exact ⟨t, fun r hr => (by rw [hr] at ht; cases ht), .inr ⟨x, n, e, .inr (.inr (.inr ht))⟩⟩
    · refine ⟨t, fun r hr => (by rw [hr] at ht; simp at ht), .inr ⟨x, n, e, ?_⟩⟩
      rcases ht with ht | ht | ht
      · exact .inl ht
      · exact .inr (.inl ht.1)
      · exact .inr (.inr (.inl ht))
  · rcases hj.relay x k e with e' | ⟨t, n, ht, e'⟩
    · rw [hu] at e'; cases e'
    · exact ⟨t, fun r hr => (by rw [hr] at ht; cases ht), .inl e'⟩

/-- **C143** (closed), as long as no request is cut short and attach requests for one name do not race: when the request is over, the
connection of its client is closed. -/
theorem C143_closed_partial {ls : List CLabel} {c : CSt} {t : Nat} {r : Result} (h : CRun ls c)
    (hf : CAlways (fun c l => Fine c l ∧ CQuiet c l) ls) (ht : c.base.thr t = .done r) : ¬ Open c t := by
  intro ho
  have hi := kinv_of_run h
  have hs := sinv_of_run h
  have ho1 : Ord1 c.base := chist_inv (I := fun c => Ord1 c.base) ord1_init
    (fun _ _ _ hi hj hp hs => ord1_cstep hi hj hp.2 (cstep_eff hs)) h hf
  obtain ⟨u, hu, hh⟩ := C143_attended_partial h (fun pre l post c e hr => (hf pre l post c e hr).1) ho
  have : u = t := by
    rcases hh with hh | ⟨x, n, hx, hh⟩
    · rcases hi.2.hand u t hh with e | ⟨n, e⟩ | ⟨n, x, e⟩
      · have := hi.2.own u (.inl e)
        rw [hh] at this
        exact (Option.some.inj this).symm
      · have := hi.2.own u (.inr ⟨n, e⟩)
        rw [hh] at this
        exact (Option.some.inj this).symm
      · have h1 := hs.hand u n x t e hh
        rw [ho1.stream u n x (by rw [e]; rfl)] at h1
        exact Option.some.inj h1
    · have h1 := hs.slot x t hx
      rcases hh with e | e | e | e
      · rw [(hi.1.spawned u n x e).2.2.2.1] at h1
        exact Option.some.inj h1
      · rw [(ho1.inserted u n x e).2.2.2.1] at h1
        exact Option.some.inj h1
      · have := (hi.1.blk u n x e).1
        rw [ho1.lock] at this
        cases this
      · rw [ho1.stream u n x (by rw [e]; rfl)] at h1
        exact Option.some.inj h1
  subst this
  exact hu r ht

/-- `CAlways` along a run, step by step. -/
def CAlwaysFrom (P : CSt → CLabel → Prop) : CSt → List CLabel → Prop
  | _, [] => True
  | c, l :: ls => P c l ∧ ∀ c', cstep c l = some c' → CAlwaysFrom P c' ls

theorem calways_of_from {P : CSt → CLabel → Prop} {ls : List CLabel} (h : CAlwaysFrom P cinit ls) : CAlways P ls := by
  have : ∀ (pre : List CLabel) (s0 s : CSt) (l : CLabel) (post : List CLabel), CAlwaysFrom P s0 (pre ++ l :: post) →
      runSteps cstep s0 pre = some s → P s l := by
    intro pre
    induction pre with
    | nil => intro s0 s l post h hr; cases hr; exact h.1
    | cons k pre ih =>
      intro s0 s l post h hr
      obtain ⟨s1, h1, h2⟩ := run_cons_some hr
      exact ih s1 s l post (h.2 s1 h1) h2
  intro pre l post s e hr
  exact this pre cinit s l post (e ▸ h) hr

/-- The conditions of the partial theorems hold along the history above. -/
example : CAlways (fun c l => Fine c l ∧ CQuiet c l) comeAndGo ∧ ∃ c, CRun comeAndGo c ∧ c.base.thr 0 = .done .served ∧
    c.base.thr 1 = .done .served ∧ c.base.thr 2 = .done .busy := by
  refine ⟨calways_of_from ?_, _, rfl, rfl, rfl, rfl⟩
  iterate 14
    refine ⟨⟨?_, ?_⟩, fun s' h => ?_⟩
    rotate_left 2
    cases h
  · trivial
  all_goals first
    | trivial
    | (intro h; cases h; done)
    | (intro x h _
       cases h
       try rfl)
    | (intro t' h
       rcases t' with _ | _ | _ | t' <;> cases h)

/-! ## C144: no connection is leaked -/

/-- **C144** (kept).  In every history: an open connection is in the hands of a request that is not over, or in a new session such a
request is about to put into the table, or it is kept by a session that is in the table or that a request has, or by a thread that runs. -/
theorem C144_kept {ls : List CLabel} {c : CSt} {k : Nat} (h : CRun ls c) (ho : Open c k) :
    (∃ t, (∀ r, c.base.thr t ≠ .done r) ∧ (c.hand t = some k ∨ ∃ n x, c.base.thr t = .spawned n x ∧ c.slot x = some k)) ∨
    (∃ x, c.slot x = some k ∧ ((∃ n, find n c.base.table = some x) ∨ ∃ t, (c.base.thr t).holds x)) ∨
    ∃ x, c.relay x = some k ∧ (c.base.sess x).s2c = true := by
  obtain ⟨hi, hk⟩ := kinv_of_run h
  obtain ⟨-, ⟨t, e⟩ | ⟨x, e⟩ | ⟨x, e⟩⟩ := ho
  · refine .inl ⟨t, fun r hr => ?_, .inl e⟩
    have := hk.hand t k e
    rw [hr] at this
    simp at this
  · rcases hk.slot x k e with e' | ⟨t, n, e'⟩
    · refine .inr (.inl ⟨x, e, ?_⟩)
      rcases held_cases e' hi.nodup with e' | ⟨o, e'⟩
      · exact .inl e'
      · exact .inr ⟨o, (hi.own o x).mpr e'⟩
    · exact .inl ⟨t, fun r hr => (by rw [hr] at e'; cases e'), .inr ⟨n, x, e', e⟩⟩
  · exact .inr (.inr ⟨x, e, hk.relay x k e⟩)

/-- **C144** (gone).  A session that is not in the table any more, that no request has or is about to put there, and whose thread has
ended, keeps no connection. -/
theorem C144_gone {ls : List CLabel} {c : CSt} {x : Nat} (h : CRun ls c) (h1 : ∀ n, find n c.base.table ≠ some x)
    (h2 : ∀ t, ¬ (c.base.thr t).holds x) (h3 : ∀ t n, c.base.thr t ≠ .spawned n x) (h4 : (c.base.sess x).s2c = false) :
    c.slot x = none ∧ c.relay x = none := by
  obtain ⟨hi, hk⟩ := kinv_of_run h
  constructor
  · cases e : c.slot x with
    | none => rfl
    | some k =>
      rcases hk.slot x k e with e' | ⟨t, n, e'⟩
      · rcases held_cases e' hi.nodup with ⟨n, e'⟩ | ⟨o, e'⟩
        · exact absurd e' (h1 n)
        · exact absurd ((hi.own o x).mpr e') (h2 o)
      · exact absurd e' (h3 t n)
  · cases e : c.relay x with
    | none => rfl
    | some k => rw [hk.relay x k e] at h4; cases h4

theorem length_le_of_mem {L M : List Nat} (hn : L.Nodup) (h : ∀ k ∈ L, k ∈ M) : L.length ≤ M.length := by
  induction L generalizing M with
  | nil => simp
  | cons k L ih =>
    rw [List.nodup_cons] at hn
    have h1 := h k List.mem_cons_self
    have h2 := ih (M := M.erase k) hn.2 fun k' hk' => by
      refine (List.mem_erase_of_ne ?_).mpr (h k' (List.mem_cons_of_mem _ hk'))
      rintro rfl
      exact hn.1 hk'
    have h3 := List.length_erase_of_mem h1
    have h4 := List.length_pos_of_mem h1
    simp only [List.length_cons]
    omega

/-- The sessions that are still there: in the table, had by a request, or with a running thread. -/
def there (s : St) : List Nat := (List.range s.next).filter fun x => held s x || (s.sess x).s2c

/-- **C144** (bound).  However many clients have come and gone, at most two connections per session that is still there are open
without a request that has them. -/
theorem C144_bound {ls : List CLabel} {c : CSt} (h : CRun ls c) (L : List Nat) (hn : L.Nodup)
    (hl : ∀ k ∈ L, Open c k ∧ (∀ t, c.hand t ≠ some k) ∧ ∀ t n x, c.base.thr t = .spawned n x → c.slot x ≠ some k) :
    L.length ≤ 2 * (there c.base).length := by
  obtain ⟨hi, hk⟩ := kinv_of_run h
  have key : ∀ k ∈ L, k ∈ (there c.base).flatMap fun x => (c.slot x).toList ++ (c.relay x).toList := by
    intro k hkL
    obtain ⟨ho, h1, h2⟩ := hl k hkL
    rw [List.mem_flatMap]
    rcases C144_kept h ho with ⟨t, -, e | ⟨n, x, e, e'⟩⟩ | ⟨x, e, e'⟩ | ⟨x, e, e'⟩
    · exact absurd e (h1 t)
    · exact absurd e' (h2 t n x e)
    · refine ⟨x, ?_, by simp [e]⟩
      simp only [there, List.mem_filter, List.mem_range, Bool.or_eq_true]
      rcases e' with ⟨n, e'⟩ | ⟨t, e'⟩
      · exact ⟨(hi.tbl n x e').1, .inl (held_of_find e')⟩
      · have ho := (hi.own t x).mp e'
        refine ⟨Classical.byContradiction fun hge => ?_, .inl (by simp [held, ho])⟩
        rw [hi.blank x (by omega)] at ho
        cases ho
    · refine ⟨x, ?_, by simp [e]⟩
      simp only [there, List.mem_filter, List.mem_range, Bool.or_eq_true]
      exact ⟨lt_of_s2c hi e', .inr e'⟩
  refine Nat.le_trans (length_le_of_mem hn key) ?_
  have : ∀ M : List Nat, (M.flatMap fun x => (c.slot x).toList ++ (c.relay x).toList).length ≤ 2 * M.length := by
    intro M
    induction M with
    | nil => simp
    | cons x M ih =>
      have h1 : (c.slot x).toList.length ≤ 1 := by cases c.slot x <;> simp
      have h2 : (c.relay x).toList.length ≤ 1 := by cases c.relay x <;> simp
      simp only [List.flatMap_cons, List.length_append, List.length_cons]
      omega
  exact this _

/-- The bound is met: the client of a request that ended late is still with the thread, that of the next, cut short, in the session. -/
example : ∃ c, CRun [.base (.select 0 a false), .base (.spawn 0), .base (.insert 0), .base (.lookup 0), .base (.start 0), .ends 0 false .late,
    .base (.unlink 0), .base (.release 0), .base (.select 1 a false), .base (.abort 1), .base (.release 1)] c ∧
    c.relay 0 = some 0 ∧ c.slot 0 = some 1 ∧ c.shut 0 = false ∧ c.shut 1 = false ∧ there c.base = [0] :=
  ⟨_, rfl, rfl, rfl, rfl, rfl, rfl⟩

/-- Killing the session lets its client go; it is the thread that ends after the shell. -/
example : ∃ c, CRun (cutShort ++ [.base (.kill [a] none), .base (.s2cEnds 0)]) c ∧ c.slot 0 = none ∧ c.relay 0 = none :=
  ⟨_, rfl, rfl, rfl⟩

end Shpool.Conns
