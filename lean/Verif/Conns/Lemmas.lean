import Verif.Conns.Model
import Verif.Server.Order
/-!
# Auxiliary lemmas about who holds connections
-/

namespace Shpool.Conns
open Shpool.Server

theorem sweep_some {s s' : St} {f : Nat → Option Nat} {x k : Nat} :
    sweep s s' f x = some k ↔ f x = some k ∧ (held s x = true → held s' x = true) := by
  unfold sweep
  cases held s x <;> cases held s' x <;> simp

theorem sweep_none {s s' : St} {f : Nat → Option Nat} {x : Nat} (h : f x = none) : sweep s s' f x = none := by
  unfold sweep
  split
  · rfl
  · exact h

theorem held_of_find {s : St} {n : Name} {x : Nat} (h : find n s.table = some x) : held s x = true := by
  have := find_mem h
  simp only [held, Bool.or_eq_true, List.any_eq_true]
  exact .inl ⟨_, this, by simp⟩

theorem held_cases {s : St} {x : Nat} (h : held s x = true) (hn : (s.table.map (·.1)).Nodup) :
    (∃ n, find n s.table = some x) ∨ ∃ o, (s.sess x).owner = some o := by
  simp only [held, Bool.or_eq_true, List.any_eq_true] at h
  rcases h with ⟨p, hp, e⟩ | h
  · have e : p.2 = x := by simpa using e
    exact .inl ⟨p.1, mem_find hn (by rw [← e]; exact hp)⟩
  · cases ho : (s.sess x).owner with
    | none => rw [ho] at h; cases h
    | some o => exact .inr ⟨o, rfl⟩

/-- The table after the streaming of a request has ended. -/
def left (s : St) (t : Nat) (n : Name) (x : Nat) (b : Bool) : St :=
  setThr (setSess s x { s.sess x with conn := false }) t (.ending n x b)

theorem left_of_steps {s s' : St} {t : Nat} {n : Name} {x : Nat} (ht : s.thr t = .owns n x)
    (h : runSteps step s [.start t, .clientGone t] = some s') : s' = left s t n x false := by
  simp only [runSteps, step, ht, setThr, setSess, upd_self] at h
  cases h
  simp only [left, setThr, setSess]
  congr 1
  · funext y
    by_cases hy : y = x <;> simp [upd, hy]
  · funext u
    by_cases hu : u = t <;> simp [upd, hu]

/-- One constructor per path. -/
inductive CEff (c : CSt) : CLabel → CSt → Prop
  | base (l s') : allowed c l = true → Eff c.base l s' → CEff c (.base l) (after c s' l)
  | startFails (t n x k) : c.base.thr t = .owns n x → c.slot x = some k →
      CEff c (.startFails t false) { c with base := left c.base t n x false, slot := upd c.slot x none }
  | handed (t n x k) : c.base.thr t = .owns n x → c.slot x = some k → (c.base.sess x).s2c = true →
      CEff c (.startFails t true) { dismiss c [x] with
        base := left c.base t n x false, slot := upd c.slot x none, relay := upd (dismiss c [x]).relay x (some k) }
  | answered (t n x child b) : c.base.thr t = .streaming n x → (b = true → (c.base.sess x).alive = false) →
      CEff c (.ends t child .answered) { dismiss c [x] with base := left c.base t n x b, hand := upd c.hand t none }
  | unsent (t n x child b) : c.base.thr t = .streaming n x → (b = true → (c.base.sess x).alive = false) →
      CEff c (.ends t child .unsent) { c with
        base := left c.base t n x b, hand := upd c.hand t none
        shut := fun k => c.shut k || c.hand t == some k }
  | late (t n x child) : c.base.thr t = .streaming n x → (c.base.sess x).s2c = true →
      CEff c (.ends t child .late) { c with base := left c.base t n x false, hand := upd c.hand t none, due := upd c.due x true }
  | catchUp (x) : c.due x = true → CEff c (.catchUp x) { dismiss c [x] with due := upd c.due x false }
  | drops (x) : CEff c (.drops x) { c with relay := upd c.relay x none }

theorem served_cases {s : St} {t x : Nat} (h : servedBy s t = some x) : ∃ n, s.thr t = .owns n x ∨ s.thr t = .streaming n x := by
  unfold servedBy at h
  split at h <;> simp_all

theorem cstep_eff {c c' : CSt} {l : CLabel} (h : cstep c l = some c') : CEff c l c' := by
  cases l with
  | base l =>
    simp only [cstep] at h
    split at h
    · split at h
      · cases h
      · cases h
        exact .base _ _ ‹_› (step_eff ‹_›)
    · cases h
  | startFails t handed =>
    simp only [cstep] at h
    split at h
    · rename_i x s' hx hs
      split at h
      · rename_i hc
        obtain ⟨hk, hh⟩ := by simpa using hc
        obtain ⟨n, hn | hn⟩ := served_cases hx
        · have e := left_of_steps hn hs
          subst e
          obtain ⟨k, hk⟩ := Option.isSome_iff_exists.mp hk
          cases handed with
          | false =>
            cases h
            exact .startFails t n x k hn hk
          | true =>
            simp only [if_true] at h
            cases h
            rw [hk]
            exact .handed t n x k hn hk (by simpa using (hh.resolve_left (by simp)).1)
        · simp [runSteps, step, hn] at hs
      · cases h
    · cases h
  | ends t child how =>
    simp only [cstep] at h
    split at h
    · rename_i x s' hx hs
      obtain ⟨n, hn⟩ : ∃ n, c.base.thr t = .streaming n x := by
        obtain ⟨n, hn | hn⟩ := served_cases hx
        · split at hs <;> simp [step, hn] at hs
        · exact ⟨n, hn⟩
      have key : ∃ b, s' = left c.base t n x b ∧ (b = true → (c.base.sess x).alive = false) ∧ (how = .late → b = false) := by
        split at hs
        · rename_i hc
          simp only [step, hn] at hs
          split at hs
          · cases hs
          · rename_i ha
            cases hs
            exact ⟨true, rfl, fun _ => by simpa using ha, fun e => absurd e hc.2⟩
        · simp only [step, hn] at hs
          cases hs
          exact ⟨false, rfl, nofun, fun _ => rfl⟩
      obtain ⟨b, rfl, hb, hb'⟩ := key
      cases how with
      | answered =>
        dsimp only at h
        split at h
        · cases h
          exact .answered t n x child b hn hb
        · cases h
      | unsent =>
        cases h
        exact .unsent t n x child b hn hb
      | late =>
        rw [hb' rfl] at h
        dsimp only at h
        split at h
        · rename_i hc
          cases h
          exact .late t n x child hn (by simpa using (by simpa using hc : _ ∧ _).1)
        · cases h
    · cases h
  | catchUp x =>
    simp only [cstep] at h
    split at h
    · cases h
      exact .catchUp x ‹_›
    · cases h
  | drops x =>
    simp only [cstep] at h
    split at h
    · cases h
      exact .drops x
    · cases h

theorem left_inv {s : St} (hi : Inv s) {t : Nat} {n : Name} {x : Nat} {b : Bool} (h : s.thr t = .owns n x ∨ s.thr t = .streaming n x)
    (hb : b = true → s.thr t = .streaming n x ∧ (s.sess x).alive = false) : Inv (left s t n x b) := by
  cases b with
  | true => exact inv_step hi (.childDone t n x (hb rfl).1 (hb rfl).2)
  | false =>
    rcases h with h | h
    · have key : ∀ s', Server.Inv s' → runSteps step s [.start t, .clientGone t] = some s' → Server.Inv (left s t n x false) :=
        fun s' h4 h5 => left_of_steps h h5 ▸ h4
      exact key _ (inv_step (inv_step hi (.start t n x h)) (.clientGone t n x (by simp [setThr])))
        (by simp only [runSteps, step, h, setThr, setSess, upd_self])
    · exact inv_step hi (.clientGone t n x h)

theorem inv_cstep {c c' : CSt} {l : CLabel} (hi : Inv c.base) (h : CEff c l c') : Inv c'.base := by
  cases h with
  | base l s' _ he => exact inv_step hi he
  | startFails t n x k hn => exact left_inv hi (.inl hn) nofun
  | handed t n x k hn => exact left_inv hi (.inl hn) nofun
  | answered t n x child b hn hb => exact left_inv hi (.inr hn) fun e => ⟨hn, hb e⟩
  | unsent t n x child b hn hb => exact left_inv hi (.inr hn) fun e => ⟨hn, hb e⟩
  | late t n x child hn => exact left_inv hi (.inr hn) nofun
  | catchUp => exact hi
  | drops => exact hi

/-- What holds in every reachable state. -/
structure KInv (c : CSt) : Prop where
  slot : ∀ x k, c.slot x = some k → held c.base x = true ∨ ∃ t n, c.base.thr t = .spawned n x
  relay : ∀ x k, c.relay x = some k → (c.base.sess x).s2c = true
  hand : ∀ t k, c.hand t = some k → c.base.thr t = .idle ∨ (∃ n, c.base.thr t = .making n) ∨ ∃ n x, c.base.thr t = .streaming n x
  own : ∀ t, (c.base.thr t = .idle ∨ ∃ n, c.base.thr t = .making n) → c.hand t = some t
  busy : ∀ t, c.base.thr t = .done .busy → c.shut t = true
  due : ∀ x, c.due x = true → (c.base.sess x).s2c = true

theorem kinv_init : KInv cinit where
  slot := by simp [cinit]
  relay := by simp [cinit]
  hand := by simp [cinit, init]
  own := by simp [cinit]
  busy := by simp [cinit, init]
  due := by simp [cinit]

theorem held_left {s : St} {t : Nat} {n : Name} {x : Nat} {b : Bool} (y : Nat) : held (left s t n x b) y = held s y := by
  simp only [held, left, setThr, setSess, upd_apply]
  by_cases h : y = x <;> simp [h]

theorem kill_s2c (s : St) (names : List Name) (fail : Option Nat) (x : Nat) :
    ((kill s names fail).1.sess x).s2c = (s.sess x).s2c := by
  rcases kill_sess s names fail x with e | e <;> rw [e]

theorem takes_some {s : St} {n : Name} {x : Nat} (h : takes s n = some x) :
    find n s.table = some x ∧ (s.sess x).owner = none ∧ (s.sess x).alive = true := by
  unfold takes at h
  split at h
  · cases h
  · split at h
    · rename_i hc
      cases h
      refine ⟨by assumption, ?_⟩
      simpa using hc
    · cases h

theorem moved_spawned {s s' : St} {l : Label} (he : Eff s l s') {t : Nat} {n : Name} {x : Nat} (h : s.thr t = .spawned n x) :
    s'.thr t = .spawned n x ∨ find n s'.table = some x := by
  cases he
  case kill names fail _ => rw [kill_thr]; exact .inl h
  case detach names _ => exact .inl h
  all_goals
    try simp only [setThr, setSess, upd_apply, find_insert]
    grind

theorem kslot_base {c : CSt} {l : Label} {s' : St} (h : KInv c) (he : Eff c.base l s') :
    ∀ x k, (after c s' l).slot x = some k → held s' x = true ∨ ∃ t n, s'.thr t = .spawned n x := by
  intro x k hs
  obtain ⟨hm, hk⟩ := sweep_some.mp hs
  have old : c.slot x = some k → held s' x = true ∨ ∃ t n, s'.thr t = .spawned n x := by
    intro e
    rcases h.slot x k e with e' | ⟨t, n, e'⟩
    · exact .inl (hk e')
    · rcases moved_spawned he e' with e | e
      · exact .inr ⟨t, n, e⟩
      · exact .inl (held_of_find e)
  cases l with
  | select t n j =>
    simp only [moved] at hm
    have hm' : (match takes c.base n with
      | some x => { c with slot := upd c.slot x (some t) }
      | none => c).slot x = some k := by
      revert hm
      split <;> exact id
    split at hm'
    · rename_i y hy
      simp only [upd_apply] at hm'
      split at hm'
      · rename_i e
        subst e
        exact .inl (hk (held_of_find (takes_some hy).1))
      · exact old hm'
    · exact old hm'
  | spawn t =>
    cases he with
    | spawn _ n ht =>
      simp only [moved, upd_apply] at hm
      split at hm
      · rename_i e
        subst e
        exact .inr ⟨t, n, by simp [setThr]⟩
      · exact old hm
  | start t =>
    simp only [moved] at hm
    split at hm
    · exact old hm
    · simp only [dismiss, upd_apply] at hm
      split at hm
      · cases hm
      · exact old hm
  | _ => exact old hm

theorem s2c_step {s s' : St} {l : Label} (he : Eff s l s') (x : Nat) (h : (s.sess x).s2c = true) (hb : x < s.next)
    (hl : l ≠ .s2cEnds x) : (s'.sess x).s2c = true := by
  cases he
  case kill names fail _ => rw [kill_s2c]; exact h
  case detach names _ => rcases detach_sess s names x with e | ⟨e, -⟩ <;> rw [e] <;> exact h
  all_goals
    try simp only [setThr, setSess, upd_apply, Sess.recordAttached, Sess.recordDetached]
    grind

theorem lt_of_s2c {s : St} (hi : Inv s) {x : Nat} (h : (s.sess x).s2c = true) : x < s.next := by
  refine Classical.byContradiction fun hn => ?_
  rw [hi.blank x (by omega)] at h
  cases h

theorem dismiss_relay {c : CSt} {xs : List Nat} {x k : Nat} (h : (dismiss c xs).relay x = some k) : c.relay x = some k := by
  simp only [dismiss] at h
  split at h
  · cases h
  · exact h

theorem krelay_base {c : CSt} {l : Label} {s' : St} (h : KInv c) (ha : allowed c l = true) (he : Eff c.base l s') (hi : Inv c.base) :
    ∀ x k, (after c s' l).relay x = some k → (s'.sess x).s2c = true := by
  intro x k hr
  have hr : (moved c s' l).relay x = some k := hr
  have old : l ≠ .s2cEnds x → c.relay x = some k → (s'.sess x).s2c = true := fun hl e =>
    s2c_step he x (h.relay x k e) (lt_of_s2c hi (h.relay x k e)) hl
  cases l with
  | select t n j =>
    simp only [moved] at hr
    refine old nofun ?_
    revert hr
    split <;> split <;> exact id
  | start t =>
    simp only [moved] at hr
    split at hr
    · exact old nofun hr
    · rename_i y hy
      simp only [upd_apply] at hr
      split at hr
      · rename_i e
        subst e
        simp only [allowed, hy, Bool.and_eq_true] at ha
        exact s2c_step he x ha.1.2 (lt_of_s2c hi ha.1.2) nofun
      · exact old nofun (dismiss_relay hr)
  | s2cEnds y =>
    simp only [moved, upd_apply] at hr
    split at hr
    · cases hr
    · exact old (by simpa [eq_comm] using ‹¬ x = y›) hr
  | detach names => exact old nofun (dismiss_relay hr)
  | _ => exact old nofun hr

theorem kdue_base {c : CSt} {l : Label} {s' : St} (h : KInv c) (he : Eff c.base l s') (hi : Inv c.base) :
    ∀ x, (after c s' l).due x = true → (s'.sess x).s2c = true := by
  intro x hr
  have hr : (moved c s' l).due x = true := hr
  have old : l ≠ .s2cEnds x → c.due x = true → (s'.sess x).s2c = true := fun hl e =>
    s2c_step he x (h.due x e) (lt_of_s2c hi (h.due x e)) hl
  cases l with
  | select t n j =>
    simp only [moved] at hr
    refine old nofun ?_
    revert hr
    split <;> split <;> exact id
  | start t =>
    simp only [moved] at hr
    split at hr <;> exact old nofun hr
  | s2cEnds y =>
    simp only [moved, upd_apply] at hr
    split at hr
    · cases hr
    · exact old (by simpa [eq_comm] using ‹¬ x = y›) hr
  | _ => exact old nofun hr

def isMaking : Phase → Bool
  | .making _ => true
  | _ => false

theorem select_hand (c : CSt) (s' : St) (t : Nat) (n : Name) (j : Bool) (u : Nat) :
    (moved c s' (.select t n j)).hand u = if u = t ∧ isMaking (s'.thr t) = false then none else c.hand u := by
  simp only [moved]
  split <;> split <;> simp_all [upd_apply, isMaking]

theorem select_shut (c : CSt) (s' : St) (t : Nat) (n : Name) (j : Bool) (u : Nat) :
    (moved c s' (.select t n j)).shut u = (c.shut u || (decide (u = t) && decide (s'.thr t = .done .busy))) := by
  simp only [moved]
  split <;> split <;> simp_all [upd_apply] <;> grind

theorem khand_base {c : CSt} {l : Label} {s' : St} (h : KInv c) (ha : allowed c l = true) (he : Eff c.base l s') :
    (∀ t k, (after c s' l).hand t = some k → s'.thr t = .idle ∨ (∃ n, s'.thr t = .making n) ∨ ∃ n x, s'.thr t = .streaming n x) ∧
    (∀ t, (s'.thr t = .idle ∨ ∃ n, s'.thr t = .making n) → (after c s' l).hand t = some t) ∧
    (∀ t, s'.thr t = .done .busy → (after c s' l).shut t = true) := by
  obtain ⟨-, -, a, b, d, -⟩ := h
  cases he
  case kill names fail _ =>
    have k := kill_thr c.base names fail
    rw [k]
    exact ⟨a, b, d⟩
  case clientGone => cases ha
  case childDone => cases ha
  case start t n x h1 =>
    simp only [after, moved, setThr, setSess, servedBy, h1, dismiss, upd_apply]
    grind
  all_goals
    first
    | (simp only [after, select_hand, select_shut, setThr, setSess, upd_apply]; grind [isMaking])
    | (simp only [after, moved, setThr, setSess, dismiss, upd_apply]; grind)
    | exact ⟨a, b, d⟩
    | (simp only [after, moved, dismiss]; exact ⟨a, b, fun t e => by simp [d t e]⟩)

theorem kinv_step {c c' : CSt} {l : CLabel} (h : KInv c) (hi : Inv c.base) (he : CEff c l c') : KInv c' := by
  cases he with
  | base l s' ha he =>
    have k := khand_base h ha he
    exact ⟨kslot_base h he, krelay_base h ha he hi, k.1, k.2.1, k.2.2, kdue_base h he hi⟩
  | startFails t n x k hn hk =>
    obtain ⟨a, b, d, e, f, g⟩ := h
    refine ⟨?_, ?_, ?_, ?_, ?_, ?_⟩ <;> simp only [held_left] <;> simp only [left, setThr, setSess, upd_apply] <;> grind
  | handed t n x k hn hk hs =>
    obtain ⟨a, b, d, e, f, g⟩ := h
    refine ⟨?_, ?_, ?_, ?_, ?_, ?_⟩ <;> simp only [held_left] <;> simp only [left, setThr, setSess, upd_apply, dismiss] <;> grind
  | answered t n x child b hn hb =>
    obtain ⟨a, b, d, e, f, g⟩ := h
    refine ⟨?_, ?_, ?_, ?_, ?_, ?_⟩ <;> simp only [held_left] <;> simp only [left, setThr, setSess, upd_apply, dismiss] <;> grind
  | unsent t n x child b hn hb =>
    obtain ⟨a, b, d, e, f, g⟩ := h
    refine ⟨?_, ?_, ?_, ?_, ?_, ?_⟩ <;> simp only [held_left] <;> simp only [left, setThr, setSess, upd_apply, dismiss] <;>
      grind
  | late t n x child hn hs =>
    obtain ⟨a, b, d, e, f, g⟩ := h
    refine ⟨?_, ?_, ?_, ?_, ?_, ?_⟩ <;> simp only [held_left] <;> simp only [left, setThr, setSess, upd_apply, dismiss] <;> grind
  | catchUp x hd =>
    obtain ⟨a, b, d, e, f, g⟩ := h
    refine ⟨?_, ?_, ?_, ?_, ?_, ?_⟩ <;> simp only [upd_apply, dismiss] <;> grind
  | drops x =>
    obtain ⟨a, b, d, e, f, g⟩ := h
    refine ⟨?_, ?_, ?_, ?_, ?_, ?_⟩ <;> simp only [upd_apply] <;> grind

theorem kinv_of_run {ls : List CLabel} {c : CSt} (h : CRun ls c) : Server.Inv c.base ∧ KInv c :=
  run_inv (I := fun c => Server.Inv c.base ∧ KInv c)
    (fun _ _ _ hi hs => ⟨inv_cstep hi.1 (cstep_eff hs), kinv_step hi.2 hi.1 (cstep_eff hs)⟩) ⟨inv_init, kinv_init⟩ h

theorem takeWhile_all {α : Type} {p : α → Bool} {l : List α} (h : ∀ x ∈ l, p x = true) : l.takeWhile p = l := by
  induction l with
  | nil => rfl
  | cons x l ih =>
    rw [List.takeWhile_cons, if_pos (h x List.mem_cons_self), ih fun y hy => h y (List.mem_cons_of_mem _ hy)]

theorem mem_reached {s : St} {ms : List Name} (h : ∀ n ∈ ms, ∀ y, find n s.table = some y → (s.sess y).s2c = true) {n : Name} {x : Nat}
    (hn : n ∈ ms) (hf : find n s.table = some x) : x ∈ reached s ms := by
  rw [reached, takeWhile_all, List.mem_filterMap]
  · exact ⟨n, hn, hf⟩
  · intro m hm
    cases e : find m s.table with
    | none => rfl
    | some y => exact h m hm y e

/-! ## When no request is cut short -/

/-- A request is about to serve the session. -/
def Awaited (s : St) (x : Nat) : Prop :=
  (∃ t n, s.thr t = .owns n x) ∨ ((s.sess x).owner = none ∧
    ∃ t n, s.thr t = .spawned n x ∨ (s.thr t = .inserted n x ∧ find n s.table = some x) ∨ s.thr t = .blocked n x)

set_option maxHeartbeats 2000000 in
theorem awaited_step {s s' : St} {l : Label} {x : Nat} (hi : Server.Inv s) (hi' : Server.Inv s') (he : Eff s l s')
    (hl : ∀ t, l = .start t → servedBy s t ≠ some x) (hab : ∀ t, l ≠ .abort t) (hk : held s x = true → held s' x = true)
    (h : Awaited s x) : Awaited s' x := by
  rcases h with ⟨t, n, h⟩ | ⟨ho, t, n, h⟩
  · refine .inl ⟨t, n, ?_⟩
    cases he
    case kill names fail _ => rw [kill_thr]; exact h
    case detach names _ => exact h
    case start t0 n0 x0 h0 =>
      have := hl t0 rfl
      simp only [servedBy, h0] at this
      simp only [setThr, setSess, upd_apply]
      grind
    all_goals
      try simp only [setThr, setSess, upd_apply]
      grind
  · have hn : (s.sess x).name = n := by
      rcases h with h | h | h
      · exact (hi.spawned t n x h).2.1
      · exact (hi.tbl n x h.2).2
      · exact (hi.tbl n x (hi.blk t n x h).2).2
    have hx : x < s.next := by
      rcases h with h | h | h
      · exact (hi.spawned t n x h).1
      · exact (hi.tbl n x h.2).1
      · exact (hi.tbl n x (hi.blk t n x h).2).1
    have hb := hi.blk
    have hsp := hi.spawned
    have hk' : find n s.table = some x → (∃ m, find m s'.table = some x ∧ (s'.sess x).name = m) ∨ ∃ o, (s'.sess x).owner = some o := by
      intro hf
      rcases held_cases (hk (held_of_find hf)) hi'.nodup with ⟨m, e⟩ | e
      · exact .inl ⟨m, e, (hi'.tbl m x e).2⟩
      · exact .inr e
    clear hi' hk hl
    unfold Awaited
    cases he
    case kill names fail _ =>
      have k1 := kill_fields s names fail x
      have k2 := kill_find s names fail
      rw [kill_thr]
      grind
    case detach names _ =>
      have k1 := detach_fields s names x
      have k3 : (detach s names).1.thr = s.thr := rfl
      have k6 : (detach s names).1.table = s.table := rfl
      rw [k3, k6]
      grind
    case reattach t0 n0 j x0 h1 h2 h3 h4 h5 h6 =>
      by_cases e : x = x0
      · subst e
        exact .inl ⟨t0, n0, by simp [setThr, setSess]⟩
      · refine .inr ⟨by simp [setThr, setSess, upd_apply, e, ho], t, n, ?_⟩
        simp only [setThr, setSess, upd_apply] at hk' ⊢
        grind
    case lookup t0 n0 z x0 h1 h2 h3 h4 =>
      by_cases e : x = x0
      · subst e
        exact .inl ⟨t0, n0, by simp [setThr, setSess]⟩
      · refine .inr ⟨by simp [setThr, setSess, upd_apply, e, ho], t, n, ?_⟩
        simp only [setThr, setSess, upd_apply] at hk' ⊢
        grind
    case acquire t0 n0 x0 h1 h2 =>
      by_cases e : x = x0
      · subst e
        exact .inl ⟨t0, n0, by simp [setThr, setSess]⟩
      · refine .inr ⟨by simp [setThr, setSess, upd_apply, e, ho], t, n, ?_⟩
        simp only [setThr, setSess, upd_apply] at hk' ⊢
        grind
    all_goals
      try simp only [setThr, setSess, upd_apply, find_insert, find_erase, Sess.recordAttached, Sess.recordDetached] at hk' ⊢
      grind

/-- The conditions of a history in which no request is cut short: none ends before it streams, a client is taken over and let go in time,
and none finds a session whose shell runs although its thread has ended. -/
def Fine (c : CSt) : CLabel → Prop
  | .base (.abort _) => False
  | .base (.select _ n _) => ∀ x, takes c.base n = some x → (c.base.sess x).handle = true → (c.base.sess x).s2c = true
  | .startFails _ handed => handed = false
  | .ends _ _ how => how ≠ .late
  | _ => True

structure JInv (c : CSt) : Prop where
  slot : ∀ x k, c.slot x = some k → Awaited c.base x
  relay : ∀ x k, c.relay x = some k → c.shut k = true ∨ ∃ t n, c.base.thr t = .streaming n x ∧ c.hand t = some k
  due : ∀ x, c.due x = false

theorem jinv_init : JInv cinit where
  slot := by simp [cinit]
  relay := by simp [cinit]
  due := by simp [cinit]

theorem awaited_left {s : St} {t : Nat} {n : Name} {x : Nat} {b : Bool} (hi : Server.Inv s) (ht : s.thr t = .owns n x ∨ s.thr t = .streaming n x)
    {y : Nat} (h : Awaited s y) (hy : s.thr t = .owns n x → y ≠ x) : Awaited (left s t n x b) y := by
  have hso := (hi.own t x).mp (by rcases ht with e | e <;> rw [e] <;> rfl)
  simp only [Awaited, left, setThr, setSess, upd_apply] at h ⊢
  rcases h with ⟨u, m, h⟩ | ⟨ho, u, m, h⟩
  · refine .inl ⟨u, m, ?_⟩
    grind
  · refine .inr ⟨by grind, u, m, ?_⟩
    grind

theorem moved_slot {c : CSt} {s' : St} {l : Label} {x k : Nat} (h : (moved c s' l).slot x = some k) :
    (c.slot x = some k ∧ (∀ t, l = .start t → servedBy c.base t ≠ some x) ∧
        ∀ t n j, l = .select t n j → takes c.base n ≠ some x) ∨
      (∃ t n j, l = .select t n j ∧ takes c.base n = some x ∧ k = t) ∨ ∃ t, l = .spawn t ∧ x = c.base.next ∧ c.hand t = some k := by
  cases l with
  | select t n j =>
    simp only [moved] at h
    have hm' : (match takes c.base n with
      | some x => { c with slot := upd c.slot x (some t) }
      | none => c).slot x = some k := by
      revert h
      split <;> exact id
    split at hm'
    · rename_i y hy
      simp only [upd_apply] at hm'
      split at hm'
      · rename_i e
        subst e
        exact .inr (.inl ⟨t, n, j, rfl, hy, (Option.some.inj hm').symm⟩)
      · refine .inl ⟨hm', nofun, fun t' n' j' e' => ?_⟩
        cases e'
        rw [hy]
        intro e2
        exact ‹¬ x = y› (Option.some.inj e2).symm
    · rename_i hy
      exact .inl ⟨hm', nofun, fun t' n' j' e' => by cases e'; rw [hy]; exact nofun⟩
  | spawn t =>
    simp only [moved, upd_apply] at h
    split at h
    · exact .inr (.inr ⟨t, rfl, ‹_›, h⟩)
    · exact .inl ⟨h, nofun, nofun⟩
  | start t =>
    simp only [moved] at h
    split at h
    · rename_i e
      exact .inl ⟨h, fun t' e' => by cases e'; rw [e]; exact nofun, nofun⟩
    · rename_i y e
      simp only [dismiss, upd_apply] at h
      split at h
      · cases h
      · refine .inl ⟨h, fun t' e' => ?_, nofun⟩
        cases e'
        rw [e]
        intro e2
        exact ‹¬ x = y› (Option.some.inj e2).symm
  | _ => exact .inl ⟨h, nofun, nofun⟩

theorem jslot_base {c : CSt} {l : Label} {s' : St} (h : JInv c) (hi : Server.Inv c.base) (hf : Fine c (.base l)) (he : Eff c.base l s') :
    ∀ x k, (after c s' l).slot x = some k → Awaited s' x := by
  intro x k hs
  obtain ⟨hm, hk⟩ := sweep_some.mp hs
  rcases moved_slot hm with ⟨e, hl, -⟩ | ⟨t, n, j, rfl, ht, -⟩ | ⟨t, rfl, rfl, -⟩
  · refine awaited_step hi (inv_step hi he) he hl ?_ hk (h.slot x k e)
    rintro t rfl
    exact hf
  · obtain ⟨h1, h2, h3⟩ := takes_some ht
    have hf := hf x ht
    cases he <;> simp_all
    exact .inl ⟨t, n, by simp [setThr, setSess]⟩
  · cases he with
    | spawn _ n ht => exact .inr ⟨by simp [setThr], t, n, .inl (by simp [setThr])⟩

theorem shut_moved {c : CSt} {s' : St} {l : Label} {k : Nat} (h : c.shut k = true) : (moved c s' l).shut k = true := by
  cases l with
  | select t n j => rw [select_shut, h]; rfl
  | start t =>
    simp only [moved]
    split
    · exact h
    · simp [dismiss, h]
  | detach => simp [moved, dismiss, h]
  | _ => exact h

theorem dismiss_shut {c : CSt} {xs : List Nat} {x k : Nat} (hx : x ∈ xs) (h : c.relay x = some k) : (dismiss c xs).shut k = true := by
  simp only [dismiss, Bool.or_eq_true, List.any_eq_true]
  exact .inr ⟨x, hx, by simp [h]⟩

theorem streaming_stays {c : CSt} {l : Label} {s' : St} (ha : allowed c l = true) (he : Eff c.base l s') {t : Nat} {n : Name} {x : Nat}
    (h : c.base.thr t = .streaming n x) : s'.thr t = .streaming n x ∧ (moved c s' l).hand t = c.hand t := by
  cases he
  case kill names fail _ => rw [kill_thr]; exact ⟨h, rfl⟩
  case detach names _ => exact ⟨h, rfl⟩
  case clientGone => cases ha
  case childDone => cases ha
  case start t0 n0 x0 h0 =>
    simp only [moved, setThr, setSess, servedBy, h0, dismiss, upd_apply]
    grind
  all_goals
    first
    | (simp only [select_hand, setThr, setSess, upd_apply]; grind [isMaking])
    | (simp only [moved, setThr, setSess, upd_apply]; grind)
    | (simp only [moved]; exact ⟨h, rfl⟩)

theorem jrelay_base {c : CSt} {l : Label} {s' : St} (h : JInv c) (ha : allowed c l = true) (he : Eff c.base l s') :
    ∀ x k, (after c s' l).relay x = some k →
      (after c s' l).shut k = true ∨ ∃ t n, s'.thr t = .streaming n x ∧ (after c s' l).hand t = some k := by
  intro x k hr
  have hr : (moved c s' l).relay x = some k := hr
  change (moved c s' l).shut k = true ∨ ∃ t n, s'.thr t = .streaming n x ∧ (moved c s' l).hand t = some k
  have old : c.relay x = some k →
      (moved c s' l).shut k = true ∨ ∃ t n, s'.thr t = .streaming n x ∧ (moved c s' l).hand t = some k := by
    intro e
    rcases h.relay x k e with e | ⟨t, n, e, e'⟩
    · exact .inl (shut_moved e)
    · have := streaming_stays ha he e
      exact .inr ⟨t, n, this.1, this.2.trans e'⟩
  cases l with
  | select t n j =>
    refine old ?_
    simp only [moved] at hr
    revert hr
    split <;> split <;> exact id
  | start t =>
    cases he with
    | start _ n y ht =>
      simp only [moved, servedBy, ht, upd_apply] at hr
      split at hr
      · rename_i e
        subst e
        exact .inr ⟨t, n, by simp [setThr], by simp [moved, servedBy, ht, hr]⟩
      · exact old (dismiss_relay hr)
  | s2cEnds y =>
    simp only [moved, upd_apply] at hr
    split at hr
    · cases hr
    · exact old hr
  | detach names => exact old (dismiss_relay hr)
  | _ => exact old hr

theorem moved_due {c : CSt} {l : Label} {s' : St} {x : Nat} (h : c.due x = false) : (moved c s' l).due x = false := by
  cases l with
  | select t n j =>
    simp only [moved]
    split <;> split <;> exact h
  | start t =>
    simp only [moved]
    split <;> exact h
  | s2cEnds y =>
    simp only [moved, upd_apply]
    split
    · rfl
    · exact h
  | _ => exact h

theorem jinv_step {c c' : CSt} {l : CLabel} (h : JInv c) (hi : Server.Inv c.base) (hf : Fine c l) (he : CEff c l c') : JInv c' := by
  cases he with
  | base l s' ha he => exact ⟨jslot_base h hi hf he, jrelay_base h ha he, fun x => moved_due (h.due x)⟩
  | startFails t n x k hn hk =>
    refine ⟨?_, ?_, h.due⟩
    · intro y k' hy
      simp only [upd_apply] at hy
      split at hy
      · cases hy
      · exact awaited_left hi (.inl hn) (h.slot y k' hy) fun _ => ‹_›
    · intro y k' hy
      rcases h.relay y k' hy with e | ⟨u, m, e, e'⟩
      · exact .inl e
      · refine .inr ⟨u, m, ?_, e'⟩
        simp only [left, setThr, setSess, upd_apply]
        grind
  | handed t n x k hn hk hs => cases hf
  | answered t n x child b hn hb =>
    refine ⟨?_, ?_, h.due⟩
    · intro y k' hy
      exact awaited_left hi (.inr hn) (h.slot y k' hy) fun e => by rw [hn] at e; cases e
    · intro y k' hy
      have hxy : y ≠ x := by
        rintro rfl
        simp [dismiss] at hy
      rcases h.relay y k' (dismiss_relay hy) with e | ⟨u, m, e, e'⟩
      · exact .inl (by simp [dismiss, e])
      · refine .inr ⟨u, m, ?_⟩
        simp only [left, setThr, setSess, upd_apply]
        grind
  | unsent t n x child b hn hb =>
    refine ⟨?_, ?_, h.due⟩
    · intro y k' hy
      exact awaited_left hi (.inr hn) (h.slot y k' hy) fun e => by rw [hn] at e; cases e
    · intro y k' hy
      rcases h.relay y k' hy with e | ⟨u, m, e, e'⟩
      · exact .inl (by simp [e])
      · by_cases hu : u = t
        · subst hu
          exact .inl (by simp [e'])
        · refine .inr ⟨u, m, ?_⟩
          simp only [left, setThr, setSess, upd_apply]
          grind
  | late t n x child hn hs => exact absurd rfl hf
  | catchUp x hd => rw [h.due x] at hd; cases hd
  | drops x =>
    refine ⟨h.slot, ?_, h.due⟩
    intro y k' hy
    simp only [upd_apply] at hy
    split at hy
    · cases hy
    · exact h.relay y k' hy

/-! ## Whose connection it is -/

structure SInv (c : CSt) : Prop where
  slot : ∀ x k, c.slot x = some k → (c.base.sess x).stream = some k
  hand : ∀ t n x k, c.base.thr t = .streaming n x → c.hand t = some k → (c.base.sess x).stream = some k

theorem sinv_init : SInv cinit where
  slot := by simp [cinit]
  hand := by simp [cinit, init]

theorem stream_step {s s' : St} {l : Label} (he : Eff s l s') {x : Nat} (hx : x < s.next)
    (hl : ∀ t n j, l = .select t n j → takes s n ≠ some x) : (s'.sess x).stream = (s.sess x).stream := by
  cases he
  case kill names fail _ => exact (kill_fields s names fail x).2.2.1
  case detach names _ => exact (detach_fields s names x).2.2.1
  all_goals
    (try simp only [setThr, setSess, upd_apply, Sess.recordAttached, Sess.recordDetached]) <;> try grind [takes]

theorem sinv_step {c c' : CSt} {l : CLabel} (h : SInv c) (hk : KInv c) (hi : Server.Inv c.base) (he : CEff c l c') : SInv c' := by
  obtain ⟨a, b⟩ := h
  cases he with
  | base l s' ha he =>
    have hlt : ∀ x k, c.slot x = some k → x < c.base.next := by
      intro x k e
      rcases hk.slot x k e with e | ⟨t, n, e⟩
      · rcases held_cases e hi.nodup with ⟨m, e⟩ | ⟨o, e⟩
        · exact (hi.tbl m x e).1
        · refine Classical.byContradiction fun hn => ?_
          rw [hi.blank x (by omega)] at e
          cases e
      · exact (hi.spawned t n x e).1
    constructor
    · intro x k hs
      obtain ⟨hm, -⟩ := sweep_some.mp hs
      change (s'.sess x).stream = some k
      rcases moved_slot hm with ⟨e, -, hl⟩ | ⟨t, n, j, rfl, ht, rfl⟩ | ⟨t, rfl, rfl, ht⟩
      · rw [stream_step he (hlt x k e) hl]
        exact a x k e
      · obtain ⟨h1, h2, h3⟩ := takes_some ht
        cases he <;> simp_all [setThr, setSess]
      · cases he with
        | spawn _ n hq =>
          rw [hk.own t (.inr ⟨n, hq⟩)] at ht
          cases ht
          simp [setThr]
    · intro t n x k ht hh
      change s'.thr t = .streaming n x at ht
      change (moved c s' l).hand t = some k at hh
      change (s'.sess x).stream = some k
      have old : c.base.thr t = .streaming n x → (s'.sess x).stream = some k := by
        intro e
        rw [(streaming_stays ha he e).2] at hh
        rw [stream_step he (hi.streaming t n x e).1]
        · exact b t n x k e hh
        · intro t' n' j' _ e'
          have := (takes_some e').2.1
          rw [(hi.own t x).mp (by rw [e]; rfl)] at this
          cases this
      cases l with
      | start u =>
        cases he with
        | start _ m y hu =>
          by_cases e : t = u
          · subst e
            simp only [setThr, upd_self] at ht
            cases ht
            simp only [moved, servedBy, hu, upd_self] at hh
            simpa [setThr, setSess] using a x k hh
          · exact old (by simpa [setThr, setSess, upd_ne _ _ e] using ht)
      | _ =>
        refine old ?_
        cases he
        all_goals
          try simp only [kill_thr, setThr, setSess, upd_apply] at ht
          grind [detach]
  | startFails t n x k hn hk =>
    constructor <;> simp only [left, setThr, setSess, upd_apply] <;> grind
  | handed t n x k hn hk hs =>
    constructor <;> simp only [left, setThr, setSess, upd_apply, dismiss] <;> grind
  | answered t n x child b hn hb =>
    constructor <;> simp only [left, setThr, setSess, upd_apply, dismiss] <;> grind
  | unsent t n x child b hn hb =>
    constructor <;> simp only [left, setThr, setSess, upd_apply] <;> grind
  | late t n x child hn hs =>
    constructor <;> simp only [left, setThr, setSess, upd_apply] <;> grind
  | catchUp x hd => exact ⟨a, b⟩
  | drops x => exact ⟨a, b⟩

theorem sinv_of_run {ls : List CLabel} {c : CSt} (h : CRun ls c) : SInv c :=
  (run_inv (I := fun c => Server.Inv c.base ∧ KInv c ∧ SInv c)
    (fun _ _ _ hi hs => ⟨inv_cstep hi.1 (cstep_eff hs), kinv_step hi.2.1 hi.1 (cstep_eff hs),
      sinv_step hi.2.2 hi.2.1 hi.1 (cstep_eff hs)⟩) ⟨inv_init, kinv_init, sinv_init⟩ h).2.2

/-! ## Histories with a condition on every step -/

def CAlways (P : CSt → CLabel → Prop) (ls : List CLabel) : Prop :=
  ∀ pre l post c, ls = pre ++ l :: post → CRun pre c → P c l

theorem chist_inv {P : CSt → CLabel → Prop} {I : CSt → Prop} (h0 : I cinit)
    (hstep : ∀ c l c', Server.Inv c.base → I c → P c l → cstep c l = some c' → I c') {ls : List CLabel} {c : CSt}
    (hr : CRun ls c) (hp : CAlways P ls) : I c := by
  have : (fun ls c => CRun ls c ∧ (CAlways P ls → I c)) ls c :=
    run_hist (I := fun ls c => CRun ls c ∧ (CAlways P ls → I c))
      (fun ls c l c' hi hs => ⟨by
        have h := hi.1
        unfold CRun at h ⊢
        rw [run_append, h]
        simp [runSteps, hs], fun hp => by
        refine hstep c l c' (kinv_of_run hi.1).1 (hi.2 ?_) (hp ls l [] c rfl hi.1) hs
        intro pre l' post s e hr
        exact hp pre l' (post ++ [l]) s (by rw [e]; simp) hr⟩) ⟨rfl, fun _ => h0⟩ hr
  exact this.2 hp

/-- An attach request starts only while no other one is creating a session of that name. -/
def CQuiet (c : CSt) : CLabel → Prop
  | .base l => Quiet1 c.base l
  | _ => True

theorem ord1_left {s : St} (hi : Server.Inv s) (h : Ord1 s) {t : Nat} {n : Name} {x : Nat} {b : Bool}
    (ht : s.thr t = .owns n x ∨ s.thr t = .streaming n x) (hb : b = true → s.thr t = .streaming n x ∧ (s.sess x).alive = false) :
    Ord1 (left s t n x b) := by
  cases b with
  | true => exact ord1_step hi h (l := .childDone t) trivial (.childDone t n x (hb rfl).1 (hb rfl).2)
  | false =>
    rcases ht with ht | ht
    · have key : ∀ s', Ord1 s' → runSteps step s [.start t, .clientGone t] = some s' → Ord1 (left s t n x false) :=
        fun s' h4 h5 => left_of_steps ht h5 ▸ h4
      exact key _ (ord1_step (inv_step hi (.start t n x ht)) (ord1_step hi h (l := .start t) trivial (.start t n x ht))
        (l := .clientGone t) trivial (.clientGone t n x (by simp [setThr])))
        (by simp only [runSteps, step, ht, setThr, setSess, upd_self])
    · exact ord1_step hi h (l := .clientGone t) trivial (.clientGone t n x ht)

theorem ord1_cstep {c c' : CSt} {l : CLabel} (hi : Server.Inv c.base) (h : Ord1 c.base) (hq : CQuiet c l) (he : CEff c l c') :
    Ord1 c'.base := by
  cases he with
  | base l s' _ he => exact ord1_step hi h hq he
  | startFails t n x k hn => exact ord1_left hi h (.inl hn) nofun
  | handed t n x k hn => exact ord1_left hi h (.inl hn) nofun
  | answered t n x child b hn hb => exact ord1_left hi h (.inr hn) fun e => ⟨hn, hb e⟩
  | unsent t n x child b hn hb => exact ord1_left hi h (.inr hn) fun e => ⟨hn, hb e⟩
  | late t n x child hn => exact ord1_left hi h (.inr hn) nofun
  | catchUp => exact h
  | drops => exact h

end Shpool.Conns
