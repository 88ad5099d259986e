import Verif.Hooks.Model
import Verif.Server.Order
/-!
# Lemmas about the calls to hooks
-/

namespace Shpool.Hooks
open Shpool.Server

theorem detach_thr (s : St) (names : List Name) : (detach s names).1.thr = s.thr := rfl

theorem frame {s s' : St} {l : Label} (he : Eff s l s') {t : Nat} (h : actor l ≠ some t) : s'.thr t = s.thr t := by
  cases he <;> simp only [actor, ne_eq, Option.some.injEq] at h <;>
    simp [setThr, setSess, upd_apply, kill_thr, detach_thr, Ne.symm h] <;> grind

theorem now_actor {s : St} {l : Label} {c : Call} (h : c ∈ now s l) : actor l = some c.thr := by
  cases l <;> simp only [now, List.not_mem_nil] at h
  split at h
  · cases h
  · split at h
    · simp at h; simp [actor, h]
    · split at h
      · simp at h; simp [actor, h]
      · cases h

theorem later_actor {s : St} {l : Label} {c : Call} (h : later s l = some c) : actor l = some c.thr := by
  cases l <;> simp only [later] at h <;> first
    | cases h
    | (split at h <;> cases h <;> rfl)

theorem callsOf_append (t : Nat) (a b : List Call) : callsOf t (a ++ b) = callsOf t a ++ callsOf t b := by
  simp [callsOf]

theorem callsOf_now_ne {s : St} {l : Label} {t : Nat} (h : actor l ≠ some t) : callsOf t (now s l) = [] := by
  simp only [callsOf, List.filter_eq_nil_iff, decide_eq_true_eq]
  intro c hc e
  exact h (e ▸ now_actor hc)

/-- What a step of the extended system does. -/
theorem hstep_base {h h' : HSt} {l : Label} (e : hstep h (.base l) = some h') : ∃ s', step h.base l = some s' ∧
    h'.base = s' ∧ h'.log = h.log ++ now h.base l ∧ (∀ t, actor l = some t → h.pend t = none ∧
      h'.pend t = later h.base l) ∧ ∀ t, actor l ≠ some t → h'.pend t = h.pend t := by
  simp only [hstep] at e
  split at e
  · cases e
  · rename_i ho
    split at e
    · cases e
    · rename_i s' hs
      cases e
      refine ⟨s', hs, rfl, rfl, fun t ha => ?_, fun t ha => ?_⟩
      · have hp : h.pend t = none := by
          simp only [owes, ha] at ho
          cases hp : h.pend t with
          | none => rfl
          | some c => simp [hp] at ho
        refine ⟨hp, ?_⟩
        cases hl : later h.base l with
        | none => simpa using hp
        | some c =>
          have := later_actor hl
          rw [ha] at this
          cases this
          simp [upd]
      · cases hl : later h.base l with
        | none => rfl
        | some c =>
          have := later_actor hl
          have hne : t ≠ c.thr := fun e => ha (e ▸ this)
          simp [upd, hne]

theorem hstep_call {h h' : HSt} {t : Nat} {ok : Bool} (e : hstep h (.call t ok) = some h') : ∃ c, h.pend t = some c ∧
    h'.base = h.base ∧ h'.log = h.log ++ [c] ∧ h'.pend t = none ∧ ∀ t', t' ≠ t → h'.pend t' = h.pend t' := by
  simp only [hstep] at e
  split at e
  · cases e
  · rename_i c hc
    cases e
    exact ⟨c, hc, rfl, rfl, by simp [upd], fun t' h => by simp [upd, h]⟩

/-- Forgetting the calls gives a run of the session table. -/
theorem base_run {ls : List HLabel} {h : HSt} (hr : HRun ls h) : Run (bases ls) h.base := by
  have : ∀ (ls : List HLabel) (h0 h : HSt), runSteps hstep h0 ls = some h → runSteps step h0.base (bases ls) = some h.base := by
    intro ls
    induction ls with
    | nil => intro h0 h e; cases e; rfl
    | cons l ls ih =>
      intro h0 h e
      obtain ⟨h1, e1, e2⟩ := run_cons_some e
      have := ih h1 h e2
      cases l with
      | base l =>
        obtain ⟨s', hs, hb, -⟩ := hstep_base e1
        simp only [bases, runSteps, hs]
        rw [← hb]; exact this
      | call t ok =>
        obtain ⟨c, -, hb, -⟩ := hstep_call e1
        simp only [bases]
        rw [← hb]; exact this
  exact this ls hinit h hr

/-- The calls of a request so far, by where it is. -/
def Opens (o : Hook) : Prop := o = .newSession ∨ o = .reattach

def Shape (ls : List HLabel) (t : Nat) (p : Phase) (pd : Option Call) (cs : List Call) : Prop :=
  match p with
  | .idle => pd = none ∧ cs = []
  | .making n => (pd = some ⟨t, .newSession, n⟩ ∧ cs = []) ∨ (pd = none ∧ cs = [⟨t, .newSession, n⟩])
  | .spawned n _ | .inserted n _ | .blocked n _ => pd = none ∧ cs = [⟨t, .newSession, n⟩]
  | .owns n _ | .streaming n _ => pd = none ∧ ∃ o, Opens o ∧ cs = [⟨t, o, n⟩]
  | .ending n _ false => pd = none ∧ .base (.clientGone t) ∈ ls ∧ ∃ o, Opens o ∧ cs = [⟨t, o, n⟩]
  | .ending n _ true => .base (.childDone t) ∈ ls ∧ ∃ o, Opens o ∧ ((pd = some ⟨t, .shellDisconnect, n⟩ ∧ cs = [⟨t, o, n⟩]) ∨
      (pd = none ∧ cs = [⟨t, o, n⟩, ⟨t, .shellDisconnect, n⟩]))
  | .leaving _ => ∃ n o, Opens o ∧ ((pd = none ∧ cs = [⟨t, o, n⟩] ∧ .base (.abort t) ∈ ls) ∨
      (pd = none ∧ cs = [⟨t, o, n⟩, ⟨t, .shellDisconnect, n⟩] ∧ .base (.childDone t) ∈ ls) ∨
      (pd = some ⟨t, .clientDisconnect, n⟩ ∧ cs = [⟨t, o, n⟩] ∧ .base (.clientGone t) ∈ ls) ∨
      (pd = none ∧ cs = [⟨t, o, n⟩, ⟨t, .clientDisconnect, n⟩] ∧ .base (.clientGone t) ∈ ls))
  | .done .busy => pd = none ∧ ∃ n, cs = [⟨t, .busy, n⟩]
  | .done .lost => pd = none ∧ ∃ n, cs = [⟨t, .newSession, n⟩]
  | .done .error => pd = none ∧ (cs = [] ∨ ∃ n, cs = [⟨t, .newSession, n⟩] ∧ .base (.spawnFails t) ∈ ls)
  | .done .served => pd = none ∧ ∃ n o, Opens o ∧ ((cs = [⟨t, o, n⟩] ∧ .base (.abort t) ∈ ls) ∨
      (cs = [⟨t, o, n⟩, ⟨t, .shellDisconnect, n⟩] ∧ .base (.childDone t) ∈ ls) ∨
      (cs = [⟨t, o, n⟩, ⟨t, .clientDisconnect, n⟩] ∧ .base (.clientGone t) ∈ ls))

/-- A step of a request: where it was, where it is, the calls within the step and the one after. -/
inductive Act (t : Nat) : Label → Phase → Phase → List Call → Option Call → Prop
  | create (n j) : Act t (.select t n j) .idle (.making n) [] (some ⟨t, .newSession, n⟩)
  | busy (n j) : Act t (.select t n j) .idle (.done .busy) [⟨t, .busy, n⟩] none
  | reattach (n j x) : Act t (.select t n j) .idle (.owns n x) [⟨t, .reattach, n⟩] none
  | error (n j) : Act t (.select t n j) .idle (.done .error) [] none
  | spawn (n x) : Act t (.spawn t) (.making n) (.spawned n x) [] none
  | spawnFails (n) : Act t (.spawnFails t) (.making n) (.done .error) [] none
  | insert (n x) : Act t (.insert t) (.spawned n x) (.inserted n x) [] none
  | lost (n x) : Act t (.lookup t) (.inserted n x) (.done .lost) [] none
  | lookup (n x y) : Act t (.lookup t) (.inserted n x) (.owns n y) [] none
  | block (n x y) : Act t (.lookup t) (.inserted n x) (.blocked n y) [] none
  | acquire (n y) : Act t (.acquire t) (.blocked n y) (.owns n y) [] none
  | start (n x) : Act t (.start t) (.owns n x) (.streaming n x) [] none
  | abort (n x) : Act t (.abort t) (.owns n x) (.leaving x) [] none
  | clientGone (n x) : Act t (.clientGone t) (.streaming n x) (.ending n x false) [] none
  | childDone (n x) : Act t (.childDone t) (.streaming n x) (.ending n x true) [] (some ⟨t, .shellDisconnect, n⟩)
  | unlinkDone (n x) : Act t (.unlink t) (.ending n x true) (.leaving x) [] none
  | unlinkGone (n x) : Act t (.unlink t) (.ending n x false) (.leaving x) [] (some ⟨t, .clientDisconnect, n⟩)
  | release (x) : Act t (.release t) (.leaving x) (.done .served) [] none

theorem act_of_eff {s s' : St} {l : Label} (hs : step s l = some s') {t : Nat} (h : actor l = some t) :
    Act t l (s.thr t) (s'.thr t) (now s l) (later s l) := by
  have he := step_eff hs
  have hsel : ∀ t n j, l = .select t n j → s' = select s t n j := by
    intro t n j e
    subst e
    simp only [step] at hs
    split at hs
    · exact (Option.some.inj hs).symm
    · cases hs
  revert h hsel
  cases he <;> intro h hsel <;> simp only [actor, Option.some.injEq, reduceCtorEq] at h <;> subst h
  case fresh n j a1 a2 a3 =>
    have e := hsel _ _ _ rfl
    simp only [later, ← e, now, a3, a1]
    simp only [setThr, upd_apply, if_true]
    exact .create n j
  case busy n j x o a1 a2 a3 a4 =>
    have e := hsel _ _ _ rfl
    simp only [later, ← e, now, a3, a1, a4, Option.isSome_some, if_true]
    simp only [setThr, upd_apply, if_true, reduceCtorEq, if_false]
    exact .busy n j
  case reattach n j x a1 a2 a3 a4 a5 a6 =>
    have e := hsel _ _ _ rfl
    simp only [later, ← e, now, a3, a1, a4, a5, a6]
    simp [setThr, upd_apply]
    exact .reattach n j x
  case clobber n j x p a1 a2 a3 a4 a5 a6 a7 =>
    have e := hsel _ _ _ rfl
    simp only [later, ← e, now, a3, a1, a4, a5, a6]
    rcases a7 with rfl | rfl <;> simp [setThr, upd_apply]
    · exact .create n j
    · exact .error n j
  case stale n j x v p a1 a2 a3 a4 a5 a6 a7 =>
    have e := hsel _ _ _ rfl
    simp only [later, ← e, now, a3, a1, a4, a5]
    rcases a7 with rfl | rfl <;> simp [setThr, upd_apply]
    · exact .create n j
    · exact .error n j
  all_goals
    simp only [later, now, setThr, setSess, upd_apply, if_true]
    simp only [*]
    constructor

theorem Shape.mono {ls ls' : List HLabel} (hsub : ∀ l, l ∈ ls → l ∈ ls') {t : Nat} {p : Phase} {pd : Option Call} {cs : List Call}
    (h : Shape ls t p pd cs) : Shape ls' t p pd cs := by
  unfold Shape at *
  split at h <;> grind

theorem shape_step {ls : List HLabel} {h h' : HSt} {l : HLabel} (hi : ∀ t, Shape ls t (h.base.thr t) (h.pend t) (callsOf t h.log))
    (e : hstep h l = some h') (t : Nat) : Shape (ls ++ [l]) t (h'.base.thr t) (h'.pend t) (callsOf t h'.log) := by
  have hm : Shape (ls ++ [l]) t (h.base.thr t) (h.pend t) (callsOf t h.log) := (hi t).mono (by simp +contextual)
  cases l with
  | call t0 ok =>
    obtain ⟨c, hc, hb, hl, hp, hf⟩ := hstep_call e
    rw [hb, hl, callsOf_append]
    by_cases ht : t = t0
    · subst ht
      rw [hp]
      rw [hc] at hm
      have hct : c.thr = t := by unfold Shape at hm; split at hm <;> grind
      have : callsOf t [c] = [c] := by simp [callsOf, hct]
      rw [this]
      unfold Shape at hm ⊢
      split at hm <;> grind
    · rw [hf t ht]
      have hct : c.thr = t0 := by
        have := hi t0
        rw [hc] at this
        unfold Shape at this; split at this <;> grind
      have : callsOf t [c] = [] := by simp [callsOf, hct]; exact fun e => ht e.symm
      rw [this, List.append_nil]
      exact hm
  | base l =>
    obtain ⟨s', hs, hb, hl, hp, hf⟩ := hstep_base e
    have he := step_eff hs
    rw [hb, hl, callsOf_append]
    by_cases ha : actor l = some t
    · obtain ⟨h1, h2⟩ := hp t ha
      rw [h2]
      rw [h1] at hm
      have hact := act_of_eff hs ha
      generalize h.base.thr t = p at hact hm
      generalize s'.thr t = p' at hact
      generalize now h.base l = nw at hact
      generalize later h.base l = lt at hact
      clear hi hp hf hb hl h1 h2 e he hs
      generalize callsOf t h.log = cs at hm
      have k0 : callsOf t [] = [] := rfl
      have k1 : ∀ k m, callsOf t [⟨t, k, m⟩] = [⟨t, k, m⟩] := by simp [callsOf]
      cases hact <;> simp only [Shape] at hm <;> simp only [Shape, k0, k1, List.append_nil]
      case busy n j => exact ⟨trivial, n, by simp [hm.2]⟩
      case reattach n j x => exact ⟨trivial, .reattach, .inr rfl, by simp [hm.2]⟩
      all_goals simp <;> grind [Opens]
    · rw [callsOf_now_ne ha, List.append_nil, frame he ha, hf t ha]
      exact hm

theorem shape_of_run {ls : List HLabel} {h : HSt} (hr : HRun ls h) (t : Nat) :
    Shape ls t (h.base.thr t) (h.pend t) (callsOf t h.log) :=
  have h0 : ∀ t, Shape [] t (hinit.base.thr t) (hinit.pend t) (callsOf t hinit.log) := fun _ => ⟨rfl, rfl⟩
  run_hist (I := fun (ls : List HLabel) (h : HSt) => ∀ t, Shape ls t (h.base.thr t) (h.pend t) (callsOf t h.log))
    (fun _ _ _ _ hi e => shape_step hi e) h0 hr t

/-! ## Names -/

/-- The request is one for the name. -/
def Asked (ls : List HLabel) (t : Nat) (n : Name) : Prop := ∃ j, .base (.select t n j) ∈ ls

structure Named (ls : List HLabel) (h : HSt) : Prop where
  log : ∀ c ∈ h.log, Asked ls c.thr c.name
  pend : ∀ t c, h.pend t = some c → Asked ls c.thr c.name
  creates : ∀ t n, (h.base.thr t).creates = some n → Asked ls t n
  serves : ∀ t n x, (h.base.thr t).serves = some (n, x) → Asked ls t n

theorem named_step {ls : List HLabel} {h h' : HSt} {l : HLabel} (hi : Named ls h) (e : hstep h l = some h') :
    Named (ls ++ [l]) h' := by
  have mono : ∀ {t n}, Asked ls t n → Asked (ls ++ [l]) t n := fun ⟨j, hj⟩ => ⟨j, List.mem_append_left _ hj⟩
  obtain ⟨i1, i2, i3, i4⟩ := hi
  cases l with
  | call t0 ok =>
    obtain ⟨c, hc, hb, hl, hp, hf⟩ := hstep_call e
    refine ⟨fun c' hc' => ?_, fun t c' hc' => ?_, fun t n hn => ?_, fun t n x hn => ?_⟩
    · rw [hl, List.mem_append, List.mem_singleton] at hc'
      rcases hc' with h1 | rfl
      · exact mono (i1 c' h1)
      · exact mono (i2 t0 c' hc)
    · by_cases ht : t = t0
      · subst ht; rw [hp] at hc'; cases hc'
      · rw [hf t ht] at hc'; exact mono (i2 t c' hc')
    · rw [hb] at hn; exact mono (i3 t n hn)
    · rw [hb] at hn; exact mono (i4 t n x hn)
  | base l =>
    obtain ⟨s', hs, hb, hl, hp, hf⟩ := hstep_base e
    have key : ∀ t, actor l = some t → (∀ c ∈ now h.base l, Asked (ls ++ [.base l]) c.thr c.name) ∧
        (∀ c, later h.base l = some c → Asked (ls ++ [.base l]) c.thr c.name) ∧
        (∀ n, (s'.thr t).creates = some n → Asked (ls ++ [.base l]) t n) ∧
        ∀ n x, (s'.thr t).serves = some (n, x) → Asked (ls ++ [.base l]) t n := by
      intro t ha
      have hact := act_of_eff hs ha
      have j3 := i3 t
      have j4 := i4 t
      clear i1 i2 i3 i4 hp hf hb hl e
      generalize h.base.thr t = p at *
      generalize s'.thr t = p' at *
      generalize now h.base l = nw at *
      generalize later h.base l = lt at *
      have new : ∀ n j, l = .select t n j → Asked (ls ++ [.base l]) t n := fun n j e => ⟨j, by simp [e]⟩
      cases hact <;> simp only [Phase.creates, Phase.serves] at j3 j4 ⊢ <;> simp <;> grind
    refine ⟨fun c' hc' => ?_, fun t c' hc' => ?_, fun t n hn => ?_, fun t n x hn => ?_⟩
    · rw [hl, List.mem_append] at hc'
      rcases hc' with h1 | h1
      · exact mono (i1 c' h1)
      · exact (key _ (now_actor h1)).1 c' h1
    · by_cases ha : actor l = some t
      · rw [(hp t ha).2] at hc'
        exact (key t ha).2.1 c' hc'
      · rw [hf t ha] at hc'; exact mono (i2 t c' hc')
    · by_cases ha : actor l = some t
      · exact (key t ha).2.2.1 n (hb ▸ hn)
      · rw [hb, frame (step_eff hs) ha] at hn; exact mono (i3 t n hn)
    · by_cases ha : actor l = some t
      · exact (key t ha).2.2.2 n x (hb ▸ hn)
      · rw [hb, frame (step_eff hs) ha] at hn; exact mono (i4 t n x hn)

theorem named_of_run {ls : List HLabel} {h : HSt} (hr : HRun ls h) : Named ls h :=
  run_hist (I := Named) (fun _ _ _ _ hi e => named_step hi e)
    ⟨by simp [hinit], by simp [hinit], by simp [hinit, init, Phase.creates], by simp [hinit, init, Phase.serves]⟩ hr

/-! ## Alternation -/

/-- The request is creating or serving a session of the name, or still owes a call about it. -/
def Active (h : HSt) (t : Nat) (n : Name) : Prop :=
  (h.base.thr t).creates = some n ∨ (∃ x, (h.base.thr t).serves = some (n, x)) ∨ ∃ c, h.pend t = some c ∧ c.name = n

/-- No attach request fails or ends early, and one starts only while any other one about that name holds the session in the table. -/
def Calm (h : HSt) : HLabel → Prop
  | .base (.select _ n _) => ∀ t', Active h t' n → ∃ x, (h.base.thr t').holds x ∧ find n h.base.table = some x
  | .base (.abort _) | .base (.spawnFails _) => False
  | .base (.lookup t) => ∀ n x, h.base.thr t = .inserted n x → find n h.base.table ≠ none
  | _ => True

def HAlways (P : HSt → HLabel → Prop) (ls : List HLabel) : Prop :=
  ∀ pre l post h, ls = pre ++ l :: post → HRun pre h → P h l

theorem select_free {s s' : St} {t n j} (hs : step s (.select t n j) = some s') (hb : s'.thr t ≠ .done .busy) {x : Nat}
    (hf : find n s.table = some x) : (s.sess x).owner = none := by
  have he := step_eff hs
  cases he
  case fresh => simp_all
  case busy => simp [setThr] at hb
  all_goals grind

/-- Opened, not closed: the request's only call. -/
def IsOpen (log : List Call) (t : Nat) (n : Name) : Prop := ∃ o, Opens o ∧ callsOf t log = [⟨t, o, n⟩]

theorem active_step {h h' : HSt} {l : HLabel} (e : hstep h l = some h') {t : Nat} {n : Name} (ha : Active h' t n) :
    Active h t n ∨ ∃ j, l = .base (.select t n j) ∧ h'.base.thr t ≠ .done .busy := by
  cases l with
  | call t0 ok =>
    obtain ⟨c, hc, hb, hl, hp, hf⟩ := hstep_call e
    left
    unfold Active at *
    rw [hb] at ha
    rcases ha with h1 | h1 | ⟨c', h1, h2⟩
    · exact .inl h1
    · exact .inr (.inl h1)
    · by_cases ht : t = t0
      · subst ht; rw [hp] at h1; cases h1
      · rw [hf t ht] at h1; exact .inr (.inr ⟨c', h1, h2⟩)
  | base l =>
    obtain ⟨s', hs, hb, hl, hp, hf⟩ := hstep_base e
    by_cases hac : actor l = some t
    · have hact := act_of_eff hs hac
      unfold Active at *
      rw [hb, (hp t hac).2] at ha
      rw [hb]
      clear hp hf hb hl e
      generalize h.base.thr t = p at *
      generalize s'.thr t = p' at *
      generalize now h.base l = nw at *
      generalize later h.base l = lt at *
      cases hact <;> simp [Phase.creates, Phase.serves] at ha ⊢ <;> grind
    · left
      unfold Active at *
      rw [hb, frame (step_eff hs) hac, hf t hac] at ha
      exact ha

def Closes (c : Hook) : Prop := c = .clientDisconnect ∨ c = .shellDisconnect

/-- Opening and closing calls take turns, the first one opens. -/
def Alternates : List Hook → Prop
  | [] => True
  | [o] => Opens o
  | o :: c :: l => Opens o ∧ Closes c ∧ Alternates l

theorem alternates_open : ∀ (l : List Hook) (o : Hook), Alternates l → l.length % 2 = 0 → Opens o → Alternates (l ++ [o])
  | [], _, _, _, ho => ho
  | [_], _, _, h, _ => by simp at h
  | a :: b :: l, o, hl, h, ho => by
    simp only [List.cons_append, Alternates] at hl ⊢
    exact ⟨hl.1, hl.2.1, alternates_open l o hl.2.2 (by simp at h; omega) ho⟩

theorem alternates_close : ∀ (l : List Hook) (c : Hook), Alternates l → l.length % 2 = 1 → Closes c → Alternates (l ++ [c])
  | [], _, _, h, _ => by simp at h
  | [o], c, hl, _, hc => ⟨hl, hc, trivial⟩
  | a :: b :: l, c, hl, h, hc => by
    simp only [List.cons_append, Alternates] at hl ⊢
    exact ⟨hl.1, hl.2.1, alternates_close l c hl.2.2 (by simp at h; omega) hc⟩

structure Turns (h : HSt) : Prop where
  one : ∀ t t' n, Active h t n → Active h t' n → t = t'
  lost : ∀ t, h.base.thr t ≠ .done .lost
  alt : ∀ n, Alternates (callsFor n h.log)
  odd : ∀ n, (callsFor n h.log).length % 2 = 1 ↔ ∃ t, IsOpen h.log t n

theorem halways_mem {P : HSt → HLabel → Prop} {ls : List HLabel} {h : HSt} (hp : HAlways P ls) (hr : HRun ls h) {l : HLabel} (hl : l ∈ ls) :
    ∃ h0, P h0 l := by
  obtain ⟨pre, post, e⟩ := List.append_of_mem hl
  have hr' := hr
  rw [HRun, e] at hr'
  obtain ⟨h0, e1, -⟩ := run_append_some hr'
  exact ⟨h0, hp pre l post h0 e e1⟩

/-- A request that opened and did not close is still at it. -/
theorem open_active {ls : List HLabel} {h : HSt} (hs : ∀ t, Shape ls t (h.base.thr t) (h.pend t) (callsOf t h.log))
    (ha : ∀ t, .base (.abort t) ∉ ls) (hf : ∀ t, .base (.spawnFails t) ∉ ls) (hlost : ∀ t, h.base.thr t ≠ .done .lost)
    {t : Nat} {n : Name} (ho : IsOpen h.log t n) : Active h t n := by
  obtain ⟨o, ho, hc⟩ := ho
  have := hs t
  rw [hc] at this
  have hl := hlost t
  have ha := ha t
  have hf := hf t
  unfold Active
  unfold Shape at this
  split at this <;> rename_i hp <;> simp only [hp, Phase.creates, Phase.serves, Option.some.injEq, Prod.mk.injEq, exists_and_left, exists_eq', and_true] <;> grind [Opens]

theorem callsFor_append (n : Name) (a b : List Call) : callsFor n (a ++ b) = callsFor n a ++ callsFor n b := by
  simp [callsFor]

theorem isOpen_snoc_ne {log : List Call} {c : Call} {t : Nat} (h : c.thr ≠ t) (n : Name) : IsOpen (log ++ [c]) t n ↔ IsOpen log t n := by
  have : callsOf t [c] = [] := by simp [callsOf, h]
  simp [IsOpen, callsOf_append, this]

/-- A new opening call. -/
theorem turns_open {log : List Call} {t : Nat} {o : Hook} {n : Name} (ho : Opens o) (hc : callsOf t log = [])
    (hno : ∀ t', ¬ IsOpen log t' n) (alt : ∀ n, Alternates (callsFor n log))
    (odd : ∀ n, (callsFor n log).length % 2 = 1 ↔ ∃ t, IsOpen log t n) (m : Name) :
    Alternates (callsFor m (log ++ [⟨t, o, n⟩])) ∧
      ((callsFor m (log ++ [⟨t, o, n⟩])).length % 2 = 1 ↔ ∃ t', IsOpen (log ++ [⟨t, o, n⟩]) t' m) := by
  have hcall : callsOf t (log ++ [⟨t, o, n⟩]) = [⟨t, o, n⟩] := by rw [callsOf_append, hc]; simp [callsOf]
  have hopen : IsOpen (log ++ [⟨t, o, n⟩]) t n := ⟨o, ho, hcall⟩
  by_cases hm : m = n
  · subst hm
    have hb : o ≠ .busy := by rcases ho with rfl | rfl <;> simp
    have e : callsFor m [⟨t, o, m⟩] = [o] := by simp [callsFor, hb]
    have he : (callsFor m log).length % 2 = 0 := by
      have : ¬ (callsFor m log).length % 2 = 1 := fun h1 => by
        obtain ⟨t', h2⟩ := (odd m).mp h1
        exact hno t' h2
      omega
    rw [callsFor_append, e]
    refine ⟨alternates_open _ _ (alt m) he ho, ?_⟩
    simp only [List.length_append, List.length_singleton]
    exact ⟨fun _ => ⟨t, hopen⟩, fun _ => by omega⟩
  · have e : callsFor m [⟨t, o, n⟩] = [] := by simp [callsFor]; exact fun e => absurd e (Ne.symm hm)
    rw [callsFor_append, e, List.append_nil]
    refine ⟨alt m, (odd m).trans ⟨fun ⟨t', h1⟩ => ?_, fun ⟨t', h1⟩ => ?_⟩⟩
    · by_cases ht : t = t'
      · subst ht
        obtain ⟨o', -, h2⟩ := h1
        rw [hc] at h2; cases h2
      · exact ⟨t', (isOpen_snoc_ne ht m).mpr h1⟩
    · by_cases ht : t = t'
      · subst ht
        obtain ⟨o', -, h2⟩ := h1
        rw [hcall] at h2
        cases h2
        exact absurd rfl hm
      · exact ⟨t', (isOpen_snoc_ne ht m).mp h1⟩

/-- A new closing call. -/
theorem turns_close {log : List Call} {t : Nat} {o c : Hook} {n : Name} (ho : Opens o) (hcl : Closes c)
    (hc : callsOf t log = [⟨t, o, n⟩]) (hone : ∀ t', IsOpen log t' n → t' = t) (alt : ∀ n, Alternates (callsFor n log))
    (odd : ∀ n, (callsFor n log).length % 2 = 1 ↔ ∃ t, IsOpen log t n) (m : Name) :
    Alternates (callsFor m (log ++ [⟨t, c, n⟩])) ∧
      ((callsFor m (log ++ [⟨t, c, n⟩])).length % 2 = 1 ↔ ∃ t', IsOpen (log ++ [⟨t, c, n⟩]) t' m) := by
  have hcall : callsOf t (log ++ [⟨t, c, n⟩]) = [⟨t, o, n⟩, ⟨t, c, n⟩] := by rw [callsOf_append, hc]; simp [callsOf]
  have hnot : ∀ k, ¬ IsOpen (log ++ [⟨t, c, n⟩]) t k := fun k ⟨o', _, h2⟩ => by rw [hcall] at h2; cases h2
  by_cases hm : m = n
  · subst hm
    have hb : c ≠ .busy := by rcases hcl with rfl | rfl <;> simp
    have e : callsFor m [⟨t, c, m⟩] = [c] := by simp [callsFor, hb]
    have he : (callsFor m log).length % 2 = 1 := (odd m).mpr ⟨t, o, ho, hc⟩
    rw [callsFor_append, e]
    refine ⟨alternates_close _ _ (alt m) he hcl, ?_⟩
    simp only [List.length_append, List.length_singleton]
    refine ⟨fun h => by omega, fun ⟨t', h1⟩ => ?_⟩
    by_cases ht : t = t'
    · subst ht; exact absurd h1 (hnot m)
    · exact absurd (hone t' ((isOpen_snoc_ne ht m).mp h1)).symm ht
  · have e : callsFor m [⟨t, c, n⟩] = [] := by simp [callsFor]; exact fun e => absurd e (Ne.symm hm)
    rw [callsFor_append, e, List.append_nil]
    refine ⟨alt m, (odd m).trans ⟨fun ⟨t', h1⟩ => ?_, fun ⟨t', h1⟩ => ?_⟩⟩
    · by_cases ht : t = t'
      · subst ht
        obtain ⟨o', -, h2⟩ := h1
        rw [hc] at h2; cases h2
        exact absurd rfl hm
      · exact ⟨t', (isOpen_snoc_ne ht m).mpr h1⟩
    · by_cases ht : t = t'
      · subst ht; exact absurd h1 (hnot m)
      · exact ⟨t', (isOpen_snoc_ne ht m).mp h1⟩

theorem turns_step {ls : List HLabel} {h h' : HSt} {l : HLabel} (hr : HRun ls h) (hq : HAlways Calm ls) (ht : Turns h)
    (hc : Calm h l) (e : hstep h l = some h') : Turns h' := by
  have hsh := shape_of_run hr
  have hab : ∀ t, .base (.abort t) ∉ ls := fun t hm => by
    obtain ⟨h0, hh⟩ := halways_mem hq hr hm
    exact hh
  have hsf : ∀ t, .base (.spawnFails t) ∉ ls := fun t hm => by
    obtain ⟨h0, hh⟩ := halways_mem hq hr hm
    exact hh
  have hoa : ∀ {t n}, IsOpen h.log t n → Active h t n := open_active hsh hab hsf ht.lost
  have hpt : ∀ t c, h.pend t = some c → c.thr = t := fun t c hp => by
    have := hsh t
    rw [hp] at this
    unfold Shape at this; split at this <;> grind
  obtain ⟨b1, b2, b3, b4⟩ := ht
  have hi := inv_of_run (base_run hr)
  -- a request that starts and is not refused is the only one about the name
  have hfree : ∀ t n j, l = .base (.select t n j) → h'.base.thr t ≠ .done .busy → ∀ t', ¬ Active h t' n := by
    intro t n j hl hb t' ha
    subst hl
    obtain ⟨s', hs, hb', -⟩ := hstep_base e
    obtain ⟨x, hx, hf⟩ := hc t' ha
    have := select_free hs (hb' ▸ hb) hf
    rw [(hi.own t' x).mp hx] at this
    cases this
  have one : ∀ t t' n, Active h' t n → Active h' t' n → t = t' := by
    intro t t' n h1 h2
    rcases active_step e h1 with h3 | ⟨j, h3, h3'⟩ <;> rcases active_step e h2 with h4 | ⟨j', h4, h4'⟩
    · exact b1 t t' n h3 h4
    · exact absurd h3 (hfree t' n j' h4 h4' t)
    · exact absurd h4 (hfree t n j h3 h3' t')
    · rw [h3] at h4; cases h4; rfl
  cases l with
  | call t ok =>
    obtain ⟨c, hp, hb, hl, -, -⟩ := hstep_call e
    have hs := hsh t
    rw [hp] at hs
    have hct := hpt t c hp
    have key : (∃ o n, c = ⟨t, o, n⟩ ∧ Opens o ∧ callsOf t h.log = []) ∨
        ∃ o k n, c = ⟨t, k, n⟩ ∧ Opens o ∧ Closes k ∧ callsOf t h.log = [⟨t, o, n⟩] := by
      unfold Shape at hs
      split at hs <;> grind [Opens, Closes]
    have : ∀ m, Alternates (callsFor m h'.log) ∧ ((callsFor m h'.log).length % 2 = 1 ↔ ∃ t', IsOpen h'.log t' m) := by
      intro m
      rw [hl]
      rcases key with ⟨o, n, rfl, ho, hcs⟩ | ⟨o, k, n, rfl, ho, hk, hcs⟩
      · refine turns_open ho hcs (fun t' h1 => ?_) b3 b4 m
        have h2 : Active h t n := .inr (.inr ⟨_, hp, rfl⟩)
        have := b1 t' t n (hoa h1) h2
        subst this
        obtain ⟨o', -, h3⟩ := h1
        rw [hcs] at h3; cases h3
      · refine turns_close ho hk hcs (fun t' h1 => ?_) b3 b4 m
        exact b1 t' t n (hoa h1) (.inr (.inr ⟨_, hp, rfl⟩))
    exact ⟨one, by rw [hb]; exact b2, fun m => (this m).1, fun m => (this m).2⟩
  | base l =>
    obtain ⟨s', hs, hb, hl, hp, hf⟩ := hstep_base e
    have lost : ∀ t, h'.base.thr t ≠ .done .lost := by
      intro t hd
      rw [hb] at hd
      by_cases ha : actor l = some t
      · have hact := act_of_eff hs ha
        rw [hd] at hact
        generalize hq : h.base.thr t = p at hact
        cases hact
        have he := step_eff hs
        cases he
        case lost => exact absurd ‹find _ h.base.table = none› (hc _ _ ‹h.base.thr t = .inserted _ _›)
        all_goals simp [setThr, setSess, upd_apply] at hd
      · rw [frame (step_eff hs) ha] at hd
        exact b2 t hd
    have hnow : now h.base l = [] ∨ (∃ t n, now h.base l = [⟨t, .busy, n⟩] ∧ callsOf t h.log = []) ∨
        ∃ t n j, l = .select t n j ∧ now h.base l = [⟨t, .reattach, n⟩] ∧ callsOf t h.log = [] ∧ h'.base.thr t ≠ .done .busy := by
      cases ha : actor l with
      | none => left; cases l <;> first | rfl | cases ha
      | some t =>
        have hact := act_of_eff hs ha
        have hst := hsh t
        rw [hb]
        generalize h.base.thr t = p at *
        generalize hk : s'.thr t = p' at *
        generalize now h.base l = nw at *
        generalize later h.base l = lt at *
        cases hact
        case reattach n j x => exact .inr (.inr ⟨t, n, j, rfl, rfl, hst.2, by rw [hk]; simp⟩)
        case busy n j => exact .inr (.inl ⟨t, n, rfl, hst.2⟩)
        all_goals exact .inl rfl
    have : ∀ m, Alternates (callsFor m h'.log) ∧ ((callsFor m h'.log).length % 2 = 1 ↔ ∃ t', IsOpen h'.log t' m) := by
      intro m
      rw [hl]
      rcases hnow with e0 | ⟨t, n, e0, hcs⟩ | ⟨t, n, j, rfl, e0, hcs, hnb⟩
      · rw [e0, List.append_nil]; exact ⟨b3 m, b4 m⟩
      · rw [e0, callsFor_append]
        have : callsFor m [⟨t, .busy, n⟩] = [] := by simp [callsFor]
        rw [this, List.append_nil]
        refine ⟨b3 m, (b4 m).trans ⟨fun ⟨t', h1⟩ => ?_, fun ⟨t', h1⟩ => ?_⟩⟩
        · by_cases ht : t = t'
          · subst ht
            obtain ⟨o', -, h2⟩ := h1
            rw [hcs] at h2; cases h2
          · exact ⟨t', (isOpen_snoc_ne ht m).mpr h1⟩
        · by_cases ht : t = t'
          · subst ht
            obtain ⟨o', ho', h2⟩ := h1
            rw [callsOf_append, hcs] at h2
            simp [callsOf] at h2
            rcases ho' with rfl | rfl <;> simp at h2
          · exact ⟨t', (isOpen_snoc_ne ht m).mp h1⟩
      · rw [e0]
        exact turns_open (.inr rfl) hcs (fun t' h1 => hfree t n j rfl hnb t' (hoa h1)) b3 b4 m
    exact ⟨one, lost, fun m => (this m).1, fun m => (this m).2⟩

theorem turns_of_run {ls : List HLabel} {h : HSt} (hr : HRun ls h) (hq : HAlways Calm ls) : Turns h := by
  have key : HRun ls h ∧ (HAlways Calm ls → Turns h) :=
    run_hist (I := fun (ls : List HLabel) (h : HSt) => HRun ls h ∧ (HAlways Calm ls → Turns h))
      (fun pre h1 l h2 hi e => by
        obtain ⟨i1, i2⟩ := hi
        refine ⟨?_, fun hq => ?_⟩
        · simp only [HRun] at i1 ⊢
          rw [run_append, i1]
          simp [runSteps, e]
        · have hq1 : HAlways Calm pre := fun p k q h0 e0 => hq p k (q ++ [l]) h0 (by simp [e0])
          exact turns_step i1 hq1 (i2 hq1) (hq pre l [] h1 rfl i1) e)
      ⟨rfl, fun _ => ⟨by simp [Active, hinit, init, Phase.creates, Phase.serves], by simp [hinit, init],
        fun n => trivial, fun n => ⟨by simp [callsFor, hinit], fun ⟨t, o, _, h⟩ => by simp [callsOf, hinit] at h⟩⟩⟩ hr
  exact key.2 hq

end Shpool.Hooks
