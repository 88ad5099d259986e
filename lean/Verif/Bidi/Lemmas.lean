import Verif.Bidi.Model

/-! # Invariants of serving an attached client -/

namespace Shpool.Bidi

/-- The client-to-shell thread is not running. -/
def C2s.ended : C2s → Bool
  | .off => true
  | .done _ => true
  | _ => false

def Hb.ended : Hb → Bool
  | .off => true
  | .done _ => true
  | _ => false

def Sup.ended : Sup → Bool
  | .off => true
  | .done => true
  | _ => false

/-- Which threads run in which phase of the request. -/
structure Inv (s : St) : Prop where
  off : (s.main = .connecting) → s.c2s = .off ∧ s.hb = .off ∧ s.sup = .off ∧ s.stop = false
  offc : s.c2s = .off → (s.main = .connecting ∨ s.main = .returned none) ∧ s.hb = .off ∧ s.sup = .off
  offh : s.hb = .off → s.c2s = .off
  offs : s.sup = .off → s.c2s = .off
  joinH : s.main = .joinH → s.c2s = .done .ok
  joinS : s.main = .joinS → s.c2s = .done .ok ∧ s.hb = .done .ok
  final : s.main = .final → s.c2s = .done .ok ∧ s.hb = .done .ok ∧ s.sup = .done
  ret : ∀ r, s.main = .returned r → s.c2s.ended = true ∧ s.hb.ended = true ∧ s.sup.ended = true
  retb : ∀ b, s.main = .returned (some b) → s.c2s = .done .ok ∧ s.hb = .done .ok ∧ s.sup = .done ∧ b = s.childDone
  poll : s.main = .poll → s.stop = false
  later : s.main ≠ .connecting → s.main ≠ .poll → s.c2s ≠ .off → s.stop = true
  cdone : s.childDone = true → s.exited.isSome = true ∧ s.sup = .done
  sdone : s.sup = .done → s.childDone = true ∨ s.stop = true
  ctlm : ∀ m b, s.ctl = some (.main, m, b) → (s.main = .connecting ∧ m = .new) ∨ (s.main = .disconnecting false ∧ m = .disc) ∨
    (s.main = .disconnecting true ∧ ∃ c, m = .exit c ∧ s.exited = some c)
  ctlc : ∀ m b, s.ctl = some (.c2s, m, b) → s.c2s = .detaching ∧ m = .disc
  ctlh : ∀ m b, s.ctl = some (.hb, m, b) → s.hb = .beating ∧ m = .beat
  disc : s.main = .disconnecting true → s.childDone = true
  ctle : ∀ t m b, s.ctl = some (.ext t, m, b) → m = .disc

theorem inv_init : Inv init := by
  constructor <;> simp [init]

theorem tell_frame (s : St) (c : Nat) : (s.tell c) = { s with told := (s.tell c).told } := by
  unfold St.tell; split <;> rfl

/-- A message is performed without touching the request's threads. -/
theorem perform_frame (s : St) (w : Who) (m : Msg) : s.perform w m =
    { s with told := (s.perform w m).told, shut := (s.perform w m).shut, att := (s.perform w m).att, s2c := (s.perform w m).s2c } := by
  unfold St.perform
  cases m with
  | new => rfl
  | beat => rfl
  | disc => dsimp only; split <;> (try rfl); rw [tell_frame]
  | exit c => dsimp only; split <;> (try rfl); rw [tell_frame]

set_option hygiene false in
macro "step_cases" : tactic => `(tactic|
  (cases l <;> simp only [step] at h <;> (repeat' split at h) <;> (try cases h) <;> (try (simp only [Option.some.injEq] at h; subst h))))

theorem some_getD {o : Option Nat} {d : Nat} (h : o.isSome = true) : o = some (o.getD d) := by
  cases o with
  | none => cases h
  | some _ => rfl

theorem inv_s2c {s : St} (x : S2c) (hI : Inv s) : Inv { s with s2c := x } := by
  obtain ⟨off, offc, offh, offs, joinH, joinS, final, ret, retb, poll, later, cdone, sdone, ctlm, ctlc, ctlh, disc, ctle⟩ := hI
  constructor <;> assumption

set_option maxHeartbeats 2000000 in
theorem inv_finish {s : St} {w : Who} {m : Msg} {b : Bool} (o : Out) (hI : Inv s) (hc : s.ctl = some (w, m, b)) :
    Inv (s.finish w o) := by
  obtain ⟨off, offc, offh, offs, joinH, joinS, final, ret, retb, poll, later, cdone, sdone, ctlm, ctlc, ctlh, disc, ctle⟩ := hI
  unfold St.finish
  dsimp only
  repeat' split
  all_goals (constructor <;> first | assumption | grind [C2s.ended, Hb.ended, Sup.ended])

set_option maxHeartbeats 4000000 in
theorem inv_step (s : St) (l : Label) (s' : St) (hI : Inv s) (h : step s l = some s') : Inv s' := by
  have hI' := hI
  obtain ⟨off, offc, offh, offs, joinH, joinS, final, ret, retb, poll, later, cdone, sdone, ctlm, ctlc, ctlh, disc, ctle⟩ := hI
  step_cases
  all_goals first
    | exact inv_finish _ hI' (by assumption)
    | exact inv_finish _ (inv_s2c _ hI') (by assumption)
    | (rw [perform_frame]; constructor <;> first | assumption | grind)
    | (rw [tell_frame]; constructor <;> first | assumption | grind)
    | (constructor <;> first | assumption | grind [C2s.ended, Hb.ended, Sup.ended, some_getD])

theorem inv_run {ls : List Label} {s : St} (h : Run ls s) : Inv s := run_inv inv_step inv_init h

/-- What may make the daemon end an attachment although the client is there and the shell runs: a detach key sequence, another request,
a configuration with malformed keybindings, a failing read from the client or write to the pty. -/
def Cause : Label → Bool
  | .c2sReads key => key
  | .extAsks _ => true
  | .c2sCompiles good => !good
  | .c2sReadFails => true
  | .c2sWriteFails => true
  | _ => false

/-- One of the steps performed is a `Cause`. -/
def Caused (ls : List Label) : Prop := ∃ l ∈ ls, Cause l = true

theorem caused_mono {ls : List Label} (l : Label) (h : Caused ls) : Caused (ls ++ [l]) := by
  obtain ⟨x, hx, hc⟩ := h
  exact ⟨x, by simp [hx], hc⟩

theorem caused_last (ls : List Label) {l : Label} (h : Cause l = true) : Caused (ls ++ [l]) := ⟨l, by simp, h⟩

/-- The shell-to-client thread is serving a heartbeat. -/
def S2c.onBeat : S2c → Bool
  | .busy w _ => decide (w = .hb)
  | .acking w _ _ => decide (w = .hb)
  | _ => false

/-- The client will not be told anything any more. -/
def Dead (s : St) : Prop := s.main ≠ .connecting ∧ (∀ w, s.s2c ≠ .busy w .new) ∧
  (s.closed = true ∨ s.shut = true ∨ s.att = false ∨
    (s.s2c.onBeat = true ∧ ∃ e, s.hb = .done e))

/-- What is known about the exit frames sent so far; `C`: one of the steps performed is a `Cause`. -/
structure Told (C : Prop) (s : St) : Prop where
  inv : Inv s
  conn : s.main = .connecting → s.told = [] ∧ (s.att = true → ∃ p, s.s2c = .acking .main .new p)
  busyNew : ∀ w, s.s2c = .busy w .new → s.told = [] ∧ s.att = false ∧ w = .main ∧
    (s.main = .connecting ∨ s.main = .returned none)
  att : s.att = true → s.told = []
  len : s.told.length ≤ 1
  busyExit : ∀ w c, s.s2c = .busy w (.exit c) → s.exited = some c
  gone : s.s2c = .gone → s.att = false
  ackExit : ∀ w c p, s.s2c = .acking w (.exit c) p → s.att = false
  busyMsg : ∀ w m, s.s2c = .busy w m → (w = .hb ↔ m = .beat)
  ackMsg : ∀ w m p, s.s2c = .acking w m p → (w = .hb ↔ m = .beat)
  ackNo : ∀ w, s.s2c = .acking w .beat false → s.closed = true ∨ s.shut = true ∨ s.att = false
  ctlBusy : ∀ w m, s.ctl = some (w, m, true) → s.s2c = .busy w m ∨ (∃ p, s.s2c = .acking w m p) ∨ s.s2c = .gone
  det : s.c2s = .detaching → C
  ext : ∀ t m b, s.ctl = some (.ext t, m, b) → C
  c2sDone : ∀ e, s.main = .poll → s.c2s = .done e → C ∨ Dead s
  hbDone : ∀ e, s.main = .poll → s.hb = .done e → C ∨ Dead s
  stopping : s.main = .stopping → s.childDone = true ∨ C ∨ Dead s
  disc : s.main = .disconnecting false → C ∨ Dead s
  busyDisc : ∀ w, s.s2c = .busy w .disc → C ∨ Dead s
  truth : ∀ c ∈ s.told, s.exited = some c ∨ (c = 0 ∧ C)

theorem told_init (C : Prop) : Told C init := by
  constructor <;> first | exact inv_init | simp [init]

end Shpool.Bidi
