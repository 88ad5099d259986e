import Verif.Bidi.Lemmas

/-! # What the client is told, step by step -/

namespace Shpool.Bidi

theorem tell_told (s : St) (c : Nat) : (s.tell c).told = if s.closed || s.shut then s.told else s.told ++ [c] := by
  unfold St.tell; split <;> simp [*]

/-- What performing a message changes. -/
theorem perform_eq (s : St) (w : Who) (m : Msg) :
    s.perform w m = { s with
      told := match m with
        | .disc => if s.att && !(s.closed || s.shut) then s.told ++ [0] else s.told
        | .exit c => if s.att && !(s.closed || s.shut) then s.told ++ [c] else s.told
        | _ => s.told
      shut := match m with
        | .disc => s.shut || s.att
        | .exit _ => s.shut || s.att
        | _ => s.shut
      att := match m with
        | .disc => false
        | .exit _ => false
        | .new => true
        | .beat => s.att
      s2c := .acking w m (match m with | .beat => s.att && !s.closed && !s.shut | _ => true) } := by
  unfold St.perform
  cases m with
  | new => rfl
  | beat => rfl
  | disc =>
    dsimp only; split
    · rename_i h; rw [tell_frame, tell_told]; cases hc : s.closed || s.shut <;> simp [h]
    · rename_i h; cases ha : s.att <;> simp_all
  | exit c =>
    dsimp only; split
    · rename_i h; rw [tell_frame, tell_told]; cases hc : s.closed || s.shut <;> simp [h]
    · rename_i h; cases ha : s.att <;> simp_all

/-- What the end of talking to the shell-to-client thread leaves alone. -/
theorem finish_frame (s : St) (w : Who) (o : Out) : s.finish w o =
    { s with ctl := none, main := (s.finish w o).main, c2s := (s.finish w o).c2s, hb := (s.finish w o).hb, sup := (s.finish w o).sup,
             shut := (s.finish w o).shut } := by
  unfold St.finish; dsimp only; (repeat' split) <;> rfl

theorem finish_shut (s : St) (w : Who) (o : Out) : s.shut = true → (s.finish w o).shut = true := by
  unfold St.finish; dsimp only; (repeat' split) <;> grind [S2c.onBeat]

theorem finish_main (s : St) (w : Who) (o : Out) : s.main ≠ .connecting → (s.finish w o).main ≠ .connecting := by
  unfold St.finish; dsimp only; (repeat' split) <;> grind [S2c.onBeat]

theorem finish_hb (s : St) (w : Who) (o : Out) (e : End) (hw : w ≠ .hb) (hm : s.main ≠ .connecting) (h : s.hb = .done e) :
    (s.finish w o).hb = .done e := by
  unfold St.finish; dsimp only; (repeat' split) <;> grind [S2c.onBeat]

theorem dead_finish {s : St} {w : Who} {m : Msg} {b : Bool} (x : S2c) (o : Out) (hI : Inv s) (hD : Dead s)
    (hc : s.ctl = some (w, m, b)) (hx : x = s.s2c ∨ (x = .free ∨ x = .gone) ∧ w ≠ .hb ∧ ∃ m' p, s.s2c = .acking w m' p)
    : Dead ({ s with s2c := x }.finish w o) := by
  obtain ⟨h1, h2, h3⟩ := hD
  have hm := finish_main { s with s2c := x } w o h1
  have hs := finish_shut { s with s2c := x } w o
  have hh := fun e => finish_hb { s with s2c := x } w o e
  have hb := hI.ctlh
  refine ⟨hm, ?_, ?_⟩
  · rw [finish_frame]; grind [S2c.onBeat]
  · rw [finish_frame]; grind [S2c.onBeat]

theorem dead_of {s s' : St} (hD : Dead s) (h1 : s'.main ≠ .connecting) (h2 : ∀ w, s'.s2c ≠ .busy w .new)
    (hc : s.closed = true → s'.closed = true) (hs : s.shut = true → s'.shut = true) (ha : s.att = false → s'.att = false)
    (hh : ∀ e, s.hb = .done e → s.s2c.onBeat = true →
      s'.att = false ∨ s'.hb = .done e ∧ s'.s2c.onBeat = true) : Dead s' := by
  obtain ⟨_, _, h3⟩ := hD
  refine ⟨h1, h2, ?_⟩
  rcases h3 with h | h | h | ⟨h, e, he⟩
  · exact .inl (hc h)
  · exact .inr (.inl (hs h))
  · exact .inr (.inr (.inl (ha h)))
  · rcases hh e he h with h | h
    · exact .inr (.inr (.inl h))
    · exact .inr (.inr (.inr ⟨h.2, e, h.1⟩))

/-- The three steps of talking to the shell-to-client thread. -/
theorem step_meet {s s' : St} (h : step s .meet = some s') : ∃ w m, s.ctl = some (w, m, false) ∧ s.s2c = .free ∧
    s' = { s with ctl := some (w, m, true), s2c := .busy w m } := by
  simp only [step] at h
  split at h
  · cases h; exact ⟨_, _, by assumption, by assumption, rfl⟩
  · cases h

theorem step_works {s s' : St} (h : step s .s2cWorks = some s') : ∃ w m, s.s2c = .busy w m ∧ s' = s.perform w m := by
  simp only [step] at h
  split at h
  · cases h; exact ⟨_, _, by assumption, rfl⟩
  · cases h

theorem step_ack {s s' : St} (h : step s .ack = some s') : ∃ w m p x, s.ctl = some (w, m, true) ∧ s.s2c = .acking w m p ∧
    (x = .gone ∧ (∃ c, m = .exit c) ∨ x = .free ∧ ∀ c, m ≠ .exit c) ∧ s' = { s with s2c := x }.finish w (.acked p) := by
  simp only [step] at h
  split at h
  · rename_i w m w' m' p h1 h2
    split at h
    · rename_i hw
      obtain ⟨rfl, rfl⟩ := hw
      cases h
      refine ⟨w, m, p, _, h1, h2, ?_, rfl⟩
      cases m <;> simp
    · cases h
  · cases h

/-- A request to the shell-to-client thread that ends without an acknowledgement. -/
theorem step_noack {s s' : St} {l : Label} (hl : l = .sendTimeout ∨ l = .ackTimeout ∨ l = .noticeGone) (h : step s l = some s') :
    ∃ w m b o, s.ctl = some (w, m, b) ∧ s' = s.finish w o ∧ ((o = .sendTimeout ∧ b = false) ∨ (o = .ackTimeout ∧ b = true) ∨
      (o = .goneAtSend ∧ b = false ∧ s.s2c = .gone) ∨ (o = .goneAtAck ∧ b = true ∧ s.s2c = .gone)) ∧
      (l = .ackTimeout ↔ o = .ackTimeout) ∧ (l = .sendTimeout ↔ o = .sendTimeout) := by
  rcases hl with rfl | rfl | rfl <;> simp only [step] at h <;> (repeat' split at h) <;> cases h <;>
    refine ⟨_, _, _, _, by assumption, rfl, ?_⟩ <;> grind [S2c.onBeat]

set_option maxHeartbeats 1000000 in
theorem dead_step {s : St} {l : Label} {s' : St} (hI : Inv s)
    (hD : Dead s) (h : step s l = some s') : Dead s' := by
  have hD' := hD
  obtain ⟨h1, h2, h3⟩ := hD
  have hm := hI.ctlm
  have hh := hI.ctlh
  have hc := hI.ctlc
  have he := hI.ctle
  by_cases hl : l = .sendTimeout ∨ l = .ackTimeout ∨ l = .noticeGone
  · obtain ⟨w, m, b, o, hct, rfl, _, _⟩ := step_noack hl h
    exact dead_finish s.s2c _ hI hD' hct (.inl rfl)
  cases l
  case meet =>
    obtain ⟨w, m, hct, hs, rfl⟩ := step_meet h
    refine dead_of hD' ?_ ?_ ?_ ?_ ?_ ?_ <;> cases w <;> grind [S2c.onBeat]
  case s2cWorks =>
    obtain ⟨w, m, hs, rfl⟩ := step_works h
    rw [perform_eq]; refine dead_of hD' ?_ ?_ ?_ ?_ ?_ ?_ <;> cases m <;> grind [S2c.onBeat]
  case ack =>
    obtain ⟨w, m, p, x, hct, hs, hx, rfl⟩ := step_ack h
    by_cases hw : w = .hb
    · subst hw
      obtain ⟨h4, h5⟩ := hh _ _ hct
      have h6 : ∀ (x : Hb), x = .beating → ∀ e, x ≠ .done e := by grind [S2c.onBeat]
      have hd : s.closed = true ∨ s.shut = true ∨ s.att = false := by grind [S2c.onBeat]
      have hmn := finish_main { s with s2c := x } .hb (.acked p) h1
      have hsn := finish_shut { s with s2c := x } .hb (.acked p)
      refine ⟨hmn, ?_, ?_⟩
      · rw [finish_frame]; grind [S2c.onBeat]
      · rw [finish_frame]; grind [S2c.onBeat]
    · exact dead_finish x _ hI hD' hct (.inr ⟨by grind, hw, m, p, hs⟩)
  all_goals simp only [step] at h <;> (repeat' split at h) <;> (try cases h) <;> (try (simp only [Option.some.injEq] at h; subst h))
  all_goals first
    | (exfalso; simp at hl; done)
    | (rw [tell_frame]; refine dead_of hD' ?_ ?_ ?_ ?_ ?_ ?_ <;> grind [S2c.onBeat])
    | (refine dead_of hD' ?_ ?_ ?_ ?_ ?_ ?_ <;> grind [S2c.onBeat])

/-- What the end of talking to the shell-to-client thread does, case by case. -/
inductive Fin (s : St) : Who → Out → St → Prop where
  | connected (p) : s.main = .connecting →
      Fin s .main (.acked p) { s with ctl := none, main := .poll, c2s := .start, hb := .rest, sup := .top }
  | refused (o) : s.main = .connecting → (∀ p, o ≠ .acked p) → Fin s .main o { s with ctl := none, main := .returned none }
  | left (e p) : s.main = .disconnecting e → Fin s .main (.acked p) { s with ctl := none, main := .joinC }
  | shut (e o) : s.main = .disconnecting e → (o = .sendTimeout ∨ o = .goneAtSend) →
      Fin s .main o { s with ctl := none, main := .joinC, shut := true }
  | lost (e o) : s.main = .disconnecting e → (o = .ackTimeout ∨ o = .goneAtAck) → Fin s .main o { s with ctl := none, main := .leaving }
  | hbRest (o) : o = .sendTimeout ∨ o = .acked true → Fin s .hb o { s with ctl := none, hb := .rest }
  | hbOk (o) : o = .goneAtSend ∨ o = .goneAtAck ∨ o = .acked false → Fin s .hb o { s with ctl := none, hb := .done .ok }
  | hbErr : Fin s .hb .ackTimeout { s with ctl := none, hb := .done .err }
  | keyOk (p) : Fin s .c2s (.acked p) { s with ctl := none, c2s := .done .ok }
  | keyErr (o) : (∀ p, o ≠ .acked p) → Fin s .c2s o { s with ctl := none, c2s := .done .err }
  | ext (t o) : Fin s (.ext t) o { s with ctl := none }

theorem finish_fin {s : St} {w : Who} {m : Msg} {b : Bool} (o : Out) (hI : Inv s) (hc : s.ctl = some (w, m, b)) :
    Fin s w o (s.finish w o) := by
  have hm := hI.ctlm
  unfold St.finish
  dsimp only
  cases w with
  | main =>
    have h := hm m b hc
    dsimp only
    split
    · rename_i hmc
      cases o <;> dsimp only
      · exact .connected _ hmc
      all_goals exact .refused _ hmc (by simp)
    · rename_i e hmc
      cases o <;> dsimp only
      · exact .left e _ hmc
      · exact .shut e _ hmc (by simp)
      · exact .lost e _ hmc (by simp)
      · exact .shut e _ hmc (by simp)
      · exact .lost e _ hmc (by simp)
    · grind
  | hb =>
    dsimp only
    split <;> first | exact .hbRest _ (by simp) | exact .hbOk _ (by simp) | exact .hbErr
  | c2s =>
    cases o <;> dsimp only
    · exact .keyOk _
    all_goals exact .keyErr _ (by simp)
  | ext t => exact .ext t o

theorem dead_intro {s : St} (h1 : s.main ≠ .connecting) (h2 : s.main ≠ .returned none)
    (h3 : ∀ w, s.s2c = .busy w .new → s.main = .connecting ∨ s.main = .returned none)
    (h4 : s.closed = true ∨ s.shut = true ∨ s.att = false ∨ (s.s2c.onBeat = true ∧ ∃ e, s.hb = .done e)) : Dead s := by
  refine ⟨h1, fun w hw => ?_, h4⟩
  rcases h3 w hw with h | h
  · exact h1 h
  · exact h2 h

end Shpool.Bidi
