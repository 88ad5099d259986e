import Verif.Bidi.Lemmas

/-! # A request whose client is gone can always be brought to its end -/

namespace Shpool.Bidi

/-- Steps of the daemon itself, as opposed to the client, the shell and other requests. -/
def Internal : Label → Bool
  | .clientSends _ => false
  | .clientCloses => false
  | .shellExits _ => false
  | .ptyCloses => false
  | .ptyTakes => false
  | .extAsks _ => false
  | _ => true

/-- No request waits without a time limit for the shell-to-client thread, and waits that cannot time out are for something that has
happened. -/
structure Timed (s : St) : Prop where
  ext : ∀ m b, s.ctl ≠ some (.ext false, m, b)
  sure : s.sup = .waiting true → s.exited.isSome = true

theorem timed_finish {s : St} {w : Who} (o : Out) (hT : Timed s) : Timed (s.finish w o) := by
  obtain ⟨h1, h2⟩ := hT
  unfold St.finish
  dsimp only
  repeat' split
  all_goals (constructor <;> grind)

theorem timed_step (s : St) (l : Label) (s' : St) (hl : l ≠ .extAsks false) (hT : Timed s) (h : step s l = some s') : Timed s' := by
  have hT' := hT
  obtain ⟨h1, h2⟩ := hT
  step_cases
  all_goals first
    | exact timed_finish _ hT'
    | exact timed_finish _ ⟨h1, h2⟩
    | (rw [perform_frame]; constructor <;> grind)
    | (rw [tell_frame]; constructor <;> grind)
    | (constructor <;> grind)

theorem timed_run {ls : List Label} {s s' : St} (h0 : Timed s) (hl : .extAsks false ∉ ls) (h : runSteps step s ls = some s') :
    Timed s' := by
  induction ls generalizing s with
  | nil => cases h; exact h0
  | cons l ls ih =>
    obtain ⟨s1, h1, h2⟩ := run_cons_some h
    exact ih (timed_step s l s1 (by grind) h0 h1) (by grind) h2

def Main.rank : Main → Nat
  | .connecting => 9
  | .poll => 8
  | .stopping => 7
  | .disconnecting _ => 6
  | .joinC => 5
  | .joinH => 4
  | .joinS => 3
  | .leaving => 2
  | .final => 2
  | .returned _ => 0

/-- `n` reads are waiting. -/
def C2s.rank (n : Nat) : C2s → Nat
  | .off => 0
  | .start => 4 * n + 4
  | .top => 4 * n + 3
  | .reading => 4 * n + 2
  | .writing _ => 4 * n + 5
  | .detaching => 1
  | .done _ => 0

def Hb.rank : Hb → Nat
  | .beating => 2
  | .rest => 1
  | .sleeping => 1
  | _ => 0

def Sup.rank : Sup → Nat
  | .waiting _ => 2
  | .top => 1
  | _ => 0

def ctlRank : Option (Who × Msg × Bool) → Nat
  | none => 1
  | some (.ext _, _, _) => 2
  | _ => 0

/-- How far the request is from its end at most. -/
def rank (s : St) : Nat := 2 * (s.main.rank + s.c2s.rank s.inq.length + s.hb.rank + s.sup.rank) + ctlRank s.ctl

macro "rk" : tactic => `(tactic| grind [rank, ctlRank, Main.rank, C2s.rank, Hb.rank, Sup.rank])

/-- A step that brings the request nearer to its end. -/
def Nearer (s : St) : Prop := ∃ l s', step s l = some s' ∧ rank s' < rank s ∧ (Internal l = true ∨ l = .ptyTakes ∧ ∃ x, s.c2s = .writing x) ∧
  (s.inq = [] → (∀ x, s.c2s ≠ .writing x) → s'.inq = [] ∧ ∀ x, s'.c2s ≠ .writing x)

theorem nearer_ctl {s : St} {w : Who} {m : Msg} {b : Bool} (hI : Inv s) (hT : Timed s) (hc : s.ctl = some (w, m, b)) : Nearer s := by
  have hm := hI.ctlm
  have hh := hI.ctlh
  have hcc := hI.ctlc
  have ht : w.timed = true := by
    have := hT.ext m b
    cases w <;> grind [Who.timed]
  cases b with
  | false =>
    refine ⟨.sendTimeout, s.finish w .sendTimeout, by simp [step, hc, ht], ?_, .inl rfl, ?_⟩
    · cases w <;> unfold St.finish <;> dsimp only <;> (repeat' split) <;>
        grind [rank, ctlRank, Main.rank, C2s.rank, Hb.rank, Sup.rank]
    · cases w <;> unfold St.finish <;> dsimp only <;> (repeat' split) <;> grind
  | true =>
    refine ⟨.ackTimeout, s.finish w .ackTimeout, by simp [step, hc, ht], ?_, .inl rfl, ?_⟩
    · cases w <;> unfold St.finish <;> dsimp only <;> (repeat' split) <;>
        grind [rank, ctlRank, Main.rank, C2s.rank, Hb.rank, Sup.rank]
    · cases w <;> unfold St.finish <;> dsimp only <;> (repeat' split) <;> grind

/-- The client-to-shell thread of a client that is gone gets nearer to its end. -/
theorem nearer_c2s {s : St} (hc : s.ctl = none) (hcl : s.closed = true) (h1 : s.c2s ≠ .off) (h2 : ∀ e, s.c2s ≠ .done e) : Nearer s := by
  cases hs : s.c2s with
  | off => exact absurd hs h1
  | done e => exact absurd hs (h2 e)
  | start =>
    refine ⟨.c2sCompiles true, _, by simp [step, hs]; rfl, ?_, .inl rfl, ?_⟩
    · rk
    · grind
  | top =>
    refine ⟨.c2sChecks, _, by simp [step, hs]; rfl, ?_, .inl rfl, ?_⟩
    · rk
    · grind
  | reading =>
    cases hq : s.inq with
    | nil =>
      refine ⟨.c2sEof, _, by simp [step, hs, hq, hcl]; rfl, ?_, .inl rfl, ?_⟩
      · rk
      · grind
    | cons x q =>
      refine ⟨.c2sReads false, _, by simp [step, hs, hq]; rfl, ?_, .inl rfl, ?_⟩
      · rk
      · grind
  | writing x =>
    cases hh : s.hung with
    | true =>
      refine ⟨.c2sWriteFails, _, by simp [step, hs, hh]; rfl, ?_, .inl rfl, ?_⟩
      · rk
      · grind
    | false =>
      refine ⟨.ptyTakes, _, by simp [step, hs, hh]; rfl, ?_, .inr ⟨rfl, x, hs⟩, ?_⟩
      · rk
      · grind
  | detaching =>
    refine ⟨.c2sLock, _, by simp [step, hs, hc]; rfl, ?_, .inl rfl, ?_⟩
    · rk
    · grind

theorem nearer_hb {s : St} (hc : s.ctl = none) (hst : s.stop = true) (h1 : s.hb ≠ .off) (h2 : ∀ e, s.hb ≠ .done e) : Nearer s := by
  cases hs : s.hb with
  | off => exact absurd hs h1
  | done e => exact absurd hs (h2 e)
  | rest =>
    refine ⟨.hbPolls, _, by simp [step, hs]; rfl, ?_, .inl rfl, ?_⟩
    · rk
    · grind
  | sleeping =>
    refine ⟨.hbPolls, _, by simp [step, hs, hst]; rfl, ?_, .inl rfl, ?_⟩
    · rk
    · grind
  | beating =>
    refine ⟨.hbLock, _, by simp [step, hs, hc]; rfl, ?_, .inl rfl, ?_⟩
    · rk
    · grind

theorem nearer_sup {s : St} (hT : Timed s) (hst : s.stop = true) (h1 : s.sup ≠ .off) (h2 : s.sup ≠ .done) : Nearer s := by
  cases hs : s.sup with
  | off => exact absurd hs h1
  | done => exact absurd hs h2
  | top =>
    refine ⟨.supChecks, _, by simp [step, hs]; rfl, ?_, .inl rfl, ?_⟩
    · rk
    · grind
  | waiting sure =>
    cases sure with
    | true =>
      have he := hT.sure hs
      refine ⟨.supSees, _, by simp [step, hs, he]; rfl, ?_, .inl rfl, ?_⟩
      · rk
      · grind
    | false =>
      refine ⟨.supTimeout, _, by simp [step, hs]; rfl, ?_, .inl rfl, ?_⟩
      · rk
      · grind

theorem nearer {s : St} (hI : Inv s) (hT : Timed s) (hcl : s.closed = true) (hr : ∀ r, s.main ≠ .returned r) : Nearer s := by
  cases hc : s.ctl with
  | some x => obtain ⟨w, m, b⟩ := x; exact nearer_ctl hI hT hc
  | none =>
    have offc := hI.offc
    have offh := hI.offh
    have offs := hI.offs
    have later := hI.later
    have stop (h1 : s.main ≠ .connecting) (h2 : s.main ≠ .poll) : s.stop = true := later h1 h2 (fun h => by grind)
    cases hm : s.main with
    | returned r => exact absurd hm (hr r)
    | connecting =>
      refine ⟨.mainLock, _, by simp [step, hm, hc]; rfl, by rk, .inl rfl, by grind⟩
    | poll =>
      cases ho : s.over with
      | true =>
        refine ⟨.mainPolls, _, by simp [step, hm, ho]; rfl, by rk, .inl rfl, by grind⟩
      | false =>
        refine nearer_c2s hc hcl (fun h => by grind) (fun e he => ?_)
        simp [St.over, he] at ho
    | stopping =>
      refine ⟨.mainLooks, _, by simp [step, hm]; rfl, by rk, .inl rfl, by grind⟩
    | disconnecting e =>
      refine ⟨.mainLock, _, by simp [step, hm, hc]; rfl, by rk, .inl rfl, by grind⟩
    | joinC =>
      cases hs : s.c2s with
      | done e =>
        cases e <;> refine ⟨.mainJoins, _, by simp [step, hm, hs]; rfl, by rk, .inl rfl, by grind⟩
      | off => grind
      | _ => exact nearer_c2s hc hcl (by grind) (by grind)
    | joinH =>
      cases hs : s.hb with
      | done e =>
        cases e <;> refine ⟨.mainJoins, _, by simp [step, hm, hs]; rfl, by rk, .inl rfl, by grind⟩
      | off => grind
      | _ => exact nearer_hb hc (stop (by grind) (by grind)) (by grind) (by grind)
    | joinS =>
      cases hs : s.sup with
      | done => refine ⟨.mainJoins, _, by simp [step, hm, hs]; rfl, by rk, .inl rfl, by grind⟩
      | off => grind
      | _ => exact nearer_sup hT (stop (by grind) (by grind)) (by grind) (by grind)
    | leaving =>
      by_cases h1 : ∀ e, s.c2s ≠ .done e
      · exact nearer_c2s hc hcl (by grind) h1
      by_cases h2 : ∀ e, s.hb ≠ .done e
      · exact nearer_hb hc (stop (by grind) (by grind)) (by grind) h2
      by_cases h3 : s.sup ≠ .done
      · exact nearer_sup hT (stop (by grind) (by grind)) (by grind) h3
      simp only [ne_eq, Classical.not_forall, Classical.not_not] at h1 h2 h3
      obtain ⟨e1, h1⟩ := h1
      obtain ⟨e2, h2⟩ := h2
      refine ⟨.mainJoins, _, by simp [step, hm, h1, h2, h3]; rfl, by rk, .inl rfl, by grind⟩
    | final =>
      refine ⟨.mainJoins, _, by simp [step, hm]; rfl, by rk, .inl rfl, by grind⟩

/-- A connection the client closed stays closed. -/
theorem closed_step {s : St} {l : Label} {s' : St} (hc : s.closed = true) (h : step s l = some s') : s'.closed = true := by
  have hf : ∀ (s : St) w o, (s.finish w o).closed = s.closed := by
    intro s w o; unfold St.finish; dsimp only; (repeat' split) <;> rfl
  step_cases
  all_goals first
    | exact hc
    | (rw [hf]; exact hc)
    | (rw [perform_frame]; exact hc)
    | (rw [tell_frame]; exact hc)

/-- The client is gone, and nothing it sent is on its way. -/
def Quiet (s : St) : Prop := s.inq = [] ∧ ∀ x, s.c2s ≠ .writing x

theorem ends (n : Nat) : ∀ s : St, rank s ≤ n → Inv s → Timed s → s.closed = true → ∃ ls s' r, runSteps step s ls = some s' ∧
    s'.main = .returned r ∧ (∀ l ∈ ls, Internal l = true ∨ l = .ptyTakes) ∧ (Quiet s → ∀ l ∈ ls, Internal l = true) := by
  induction n with
  | zero =>
    intro s hn hI hT hcl
    by_cases hr : ∀ r, s.main ≠ .returned r
    · obtain ⟨l, s', _, hlt, _⟩ := nearer hI hT hcl hr
      omega
    · simp only [ne_eq, Classical.not_forall, Classical.not_not] at hr
      obtain ⟨r, hr⟩ := hr
      exact ⟨[], s, r, rfl, hr, by simp, by simp⟩
  | succ n ih =>
    intro s hn hI hT hcl
    by_cases hr : ∀ r, s.main ≠ .returned r
    · obtain ⟨l, s1, hs, hlt, hl, hq⟩ := nearer hI hT hcl hr
      have hne : l ≠ .extAsks false := by
        rintro rfl
        rcases hl with hl | ⟨hl, _⟩ <;> cases hl
      obtain ⟨ls, s', r, h1, h2, h3, h4⟩ := ih s1 (by omega) (inv_step _ _ _ hI hs) (timed_step _ _ _ hne hT hs) (closed_step hcl hs)
      refine ⟨l :: ls, s', r, by simp [runSteps, hs, h1], h2, ?_, ?_⟩
      · intro l' hl'
        rcases List.mem_cons.mp hl' with rfl | hl'
        · exact hl.imp id (·.1)
        · exact h3 l' hl'
      · intro hQ l' hl'
        rcases List.mem_cons.mp hl' with rfl | hl'
        · rcases hl with hl | ⟨_, x, hx⟩
          · exact hl
          · exact absurd hx (hQ.2 x)
        · exact h4 (hq hQ.1 hQ.2) l' hl'
    · simp only [ne_eq, Classical.not_forall, Classical.not_not] at hr
      obtain ⟨r, hr⟩ := hr
      exact ⟨[], s, r, rfl, hr, by simp, by simp⟩

end Shpool.Bidi
