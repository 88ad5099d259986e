import Verif.Message.Props
import Verif.Util.Fair
/-! # C172 over time: every session message is answered, or its request ends -/

namespace Shpool.Message
open Shpool

/-- The steps of request `r`. -/
def stepsOf (r : Nat) : Label → Bool
  | .go q _ => q == r
  | _ => false

/-- How far a request is from its end. -/
private def rank : Req → Nat
  | .asked _ _ => 4
  | .found _ _ _ => 3
  | .pager _ _ _ | .again _ _ _ => 2
  | .shell _ _ _ _ | .leave _ _ => 1
  | .idle | .done _ => 0

/-- The request has locked the slot of session `x`. -/
private def Holds : Req → Nat → Prop
  | .pager _ _ x, y | .again _ _ x, y | .shell _ _ x _, y => x = y
  | _, _ => False

private theorem req_other {s s' : St} {l : Label} {r : Nat} (hs : step s l = some s') (hl : stepsOf r l = false) (hi : s.req r ≠ .idle) :
    s'.req r = s.req r := by
  cases l with
  | ask q n m =>
    simp only [step] at hs; split at hs <;> cases hs
    rename_i hq
    have : r ≠ q := fun e => hi (e ▸ hq)
    simp [setReq, upd_apply, this]
  | go q ok =>
    have hq : r ≠ q := fun e => by simp [stepsOf, e] at hl
    simp only [step, go] at hs
    (repeat' split at hs) <;> cases hs <;> simp [setReq, setSess, answer, upd_apply, hq]
  | create => simp only [step] at hs; cases hs; rfl
  | remove => simp only [step] at hs; cases hs; rfl
  | attach => simp only [step] at hs; split at hs <;> cases hs; rfl
  | gone => simp only [step] at hs; cases hs; rfl
  | showPager => simp only [step] at hs; split at hs <;> cases hs; rfl
  | endPager => simp only [step] at hs; split at hs <;> cases hs; rfl
  | s2cEnds => simp only [step] at hs; cases hs; rfl

private theorem req_go {s s' : St} {r : Nat} {ok : Bool} (hs : step s (.go r ok) = some s') :
    rank (s'.req r) < rank (s.req r) ∧ s'.req r ≠ .idle := by
  simp only [step, go] at hs
  (repeat' split at hs) <;> cases hs <;> simp_all [setReq, setSess, answer, upd_apply, rank]

private theorem can_go {s : St} {r : Nat} (hi : s.req r ≠ .idle) (hd : ∀ a, s.req r ≠ .done a)
    (hf : ∀ n z x, s.req r = .found n z x → (s.sess x).slot = none) : Can step (stepsOf r) s := by
  refine ⟨.go r true, by simp [stepsOf], ?_⟩
  simp only [step, go]
  cases hq : s.req r with
  | idle => exact absurd hq hi
  | done a => exact absurd hq (hd a)
  | asked n m => cases m <;> (dsimp only; split <;> rfl)
  | found n z x => simp only [hf n z x hq]; split <;> rfl
  | pager => rfl
  | again => dsimp only; split <;> rfl
  | shell => dsimp only; split <;> rfl
  | leave => dsimp only; split <;> rfl

/-- A slot is locked only by a request that will go on. -/
private def Locked (s : St) : Prop := ∀ x r, (s.sess x).slot = some r → Holds (s.req r) x

private theorem locked_step {s s' : St} {l : Label} (hI : Locked s) (hs : step s l = some s') : Locked s' := by
  intro x r hx
  cases l with
  | ask q n m =>
    simp only [step] at hs; split at hs <;> cases hs
    rename_i hq
    have h := hI x r hx
    have : r ≠ q := fun e => by rw [e, hq] at h; exact h
    simpa [setReq, upd_apply, this] using h
  | go q ok =>
    simp only [step, go] at hs
    (repeat' split at hs) <;> cases hs
    all_goals
      simp only [setReq, setSess, answer, upd_apply] at hx ⊢
      have h := hI x
      grind [Holds]
  | create n z c =>
    simp only [step] at hs; cases hs
    simp only [setSess, upd_apply] at hx
    split at hx
    · cases hx
    · exact hI x r hx
  | remove n => simp only [step] at hs; cases hs; exact hI x r hx
  | attach y z c =>
    simp only [step] at hs; split at hs <;> cases hs
    simp only [setSess, upd_apply] at hx
    split at hx
    · next e => subst e; exact hI _ r hx
    · exact hI x r hx
  | gone y =>
    simp only [step] at hs; cases hs
    simp only [setSess, upd_apply] at hx
    split at hx
    · next e => subst e; exact hI _ r hx
    · exact hI x r hx
  | showPager y z =>
    simp only [step] at hs; split at hs <;> cases hs
    simp only [setSess, upd_apply] at hx
    split at hx
    · next e => subst e; exact hI _ r hx
    · exact hI x r hx
  | endPager y =>
    simp only [step] at hs; split at hs <;> cases hs
    simp only [setSess, upd_apply] at hx
    split at hx
    · next e => subst e; exact hI _ r hx
    · exact hI x r hx
  | s2cEnds y =>
    simp only [step] at hs; cases hs
    simp only [setSess, upd_apply] at hx
    split at hx
    · next e => subst e; exact hI _ r hx
    · exact hI x r hx

/-- No step hands a locked slot from one request to another. -/
private theorem slot_step {s s' : St} {l : Label} {x r : Nat} (hs : step s l = some s') (hx : (s.sess x).slot = some r) :
    (s'.sess x).slot = none ∨ (s'.sess x).slot = some r := by
  cases l <;> simp only [step, go] at hs <;> (repeat' split at hs) <;> cases hs
  all_goals
    simp only [setReq, setSess, answer, upd_apply]
    grind

/-- A slot that is locked is given back. -/
private theorem slot_free {σ : Nat → St} {lab : Nat → Option Label} (hx : Exec step σ lab) (h0 : σ 0 = init)
    (hf : ∀ r, StrongFair step σ lab (stepsOf r)) (m x : Nat) : ∃ i, m ≤ i ∧ ((σ i).sess x).slot = none := by
  have hI : ∀ i, Locked (σ i) := fun i => exec_stays hx (m := 0) (fun _ _ _ _ => locked_step)
    (by rw [h0]; intro x r h; cases h) i (Nat.zero_le _)
  rcases hsl : ((σ m).sess x).slot with _ | r
  · exact ⟨m, Nat.le_refl _, hsl⟩
  · have hw : WeakFair step σ lab (stepsOf r) := fun ⟨n, hn⟩ => hf r fun k => ⟨max n k, by omega, hn _ (by omega)⟩
    have live : ∀ {s : St}, Holds (s.req r) x → s.req r ≠ .idle := fun h e => by rw [e] at h; exact h
    refine fair_reaches hx hw (B := fun s => Locked s ∧ (s.sess x).slot = some r) (G := fun s => (s.sess x).slot = none) (fun s => rank (s.req r))
      ⟨hI m, hsl⟩ (fun i _ ⟨h1, h2⟩ => ?_) (fun i l _ hl ⟨h1, h2⟩ hs => ?_)
    · have h := h1 x r h2
      exact can_go (live h) (fun a e => by rw [e] at h; exact h) (fun n z y e => by rw [e] at h; exact h.elim)
    · rcases slot_step hs h2 with h | h
      · exact .inl h
      · refine .inr ⟨⟨hI _, h⟩, ?_, fun ha => ?_⟩
        · cases hso : stepsOf r l with
          | false => rw [req_other hs hso (live (h1 x r h2))]; exact Nat.le_refl _
          | true =>
            cases l <;> simp [stepsOf] at hso
            subst hso
            exact Nat.le_of_lt (req_go hs).1
        · cases l <;> simp [stepsOf] at ha
          subst ha
          exact (req_go hs).1

/-- **C172** (over time): in every execution in which a request that can go on again and again does, every session message is answered, or its request ends
with an error, whatever sessions, clients, pagers and other requests do.  Fairness has to be strong: the slot of the pager may be locked by others
again and again. -/
theorem C172_answered {σ : Nat → St} {lab : Nat → Option Label} (hx : Exec step σ lab) (h0 : σ 0 = init)
    (hf : ∀ r, StrongFair step σ lab (stepsOf r)) {m r : Nat} (hr : (σ m).req r ≠ .idle) : ∃ i, m ≤ i ∧ ∃ a, (σ i).req r = .done a := by
  have hgo : ∀ {i l}, lab i = some l → (σ i).req r ≠ .idle → step (σ i) l = some (σ (i + 1)) →
      (σ (i + 1)).req r ≠ .idle ∧ rank ((σ (i + 1)).req r) ≤ rank ((σ i).req r) ∧ (stepsOf r l = true → rank ((σ (i + 1)).req r) < rank ((σ i).req r)) ∧
      (stepsOf r l = false → (σ (i + 1)).req r = (σ i).req r) := by
    intro i l _ hi hs
    cases hso : stepsOf r l with
    | false =>
      have := req_other hs hso hi
      rw [this]
      exact ⟨hi, Nat.le_refl _, by simp, fun _ => rfl⟩
    | true =>
      cases l <;> simp [stepsOf] at hso
      subst hso
      have := req_go hs
      exact ⟨this.2, Nat.le_of_lt this.1, fun _ => this.1, by simp⟩
  have hni : ∀ i, m ≤ i → (σ i).req r ≠ .idle := exec_stays hx (p := fun s => s.req r ≠ .idle) (fun i l _ hl hi hs => (hgo hl hi hs).1) hr
  refine reaches (σ := σ) (Goal := fun s => ∃ a, s.req r = .done a) (fun s => rank (s.req r)) (fun i hi _ => ?_) (fun n hn hrest => ?_)
  · rcases hx i with ⟨_, h3⟩ | ⟨l, hl, h3⟩
    · rw [h3]; exact Nat.le_refl _
    · exact (hgo hl (hni i hi) h3).2.1
  · -- the request stays where it is
    have hso : ∀ i l, n ≤ i → lab i = some l → stepsOf r l = false := fun i l hi hl => by
      refine Bool.eq_false_iff.mpr fun ht => ?_
      have h1 := (hgo hl (hni i (by omega)) (exec_at hx hl)).2.2.1 ht
      have h2 := (hrest i hi).2
      have h3 := (hrest (i + 1) (by omega)).2
      omega
    have hst : ∀ i, n ≤ i → (σ i).req r = (σ n).req r := exec_stays hx (p := fun s => s.req r = (σ n).req r)
      (fun i l hi hl he hs => ((hgo hl (hni i (by omega)) hs).2.2.2 (hso i l hi hl)).trans he) rfl
    have often : ∀ k, ∃ i, k ≤ i ∧ Can step (stepsOf r) (σ i) := by
      intro k
      have can : ∀ i, n ≤ i → (∀ p z x, (σ n).req r = .found p z x → ((σ i).sess x).slot = none) → Can step (stepsOf r) (σ i) := fun i hi h =>
        can_go (hni i (by omega)) (fun a e => (hrest i hi).1 ⟨a, e⟩) (fun p z x e => h p z x (by rw [← hst i hi, e]))
      by_cases hfd : ∃ p z x, (σ n).req r = .found p z x
      · obtain ⟨p, z, x, e⟩ := hfd
        obtain ⟨i, hi, hfree⟩ := slot_free hx h0 hf (max n k) x
        exact ⟨i, by omega, can i (by omega) fun p' z' x' e' => by rw [e] at e'; cases e'; exact hfree⟩
      · exact ⟨max n k, by omega, can _ (by omega) fun p z x e => absurd ⟨p, z, x, e⟩ hfd⟩
    obtain ⟨i, l, hi, hl, ha⟩ := hf r often n
    rw [hso i l hi hl] at ha; cases ha

/-- A detach request that is answered, and nothing more. -/
example : ∃ σ lab, Exec step σ lab ∧ σ 0 = init ∧ (∀ r, StrongFair step σ lab (stepsOf r)) ∧ (σ 2).req 0 ≠ .idle := by
  have h := thenRests_exec (step := step) (s := init) (ls := [.create 0 80 7, .ask 0 0 .detach, .go 0 true, .go 0 true]) (s' := _) rfl
  refine ⟨_, _, h.1, rfl, fun r => (fair_at_rest h.2 (fun l hl => ?_)).2, by simp [thenRests, runSteps, step, setReq, setSess, upd_apply, init]⟩
  cases l <;> simp [stepsOf] at hl
  subst hl
  rename_i q ok
  by_cases hq : q = 0
  · subst hq; rfl
  · simp [step, go, setReq, setSess, upd_apply, init, hq]

end Shpool.Message
