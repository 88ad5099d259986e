import Verif.Message.Props
/-! # C172 would hold if the request looked whether the session has a client -/

namespace Shpool.Message
open Shpool

/-- The code with one question more: a session that has no client when it is looked up is answered with `NotAttached` (server.rs 828-836 and
875-883, changed). -/
def stepR (s : St) : Label → Option St
  | .go r ok =>
    match s.req r with
    | .asked n _ =>
      match s.table n with
      | some x => if (s.sess x).conn = none then some (setReq s r (.done (some .notAttached))) else step s (.go r ok)
      | none => step s (.go r ok)
    | _ => step s (.go r ok)
  | l => step s l

/-- The claim of `C172_statement`, of any code. -/
def C172_statement_of (stp : St → Label → Option St) : Prop := ∀ before b s0 r n m ls s a, runSteps stp init before = some b →
  stp b (.ask r n m) = some s0 → runSteps stp s0 ls = some s → s.req r = .done (some a) →
  (∀ pre post s1, ls = pre ++ post → runSteps stp s0 pre = some s1 → ∃ x, s1.table n = some x ∧ (s1.sess x).conn = none) → a = .notAttached

theorem C172_statement_code : C172_statement_of step ↔ C172_statement :=
  ⟨fun h before s0 r n m ls s a ⟨b, h1, h2, h3⟩ => h before b s0 r n m ls s a h1 h2 h3,
    fun h before b s0 r n m ls s a h1 h2 h3 => h before s0 r n m ls s a ⟨b, h1, h2, h3⟩⟩

private theorem other_req {s s' : St} {r : Nat} {l : Label} (hr : s.req r ≠ .idle) (hl : ∀ ok, l ≠ .go r ok) (hs : stepR s l = some s') :
    s'.req r = s.req r := by
  have plain : ∀ l, (∀ ok, l ≠ .go r ok) → step s l = some s' → s'.req r = s.req r := by
    intro l hl hs
    cases l with
    | go r' ok =>
      have hne : r ≠ r' := fun e => hl ok (by rw [e])
      simp only [step, go] at hs
      (repeat' split at hs) <;> first | (cases hs; done) | (cases hs; simp only [answer, setReq, setSess, upd_apply, if_neg hne])
    | _ =>
      simp only [step] at hs
      (repeat' split at hs) <;> first | (cases hs; done) | (cases hs; simp only [setReq, setSess, upd_apply]; try grind)
  cases l with
  | go r' ok =>
    have hne : r ≠ r' := fun e => hl ok (by rw [e])
    simp only [stepR] at hs
    (repeat' split at hs)
    · cases hs; simp only [setReq, upd_apply, if_neg hne]
    all_goals exact plain _ hl hs
  | _ => exact plain _ hl hs

/-- **C172** would hold: every message for a session that has no client from the request to the answer would be answered with `NotAttached`. -/
theorem C172_repaired : C172_statement_of stepR := by
  intro before b s0 r n m ls s a _ ha hrun hd hno
  have hreq : s0.req r = .asked n m := by
    simp only [stepR, step] at ha
    split at ha <;> cases ha
    simp [setReq, upd]
  have key : ∀ (ls : List Label) (s1 s : St), (s1.req r = .asked n m ∨ s1.req r = .done (some .notAttached)) →
      (∀ pre post s2, ls = pre ++ post → runSteps stepR s1 pre = some s2 → ∃ x, s2.table n = some x ∧ (s2.sess x).conn = none) →
      runSteps stepR s1 ls = some s → s.req r = .asked n m ∨ s.req r = .done (some .notAttached) := by
    intro ls
    induction ls with
    | nil => intro s1 s h _ hr; cases hr; exact h
    | cons l ls ih =>
      intro s1 s h hno hr
      obtain ⟨s2, h2, h3⟩ := run_cons_some hr
      refine ih s2 s ?_ (fun pre post s3 e h4 => hno (l :: pre) post s3 (by simp [e]) (by simp [runSteps, h2, h4])) h3
      by_cases hl : ∃ ok, l = .go r ok
      · obtain ⟨ok, rfl⟩ := hl
        obtain ⟨x, hx, hc⟩ := hno [] _ s1 rfl rfl
        rcases h with h | h
        · simp only [stepR, h, hx, if_pos hc] at h2
          cases h2
          exact .inr (by simp [setReq, upd])
        · simp [stepR, h, step, go] at h2
      · have hne : s1.req r ≠ .idle := by rcases h with h | h <;> rw [h] <;> simp
        rw [other_req hne (fun ok e => hl ⟨ok, e⟩) h2]
        exact h
  rcases key ls s0 s (.inl hreq) hno hrun with h | h
  · rw [hd] at h; cases h
  · rw [hd] at h; cases h; rfl

/-- The request that is answered wrongly now would be answered rightly, and one for a session with a client as before. -/
example : (∃ s, runSteps stepR init [.create 0 80 7, .gone 0, .ask 0 0 .detach, .go 0 true] = some s ∧ s.req 0 = .done (some .notAttached)) ∧
    ∃ s, runSteps stepR init [.create 0 80 7, .ask 0 0 .detach, .go 0 true, .go 0 true] = some s ∧ s.req 0 = .done (some .detachOk) :=
  ⟨⟨_, rfl, rfl⟩, ⟨_, rfl, rfl⟩⟩

end Shpool.Message
