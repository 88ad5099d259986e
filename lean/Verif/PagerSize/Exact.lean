import Verif.PagerSize.Props
/-! # C156, exactly: when a pager takes sizes -/

namespace Shpool.PagerSize
open Shpool

private def Told (ls : List Label) (s : St) : Prop :=
  (∀ n z, s.req = some (.waiting n z) → s.lis = .got n z ∨ s.lis = .noting n z ∨ s.lis = .acking n z) ∧
  (∀ z, s.disp = .over z → s.req = none) ∧
  (.ackTimeout ∈ ls → s.disp = .shows → Stuck s) ∧
  (∀ m o, (m, o) ∈ s.log → m < s.next) ∧ (∀ m z, s.req = some (.waiting m z) ∨ s.req = some (.sending m z) → m < s.next)

private theorem told_step (ls : List Label) (s : St) (l : Label) (s' : St) (h : Told ls s) (hs : step s l = some s') : Told (ls ++ [l]) s' := by
  unfold Told Stuck at *
  obtain ⟨h1, h2, h3, h4, h5⟩ := h
  have e : ∀ k, Label.ackTimeout ∈ ls ++ [k] ↔ Label.ackTimeout ∈ ls ∨ Label.ackTimeout = k := fun k => by simp
  rw [e]
  cases l
  case close m =>
    cases m <;> simp only [step, stepOf] at hs <;> (repeat' split at hs) <;> cases hs <;> simp only [reduceCtorEq, or_false] <;>
      exact ⟨h1, h2, h3, h4, h5⟩
  all_goals simp only [step, stepOf] at hs
  all_goals (repeat' split at hs)
  all_goals first
    | (cases hs; done)
    | (cases hs; simp only [reduceCtorEq, or_false]; exact ⟨h1, h2, h3, h4, h5⟩)
    | (cases hs; refine ⟨?_, ?_, ?_, ?_, ?_⟩ <;> (try simp only [List.mem_append, List.mem_singleton, Prod.mk.injEq]) <;> grind)

/-- **C156, exactly**: as long as the pager runs and is shown, a request can set a new size if and only if no request has ever given up waiting
for its acknowledgement. -/
theorem C156_exact {s0 s : St} {ls : List Label} (z : Nat) (h : Run s0 ls s) (he : s.exited = false) (hd : s.disp = .shows) (hq : s.req = none) :
    (∃ ls' s', (∀ l ∈ ls', l = .ask z ∨ l = .send ∨ l = .setSize ∨ l = .note ∨ l = .ack) ∧ runSteps step s ls' = some s' ∧
      s'.noted = z ∧ s'.size s.term = z ∧ (s.next, .ok s.next) ∈ s'.log) ↔ .ackTimeout ∉ ls := by
  refine ⟨?_, fun hn => C156_partial z h hn he hd hq⟩
  rintro ⟨ls', s', _, hr, _, _, hl⟩ hn
  obtain ⟨⟨fds, t, d, z0, size, _, rfl⟩, hrun⟩ := h
  have hT : Told ls s := run_hist (I := Told) told_step (by simp [Told, start]) hrun
  have := (C156_stuck_forever (hT.2.2.1 hn hd) hr).1 _ _ hl
  exact absurd (hT.2.2.2.1 _ _ this) (by omega)

/-- One size set. -/
def oneSize : List Label := [.ask 30, .send, .setSize, .note, .ack]

/-- Both sides: a history with a size set, and one in which a request gave up. -/
example : (∃ s0 s, Run s0 oneSize s ∧ s.exited = false ∧ s.disp = .shows ∧ s.req = none ∧ .ackTimeout ∉ oneSize) ∧
    (∃ s0 s, Run s0 late s ∧ s.exited = false ∧ s.disp = .shows ∧ s.req = none ∧ .ackTimeout ∈ late) :=
  ⟨⟨start table 7 3 24 fun _ => 24, _, ⟨⟨_, _, _, _, _, rfl, rfl⟩, rfl⟩, rfl, rfl, rfl, by decide⟩,
   ⟨start table 7 3 24 fun _ => 24, _, ⟨⟨_, _, _, _, _, rfl, rfl⟩, rfl⟩, rfl, rfl, rfl, by decide⟩⟩

end Shpool.PagerSize
