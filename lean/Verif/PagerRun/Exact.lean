import Verif.PagerRun.Props
/-! # C140, exactly: when another process is sent a signal meant for the pager -/

namespace Shpool.PagerRun
open Shpool

/-- Spec: SIGTERM is sent by the step: the display is over, and the flag that the pager has exited has not been set. -/
def Terms (pre : List Label) (s : St) (l : Label) : Prop := l = .guard ∧ (∃ r, s.main = .guard r) ∧ .setFlag ∉ pre

/-- Spec: SIGKILL is sent by the step: all waits are over.  Nothing is asked about the flag. -/
def Kills (s : St) (l : Label) : Prop := l = .look ∧ ∃ r, s.main = .killing 0 r

/-- Spec: the signal was sent after the process number had been given to another process. -/
def Astray (ls : List Label) (g : Sig) : Prop :=
  ∃ pre l post s, ls = pre ++ l :: post ∧ Run pre s ∧ .reuse ∈ pre ∧ ((g = .term ∧ Terms pre s l) ∨ (g = .kill ∧ Kills s l))

private theorem astray_more {ls : List Label} {g : Sig} (l : Label) (h : Astray ls g) : Astray (ls ++ [l]) g := by
  obtain ⟨pre, l', post, s, rfl, h⟩ := h
  exact ⟨pre, l', post ++ [l], s, by simp, h⟩

private theorem astray_back {ls : List Label} {g : Sig} {l : Label} (h : Astray (ls ++ [l]) g) :
    Astray ls g ∨ ∃ s, Run ls s ∧ .reuse ∈ ls ∧ ((g = .term ∧ Terms ls s l) ∨ (g = .kill ∧ Kills s l)) := by
  obtain ⟨pre, l', post, s, e, h⟩ := h
  rcases List.eq_nil_or_concat post with rfl | ⟨post', x, rfl⟩
  · have := List.append_inj' e rfl
    obtain ⟨rfl, e2⟩ := this
    cases e2
    exact .inr ⟨s, h⟩
  · have h' : ls ++ [l] = (pre ++ l' :: post') ++ [x] := by rw [e]; simp
    have := List.append_inj' h' rfl
    exact .inl ⟨pre, l', post', s, this.1, h⟩

private def Told (ls : List Label) (s : St) : Prop :=
  Run ls s ∧ (s.proc = .reused ↔ .reuse ∈ ls) ∧ (s.flag = true ↔ .setFlag ∈ ls) ∧ (.reuse ∈ ls → s.proc = .reused) ∧
  ∀ g, (g, .reused) ∈ s.signals ↔ Astray ls g

private theorem told_step (ls : List Label) (s : St) (l : Label) (s' : St) (h : Told ls s) (hs : step s l = some s') : Told (ls ++ [l]) s' := by
  obtain ⟨h0, h1, h2, h3, h4⟩ := h
  have hrun : Run (ls ++ [l]) s' := by
    unfold Run at h0 ⊢
    rw [run_append, h0]
    show runSteps step s [l] = _
    simp only [runSteps, hs]
  have one : ∀ {t}, Run ls t → t = s := fun {t} ht => by
    unfold Run at ht h0
    rw [ht] at h0
    exact Option.some.inj h0
  refine ⟨hrun, ?_⟩
  have quiet : (∀ r, ¬ (l = .guard ∧ s.main = .guard r ∧ s.flag = false)) → (∀ r, ¬ (l = .look ∧ s.main = .killing 0 r)) →
      ∀ g, Astray (ls ++ [l]) g ↔ Astray ls g := by
    intro q1 q2 g
    refine ⟨fun h => ?_, astray_more l⟩
    rcases astray_back h with h | ⟨t, ht, _, ⟨_, e, ⟨r, hr⟩, hf⟩ | ⟨_, e, r, hr⟩⟩
    · exact h
    · cases one ht
      refine absurd ⟨e, hr, ?_⟩ (q1 r)
      cases hfl : s.flag with
      | false => rfl
      | true => exact absurd (h2.mp hfl) hf
    · cases one ht
      exact absurd ⟨e, hr⟩ (q2 r)
  cases l with
  | guard =>
    simp only [step] at hs
    split at hs
    · next r hm =>
      by_cases hf : s.flag = true
      · rw [if_pos hf] at hs
        cases hs
        refine ⟨by simpa using h1, by simpa using h2, by simpa using h3, fun g => ?_⟩
        rw [quiet (fun _ h => by rw [hf] at h; cases h.2.2) (fun _ h => by cases h.1)]
        exact h4 g
      · rw [if_neg hf] at hs
        have hnf : .setFlag ∉ ls := fun e => hf (h2.mpr e)
        have sent : ∀ g, .reuse ∈ ls → (Astray (ls ++ [.guard]) g ↔ Astray ls g ∨ g = .term) := by
          intro g hr
          refine ⟨fun h => ?_, fun h => h.elim (astray_more _) fun e => ⟨ls, .guard, [], s, rfl, h0, hr, .inl ⟨e, rfl, ⟨r, hm⟩, hnf⟩⟩⟩
          rcases astray_back h with h | ⟨t, ht, _, ⟨e, _⟩ | ⟨_, e, _⟩⟩
          · exact .inl h
          · exact .inr e
          · cases e
        have notSent : .reuse ∉ ls → ∀ g, ¬ Astray (ls ++ [.guard]) g := by
          rintro hr g ⟨pre, l', post, t, e, _, hp, _⟩
          have : .reuse ∈ ls ++ [.guard] := by rw [e]; exact List.mem_append_left _ hp
          simp at this
          exact hr this
        have notBefore : .reuse ∉ ls → ∀ g, ¬ Astray ls g := fun hr g h => notSent hr g (astray_more _ h)
        unfold St.signal at hs
        cases hp : s.proc <;> rw [hp] at hs <;> simp only [Option.some.injEq] at hs <;> subst hs <;>
          simp only [hp, List.mem_append, List.mem_singleton, reduceCtorEq, or_false, List.mem_cons, List.not_mem_nil, false_or, if_false, Prod.mk.injEq, and_false] at h1 h2 h3 ⊢
        all_goals
          first
          | (have hr : .reuse ∉ ls := fun e => by simpa using h3 e
             refine ⟨by simpa using hr, h2, fun e => absurd e hr, fun g => ?_⟩
             rw [h4 g]
             exact ⟨fun e => absurd e (notBefore hr g), fun e => absurd e (notSent hr g)⟩)
          | (have hr : .reuse ∈ ls := h1.mp trivial
             refine ⟨by simpa using hr, h2, fun _ => trivial, fun g => ?_⟩
             rw [sent g hr, h4 g]
             simp)
    · cases hs
  | look =>
    simp only [step] at hs
    split at hs
    · next r hm =>
      have sent : ∀ g, .reuse ∈ ls → (Astray (ls ++ [.look]) g ↔ Astray ls g ∨ g = .kill) := by
        intro g hr
        refine ⟨fun h => ?_, fun h => h.elim (astray_more _) fun e => ⟨ls, .look, [], s, rfl, h0, hr, .inr ⟨e, rfl, r, hm⟩⟩⟩
        rcases astray_back h with h | ⟨t, ht, _, ⟨_, e, _⟩ | ⟨e, _⟩⟩
        · exact .inl h
        · cases e
        · exact .inr e
      have notSent : .reuse ∉ ls → ∀ g, ¬ Astray (ls ++ [.look]) g := by
        rintro hr g ⟨pre, l', post, t, e, _, hp, _⟩
        have : .reuse ∈ ls ++ [.look] := by rw [e]; exact List.mem_append_left _ hp
        simp at this
        exact hr this
      have notBefore : .reuse ∉ ls → ∀ g, ¬ Astray ls g := fun hr g h => notSent hr g (astray_more _ h)
      unfold St.signal at hs
      cases hp : s.proc <;> rw [hp] at hs <;> simp only [Option.some.injEq] at hs <;> subst hs <;>
        simp only [hp, List.mem_append, List.mem_singleton, reduceCtorEq, or_false, List.mem_cons, List.not_mem_nil, false_or, if_true, Prod.mk.injEq, and_false] at h1 h2 h3 ⊢
      all_goals
        first
        | (have hr : .reuse ∉ ls := fun e => by simpa using h3 e
           refine ⟨by simpa using hr, h2, fun e => absurd e hr, fun g => ?_⟩
           rw [h4 g]
           exact ⟨fun e => absurd e (notBefore hr g), fun e => absurd e (notSent hr g)⟩)
        | (have hr : .reuse ∈ ls := h1.mp trivial
           refine ⟨by simpa using hr, h2, fun _ => trivial, fun g => ?_⟩
           rw [sent g hr, h4 g]
           simp)
    · next n r hm =>
      have q := quiet (fun _ h => by cases h.1) (fun _ h => by rw [hm] at h; cases h.2)
      split at hs <;> cases hs <;> exact ⟨by simpa using h1, by simpa using h2, by simpa using h3, fun g => (h4 g).trans (q g).symm⟩
    · cases hs
  | exit | reap | reuse | setFlag | print _ | press _ | type _ | close | pollFails | readClientFails =>
    have q := quiet (fun _ h => by cases h.1) (fun _ h => by cases h.1)
    simp only [step] at hs
    split at hs <;> cases hs
    exact ⟨by simp_all, by simp_all, by simp_all, fun g => (h4 g).trans (q g).symm⟩
  | wake _ | beatDone _ | readPty _ | readPtyFails | showDone _ | readClient _ | feedDone | feedFails _ =>
    have q := quiet (fun _ h => by cases h.1) (fun _ h => by cases h.1)
    simp only [step] at hs
    repeat' split at hs
    all_goals cases hs
    all_goals exact ⟨by simpa using h1, by simpa using h2, by simpa using h3, fun g => (h4 g).trans (q g).symm⟩

/-- **C140, exactly**: another process is sent SIGTERM if and only if it has the pager's number when the display ends and the thread that waits for
the pager has not set its flag yet; and SIGKILL if and only if it has the number when the waits are over, whether or not the flag is set. -/
theorem C140_exact {ls : List Label} {s : St} (h : Run ls s) (g : Sig) : (g, .reused) ∈ s.signals ↔ Astray ls g := by
  have : Told ls s := by
    refine run_hist (I := Told) told_step ⟨rfl, ⟨nofun, nofun⟩, ⟨nofun, nofun⟩, nofun, fun g => ⟨nofun, ?_⟩⟩ h
    rintro ⟨pre, l, post, t, e, _⟩
    cases pre <;> cases e
  exact this.2.2.2.2 g

/-- Both happen: SIGTERM before the flag is set, SIGKILL (in `lateExit`) after. -/
example : (∃ s s', Run [.exit, .reap, .reuse, .wake false, .readPty 1] s ∧ step s .guard = some s' ∧ (.term, .reused) ∈ s'.signals) ∧
    ∃ s, Run lateExit s ∧ s.flag = true ∧ (.kill, .reused) ∈ s.signals :=
  ⟨⟨_, _, rfl, rfl, by decide⟩, ⟨_, rfl, rfl, by decide⟩⟩

end Shpool.PagerRun
