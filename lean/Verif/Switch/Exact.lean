import Verif.Switch.Props
/-! # C161, exactly: what may be typed during a switch -/

namespace Shpool.Switch
open Shpool

/-- What has been sent or can still be read, in order. -/
private def out (s : St) : List UInt8 := (s.sent.map Prod.snd).flatten ++ s.queue ++ s.line

private theorem between_cooked {tty : Bool} {cooked : List UInt8 → UInt8 → Effect} {ls : List Label} {s : St} (h : Run tty cooked ls s) :
    s.phase = .between → s.raw = false := by
  refine run_inv (step := step tty cooked) (I := fun s => s.phase = .between → s.raw = false) (fun s l s' hI hs => ?_) (by simp [init]) h
  cases l <;> simp only [step] at hs
  all_goals (repeat' split at hs) <;> cases hs
  all_goals first
    | exact hI
    | (dsimp only; split <;> simp)
    | simp

/-- A step that types nothing changes nothing of it. -/
private theorem untyped {tty : Bool} {s s' : St} {l : Label} (hs : step tty sane s l = some s') (hl : ∀ c, l ≠ .type c) :
    out s' = out s ∧ s'.typed = s.typed ∧ s.phase ≠ .gone ∧ s'.phase ≠ .gone := by
  cases l with
  | type c => exact absurd rfl (hl c)
  | hint =>
    simp only [step] at hs; split at hs <;> cases hs
    next h => exact ⟨rfl, rfl, by rcases h with h | h <;> simp [h], by rcases h with h | h <;> simp [h]⟩
  | check =>
    simp only [step] at hs; split at hs <;> cases hs
    next h => exact ⟨rfl, rfl, by simp [h], by dsimp only; split <;> simp⟩
  | timeout => simp only [step] at hs; split at hs <;> cases hs; next h => exact ⟨rfl, rfl, by simp [h], by simp⟩
  | read n =>
    simp only [step] at hs; split at hs <;> cases hs
    next h =>
    refine ⟨?_, rfl, by simp [h.1], by simp⟩
    simp only [out, List.map_append, List.map_cons, List.map_nil, List.flatten_append, List.flatten_cons, List.flatten_nil, List.append_nil,
      List.append_assoc]
    rw [← List.append_assoc (s.queue.take n), List.take_append_drop]
  | leave => simp only [step] at hs; split at hs <;> cases hs; next h => exact ⟨rfl, rfl, by simp [h], by simp⟩
  | enter =>
    simp only [step] at hs; split at hs <;> cases hs
    next h => exact ⟨by simp [out], rfl, by simp [h], by simp⟩

/-- What typing does to it. -/
private theorem typing {tty : Bool} {s s' : St} {c : UInt8} (hl : s.raw = true ∨ tty = false → s.line = []) (hs : step tty sane s (.type c) = some s') :
    s.phase ≠ .gone ∧ s'.typed = s.typed ++ [c] ∧
    (s.raw = true ∨ tty = false → out s' = out s ++ [c] ∧ s'.phase = s.phase) ∧
    (s.raw = false → tty = true → (c ∉ [3, 28, 26, 13, 4, 127, 21] → out s' = out s ++ [c] ∧ s'.phase = s.phase) ∧
      (c ∈ [3, 28, 26, 13, 4, 127, 21] → s'.phase = .gone ∨ (∃ d, d ≠ c ∧ out s' = out s ++ [d]) ∨ (out s').length ≤ (out s).length)) := by
  simp only [step] at hs
  split at hs
  · cases hs
  · next hg =>
    refine ⟨hg, ?_⟩
    split at hs
    · next hr =>
      cases hs
      refine ⟨rfl, fun _ => ⟨by simp [out, hl hr], rfl⟩, fun h1 h2 => ?_⟩
      rcases hr with h | h
      · rw [h1] at h; cases h
      · rw [h2] at h; cases h
    · next hr =>
      have key : ∀ (P : Prop), (s.raw = true ∨ tty = false → P) := fun P h => absurd h hr
      by_cases hc1 : c = 3 ∨ c = 28 ∨ c = 26
      · have e : sane s.line c = .signal := by simp [sane, hc1]
        rw [e] at hs; cases hs
        refine ⟨rfl, key _, fun _ _ => ⟨fun h => ?_, fun _ => .inl rfl⟩⟩
        rcases hc1 with rfl | rfl | rfl <;> exact absurd (by decide) h
      · by_cases hc2 : c = 13 ∨ c = 10
        · have e : sane s.line c = .ended (s.line ++ [10]) := by simp [sane, hc1, hc2]
          rw [e] at hs; cases hs
          have ho : ∀ x, out { s with queue := s.queue ++ (s.line ++ [10]), line := [], typed := x } = out s ++ [10] := fun x => by simp [out]
          refine ⟨rfl, key _, fun _ _ => ⟨fun h => ⟨?_, rfl⟩, fun h => .inr (.inl ⟨10, ?_, ho _⟩)⟩⟩
          · rcases hc2 with rfl | rfl
            · exact absurd (by decide) h
            · exact ho _
          · rcases hc2 with rfl | rfl
            · decide
            · exact absurd h (by decide)
        · by_cases hc3 : c = 4
          · have e : sane s.line c = .ended (s.line ++ [0]) := by simp [sane, hc3]
            rw [e] at hs; cases hs
            refine ⟨rfl, key _, fun _ _ => ⟨fun h => ?_, fun h => .inr (.inl ⟨0, ?_, by simp [out]⟩)⟩⟩
            · subst hc3; exact absurd (by decide) h
            · subst hc3; decide
          · by_cases hc4 : c = 127
            · have e : sane s.line c = .line s.line.dropLast := by simp [sane, hc4]
              rw [e] at hs; cases hs
              refine ⟨rfl, key _, fun _ _ => ⟨fun h => ?_, fun h => .inr (.inr ?_)⟩⟩
              · subst hc4; exact absurd (by decide) h
              · simp [out]
            · by_cases hc5 : c = 21
              · have e : sane s.line c = .line [] := by simp [sane, hc5]
                rw [e] at hs; cases hs
                refine ⟨rfl, key _, fun _ _ => ⟨fun h => ?_, fun h => .inr (.inr ?_)⟩⟩
                · subst hc5; exact absurd (by decide) h
                · simp [out]
              · have e : sane s.line c = .line (s.line ++ [c]) := by simp [sane, hc1, hc2, hc3, hc4, hc5]
                rw [e] at hs; cases hs
                refine ⟨rfl, key _, fun _ _ => ⟨fun h => ⟨by simp [out], rfl⟩, fun h => ?_⟩⟩
                simp at h
                exact absurd h (by simp only [not_or] at hc1 hc2 ⊢; exact ⟨hc1.1, hc1.2.1, hc1.2.2, hc2.1, hc3, hc4, hc5⟩)

/-- Something was typed between two sessions that the usual settings do not leave as it is. -/
private def Offence (tty : Bool) (ls : List Label) : Prop :=
  tty = true ∧ ∃ pre c post s1, ls = pre ++ .type c :: post ∧ Run tty sane pre s1 ∧ s1.phase = .between ∧ c ∈ [3, 28, 26, 13, 4, 127, 21]

private theorem offence_snoc {tty : Bool} {ls : List Label} {l : Label} {s : St} (hr : Run tty sane ls s) (h : Offence tty (ls ++ [l])) :
    Offence tty ls ∨ tty = true ∧ ∃ c, l = .type c ∧ s.phase = .between ∧ c ∈ [3, 28, 26, 13, 4, 127, 21] := by
  obtain ⟨ht, pre, c, post, s1, e, h1, hb, hc⟩ := h
  rcases List.eq_nil_or_concat post with rfl | ⟨post', x, rfl⟩
  · obtain ⟨rfl, e2⟩ := List.append_inj' e rfl
    cases e2
    cases (show runSteps (step tty sane) init ls = some s from hr).symm.trans h1
    exact .inr ⟨ht, c, rfl, hb, hc⟩
  · have e2 : ls ++ [l] = (pre ++ .type c :: post') ++ [x] := by rw [e]; simp
    obtain ⟨rfl, -⟩ := List.append_inj' e2 rfl
    exact .inl ⟨ht, pre, c, post', s1, rfl, h1, hb, hc⟩

private theorem exact_run {tty : Bool} {ls : List Label} {s : St} (h : Run tty sane ls s) :
    (s.phase ≠ .gone ∧ out s = s.typed ∧ ¬ Offence tty ls) ∨
    ((s.phase = .gone ∨ out s ≠ s.typed ∧ (out s).length ≤ s.typed.length) ∧ Offence tty ls) := by
  refine (run_hist (step := step tty sane) (s := init) (I := fun ls s => Run tty sane ls s ∧ ((s.phase ≠ .gone ∧ out s = s.typed ∧ ¬ Offence tty ls) ∨
    ((s.phase = .gone ∨ out s ≠ s.typed ∧ (out s).length ≤ s.typed.length) ∧ Offence tty ls)))
    (fun ls s l s' hI hs => ?_) ⟨rfl, .inl ⟨by simp [init], rfl, fun ⟨_, pre, _, _, _, e, _⟩ => by cases pre <;> cases e⟩⟩ h).2
  obtain ⟨hr, hI⟩ := hI
  refine ⟨by unfold Run at hr ⊢; rw [run_append, hr]; simp [runSteps, hs], ?_⟩
  obtain ⟨r1, r2, r3⟩ := raw_inv hr
  by_cases hl : ∀ c, l ≠ .type c
  · obtain ⟨e1, e2, e3, e4⟩ := untyped hs hl
    rw [e1, e2]
    rcases hI with ⟨-, a, b⟩ | ⟨a, ht, pre, c, post, s1, e, b⟩
    · refine .inl ⟨e4, a, fun ho => ?_⟩
      rcases offence_snoc hr ho with ho | ⟨_, c, rfl, _⟩
      · exact b ho
      · exact hl c rfl
    · exact .inr ⟨.inr (a.resolve_left e3), ht, pre, c, post ++ [l], s1, by rw [e]; simp, b⟩
  · have ⟨c, hc⟩ := Classical.not_forall.mp hl
    have hc := Classical.not_not.mp hc
    subst hc
    obtain ⟨e1, e2, e3, e4⟩ := typing (fun h => h.elim r2 fun h => (r3 h).1) hs
    rw [e2]
    rcases hI with ⟨a1, a, b⟩ | ⟨a, ho⟩
    · by_cases hraw : s.raw = true ∨ tty = false
      · obtain ⟨f1, f2⟩ := e3 hraw
        refine .inl ⟨f2 ▸ a1, by rw [f1, a], fun ho => ?_⟩
        rcases offence_snoc hr ho with ho | ⟨ht, _, _, hb, _⟩
        · exact b ho
        · rcases hraw with h | h
          · rw [between_cooked hr hb] at h; cases h
          · rw [h] at ht; cases ht
      · have hraw' : s.raw = false ∧ tty = true := by
          cases h1 : s.raw <;> cases h2 : tty <;> simp_all
        obtain ⟨f1, f2⟩ := e4 hraw'.1 hraw'.2
        have hb : s.phase = .between := (r1 hraw'.1).resolve_right e1
        by_cases hm : c ∈ [3, 28, 26, 13, 4, 127, 21]
        · refine .inr ⟨?_, hraw'.2, ls, c, [], s, rfl, hr, hb, hm⟩
          rcases f2 hm with h | ⟨d, hd, h⟩ | h
          · exact .inl h
          · exact .inr ⟨by rw [h, a]; simpa using hd, by rw [h, a]; simp⟩
          · rw [a] at h
            exact .inr ⟨fun h' => by rw [h'] at h; simp at h; omega, by simp; omega⟩
        · obtain ⟨g1, g2⟩ := f1 hm
          refine .inl ⟨g2 ▸ a1, by rw [g1, a], fun ho => ?_⟩
          rcases offence_snoc hr ho with ho | ⟨_, _, e, _, hm'⟩
          · exact b ho
          · cases e; exact hm hm'
    · refine .inr ⟨?_, ?_⟩
      · obtain ⟨a, a2⟩ := a.resolve_left e1
        have grow : ∀ d, out s' = out s ++ [d] → s'.phase = .gone ∨ out s' ≠ s.typed ++ [c] ∧ (out s').length ≤ (s.typed ++ [c]).length := by
          intro d hd
          refine .inr ⟨fun h => ?_, by rw [hd]; simpa using a2⟩
          rw [hd] at h
          exact a (List.append_inj' h rfl).1
        by_cases hraw : s.raw = true ∨ tty = false
        · exact grow c (e3 hraw).1
        · have hraw' : s.raw = false ∧ tty = true := by
            cases h1 : s.raw <;> cases h2 : tty <;> simp_all
          obtain ⟨f1, f2⟩ := e4 hraw'.1 hraw'.2
          by_cases hm : c ∈ [3, 28, 26, 13, 4, 127, 21]
          · rcases f2 hm with h | ⟨d, hd, h⟩ | h
            · exact .inl h
            · exact grow d h
            · exact .inr ⟨fun h' => by rw [h'] at h; simp at h; omega, by simp; omega⟩
          · exact grow c (f1 hm).1
      · obtain ⟨ht, pre, c', post, s1, e, b⟩ := ho
        exact ⟨ht, pre, c', post ++ [.type c], s1, by rw [e]; simp, b⟩

/-- **C161**, exactly, with the usual settings: what is typed is sent as it was typed, or can still be read, and the client goes on, iff the client is not on a
terminal, or none of these was typed between two sessions: ^C, ^\, ^Z, return, ^D, backspace, ^U. -/
theorem C161_exact {tty : Bool} {ls : List Label} {s : St} (h : Run tty sane ls s) :
    (s.phase ≠ .gone ∧ (s.sent.map Prod.snd).flatten ++ s.queue ++ s.line = s.typed) ↔
      tty = false ∨ ∀ pre c post s1, ls = pre ++ .type c :: post → Run tty sane pre s1 → s1.phase = .between → c ∉ [3, 28, 26, 13, 4, 127, 21] := by
  rcases exact_run h with ⟨h1, h2, h3⟩ | ⟨h1, ht, pre, c, post, s1, e, hr, hb, hc⟩
  · refine ⟨fun _ => ?_, fun _ => ⟨h1, h2⟩⟩
    cases ht : tty with
    | false => exact .inl rfl
    | true =>
      subst ht
      exact .inr fun pre c post s1 e hr hb hc => h3 ⟨rfl, pre, c, post, s1, e, hr, hb, hc⟩
  · refine ⟨fun ⟨h2, h3⟩ => ?_, fun h2 => ?_⟩
    · rcases h1 with h1 | h1
      · exact absurd h1 h2
      · exact absurd h3 h1.1
    · rcases h2 with h2 | h2
      · rw [ht] at h2; cases h2
      · exact absurd hc (h2 pre c post s1 e hr hb)

/-- A newline during a switch is kept, a return is not. -/
example : ∃ s, Run true sane (switching ++ [.type 97, .type 10, .enter]) s ∧ s.phase = .top ∧ s.queue = s.typed := ⟨_, rfl, rfl, rfl⟩

end Shpool.Switch
