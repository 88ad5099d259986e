import Verif.Switch.Model
/-!
# C161: typing while a client switches sessions
-/

namespace Shpool.Switch

/-- C161: whatever is typed is sent, as it was typed and in order, or still waits to be read; and the client goes on. -/
def C161_statement : Prop := ∀ (tty : Bool) (ls : List Label) (s : St), Run tty sane ls s →
  s.phase ≠ .gone ∧ (s.sent.map Prod.snd).flatten ++ s.queue ++ s.line = s.typed

/-- The client is attached, is told to switch, and has left the session. -/
def switching : List Label := [.hint, .check, .leave]

/-- **C161** is false: return typed during the switch arrives as newline. -/
theorem C161_false : ¬ C161_statement := by
  intro h
  have hr : Run true sane (switching ++ [.type 13, .enter, .check, .read 1]) ⟨.top, true, [], [], 1, false, [(1, [10])], [13]⟩ := rfl
  have := (h _ _ _ hr).2
  revert this
  decide

/-- Interrupting the program in the session during the switch ends the client instead. -/
theorem C161_false_interrupt : ∃ s, Run true sane (switching ++ [.type 3]) s ∧ s.phase = .gone := ⟨_, rfl, rfl⟩

/-- Backspace takes away what was typed during the switch, and has no effect on what was typed before. -/
theorem C161_false_erase (c : UInt8) (hc : c ≠ 3 ∧ c ≠ 28 ∧ c ≠ 26 ∧ c ≠ 13 ∧ c ≠ 10 ∧ c ≠ 4 ∧ c ≠ 127 ∧ c ≠ 21) :
    ∃ s, Run true sane (.type 97 :: switching ++ [.type 127, .type c, .type 127, .type 127, .enter]) s ∧ s.queue = [97] ∧
      s.typed = [97, 127, c, 127, 127] := by
  obtain ⟨h1, h2, h3, h4, h5, h6, h7, h8⟩ := hc
  refine ⟨⟨.top, true, [97], [], 1, false, [], [97, 127, c, 127, 127]⟩, ?_, rfl, rfl⟩
  have e : ∀ l, sane l c = .line (l ++ [c]) := fun l => by simp [sane, h1, h2, h3, h4, h5, h6, h7, h8]
  have e127 : ∀ l, sane l 127 = .line l.dropLast := fun l => rfl
  simp [Run, switching, runSteps, step, init, e, e127]

/-- The characters that mean nothing special with the former settings. -/
def Plain (cooked : List UInt8 → UInt8 → Effect) (c : UInt8) : Prop := ∀ l, cooked l c = .line (l ++ [c])

/-- With the usual settings these are all but the eight. -/
theorem C161_plain (c : UInt8) : Plain sane c ↔ c ∉ [3, 28, 26, 13, 10, 4, 127, 21] := by
  constructor
  · intro h hm
    simp only [List.mem_cons, List.not_mem_nil, or_false] at hm
    have := h [1]
    rcases hm with rfl | rfl | rfl | rfl | rfl | rfl | rfl | rfl <;> revert this <;> decide
  · intro h l
    simp only [List.mem_cons, List.not_mem_nil, or_false, not_or] at h
    simp [sane, h]

theorem raw_inv {tty : Bool} {cooked : List UInt8 → UInt8 → Effect} {ls : List Label} {s : St} (h : Run tty cooked ls s) :
    (s.raw = false → s.phase = .between ∨ s.phase = .gone) ∧ (s.raw = true → s.line = []) ∧ (tty = false → s.line = [] ∧ s.phase ≠ .gone) := by
  refine run_inv (step := step tty cooked) (I := fun s => (s.raw = false → s.phase = .between ∨ s.phase = .gone) ∧
    (s.raw = true → s.line = []) ∧ (tty = false → s.line = [] ∧ s.phase ≠ .gone)) ?_ ⟨by simp [init], by simp [init], by simp [init]⟩ h
  intro s l s' ⟨h1, h2, h3⟩ hs
  cases l <;> simp only [step] at hs <;> (repeat' split at hs) <;> cases hs <;> simp_all

/-- What a step does to what is kept, if the character typed with the former settings is a plain one. -/
private theorem keep_step {tty : Bool} {cooked : List UInt8 → UInt8 → Effect} {s s' : St} {l : Label}
    (hp : ∀ c, l = .type c → s.raw = true ∨ tty = false ∨ Plain cooked c)
    (hr : s.raw = true ∨ tty = false → s.line = [])
    (hI : s.phase ≠ .gone ∧ (s.sent.map Prod.snd).flatten ++ s.queue ++ s.line = s.typed) (hs : step tty cooked s l = some s') :
    s'.phase ≠ .gone ∧ (s'.sent.map Prod.snd).flatten ++ s'.queue ++ s'.line = s'.typed := by
  obtain ⟨h1, h2⟩ := hI
  cases l with
  | type c =>
    simp only [step, if_neg h1] at hs
    split at hs
    · rename_i hc
      cases hs
      refine ⟨h1, ?_⟩
      have := hr hc
      simp only [this, List.append_nil] at h2 ⊢
      rw [← h2]; simp
    · rename_i hc
      have hpl : Plain cooked c := by
        rcases hp c rfl with h | h | h
        · exact absurd (.inl h) hc
        · exact absurd (.inr h) hc
        · exact h
      rw [hpl] at hs
      cases hs
      exact ⟨h1, by dsimp only; rw [← h2]; simp⟩
  | hint => simp only [step] at hs; split at hs <;> cases hs; exact ⟨h1, h2⟩
  | check =>
    simp only [step] at hs; split at hs <;> cases hs
    exact ⟨by dsimp only; split <;> simp, h2⟩
  | timeout => simp only [step] at hs; split at hs <;> cases hs; exact ⟨by simp, h2⟩
  | read n =>
    simp only [step] at hs; split at hs <;> cases hs
    refine ⟨by simp, ?_⟩
    dsimp only
    rw [← h2]
    simp only [List.map_append, List.map_cons, List.map_nil, List.flatten_append, List.flatten_cons, List.flatten_nil, List.append_nil,
      List.append_assoc]
    rw [← List.append_assoc (s.queue.take n), List.take_append_drop]
  | leave => simp only [step] at hs; split at hs <;> cases hs; exact ⟨by simp, h2⟩
  | enter =>
    simp only [step] at hs; split at hs <;> cases hs
    exact ⟨by simp, by dsimp only; rw [← h2]; simp⟩

/-- **C161**, whatever the former settings: it holds if all that is typed between two sessions are plain characters. -/
theorem C161_plain_partial {tty : Bool} {cooked : List UInt8 → UInt8 → Effect} {ls : List Label} {s : St} (h : Run tty cooked ls s)
    (hp : ∀ pre c post s1, ls = pre ++ .type c :: post → Run tty cooked pre s1 → s1.phase = .between → Plain cooked c) :
    s.phase ≠ .gone ∧ (s.sent.map Prod.snd).flatten ++ s.queue ++ s.line = s.typed := by
  have := run_hist (step := step tty cooked) (s := init) (I := fun ls s => Run tty cooked ls s ∧
    ((∀ pre c post s1, ls = pre ++ .type c :: post → Run tty cooked pre s1 → s1.phase = .between → Plain cooked c) →
      s.phase ≠ .gone ∧ (s.sent.map Prod.snd).flatten ++ s.queue ++ s.line = s.typed)) ?_ ⟨rfl, fun _ => ⟨by simp [init], rfl⟩⟩ h
  · exact this.2 hp
  · intro ls s l s' ⟨hr, hI⟩ hs
    refine ⟨?_, fun hq => ?_⟩
    · unfold Run at hr ⊢; rw [run_append, hr]; simp [runSteps, hs]
    · have hI := hI fun pre c post s1 he => hq pre c (post ++ [l]) s1 (by rw [he]; simp)
      obtain ⟨r1, r2, r3⟩ := raw_inv hr
      refine keep_step (fun c hl => ?_) (fun hc => hc.elim r2 (fun ht => (r3 ht).1)) hI hs
      cases hraw : s.raw with
      | true => exact .inl rfl
      | false =>
        rcases r1 hraw with hb | hg
        · exact .inr (.inr (hq ls c [] s (by rw [hl]) hr hb))
        · exact absurd hg hI.1

/-- Return and newline taken for the same. -/
def lineEnd (c : UInt8) : UInt8 := if c = 13 then 10 else c

private theorem lines_step {tty : Bool} {s s' : St} {l : Label}
    (hp : ∀ c, l = .type c → s.raw = true ∨ tty = false ∨ c ∉ [3, 28, 26, 4, 127, 21])
    (hr : s.raw = true ∨ tty = false → s.line = [])
    (hI : s.phase ≠ .gone ∧ ((s.sent.map Prod.snd).flatten ++ s.queue ++ s.line).map lineEnd = s.typed.map lineEnd)
    (hs : step tty sane s l = some s') :
    s'.phase ≠ .gone ∧ ((s'.sent.map Prod.snd).flatten ++ s'.queue ++ s'.line).map lineEnd = s'.typed.map lineEnd := by
  obtain ⟨h1, h2⟩ := hI
  cases l with
  | type c =>
    simp only [step, if_neg h1] at hs
    split at hs
    · rename_i hc
      cases hs
      refine ⟨h1, ?_⟩
      have := hr hc
      simp only [this, List.append_nil] at h2 ⊢
      rw [show (s.typed ++ [c]).map lineEnd = s.typed.map lineEnd ++ [lineEnd c] by simp, ← h2]; simp
    · rename_i hc
      have hpl : c ∉ [3, 28, 26, 4, 127, 21] := by
        rcases hp c rfl with h | h | h
        · exact absurd (.inl h) hc
        · exact absurd (.inr h) hc
        · exact h
      simp only [List.mem_cons, List.not_mem_nil, or_false, not_or] at hpl
      obtain ⟨n1, n2, n3, n4, n5, n6⟩ := hpl
      by_cases hret : c = 13 ∨ c = 10
      · have e : sane s.line c = .ended (s.line ++ [10]) := by simp [sane, n1, n2, n3, hret]
        rw [e] at hs
        cases hs
        refine ⟨h1, ?_⟩
        have hl : lineEnd c = 10 := by rcases hret with rfl | rfl <;> rfl
        rw [show (s.typed ++ [c]).map lineEnd = s.typed.map lineEnd ++ [10] by simp [hl], ← h2]
        simp [lineEnd]
      · have e : sane s.line c = .line (s.line ++ [c]) := by simp [sane, n1, n2, n3, n4, n5, n6, hret]
        rw [e] at hs
        cases hs
        refine ⟨h1, ?_⟩
        rw [show (s.typed ++ [c]).map lineEnd = s.typed.map lineEnd ++ [lineEnd c] by simp, ← h2]
        simp
  | hint => simp only [step] at hs; split at hs <;> cases hs; exact ⟨h1, h2⟩
  | check =>
    simp only [step] at hs; split at hs <;> cases hs
    exact ⟨by dsimp only; split <;> simp, h2⟩
  | timeout => simp only [step] at hs; split at hs <;> cases hs; exact ⟨by simp, h2⟩
  | read n =>
    simp only [step] at hs; split at hs <;> cases hs
    refine ⟨by simp, ?_⟩
    dsimp only
    rw [← h2]
    congr 1
    simp only [List.map_append, List.map_cons, List.map_nil, List.flatten_append, List.flatten_cons, List.flatten_nil, List.append_nil,
      List.append_assoc]
    rw [← List.append_assoc (s.queue.take n), List.take_append_drop]
  | leave => simp only [step] at hs; split at hs <;> cases hs; exact ⟨by simp, h2⟩
  | enter =>
    simp only [step] at hs; split at hs <;> cases hs
    exact ⟨by simp, by dsimp only; rw [← h2]; simp⟩

/-- **C161**, with the usual settings: if what is typed between two sessions are plain characters and line ends, nothing is lost and
the order is kept; all that can change is which of the two line ends it is. -/
theorem C161_lines_partial {tty : Bool} {ls : List Label} {s : St} (h : Run tty sane ls s)
    (hp : ∀ pre c post s1, ls = pre ++ .type c :: post → Run tty sane pre s1 → s1.phase = .between → c ∉ [3, 28, 26, 4, 127, 21]) :
    s.phase ≠ .gone ∧ ((s.sent.map Prod.snd).flatten ++ s.queue ++ s.line).map lineEnd = s.typed.map lineEnd := by
  have := run_hist (step := step tty sane) (s := init) (I := fun ls s => Run tty sane ls s ∧
    ((∀ pre c post s1, ls = pre ++ .type c :: post → Run tty sane pre s1 → s1.phase = .between → c ∉ [3, 28, 26, 4, 127, 21]) →
      s.phase ≠ .gone ∧ ((s.sent.map Prod.snd).flatten ++ s.queue ++ s.line).map lineEnd = s.typed.map lineEnd)) ?_
    ⟨rfl, fun _ => ⟨by simp [init], rfl⟩⟩ h
  · exact this.2 hp
  · intro ls s l s' ⟨hr, hI⟩ hs
    refine ⟨?_, fun hq => ?_⟩
    · unfold Run at hr ⊢; rw [run_append, hr]; simp [runSteps, hs]
    · have hI := hI fun pre c post s1 he => hq pre c (post ++ [l]) s1 (by rw [he]; simp)
      obtain ⟨r1, r2, r3⟩ := raw_inv hr
      refine lines_step (fun c hl => ?_) (fun hc => hc.elim r2 (fun ht => (r3 ht).1)) hI hs
      cases hraw : s.raw with
      | true => exact .inl rfl
      | false =>
        rcases r1 hraw with hb | hg
        · exact .inr (.inr (hq ls c [] s (by rw [hl]) hr hb))
        · exact absurd hg hI.1

/-- `ls`, a return and another `ls` typed during a switch. -/
example : ∃ s, Run true sane (switching ++ [.type 108, .type 115, .type 13, .type 108, .type 115, .enter, .check, .read 5]) s ∧
    s.sent = [(1, [108, 115, 10, 108, 115])] ∧ s.typed = [108, 115, 13, 108, 115] := ⟨_, rfl, rfl, rfl⟩

/-- **C161** if the client is not on a terminal: always. -/
theorem C161_pipe {cooked : List UInt8 → UInt8 → Effect} {ls : List Label} {s : St} (h : Run false cooked ls s) :
    s.phase ≠ .gone ∧ (s.sent.map Prod.snd).flatten ++ s.queue ++ s.line = s.typed := by
  have := run_hist (step := step false cooked) (s := init) (I := fun ls s => Run false cooked ls s ∧
    s.phase ≠ .gone ∧ (s.sent.map Prod.snd).flatten ++ s.queue ++ s.line = s.typed) ?_ ⟨rfl, by simp [init], rfl⟩ h
  · exact this.2
  · intro ls s l s' ⟨hr, hI⟩ hs
    refine ⟨by unfold Run at hr ⊢; rw [run_append, hr]; simp [runSteps, hs], ?_⟩
    exact keep_step (fun c _ => .inr (.inl rfl)) (fun _ => ((raw_inv hr).2.2 rfl).1) hI hs

/-- **C161**, the order: nothing goes to a session after something went to a later one, and nothing to a session not yet attached to. -/
theorem C161_order {tty : Bool} {cooked : List UInt8 → UInt8 → Effect} {ls : List Label} {s : St} (h : Run tty cooked ls s) :
    (s.sent.map Prod.fst).Pairwise (· ≤ ·) ∧ ∀ p ∈ s.sent, p.1 ≤ s.cur ∧ p.2 ≠ [] := by
  refine run_inv (step := step tty cooked) (I := fun s => (s.sent.map Prod.fst).Pairwise (· ≤ ·) ∧ ∀ p ∈ s.sent, p.1 ≤ s.cur ∧ p.2 ≠ []) ?_
    ⟨by simp [init], by simp [init]⟩ h
  intro s l s' ⟨h1, h2⟩ hs
  cases l with
  | type c => simp only [step] at hs; (repeat' split at hs) <;> cases hs <;> exact ⟨h1, h2⟩
  | hint => simp only [step] at hs; split at hs <;> cases hs; exact ⟨h1, h2⟩
  | check => simp only [step] at hs; split at hs <;> cases hs; exact ⟨h1, h2⟩
  | timeout => simp only [step] at hs; split at hs <;> cases hs; exact ⟨h1, h2⟩
  | leave => simp only [step] at hs; split at hs <;> cases hs; exact ⟨h1, h2⟩
  | enter =>
    simp only [step] at hs; split at hs <;> cases hs
    exact ⟨h1, fun p hp => ⟨Nat.le_succ_of_le (h2 p hp).1, (h2 p hp).2⟩⟩
  | read n =>
    simp only [step] at hs; split at hs <;> cases hs
    rename_i hc
    refine ⟨?_, fun p hp => ?_⟩
    · simp only [List.map_append, List.map_cons, List.map_nil, List.pairwise_append]
      refine ⟨h1, by simp, fun a ha b hb => ?_⟩
      simp only [List.mem_singleton] at hb
      obtain ⟨p, hp, rfl⟩ := List.mem_map.1 ha
      rw [hb]; exact (h2 p hp).1
    · rcases List.mem_append.1 hp with hp | hp
      · exact h2 p hp
      · simp only [List.mem_singleton] at hp
        subst hp
        refine ⟨Nat.le_refl _, ?_⟩
        intro e
        have := congrArg List.length e
        rw [List.length_take, List.length_nil] at this
        omega

/-- The steps that read. -/
def isRead : Label → Bool
  | .read _ => true
  | _ => false

private theorem switch_step {tty : Bool} {cooked : List UInt8 → UInt8 → Effect} {s s' : St} {l : Label} (hsw : s.switch = true)
    (hl : l ≠ .enter) (hs : step tty cooked s l = some s') : s'.switch = true ∧
    (isRead l = true → s.phase = .reading ∧ s'.phase ≠ .reading ∧ s'.sent.length = s.sent.length + 1) ∧
    (isRead l = false → s'.sent = s.sent ∧ (s'.phase = .reading → s.phase = .reading)) := by
  cases l with
  | enter => exact absurd rfl hl
  | read n =>
    simp only [step] at hs; split at hs <;> cases hs
    rename_i hc
    exact ⟨hsw, fun _ => ⟨hc.1, by simp, by simp⟩, nofun⟩
  | type c =>
    simp only [step] at hs
    (repeat' split at hs) <;> cases hs <;> exact ⟨hsw, nofun, fun _ => ⟨rfl, by simp⟩⟩
  | hint => simp only [step] at hs; split at hs <;> cases hs; exact ⟨rfl, nofun, fun _ => ⟨rfl, id⟩⟩
  | check => simp only [step, hsw] at hs; split at hs <;> cases hs; exact ⟨rfl, nofun, fun _ => ⟨rfl, by simp⟩⟩
  | timeout => simp only [step] at hs; split at hs <;> cases hs; exact ⟨hsw, nofun, fun _ => ⟨rfl, by simp⟩⟩
  | leave => simp only [step] at hs; split at hs <;> cases hs; exact ⟨hsw, nofun, fun _ => ⟨rfl, by simp⟩⟩

/-- **C161**, after the hint: as long as the client has not come to the next session, at most one more piece is sent, to the one it is in. -/
theorem C161_one_more {tty : Bool} {cooked : List UInt8 → UInt8 → Effect} {ls ws : List Label} {s s' : St} (_h : Run tty cooked ls s)
    (hh : s.switch = true) (hw : runSteps (step tty cooked) s ws = some s') (hl : .enter ∉ ws) :
    (ws.filter isRead).length ≤ 1 ∧ s'.sent.length = s.sent.length + (ws.filter isRead).length := by
  have key : ∀ (ws : List Label) (s : St), s.switch = true → .enter ∉ ws → runSteps (step tty cooked) s ws = some s' →
      (ws.filter isRead).length ≤ (if s.phase = .reading then 1 else 0) ∧
      s'.sent.length = s.sent.length + (ws.filter isRead).length := by
    intro ws
    induction ws with
    | nil => intro s _ _ h; cases h; simp
    | cons l ws ih =>
      intro s hsw hne h
      obtain ⟨s1, h1, h2⟩ := run_cons_some h
      obtain ⟨a, b, c⟩ := switch_step hsw (fun e => hne (by simp [e])) h1
      have := ih s1 a (fun hm => hne (by simp [hm])) h2
      cases hr : isRead l with
      | true =>
        obtain ⟨b1, b2, b3⟩ := b hr
        rw [if_neg b2] at this
        rw [List.filter_cons_of_pos hr, if_pos b1, List.length_cons]
        omega
      | false =>
        obtain ⟨c1, c2⟩ := c hr
        rw [List.filter_cons_of_neg (by simp [hr]), ← c1]
        refine ⟨Nat.le_trans this.1 ?_, this.2⟩
        split
        · rename_i hp
          rw [if_pos (c2 hp)]; exact Nat.le_refl _
        · exact Nat.zero_le _
  have := key ws s hh hl hw
  split at this <;> omega

/-- Typing before, after the hint, between the sessions and after: the hypotheses of `C161_plain_partial` and `C161_one_more` can be met. -/
example : ∃ s, Run true sane [.type 97, .check, .hint, .type 13, .read 2, .check, .leave, .type 98, .type 99, .enter, .check, .read 1] s ∧
    s.sent = [(0, [97, 13]), (1, [98])] ∧ s.queue = [99] ∧ s.typed = [97, 13, 98, 99] := ⟨_, rfl, rfl, rfl, rfl⟩

end Shpool.Switch
