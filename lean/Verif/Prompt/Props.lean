import Verif.Prompt.Model
/-!
# Properties of attaching across versions (C114)
-/

namespace Shpool.Prompt

/-- The user hits enter at time `t` after typing `typed` (bytes other than a newline, with the times at which they arrive). -/
def Enters (inp : Input) (t : Nat) (typed : List (Nat × UInt8)) (rest : Input) : Prop :=
  inp = typed.map (fun p => (p.1, Ev.byte p.2)) ++ (t, Ev.byte 10) :: rest ∧ (∀ p ∈ typed, p.2 ≠ 10 ∧ p.1 ≤ t)

theorem ask_typed (typed : List (Nat × UInt8)) (now t : Nat) (rest : Input) (hn : now ≤ t) (h : ∀ p ∈ typed, p.2 ≠ 10 ∧ p.1 ≤ t) :
    ask now (typed.map (fun p => (p.1, Ev.byte p.2)) ++ (t, Ev.byte 10) :: rest) = .go t rest := by
  induction typed generalizing now with
  | nil =>
    simp only [List.map_nil, List.nil_append, ask, if_true]
    congr 1; omega
  | cons p typed ih =>
    have hp := h p (by simp)
    simp only [List.map_cons, List.cons_append, ask, if_neg hp.1]
    exact ih _ (by omega) (fun q hq => h q (by simp [hq]))

/-- C114: a user who is warned of different versions and hits enter to continue anyway, as they are asked to, is attached. -/
def C114_statement : Prop := ∀ inp t typed rest, Enters inp t typed rest → ∃ rest', start false true inp = .answered rest'

/-- C114, exactly: what happens depends on how quickly the user answers.  The daemon waits for 200 milliseconds only. -/
theorem C114_quick_partial {inp : Input} {t : Nat} {typed : List (Nat × UInt8)} {rest : Input} (h : Enters inp t typed rest) :
    start false true inp = if t < 200 then .answered rest else .refused := by
  obtain ⟨rfl, ht⟩ := h
  unfold start dial
  simp only [Bool.not_false, Bool.and_self, if_true, ask_typed typed 0 t rest (by omega) ht]
  rfl

/-- C114 is false: who takes a second to read the warning cannot attach. -/
theorem C114_false : ¬ C114_statement := by
  intro h
  obtain ⟨rest', hr⟩ := h [(1000, .byte 10)] 1000 [] [] ⟨rfl, by simp⟩
  rw [show start false true [(1000, .byte 10)] = .refused by decide] at hr
  cases hr

example : Enters [(90, .byte 121), (150, .byte 10), (300, .byte 108)] 150 [(90, 121)] [(300, .byte 108)] := ⟨rfl, by decide⟩
example : start false true [(90, .byte 121), (150, .byte 10), (300, .byte 108)] = .answered [(300, .byte 108)] := by decide

/-- C114: the line typed is all that is taken from standard input: what comes after it is left for the shell. -/
theorem C114_rest {inp : Input} {rest : Input} (h : start false true inp = .answered rest) : ∃ before t e, inp = before ++ (t, e) :: rest ∧
    (e = .byte 10 ∨ e = .eof) ∧ ∀ p ∈ before, p.2 = .intr ∨ ∃ b, p.2 = .byte b ∧ b ≠ 10 := by
  have key : ∀ (inp : Input) (now : Nat) {t : Nat} {rest : Input}, ask now inp = .go t rest → ∃ before t' e, inp = before ++ (t', e) :: rest ∧
      (e = .byte 10 ∨ e = .eof) ∧ ∀ p ∈ before, p.2 = .intr ∨ ∃ b, p.2 = .byte b ∧ b ≠ 10 := by
    intro inp
    induction inp with
    | nil => intro now t rest h; cases h
    | cons p inp ih =>
      intro now t rest h
      obtain ⟨t0, e⟩ := p
      cases e with
      | eof => simp only [ask, Answer.go.injEq] at h; exact ⟨[], t0, .eof, by simp [h.2], .inr rfl, by simp⟩
      | err => simp [ask] at h
      | intr =>
        simp only [ask] at h
        obtain ⟨before, t', e, h1, h2, h3⟩ := ih _ h
        exact ⟨(t0, .intr) :: before, t', e, by rw [h1]; rfl, h2, by
          intro p hp
          rcases List.mem_cons.mp hp with rfl | hp
          · exact .inl rfl
          · exact h3 p hp⟩
      | byte b =>
        simp only [ask] at h
        split at h
        · rename_i hb
          simp only [Answer.go.injEq] at h
          exact ⟨[], t0, .byte b, by simp [h.2], .inl (by rw [hb]), by simp⟩
        · rename_i hb
          obtain ⟨before, t', e, h1, h2, h3⟩ := ih _ h
          exact ⟨(t0, .byte b) :: before, t', e, by rw [h1]; rfl, h2, by
            intro p hp
            rcases List.mem_cons.mp hp with rfl | hp
            · exact .inr ⟨b, rfl, hb⟩
            · exact h3 p hp⟩
  unfold start dial at h
  simp only [Bool.not_false, Bool.and_self, if_true] at h
  split at h
  · rename_i t rest' heq
    split at h
    · simp only [Outcome.answered.injEq] at h
      subst h
      exact key inp 0 heq
    · cases h
  · cases h
  · cases h

/-- C114: without a mismatch, in the background, and in every later dial, nothing is taken from standard input and nobody is asked. -/
theorem C114_no_question (silent background mismatch : Bool) (inp : Input) (h : mismatch = false ∨ background = true ∨ silent = true) :
    dial silent background mismatch inp = .go 0 inp ∧ (silent = false → start background mismatch inp = .answered inp) := by
  have : dial silent background mismatch inp = .go 0 inp := by
    rcases h with rfl | rfl | rfl <;> simp [dial]
  refine ⟨this, ?_⟩
  rintro rfl
  simp [start, this, timeout]

end Shpool.Prompt
