import Verif.Inject.Props
/-! # Exactly when the injected setup does what it should (C78, C81, C82) -/

namespace Shpool.Inject

theorem takeWhile_all {p : Char → Bool} {l : Str} : ∀ c ∈ l.takeWhile p, p c = true := by
  induction l with
  | nil => simp
  | cons a l ih =>
    intro c hc
    rw [List.takeWhile_cons] at hc
    split at hc
    · rcases List.mem_cons.mp hc with rfl | hc
      · assumption
      · exact ih c hc
    · cases hc

/-- **C78** (exactly which names): a shell takes the default prefix with the name as it is exactly if every character of the name stands for itself. -/
theorem C78_exact (k : Known) (name : Str) :
    literalRun k (expandPrefix "shpool:$SHPOOL_SESSION_NAME ".toList name ++ afterPrefix k) = "shpool:".toList ++ name ++ " ".toList ↔
      ∀ c ∈ name, special k c = false := by
  refine ⟨fun h c hc => ?_, C78_literal_partial k name⟩
  have := takeWhile_all (p := fun c => !special k c) c (by
    show c ∈ literalRun k (expandPrefix "shpool:$SHPOOL_SESSION_NAME ".toList name ++ afterPrefix k)
    rw [h]
    simp [hc])
  simpa using this

theorem wordsOf_clean : ∀ (t w : Str), (∀ c ∈ w, c ≠ ' ' ∧ c ≠ '\n') → ∀ x ∈ wordsOf w t, ∀ c ∈ x, c ≠ ' ' ∧ c ≠ '\n' := by
  intro t
  induction t with
  | nil =>
    intro w hw x hx
    cases w with
    | nil => cases hx
    | cons a w =>
      simp only [wordsOf, List.mem_singleton] at hx
      subst hx
      intro c hc
      exact hw c (List.mem_reverse.mp hc)
  | cons a t ih =>
    intro w hw x hx
    have hnil : ∀ c ∈ ([] : Str), c ≠ ' ' ∧ c ≠ '\n' := fun c hc => by cases hc
    rw [wordsOf] at hx
    split at hx
    · split at hx
      · exact ih [] hnil x hx
      · rcases List.mem_cons.mp hx with rfl | hx
        · exact fun c hc => hw c (List.mem_reverse.mp hc)
        · exact ih [] hnil x hx
    · next hne =>
      refine ih (a :: w) (fun c hc => ?_) x hx
      rcases List.mem_cons.mp hc with rfl | hc
      · exact ⟨fun e => hne (.inl e), fun e => hne (.inr e)⟩
      · exact hw c hc

/-- **C82** (exactly where): the sentinel command runs the binary exactly if there is neither a blank nor a newline nor a character special to a shell in
its path. -/
theorem C82_exact (exe : Str) (hne : exe ≠ []) :
    commandWords (sentinelCmd "prompt".toList exe) = some ["SHPOOL__INTERNAL__PRINT_SENTINEL=prompt".toList, exe, "daemon".toList] ↔
      ∀ c ∈ exe, c ≠ ' ' ∧ c ≠ '\n' ∧ isMeta c = false := by
  refine ⟨fun h c hc => ?_, C82_words_partial exe hne⟩
  rw [commandWords] at h
  split at h
  · cases h
  · next hm =>
    have hw : words (sentinelCmd "prompt".toList exe) = ["SHPOOL__INTERNAL__PRINT_SENTINEL=prompt".toList, exe, "daemon".toList] := Option.some.inj h
    have h1 := wordsOf_clean (sentinelCmd "prompt".toList exe) [] (fun c hc => by cases hc) exe (by
      show exe ∈ words _
      rw [hw]; simp) c hc
    refine ⟨h1.1, h1.2, ?_⟩
    have h2 : (sentinelCmd "prompt".toList exe).any isMeta = false := by simpa using hm
    rw [List.any_eq_false] at h2
    simpa using h2 c (by simp [sentinelCmd, hc])

theorem sentinel_parts (which exe : Str) : sentinelCmd which exe = ('\n' :: ' ' :: flagVar ++ ['=']) ++ (which ++ (' ' :: exe ++ " daemon\n".toList)) := by
  simp only [sentinelCmd, List.append_assoc, List.cons_append, List.nil_append]

theorem prompt_not_in_startup (exe : Str) : ¬ sentinelCmd "prompt".toList exe <:+: sentinelCmd "startup".toList exe := by
  have ep : "prompt".toList = 'p' :: "rompt".toList := by decide +kernel
  have es : "startup".toList = 's' :: "tartup".toList := by decide +kernel
  have l1 : "prompt".toList.length = 6 := by decide +kernel
  have l2 : "startup".toList.length = 7 := by decide +kernel
  rw [sentinel_parts, sentinel_parts]
  generalize (' ' :: exe ++ " daemon\n".toList) = r
  generalize flagVar = f
  rintro ⟨a, b, h⟩
  have hl := congrArg List.length h
  simp only [List.length_append, List.length_cons, List.length_nil, l1, l2] at hl
  rw [ep, es] at h
  match a, hl with
  | [], _ =>
    rw [List.nil_append, List.append_assoc] at h
    have := List.append_cancel_left h
    simp at this
  | [x], _ =>
    simp only [List.cons_append, List.nil_append, List.cons.injEq] at h
    exact absurd h.2.1 (by decide)
  | x :: y :: a, hl => simp only [List.length_cons] at hl; omega

/-- **C81** (exactly when): a session that hides its shell's output has told the shell to print the sentinel exactly if the start of the shell was
noticed in time. -/
theorem C81_exact (cmd startCmd pfx : Option Str) (shell procName name exe : Str) (startup : Bool)
    (h : (setup cmd startCmd pfx shell procName name exe startup).2 = true) :
    sentinelCmd "prompt".toList exe <:+: (setup cmd startCmd pfx shell procName name exe startup).1 ↔ startup = true := by
  constructor
  · intro hi
    cases startup with
    | true => rfl
    | false =>
      exfalso
      unfold setup at h hi
      split at h
      · next hs =>
        rw [if_pos hs] at hi
        simp only [Bool.false_eq_true, if_false, List.append_nil] at hi
        exact prompt_not_in_startup exe hi
      · cases h
  · rintro rfl
    exact (C81_told_partial cmd startCmd pfx shell procName name exe h).isInfix

example : (setup none none none "/bin/bash".toList "bash".toList "main".toList "x".toList false).2 = true := by decide

end Shpool.Inject
