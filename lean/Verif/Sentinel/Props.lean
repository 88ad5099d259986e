import Verif.Sentinel.Lemmas
/-!
# Property C20: prompt setup noise is hidden and nothing else
-/

namespace Shpool.Sentinel

/-- Everything the daemon shows to clients and to the restore engine out of the pty output, cut into reads as given. -/
def shownOf (supportsSentinels : Bool) (reads : List (List UInt8)) : List UInt8 :=
  ((Filter.new supportsSentinels promptSentinel).reads reads).2

theorem shownOf_eq (reads : List (List UInt8)) :
    shownOf true reads = (shown promptSentinel 0 reads.flatten).getD [] := by
  have := reads_shown promptSentinel (by decide) reads _ [] (filterAt_new promptSentinel)
  unfold shownOf
  simpa [shown] using this.symm

/-- C20. Without prompt injection every byte is shown. -/
theorem C20_no_injection (reads : List (List UInt8)) : shownOf false reads = reads.flatten := reads_all reads _ rfl

/-- C20. How the output is cut into reads does not matter. -/
theorem C20_segmentation (b : Bool) (reads₁ reads₂ : List (List UInt8)) (h : reads₁.flatten = reads₂.flatten) :
    shownOf b reads₁ = shownOf b reads₂ := by
  cases b with
  | false => rw [C20_no_injection, C20_no_injection, h]
  | true => rw [shownOf_eq, shownOf_eq, h]

/-- C20. Nothing is shown that is not preceded by the complete sentinel. -/
theorem C20_hidden_before_sentinel (reads : List (List UInt8)) :
    shownOf true reads = [] ∨ ∃ pre, reads.flatten = pre ++ promptSentinel ++ shownOf true reads := by
  rw [shownOf_eq]
  cases h : shown promptSentinel 0 reads.flatten with
  | none => exact .inl rfl
  | some r =>
    obtain ⟨pre, hp⟩ := shown_sound promptSentinel 0 (by decide) _ _ h
    exact .inr ⟨pre, by simpa using hp⟩

/-- C20, full statement for a session with prompt injection: if the pty output is `pre`, the sentinel and `post`, and the
sentinel does not occur any earlier, then exactly `post` is shown. -/
def C20_statement : Prop :=
  ∀ (reads : List (List UInt8)) (pre post : List UInt8), reads.flatten = pre ++ promptSentinel ++ post →
    ¬ promptSentinel <:+: pre ++ promptSentinel.dropLast → shownOf true reads = post

/-- C20 is false as stated: after a failed partial match the scanner drops the byte that failed instead of trying it as a
first byte, so a sentinel directly after an `S` is missed and the session's output stays hidden. -/
theorem C20_false : ¬ C20_statement := by
  intro h
  have := h [[83] ++ promptSentinel ++ [104, 105]] [83] [104, 105] (by simp) (by
    intro ⟨a, b, hab⟩
    have hl := congrArg List.length hab
    have hp : promptSentinel.length = 28 := by decide
    simp only [List.length_append, List.length_cons, List.length_nil, List.length_dropLast, hp] at hl
    have ha : a = [] := List.length_eq_zero_iff.mp (by omega)
    have hb : b = [] := List.length_eq_zero_iff.mp (by omega)
    subst ha hb
    exact absurd hab (by decide))
  rw [shownOf_eq] at this
  exact absurd this (by decide)

/-- C20, the part that holds: if moreover the text before the sentinel does not end in a beginning of the sentinel, exactly
the text after the sentinel is shown, however the output is cut into reads. -/
theorem C20_hidden_partial (reads : List (List UInt8)) (pre post : List UInt8)
    (h : reads.flatten = pre ++ promptSentinel ++ post) (hfirst : ¬ promptSentinel <:+: pre)
    (hend : ∀ p, p <:+ pre → p <+: promptSentinel → p = []) : shownOf true reads = post := by
  rw [shownOf_eq, h, List.append_assoc, shown_append]
  cases hp : shown promptSentinel 0 pre with
  | some r =>
    obtain ⟨q, hq⟩ := shown_sound promptSentinel 0 (by decide) _ _ hp
    simp only [List.take_zero, List.nil_append] at hq
    exact absurd ⟨q, r, hq.symm⟩ hfirst
  | none =>
    have hs := matched_suffix promptSentinel 0 (by decide) pre
    simp only [List.take_zero, List.nil_append] at hs
    have hz := hend _ hs (List.take_prefix _ _)
    have hlt := matched_lt promptSentinel 0 (by decide) pre
    have hm : matched promptSentinel 0 pre = 0 := by
      have := congrArg List.length hz
      simp only [List.length_take, List.length_nil] at this
      omega
    simp only [hm]
    rw [shown_sentinel _ (by decide)]
    rfl

/-- C20. In particular text whose last byte does not occur in the sentinel, such as a line end, is fine. -/
theorem C20_after_line_end_partial (reads : List (List UInt8)) (pre post : List UInt8) (b : UInt8)
    (h : reads.flatten = pre ++ [b] ++ promptSentinel ++ post) (hb : b ∉ promptSentinel)
    (hfirst : ¬ promptSentinel <:+: pre ++ [b]) : shownOf true reads = post := by
  refine C20_hidden_partial reads (pre ++ [b]) post h hfirst ?_
  intro p hp hpre
  obtain ⟨t, ht⟩ := hp
  rcases List.eq_nil_or_concat p with rfl | ⟨q, x, rfl⟩
  · rfl
  · rw [List.concat_eq_append, ← List.append_assoc] at ht
    have := (List.append_inj' ht rfl).2
    cases this
    exact absurd (hpre.subset (by simp)) hb

/-- C20. While the sentinel has not occurred nothing is shown. -/
theorem C20_nothing_before (reads : List (List UInt8)) (h : ¬ promptSentinel <:+: reads.flatten) :
    shownOf true reads = [] := by
  rcases C20_hidden_before_sentinel reads with h' | ⟨pre, hp⟩
  · exact h'
  · exact absurd ⟨pre, _, hp.symm⟩ h

/-- C20. Once something is shown, everything after it is shown: later sentinels are ordinary text. -/
theorem C20_later_sentinels_shown (reads more : List (List UInt8)) (h : shownOf true reads ≠ []) :
    shownOf true (reads ++ more) = shownOf true reads ++ more.flatten := by
  rw [shownOf_eq] at h
  rw [shownOf_eq, shownOf_eq, List.flatten_append, shown_append]
  cases hs : shown promptSentinel 0 reads.flatten with
  | none => rw [hs] at h; exact absurd rfl h
  | some r => rfl

/-- The daemon learns that the shell has started only from the complete startup sentinel (`wait_for_startup`). -/
theorem C20_startup_sound (raw : List UInt8) (h : startupSeen (Scanner.new startupSentinel) raw = true) :
    startupSentinel <:+: raw := by
  rw [new_eq, startupSeen_eq _ _ (by decide)] at h
  obtain ⟨r, hr⟩ := Option.isSome_iff_exists.mp h
  obtain ⟨pre, hp⟩ := shown_sound startupSentinel 0 (by decide) _ _ hr
  exact ⟨pre, r, by simpa using hp.symm⟩

/-- "\r\n" ++ sentinel ++ "$ ", cut in the middle of the sentinel. -/
def demoReads : List (List UInt8) := [[13, 10] ++ promptSentinel.take 5, promptSentinel.drop 5 ++ [36], [32]]
example : shownOf true demoReads = [36, 32] := by rw [shownOf_eq]; decide
example : demoReads.flatten = [13] ++ [10] ++ promptSentinel ++ [36, 32] ∧ (10 : UInt8) ∉ promptSentinel := by decide
example : ¬ promptSentinel <:+: [13] ++ [10] := fun ⟨a, b, h⟩ => by
  have := congrArg List.length h
  rw [List.length_append, List.length_append, show promptSentinel.length = 28 by decide] at this
  simp at this; omega
example : shownOf false demoReads ≠ [] ∧ shownOf true demoReads ≠ [] := by
  constructor
  · rw [C20_no_injection]; decide
  · rw [shownOf_eq]; decide
example : startupSeen (Scanner.new startupSentinel) ([10] ++ startupSentinel ++ [7]) = true := by
  rw [new_eq, startupSeen_eq _ _ (by decide)]; decide

end Shpool.Sentinel
