import Verif.Sentinel.Props
/-! # Exactly after which text the sentinel is noticed (C20) -/

namespace Shpool.Sentinel

/-- Spec: the text falls into pieces each of which is a beginning of the sentinel (nothing, most often) and then a byte that does not continue it.  So nothing
of it can be taken for the beginning of a sentinel that follows. -/
inductive Tried (sent : List UInt8) : List UInt8 → Prop
  | nil : Tried sent []
  | piece (p : List UInt8) (b : UInt8) (rest : List UInt8) : p <+: sent → ¬ p ++ [b] <+: sent → Tried sent rest → Tried sent (p ++ b :: rest)

theorem next_hit {sent : List UInt8} {k : Nat} {b : UInt8} (h : sent[k]? = some b) (hk : k + 1 < sent.length) : next sent k b = (k + 1, false) := by
  rw [next, if_pos h, if_neg (by omega)]

theorem next_miss {sent : List UInt8} {k : Nat} {b : UInt8} (h : sent[k]? ≠ some b) : next sent k b = (0, false) := by
  rw [next, if_neg h]

theorem take_prefix_iff {sent : List UInt8} {k : Nat} {b : UInt8} (hk : k < sent.length) : sent.take k ++ [b] <+: sent ↔ sent[k]? = some b := by
  constructor
  · rintro ⟨r, hr⟩
    rw [← hr, List.append_assoc, List.getElem?_append_right (by simp; omega)]
    simp [Nat.min_eq_left (Nat.le_of_lt hk)]
  · intro h
    rw [← take_succ sent k b h]
    exact List.take_prefix _ _

/-- Reading a beginning of the sentinel. -/
theorem feed_take (sent : List UInt8) (x : List UInt8) : ∀ k, k < sent.length →
    matched sent 0 (sent.take k ++ x) = matched sent k x ∧ shown sent 0 (sent.take k ++ x) = shown sent k x := by
  intro k
  induction k generalizing x with
  | zero => intro _; simp
  | succ k ih =>
    intro hk
    have hb : sent[k]? = some sent[k] := List.getElem?_eq_getElem (by omega)
    rw [take_succ sent k _ hb, List.append_assoc]
    obtain ⟨h1, h2⟩ := ih ([sent[k]] ++ x) (by omega)
    rw [h1, h2]
    simp only [List.cons_append, List.nil_append, matched, shown, next_hit hb hk]
    simp

theorem matched_of_tried {sent : List UInt8} (hs : 0 < sent.length) {t : List UInt8} (ht : Tried sent t) (hn : shown sent 0 t = none) :
    matched sent 0 t = 0 := by
  induction ht with
  | nil => rfl
  | piece p b rest hp hb _ ih =>
    have hlen := hp.length_le
    by_cases hl : p.length = sent.length
    · have : p = sent := hp.eq_of_length hl
      subst this
      rw [shown_sentinel _ hs] at hn
      cases hn
    · have hk : p.length < sent.length := by omega
      have e : p = sent.take p.length := List.prefix_iff_eq_take.mp hp
      have hmiss : sent[p.length]? ≠ some b := fun h => hb (by rw [e]; exact (take_prefix_iff hk).mpr h)
      obtain ⟨h1, h2⟩ := feed_take sent (b :: rest) _ hk
      rw [← e] at h1 h2
      rw [h2] at hn
      rw [h1]
      simp only [matched, shown, next_miss hmiss] at hn ⊢
      exact ih (by simpa using hn)

theorem tried_of_matched {sent : List UInt8} {t : List UInt8} : ∀ k, k < sent.length → shown sent k t = none → matched sent k t = 0 →
    Tried sent (sent.take k ++ t) := by
  induction t with
  | nil =>
    intro k _ _ hm
    simp only [matched] at hm
    subst hm
    simp only [List.take_zero, List.nil_append]
    exact .nil
  | cons b bs ih =>
    intro k hk hn hm
    simp only [shown, matched] at hn hm
    by_cases hb : sent[k]? = some b
    · by_cases hl : k + 1 = sent.length
      · rw [next, if_pos hb, if_pos hl] at hn
        simp at hn
      · have hk' : k + 1 < sent.length := by omega
        rw [next_hit hb hk'] at hn hm
        have := ih (k + 1) hk' (by simpa using hn) hm
        rwa [take_succ sent k b hb, List.append_assoc] at this
    · rw [next_miss hb] at hn hm
      have := ih 0 (by omega) (by simpa using hn) hm
      rw [List.take_zero, List.nil_append] at this
      exact .piece _ _ _ (List.take_prefix _ _) (fun h => hb ((take_prefix_iff hk).mp h)) this

theorem shown_where {sent : List UInt8} (hs : 0 < sent.length) {raw r : List UInt8} : ∀ k, k < sent.length → shown sent k raw = some r →
    raw = sent.drop k ++ r ∨ ∃ c, raw = c ++ (sent ++ r) ∧ matched sent k c = 0 := by
  induction raw with
  | nil => intro k _ h; cases h
  | cons b bs ih =>
    intro k hk h
    simp only [shown] at h
    by_cases hb : sent[k]? = some b
    · have hd : sent.drop k = b :: sent.drop (k + 1) := by
        rw [List.drop_eq_getElem_cons hk]
        rw [List.getElem?_eq_getElem hk] at hb
        rw [Option.some.inj hb]
      by_cases hl : k + 1 = sent.length
      · rw [next, if_pos hb, if_pos hl] at h
        simp only [if_true, Option.some.injEq] at h
        left
        rw [hd, hl, List.drop_length, h]
        rfl
      · have hk' : k + 1 < sent.length := by omega
        rw [next_hit hb hk'] at h
        rcases ih (k + 1) hk' (by simpa using h) with h1 | ⟨c, h1, h2⟩
        · left; rw [hd, h1]; rfl
        · exact .inr ⟨b :: c, by rw [h1]; rfl, by simp only [matched, next_hit hb hk']; exact h2⟩
    · rw [next_miss hb] at h
      rcases ih 0 hs (by simpa using h) with h1 | ⟨c, h1, h2⟩
      · exact .inr ⟨[b], by rw [h1]; rfl, by simp only [matched, next_miss hb]⟩
      · exact .inr ⟨b :: c, by rw [h1]; rfl, by simp only [matched, next_miss hb]; exact h2⟩

/-- **C20** (exactly when): the text after the first sentinel is shown, and nothing else, exactly if what comes before the sentinel falls into beginnings of
the sentinel each ended by a byte that does not continue it. -/
theorem C20_exact (reads : List (List UInt8)) (pre post : List UInt8) (h : reads.flatten = pre ++ promptSentinel ++ post)
    (hfirst : ¬ promptSentinel <:+: pre) (hpost : post ≠ []) : shownOf true reads = post ↔ Tried promptSentinel pre := by
  have hn : shown promptSentinel 0 pre = none := by
    cases hp : shown promptSentinel 0 pre with
    | none => rfl
    | some r =>
      obtain ⟨q, hq⟩ := shown_sound promptSentinel 0 (by decide) _ _ hp
      simp only [List.take_zero, List.nil_append] at hq
      exact absurd ⟨q, r, hq.symm⟩ hfirst
  rw [shownOf_eq, h, List.append_assoc, shown_append, hn]
  constructor
  · intro he
    refine tried_of_matched 0 (by decide) hn ?_
    have he' : shown promptSentinel (matched promptSentinel 0 pre) (promptSentinel ++ post) = some post := by
      revert he
      cases shown promptSentinel (matched promptSentinel 0 pre) (promptSentinel ++ post) with
      | none => intro he; exact absurd he.symm hpost
      | some r => intro he; exact congrArg some he
    have hlt := matched_lt promptSentinel 0 (by decide) pre
    rcases shown_where (by decide) _ hlt he' with h1 | ⟨c, h1, h2⟩
    · have := congrArg List.length (List.append_cancel_right h1)
      simp only [List.length_drop] at this
      omega
    · have : c = [] := by
        have := congrArg List.length h1
        simp only [List.length_append] at this
        exact List.length_eq_zero_iff.mp (by omega)
      subst this
      exact h2
  · intro ht
    simp only [matched_of_tried (by decide) ht hn]
    rw [shown_sentinel _ (by decide)]
    rfl

/-- The letter `S` right before the sentinel is enough to miss it; with a line feed after the letter it is noticed. -/
example : ¬ Tried promptSentinel [83] ∧ Tried promptSentinel [83, 10] := by
  refine ⟨fun h => ?_, .piece [83] 10 [] (by decide) (by decide) .nil⟩
  have := matched_of_tried (by decide) h (by decide)
  revert this
  decide

end Shpool.Sentinel
