import Verif.Sentinel.Model
import Verif.Trie.Props
import Verif.Util.List
/-!
# The scanner as a counter automaton
-/

namespace Shpool.Sentinel

/-- The trie cursor after the first `k` bytes of the sentinel. -/
def cur (sent : List UInt8) (k : Nat) : TrieCursor := (Trie.new.insert sent ()).feed .start (sent.take k)

theorem build_one (sent : List UInt8) : Trie.build [(sent, ())] = Trie.new.insert sent () := rfl

theorem lastInserted_one (sent key : List UInt8) :
    Trie.lastInserted [(sent, ())] key = if sent = key then some () else none := by
  unfold Trie.lastInserted
  simp only [List.reverse_singleton, List.find?_cons, List.find?_nil]
  by_cases h : sent = key <;> simp [h]

theorem feed_snoc (t : Trie UInt8 Unit) (xs : List UInt8) (b : UInt8) :
    t.feed .start (xs ++ [b]) = t.advance (t.feed .start xs) b := by simp [Trie.feed, List.foldl_append]

/-- Next state of the counter automaton: `k` bytes of the sentinel are matched. -/
def next (sent : List UInt8) (k : Nat) (b : UInt8) : Nat × Bool :=
  if sent[k]? = some b then (if k + 1 = sent.length then (0, true) else (k + 1, false)) else (0, false)

theorem cur_zero (sent : List UInt8) : cur sent 0 = .start := by simp [cur, Trie.feed]

theorem take_succ (sent : List UInt8) (k : Nat) (b : UInt8) (h : sent[k]? = some b) :
    sent.take (k + 1) = sent.take k ++ [b] := by rw [List.take_add_one, h]; rfl

/-- Advancing the trie cursor from a proper prefix of the sentinel. -/
theorem advance_cur (sent : List UInt8) (k : Nat) (hk : k < sent.length) (b : UInt8) :
    (sent[k]? = some b ∧ k + 1 = sent.length ∧ ∃ i, (Trie.new.insert sent ()).advance (cur sent k) b = .match i false) ∨
    (sent[k]? = some b ∧ k + 1 < sent.length ∧ (Trie.new.insert sent ()).advance (cur sent k) b = cur sent (k + 1) ∧
      ∃ i, cur sent (k + 1) = .match i true) ∨
    (sent[k]? ≠ some b ∧ (Trie.new.insert sent ()).advance (cur sent k) b = .noMatch) := by
  have hadv : (Trie.new.insert sent ()).advance (cur sent k) b =
      (Trie.new.insert sent ()).feed .start (sent.take k ++ [b]) := by rw [feed_snoc]; rfl
  obtain ⟨h1, h2⟩ := Trie.C07_cursor [(sent, ())] (sent.take k ++ [b]) (by simp)
  rw [build_one] at h1 h2
  rw [lastInserted_one] at h1
  by_cases hb : sent[k]? = some b
  · have ht := take_succ sent k b hb
    have hp : ∃ kv ∈ [(sent, ())], sent.take k ++ [b] <+: kv.1 :=
      ⟨(sent, ()), by simp, by rw [← ht]; exact List.take_prefix _ _⟩
    obtain ⟨i, hi⟩ := h1 hp
    by_cases hl : k + 1 = sent.length
    · refine .inl ⟨hb, hl, i, ?_⟩
      rw [hadv, hi, ← ht, hl, List.take_length, if_pos rfl]; rfl
    · refine .inr (.inl ⟨hb, by omega, ?_, i, ?_⟩)
      · rw [hadv, ← ht]; rfl
      · show Trie.feed _ _ _ = _
        rw [ht, hi, if_neg]
        · rfl
        · intro he
          have := congrArg List.length he
          simp at this; omega
  · refine .inr (.inr ⟨hb, ?_⟩)
    rw [hadv]
    apply h2
    rintro ⟨kv, hkv, hpre⟩
    simp only [List.mem_singleton] at hkv
    subst hkv
    obtain ⟨t, ht⟩ := hpre
    apply hb
    have := congrArg (·[k]?) ht
    simp only [List.append_assoc] at this
    rw [List.getElem?_append_right (by simp; omega)] at this
    simp only [List.length_take, Nat.min_eq_left (Nat.le_of_lt hk), Nat.sub_self, List.singleton_append,
      List.getElem?_cons_zero] at this
    exact this.symm

/-- A scanner for `sent` with `k` bytes of the sentinel matched and `n` complete matches. -/
def at' (sent : List UInt8) (k n : Nat) : Scanner := ⟨Trie.new.insert sent (), cur sent k, n⟩

theorem new_eq (sent : List UInt8) : Scanner.new sent = at' sent 0 0 := by
  rw [at', cur_zero]; rfl

theorem transition_eq (sent : List UInt8) (k n : Nat) (hk : k < sent.length) (b : UInt8) :
    (at' sent k n).transition b =
      (at' sent (next sent k b).1 (if (next sent k b).2 then n + 1 else n), (next sent k b).2 && decide (n = 0)) := by
  unfold Scanner.transition
  rcases advance_cur sent k hk b with ⟨hb, hl, i, ha⟩ | ⟨hb, hl, ha, i, hi⟩ | ⟨hb, ha⟩
  · simp only [at', ha, next, hb, hl, if_true, cur_zero]
    simp
  · simp only [at', ha, next, hb, if_true, if_neg (Nat.ne_of_lt hl)]
    rw [hi]
    simp
  · simp only [at', ha, next, if_neg hb, cur_zero]
    simp

theorem next_lt (sent : List UInt8) (k : Nat) (hk : k < sent.length) (b : UInt8) : (next sent k b).1 < sent.length := by
  unfold next
  split
  · split
    · simp only; omega
    · simp only; omega
  · simp only; omega

/-- The text shown by the counter automaton: everything after the first complete match; `none` if there is none. -/
def shown (sent : List UInt8) : Nat → List UInt8 → Option (List UInt8)
  | _, [] => none
  | k, b :: bs => if (next sent k b).2 then some bs else shown sent (next sent k b).1 bs

/-- Number of sentinel bytes matched after the text. -/
def matched (sent : List UInt8) : Nat → List UInt8 → Nat
  | k, [] => k
  | k, b :: bs => matched sent (next sent k b).1 bs

theorem matched_lt (sent : List UInt8) (k : Nat) (hk : k < sent.length) (bs : List UInt8) :
    matched sent k bs < sent.length := by
  induction bs generalizing k with
  | nil => exact hk
  | cons b bs ih => exact ih _ (next_lt sent k hk b)

theorem matched_append (sent : List UInt8) (k : Nat) (as bs : List UInt8) :
    matched sent k (as ++ bs) = matched sent (matched sent k as) bs := by
  induction as generalizing k with
  | nil => rfl
  | cons a as ih => exact ih _

theorem shown_append (sent : List UInt8) (k : Nat) (as bs : List UInt8) :
    shown sent k (as ++ bs) =
      match shown sent k as with
      | some r => some (r ++ bs)
      | none => shown sent (matched sent k as) bs := by
  induction as generalizing k with
  | nil => rfl
  | cons a as ih =>
    simp only [List.cons_append, shown, matched]
    split
    · rfl
    · exact ih _

/-- After the first match the loop never changes the flag or the text again. -/
theorem scanLoop_after (whole : List UInt8) (sent : List UInt8) (bs : List UInt8) (i k n : Nat) (hk : k < sent.length)
    (hn : 0 < n) (seen : Bool) (buf : List UInt8) :
    ∃ sc, scanLoop whole bs i (at' sent k n) seen buf = (sc, seen, buf) := by
  induction bs generalizing i k n with
  | nil => exact ⟨_, rfl⟩
  | cons b bs ih =>
    unfold scanLoop
    rw [transition_eq sent k n hk b]
    have : decide (n = 0) = false := by simp; omega
    rw [this, Bool.and_false]
    exact ih _ _ _ (next_lt sent k hk b) (by split <;> omega)

/-- What the loop computes, in terms of the counter automaton. -/
theorem scanLoop_eq (whole : List UInt8) (sent : List UInt8) (done bs : List UInt8) (hw : whole = done ++ bs) (k : Nat)
    (hk : k < sent.length) (buf : List UInt8) :
    match shown sent k bs with
    | some r => ∃ sc, scanLoop whole bs done.length (at' sent k 0) false buf = (sc, true, r)
    | none => scanLoop whole bs done.length (at' sent k 0) false buf = (at' sent (matched sent k bs) 0, false, buf) := by
  induction bs generalizing done k with
  | nil => rfl
  | cons b bs ih =>
    unfold scanLoop shown
    rw [transition_eq sent k 0 hk b]
    by_cases hm : (next sent k b).2 = true
    · simp only [hm, if_true, decide_true, Bool.and_self]
      have hd : whole.drop (done.length + 1) = bs := by
        rw [hw, List.drop_append, List.drop_eq_nil_of_le (by omega)]
        simp
      rw [hd]
      exact scanLoop_after whole sent bs _ _ _ (next_lt sent k hk b) (by omega) _ _
    · have hm' : (next sent k b).2 = false := by simpa using hm
      simp only [hm', Bool.false_eq_true, if_false, Bool.false_and]
      have := ih (done ++ [b]) (by rw [hw]; simp) (next sent k b).1 (next_lt sent k hk b)
      simp only [List.length_append, List.length_singleton] at this
      exact this

/-- The state of the filter after raw output `raw`: the text shown so far, and the counter if nothing has been shown. -/
def FilterAt (sent : List UInt8) (f : Filter) (raw : List UInt8) : Prop :=
  match shown sent 0 raw with
  | some _ => f.seen = true
  | none => f.seen = false ∧ f.scan = at' sent (matched sent 0 raw) 0

theorem filterAt_new (sent : List UInt8) : FilterAt sent (Filter.new true sent) [] := by
  simp only [FilterAt, shown, Filter.new, matched]
  exact ⟨rfl, new_eq sent⟩

theorem read_filterAt (sent : List UInt8) (hs : 0 < sent.length) (f : Filter) (raw buf : List UInt8) (h : FilterAt sent f raw) :
    FilterAt sent (f.read buf).1 (raw ++ buf) ∧
    (shown sent 0 (raw ++ buf)).getD [] = (shown sent 0 raw).getD [] ++ ((f.read buf).2.getD []) ∧
    ((f.read buf).2.isSome = (shown sent 0 (raw ++ buf)).isSome) := by
  unfold FilterAt at h ⊢
  rw [shown_append]
  cases hr : shown sent 0 raw with
  | some r =>
    rw [hr] at h
    simp only at h ⊢
    unfold Filter.read
    rw [h]
    exact ⟨h, rfl, rfl⟩
  | none =>
    rw [hr] at h
    simp only at h ⊢
    obtain ⟨h1, h2⟩ := h
    unfold Filter.read
    rw [h1, h2]
    have hk := matched_lt sent 0 hs raw
    have := scanLoop_eq buf sent [] buf rfl _ hk buf
    simp only [List.length_nil] at this
    simp only [Bool.false_eq_true, if_false]
    cases hb : shown sent (matched sent 0 raw) buf with
    | some r =>
      rw [hb] at this
      obtain ⟨sc, hsc⟩ := this
      rw [hsc]
      exact ⟨rfl, rfl, rfl⟩
    | none =>
      rw [hb] at this
      simp only at this
      rw [this]
      exact ⟨⟨rfl, by rw [matched_append]⟩, rfl, rfl⟩

theorem reads_shown (sent : List UInt8) (hs : 0 < sent.length) (bufs : List (List UInt8)) (f : Filter) (raw : List UInt8)
    (h : FilterAt sent f raw) :
    (shown sent 0 (raw ++ bufs.flatten)).getD [] = (shown sent 0 raw).getD [] ++ (f.reads bufs).2 := by
  induction bufs generalizing f raw with
  | nil => simp [Filter.reads]
  | cons b bs ih =>
    obtain ⟨h1, h2, -⟩ := read_filterAt sent hs f raw b h
    have := ih _ _ h1
    rw [List.append_assoc] at this
    simp only [List.flatten_cons, Filter.reads]
    rw [this, h2, List.append_assoc]

theorem reads_all (bufs : List (List UInt8)) (f : Filter) (h : f.seen = true) : (f.reads bufs).2 = bufs.flatten := by
  induction bufs with
  | nil => rfl
  | cons b bs ih =>
    simp only [Filter.reads, Filter.read, h, if_true, List.flatten_cons, Option.getD_some]
    rw [ih]

/-- Soundness: what is shown was preceded by a complete sentinel. -/
theorem shown_sound (sent : List UInt8) (k : Nat) (hk : k < sent.length) (raw r : List UInt8) (h : shown sent k raw = some r) :
    ∃ pre, sent.take k ++ raw = pre ++ sent ++ r := by
  induction raw generalizing k with
  | nil => cases h
  | cons b bs ih =>
    unfold shown at h
    by_cases hb : sent[k]? = some b
    · have ht := take_succ sent k b hb
      by_cases hl : k + 1 = sent.length
      · have hn : next sent k b = (0, true) := by simp [next, hb, hl]
        rw [hn] at h
        cases h
        refine ⟨[], ?_⟩
        rw [show sent.take k ++ b :: r = (sent.take k ++ [b]) ++ r by simp, ← ht, hl, List.take_length, List.nil_append]
      · have hn : next sent k b = (k + 1, false) := by simp [next, hb, hl]
        rw [hn] at h
        obtain ⟨pre, hp⟩ := ih (k + 1) (by omega) h
        refine ⟨pre, ?_⟩
        rw [show sent.take k ++ b :: bs = (sent.take k ++ [b]) ++ bs by simp, ← ht, hp]
    · have hn : next sent k b = (0, false) := by simp [next, hb]
      rw [hn] at h
      obtain ⟨pre, hp⟩ := ih 0 (by omega) h
      refine ⟨sent.take k ++ [b] ++ pre, ?_⟩
      simp only [List.take_zero, List.nil_append] at hp
      rw [hp]; simp

/-- From the start state the sentinel itself is recognised. -/
theorem shown_sentinel (sent : List UInt8) (hs : 0 < sent.length) (post : List UInt8) :
    shown sent 0 (sent ++ post) = some post := by
  have : ∀ n k, sent.length - k = n → k < sent.length → shown sent k (sent.drop k ++ post) = some post := by
    intro n
    induction n with
    | zero => intro k h1 h2; omega
    | succ n ih =>
      intro k h1 h2
      rw [List.drop_eq_getElem_cons h2, List.cons_append]
      have hb : sent[k]? = some sent[k] := by simp [h2]
      unfold shown
      by_cases hl : k + 1 = sent.length
      · have hn : next sent k sent[k] = (0, true) := by simp [next, hl]
        rw [hn]
        rw [hl, List.drop_length]; rfl
      · have hn : next sent k sent[k] = (k + 1, false) := by simp [next, hl]
        rw [hn]
        exact ih (k + 1) (by omega) (by omega)
  simpa using this _ 0 rfl hs

/-- The bytes counted as matched are the end of what was read. -/
theorem matched_suffix (sent : List UInt8) (k : Nat) (hk : k < sent.length) (raw : List UInt8) :
    sent.take (matched sent k raw) <:+ sent.take k ++ raw := by
  induction raw generalizing k with
  | nil => simp [matched]
  | cons b bs ih =>
    unfold matched
    have hnil : ∀ l : List UInt8, sent.take (matched sent 0 bs) <:+ l ++ b :: bs := by
      intro l
      have := ih 0 (by omega)
      simp only [List.take_zero, List.nil_append] at this
      exact this.trans ((List.suffix_cons b bs).trans (List.suffix_append l (b :: bs)))
    by_cases hb : sent[k]? = some b
    · by_cases hl : k + 1 = sent.length
      · have hn : next sent k b = (0, true) := by simp [next, hb, hl]
        rw [hn]
        exact hnil _
      · have hn : next sent k b = (k + 1, false) := by simp [next, hb, hl]
        rw [hn]
        have := ih (k + 1) (by omega)
        rw [take_succ sent k b hb] at this
        simpa using this
    · have hn : next sent k b = (0, false) := by simp [next, hb]
      rw [hn]
      exact hnil _

theorem startupSeen_eq (sent : List UInt8) (k : Nat) (hk : k < sent.length) (raw : List UInt8) :
    startupSeen (at' sent k 0) raw = (shown sent k raw).isSome := by
  induction raw generalizing k with
  | nil => rfl
  | cons b bs ih =>
    unfold startupSeen shown
    rw [transition_eq sent k 0 hk b]
    by_cases hm : (next sent k b).2 = true
    · simp only [hm, if_true, decide_true, Bool.and_self]; rfl
    · have hm' : (next sent k b).2 = false := by simpa using hm
      simp only [hm', Bool.false_eq_true, if_false, Bool.false_and]
      exact ih _ (next_lt sent k hk b)

end Shpool.Sentinel
