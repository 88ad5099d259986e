import Verif.Trie.Lemmas
/-!
# Property C07: the trie is a finite map with prefix information
-/

namespace Shpool.Trie
variable {Sym V : Type} [DecidableEq Sym]

/-- Specification: the value most recently inserted for exactly this key. -/
def lastInserted (history : List (List Sym × V)) (key : List Sym) : Option V :=
  (history.reverse.find? (fun kv => kv.1 = key)).map (·.2)

/-- C07. After any history of insertions, feeding a non-empty sequence and asking for the value gives the value most
recently inserted under exactly that sequence. -/
theorem C07_lookup (history : List (List Sym × V)) (key : List Sym) (hne : key ≠ []) :
    (build history).get ((build history).feed .start key) = lastInserted history key := by
  obtain ⟨-, -, h⟩ := build_spec history
  have := h key
  rw [feed_start, if_neg hne]
  unfold lastInserted
  rw [← this]
  cases (build history).find 0 key <;> rfl

/-- C07. The cursor after a non-empty sequence: a match that is flagged partial exactly when the sequence was never inserted
itself, if some inserted key starts with it; otherwise no-match. -/
theorem C07_cursor (history : List (List Sym × V)) (key : List Sym) (hne : key ≠ []) :
    ((∃ kv ∈ history, key <+: kv.1) →
      ∃ idx, (build history).feed .start key = .match idx (lastInserted history key).isNone) ∧
    ((¬ ∃ kv ∈ history, key <+: kv.1) → (build history).feed .start key = .noMatch) := by
  obtain ⟨-, h2, h3⟩ := build_spec history
  rw [feed_start, if_neg hne]
  constructor
  · intro hp
    have hs := (h2 key).mpr (.inr hp)
    obtain ⟨i, hi⟩ := Option.isSome_iff_exists.mp hs
    have hv := h3 key
    rw [hi] at hv ⊢
    exact ⟨i, by simp only [Option.bind_some] at hv; simp only [hv, lastInserted]⟩
  · intro hp
    cases hi : (build history).find 0 key with
    | none => rfl
    | some i => exact absurd ((h2 key).mp (by rw [hi]; rfl)) (by rintro (h | h); exact hne h; exact hp h)

/-- C07. No-match is final. -/
theorem C07_noMatch_sticky (t : Trie Sym V) (rest : List Sym) : t.feed .noMatch rest = .noMatch := by
  induction rest with
  | nil => rfl
  | cons s ss ih => exact ih

/-- C07. `contains` answers exactly whether the sequence was inserted (including the empty one). -/
theorem C07_contains (history : List (List Sym × V)) (key : List Sym) :
    (build history).contains key = (lastInserted history key).isSome := by
  obtain ⟨-, -, h3⟩ := build_spec history
  have hloop : ∀ (t : Trie Sym V) c ks, c ≠ TrieCursor.noMatch → t.containsLoop c ks =
      (match t.feed c ks with | .noMatch => none | c' => some c') := by
    intro t c ks
    induction ks generalizing c with
    | nil => intro hc; cases c <;> first | rfl | exact absurd rfl hc
    | cons k ks ih =>
      intro hc
      simp only [containsLoop, feed, List.foldl_cons]
      cases ha : t.advance c k with
      | noMatch => rw [show List.foldl t.advance TrieCursor.noMatch ks = t.feed .noMatch ks from rfl, C07_noMatch_sticky]
      | start => exact ih _ (by simp)
      | «match» i p => exact ih _ (by simp)
  unfold contains
  rw [hloop _ _ _ (by simp), feed_start]
  have hv := h3 key
  unfold lastInserted
  rw [← hv]
  cases key with
  | nil => simp [find]
  | cons s ss =>
    rw [if_neg (by simp)]
    cases (build history).find 0 (s :: ss) with
    | none => rfl
    | some i => simp

/-- C07. No access is ever out of bounds: every index in a cursor reached from the start is a valid node index, so the Rust
indexing never panics. -/
theorem C07_indices_in_bounds (history : List (List Sym × V)) (key : List Sym) (idx : Nat) (p : Bool)
    (h : (build history).feed .start key = .match idx p) : idx < (build history).nodes.length := by
  obtain ⟨h1, -, -⟩ := build_spec history
  rw [feed_start] at h
  split at h
  · cases h
  · split at h
    · cases h
    · next i hi => cases h; exact h1.bound key idx hi

/-- A concrete history with an overwrite, a prefix pair and an unrelated key. -/
def demo : List (List Nat × Nat) := [([1, 2], 10), ([1], 20), ([1, 2], 30), ([7], 5)]
example : (build demo).get ((build demo).feed .start [1, 2]) = some 30 := by decide
example : lastInserted demo [1, 2] = some 30 ∧ lastInserted demo [2] = none := by decide
example : ∃ kv ∈ demo, [1, 2] <+: kv.1 := ⟨([1, 2], 10), by decide, by decide⟩
example : (build demo).feed .start [1] = .match 1 false := by decide

end Shpool.Trie
