import Verif.Chunk.Spec

namespace Shpool.Chunk

theorem ofLe32_le32 (n : Nat) (h : n < 2 ^ 32) : ofLe32 (le32 n) = some n := by
  simp only [ofLe32, le32, UInt8.toNat_ofNat', Option.some.injEq]
  omega

theorem le32_length (n : Nat) : (le32 n).length = 4 := rfl

theorem Kind.ofByte_toByte (k : Kind) : Kind.ofByte k.toByte = some k := by
  cases k <;> decide

theorem Kind.toByte_of_ofByte {b : UInt8} {k : Kind} (h : Kind.ofByte b = some k) : k.toByte = b := by
  unfold Kind.ofByte at h
  split at h
  · simp_all [Kind.toByte]; subst h; rfl
  · split at h
    · simp_all [Kind.toByte]; subst h; rfl
    · split at h
      · simp_all [Kind.toByte]; subst h; rfl
      · split at h
        · simp_all [Kind.toByte]; subst h; rfl
        · cases h

theorem flatReadExact_append (a b : List UInt8) : flatReadExact a.length (a ++ b) = some (a, b) := by
  simp [flatReadExact]

theorem flatReadExact_some {n : Nat} {s a b : List UInt8} (h : flatReadExact n s = some (a, b)) :
    s = a ++ b ∧ a.length = n := by
  unfold flatReadExact at h
  split at h
  · cases h
  · simp only [Option.some.injEq, Prod.mk.injEq] at h
    obtain ⟨rfl, rfl⟩ := h
    simp; omega

theorem flatReadExact_none {n : Nat} {s : List UInt8} (h : flatReadExact n s = none) : s.length < n := by
  unfold flatReadExact at h
  split at h
  · assumption
  · cases h

/-- A legal frame is written without panicking and occupies `wireSize` bytes. -/
theorem writeTo_legal (c : Chunk) (h : Legal c) : ∃ bs, writeTo c = .ok bs ∧ bs.length = wireSize c := by
  obtain ⟨k, buf⟩ := c
  obtain ⟨h4, hlt⟩ := h
  cases k <;> simp_all [writeTo, wireSize, le32] <;> omega

theorem writeTo_cons (c : Chunk) (bs : List UInt8) (h : writeTo c = .ok bs) :
    ∃ t, bs = c.kind.toByte :: t := by
  obtain ⟨k, buf⟩ := c
  cases k <;> simp only [writeTo] at h
  · exact ⟨_, (Except.ok.inj h).symm⟩
  · exact ⟨_, (Except.ok.inj h).symm⟩
  · split at h
    · exact ⟨_, (Except.ok.inj h).symm⟩
    · cases h
  · exact ⟨_, (Except.ok.inj h).symm⟩

theorem flatReadExact_one (x : UInt8) (s : List UInt8) : flatReadExact 1 (x :: s) = some ([x], s) := by
  simp [flatReadExact]

theorem flatReadExact_le32 (n : Nat) (s : List UInt8) : flatReadExact 4 (le32 n ++ s) = some (le32 n, s) := by
  exact flatReadExact_append (le32 n) s

/-- Flat round trip. -/
theorem readInto_flat_writeTo (c : Chunk) (cap : Nat) (bs rest : List UInt8) (hl : Legal c)
    (hcap : c.buf.length ≤ cap) (hw : writeTo c = .ok bs) :
    readInto flat cap (bs ++ rest) = .ok (c, rest) := by
  obtain ⟨k, buf⟩ := c
  obtain ⟨h4, hlt⟩ := hl
  simp only at hcap h4 hlt
  have key : ∀ k', k' ≠ Kind.exitStatus →
      readInto flat cap ((Kind.toByte k' :: (le32 buf.length ++ buf)) ++ rest) = .ok (⟨k', buf⟩, rest) := by
    intro k' hk'
    have e1 : flat.readExact 1 ((Kind.toByte k' :: (le32 buf.length ++ buf)) ++ rest)
        = some ([Kind.toByte k'], le32 buf.length ++ (buf ++ rest)) := by
      simp [flat, flatReadExact_one]
    have e2 : flat.readExact 4 (le32 buf.length ++ (buf ++ rest)) = some (le32 buf.length, buf ++ rest) :=
      flatReadExact_le32 _ _
    have e3 : flat.readExact buf.length (buf ++ rest) = some (buf, rest) := flatReadExact_append _ _
    unfold readInto
    rw [e1]
    simp only [List.head?_cons, Option.bind_some, Kind.ofByte_toByte]
    cases k' with
    | exitStatus => exact absurd rfl hk'
    | data | heartbeat | maybeSwitch =>
      simp only [e2, ofLe32_le32 _ hlt]
      rw [if_neg (by omega), e3]
  cases k with
  | data | heartbeat | maybeSwitch =>
    simp only [writeTo, Except.ok.injEq] at hw
    subst hw
    exact key _ (by decide)
  | exitStatus =>
    have h4' : buf.length = 4 := h4 rfl
    simp only [writeTo, h4', if_true, Except.ok.injEq] at hw
    subst hw
    have e1 : flat.readExact 1 ((Kind.toByte .exitStatus :: buf) ++ rest)
        = some ([Kind.toByte .exitStatus], buf ++ rest) := by
      simp [flat, flatReadExact_one]
    have e3 : flat.readExact 4 (buf ++ rest) = some (buf, rest) := by
      rw [← h4']; exact flatReadExact_append _ _
    unfold readInto
    rw [e1]
    simp only [List.head?_cons, Option.bind_some, Kind.ofByte_toByte, e3]
    rw [if_neg (by omega)]

/-- The segmented `read_exact` sees the concatenation of the segments. -/
theorem segReadExact_spec (n : Nat) (segs : List (List UInt8)) :
    (segReadExact n segs).map (fun p => (p.1, p.2.flatten)) = flatReadExact n segs.flatten := by
  induction segs generalizing n with
  | nil =>
    unfold segReadExact flatReadExact
    by_cases h : n = 0
    · simp [h]
    · simp [h]
  | cons seg segs ih =>
    unfold segReadExact
    by_cases h : n ≤ seg.length
    · have : ¬ (seg ++ segs.flatten).length < n := by simp; omega
      simp [h, flatReadExact, List.take_append_of_le_length, List.drop_append_of_le_length]
      omega
    · have ih' := ih (n - seg.length)
      rw [if_neg h]
      simp only [List.flatten_cons]
      unfold flatReadExact at ih' ⊢
      split
      · next h' =>
        rw [h'] at ih'
        simp only [Option.map_none] at ih' ⊢
        split at ih'
        · rw [if_pos]; simp only [List.length_append]; omega
        · cases ih'
      · next bs segs' h' =>
        rw [h'] at ih'
        simp only [Option.map_some] at ih' ⊢
        split at ih'
        · cases ih'
        · simp only [Option.some.injEq, Prod.mk.injEq] at ih'
          rw [if_neg (by simp only [List.length_append]; omega)]
          have e1 : List.take n (seg ++ segs.flatten) = seg ++ bs := by
            rw [List.take_append, ih'.1, List.take_of_length_le (by omega)]
          have e2 : List.drop n (seg ++ segs.flatten) = segs'.flatten := by
            rw [List.drop_append, ih'.2, List.drop_of_length_le (by omega), List.nil_append]
          rw [e1, e2]

/-- Forgetting segmentation in a result. -/
def unseg (r : Except Err (Chunk × List (List UInt8))) : Except Err (Chunk × List UInt8) :=
  match r with
  | .error e => .error e
  | .ok (c, s) => .ok (c, s.flatten)

theorem seg_flat_some {n : Nat} {segs : List (List UInt8)} {bs : List UInt8} {segs' : List (List UInt8)}
    (h : segmented.readExact n segs = some (bs, segs')) : flat.readExact n segs.flatten = some (bs, segs'.flatten) := by
  have := segReadExact_spec n segs
  simp only [segmented] at h
  simp only [flat]
  rw [h] at this; simpa using this.symm

theorem seg_flat_none {n : Nat} {segs : List (List UInt8)}
    (h : segmented.readExact n segs = none) : flat.readExact n segs.flatten = none := by
  have := segReadExact_spec n segs
  simp only [segmented] at h
  simp only [flat]
  rw [h] at this; simpa using this.symm

theorem readInto_seg (cap : Nat) (segs : List (List UInt8)) :
    unseg (readInto segmented cap segs) = readInto flat cap segs.flatten := by
  unfold readInto
  cases h1 : segmented.readExact 1 segs with
  | none => rw [seg_flat_none h1]; rfl
  | some p =>
    obtain ⟨kb, s1⟩ := p
    rw [seg_flat_some h1]
    dsimp only
    cases hk : kb.head?.bind Kind.ofByte with
    | none => rfl
    | some k =>
      cases k
      case exitStatus =>
        dsimp only
        split
        · rfl
        · cases h2 : segmented.readExact 4 s1 with
          | none => rw [seg_flat_none h2]; rfl
          | some q => obtain ⟨b, s2⟩ := q; rw [seg_flat_some h2]; rfl
      all_goals
        dsimp only
        cases h2 : segmented.readExact 4 s1 with
        | none => rw [seg_flat_none h2]; rfl
        | some q =>
          obtain ⟨lb, s2⟩ := q
          rw [seg_flat_some h2]
          dsimp only
          cases ofLe32 lb with
          | none => rfl
          | some len =>
            dsimp only
            split
            · rfl
            · cases h3 : segmented.readExact len s2 with
              | none => rw [seg_flat_none h3]; rfl
              | some r => obtain ⟨b, s3⟩ := r; rw [seg_flat_some h3]; rfl

theorem readInto_seg_ok {cap : Nat} {segs : List (List UInt8)} {c : Chunk} {rest : List UInt8}
    (h : readInto flat cap segs.flatten = .ok (c, rest)) :
    ∃ segs', readInto segmented cap segs = .ok (c, segs') ∧ segs'.flatten = rest := by
  rw [← readInto_seg] at h
  unfold unseg at h
  split at h
  · cases h
  · next c' s' he =>
    simp only [Except.ok.injEq, Prod.mk.injEq] at h
    exact ⟨s', by rw [he, h.1], h.2⟩

/-- Everything a successful read tells about the input. -/
theorem readInto_flat_ok {cap : Nat} {s rest : List UInt8} {c : Chunk} (h : readInto flat cap s = .ok (c, rest)) :
    Legal c ∧ c.buf.length ≤ cap ∧ ∃ bs, writeTo c = .ok bs ∧ s = bs ++ rest := by
  unfold readInto at h
  cases h1 : flat.readExact 1 s with
  | none => rw [h1] at h; cases h
  | some p =>
    obtain ⟨kb, s1⟩ := p
    rw [h1] at h
    dsimp only at h
    obtain ⟨e1, l1⟩ := flatReadExact_some h1
    obtain ⟨x, rfl⟩ : ∃ x, kb = [x] := by
      match kb, l1 with
      | [x], _ => exact ⟨x, rfl⟩
    simp only [List.head?_cons, Option.bind_some] at h
    cases hk : Kind.ofByte x with
    | none => rw [hk] at h; cases h
    | some k =>
      have hx := Kind.toByte_of_ofByte hk
      rw [hk] at h
      cases k
      case exitStatus =>
        dsimp only at h
        split at h
        · cases h
        · cases h2 : flat.readExact 4 s1 with
          | none => rw [h2] at h; cases h
          | some q =>
            obtain ⟨b, s2⟩ := q
            rw [h2] at h
            obtain ⟨e2, l2⟩ := flatReadExact_some h2
            simp only [Except.ok.injEq, Prod.mk.injEq] at h
            obtain ⟨rfl, rfl⟩ := h
            refine ⟨⟨fun _ => l2, by simp only [l2]; decide⟩, by simp only [l2]; omega, Kind.exitStatus.toByte :: b, ?_, ?_⟩
            · simp [writeTo, l2]
            · rw [e1, e2, hx]; simp
      all_goals
        dsimp only at h
        cases h2 : flat.readExact 4 s1 with
        | none => rw [h2] at h; cases h
        | some q =>
          obtain ⟨lb, s2⟩ := q
          rw [h2] at h
          obtain ⟨e2, l2⟩ := flatReadExact_some h2
          obtain ⟨a, b, c', d, rfl⟩ : ∃ a b c d, lb = [a, b, c, d] := by
            match lb, l2 with
            | [a, b, c, d], _ => exact ⟨a, b, c, d, rfl⟩
          simp only [ofLe32] at h
          split at h
          · cases h
          · next hle =>
            split at h
            · cases h
            · next buf s3 h3 =>
              obtain ⟨e3, l3⟩ := flatReadExact_some h3
              simp only [Except.ok.injEq, Prod.mk.injEq] at h
              obtain ⟨rfl, rfl⟩ := h
              have ha := a.toNat_lt; have hb := b.toNat_lt; have hc := c'.toNat_lt; have hd := d.toNat_lt
              have hle32 : le32 buf.length = [a, b, c', d] := by
                rw [l3]
                simp only [le32, List.cons.injEq, and_true]
                refine ⟨?_, ?_, ?_, ?_⟩ <;> apply UInt8.toNat_inj.mp <;> simp only [UInt8.toNat_ofNat'] <;> omega
              refine ⟨⟨fun hh => by simp at hh, by dsimp only; omega⟩, by dsimp only; omega, _, rfl, ?_⟩
              rw [e1, e2, e3, hle32, hx]; simp

end Shpool.Chunk
