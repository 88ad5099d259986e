import Verif.Chunk.Lemmas
/-!
# Properties C01-C04: wire framing
-/

namespace Shpool.Chunk

/-- C01. Any legal frame whose payload fits the reader's buffer is written without failure and read back identically,
leaving the following bytes untouched. -/
theorem C01_frame_round_trip (c : Chunk) (cap : Nat) (rest : List UInt8) (hl : Legal c)
    (hcap : c.buf.length ≤ cap) :
    ∃ bs, writeTo c = .ok bs ∧ readInto flat cap (bs ++ rest) = .ok (c, rest) := by
  obtain ⟨bs, hw, _⟩ := writeTo_legal c hl
  exact ⟨bs, hw, readInto_flat_writeTo c cap bs rest hl hcap hw⟩

/-- The wire layout itself, spelled out: kind byte, then (except for exit status) the little endian length, then the
payload. This pins the format for independent clients. -/
theorem C01_wire_layout (c : Chunk) (hl : Legal c) :
    ∃ l0 l1 l2 l3 : UInt8,
      l0.toNat + 2 ^ 8 * l1.toNat + 2 ^ 16 * l2.toNat + 2 ^ 24 * l3.toNat = c.buf.length ∧
      writeTo c = .ok (match c.kind with
        | .data => 0 :: l0 :: l1 :: l2 :: l3 :: c.buf
        | .heartbeat => 1 :: l0 :: l1 :: l2 :: l3 :: c.buf
        | .exitStatus => 2 :: c.buf
        | .maybeSwitch => 3 :: l0 :: l1 :: l2 :: l3 :: c.buf) := by
  obtain ⟨k, buf⟩ := c
  obtain ⟨h4, hlt⟩ := hl
  refine ⟨UInt8.ofNat (buf.length % 256), UInt8.ofNat (buf.length / 256 % 256),
    UInt8.ofNat (buf.length / 65536 % 256), UInt8.ofNat (buf.length / 16777216 % 256), ?_, ?_⟩
  · dsimp only at hlt ⊢
    simp only [UInt8.toNat_ofNat']
    omega
  · cases k
    case exitStatus => simp [writeTo, show buf.length = 4 from h4 rfl, Kind.toByte]
    all_goals rfl

example : Legal ⟨.data, [104, 105]⟩ ∧ ([104, 105] : List UInt8).length ≤ 16384 := by decide
example : Legal ⟨.exitStatus, [1, 0, 0, 0]⟩ := by decide
example : writeTo ⟨.data, [104, 105]⟩ = .ok [0, 2, 0, 0, 0, 104, 105] := by rfl

/-- C02. A sequence of legal frames written on one connection is decoded as exactly that sequence, for every way the
byte stream (followed by arbitrary further bytes) is cut into segments. -/
theorem C02_stream_round_trip (cs : List Chunk) (cap : Nat) (rest : List UInt8)
    (h : ∀ c ∈ cs, Legal c ∧ c.buf.length ≤ cap) :
    ∃ bs, writeAll cs = .ok bs ∧
      ∀ segs : List (List UInt8), segs.flatten = bs ++ rest →
        ∃ segs', readN segmented cap cs.length segs = .ok (cs, segs') ∧ segs'.flatten = rest := by
  induction cs with
  | nil => exact ⟨[], rfl, fun segs hs => ⟨segs, rfl, by simpa using hs⟩⟩
  | cons c cs ih =>
    obtain ⟨bs2, hw2, ih2⟩ := ih (fun c' hc' => h c' (List.mem_cons_of_mem _ hc'))
    obtain ⟨hl, hcap⟩ := h c List.mem_cons_self
    obtain ⟨bs1, hw1, _⟩ := writeTo_legal c hl
    refine ⟨bs1 ++ bs2, by simp [writeAll, hw1, hw2], fun segs hs => ?_⟩
    have hr : readInto flat cap segs.flatten = .ok (c, bs2 ++ rest) := by
      rw [hs, List.append_assoc]; exact readInto_flat_writeTo c cap bs1 _ hl hcap hw1
    obtain ⟨s1, hr1, hs1⟩ := readInto_seg_ok hr
    obtain ⟨s2, hr2, hs2⟩ := ih2 s1 hs1
    exact ⟨s2, by simp [readN, hr1, hr2], hs2⟩

/-- C02, for arbitrary (also illegal) streams: the outcome of reading a frame is the same for any two segmentations of
the same bytes: same frame and same remaining bytes, or same error. -/
theorem C02_segmentation_irrelevant (cap : Nat) (segs₁ segs₂ : List (List UInt8))
    (h : segs₁.flatten = segs₂.flatten) :
    (∀ e, readInto segmented cap segs₁ = .error e ↔ readInto segmented cap segs₂ = .error e) ∧
    (∀ c, (∃ r₁, readInto segmented cap segs₁ = .ok (c, r₁)) ↔ (∃ r₂, readInto segmented cap segs₂ = .ok (c, r₂))) ∧
    (∀ c₁ r₁ c₂ r₂, readInto segmented cap segs₁ = .ok (c₁, r₁) → readInto segmented cap segs₂ = .ok (c₂, r₂) →
      c₁ = c₂ ∧ r₁.flatten = r₂.flatten) := by
  have e : unseg (readInto segmented cap segs₁) = unseg (readInto segmented cap segs₂) := by
    rw [readInto_seg, readInto_seg, h]
  rcases h1 : readInto segmented cap segs₁ with e1 | ⟨c1, r1⟩ <;>
    rcases h2 : readInto segmented cap segs₂ with e2 | ⟨c2, r2⟩ <;>
    rw [h1, h2] at e <;> simp only [unseg, Except.error.injEq, Except.ok.injEq, Prod.mk.injEq, reduceCtorEq] at e
  · subst e; simp
  · obtain ⟨rfl, e⟩ := e
    refine ⟨by simp, fun c => ?_, fun c₁ r₁ c₂ r₂ h₁ h₂ => ?_⟩
    · constructor
      · rintro ⟨r, h⟩; cases h; exact ⟨_, rfl⟩
      · rintro ⟨r, h⟩; cases h; exact ⟨_, rfl⟩
    · cases h₁; cases h₂; exact ⟨rfl, e⟩

example : ([[0, 2], [0, 0, 0, 104], [], [105]] : List (List UInt8)).flatten = [0, 2, 0, 0, 0, 104, 105] ++ [] := by
  decide

/-- C03. Reading from arbitrary bytes: whatever is returned is a legal frame that fits the buffer, and exactly the bytes
of that frame were consumed. -/
theorem C03_reader_sound (cap : Nat) (s rest : List UInt8) (c : Chunk) (h : readInto flat cap s = .ok (c, rest)) :
    Legal c ∧ c.buf.length ≤ cap ∧ s.length = wireSize c + rest.length ∧
      ∃ bs, writeTo c = .ok bs ∧ s = bs ++ rest := by
  obtain ⟨hl, hc, bs, hw, hs⟩ := readInto_flat_ok h
  obtain ⟨bs', hw', hlen⟩ := writeTo_legal c hl
  rw [hw] at hw'
  cases hw'
  exact ⟨hl, hc, by rw [hs, List.length_append, hlen], bs, hw, hs⟩

/-- C03, rejections: a kind byte above 3 is refused. -/
theorem C03_unknown_kind_rejected (cap : Nat) (b : UInt8) (s : List UInt8) (h : 3 < b.toNat) :
    readInto flat cap (b :: s) = .error .unknownKind := by
  have hk : Kind.ofByte b = none := by
    unfold Kind.ofByte
    rw [if_neg, if_neg, if_neg, if_neg] <;> rintro rfl <;> revert h <;> decide
  simp [readInto, flat, flatReadExact_one, hk]

/-- C03, rejections: a declared length above the buffer is refused before any payload byte is read. -/
theorem C03_oversize_rejected (cap : Nat) (k : Kind) (a b c d : UInt8) (s : List UInt8) (hk : k ≠ .exitStatus)
    (hc : cap < a.toNat + 256 * b.toNat + 65536 * c.toNat + 16777216 * d.toNat) :
    readInto flat cap (k.toByte :: a :: b :: c :: d :: s) = .error .bufferTooSmall := by
  have ha := a.toNat_lt
  have hb := b.toNat_lt
  have hc' := c.toNat_lt
  have hd := d.toNat_lt
  generalize hn' : a.toNat + 256 * b.toNat + 65536 * c.toNat + 16777216 * d.toNat = n at hc
  have hn : n < 2 ^ 32 := by omega
  have hle : a :: b :: c :: d :: s = le32 n ++ s := by
    simp only [le32, List.cons_append, List.nil_append, List.cons.injEq, and_true]
    refine ⟨?_, ?_, ?_, ?_⟩ <;> apply UInt8.toNat_inj.mp <;> simp only [UInt8.toNat_ofNat'] <;> omega
  rw [hle]
  have e2 : flat.readExact 4 (le32 n ++ s) = some (le32 n, s) := flatReadExact_le32 _ _
  have e1 : flat.readExact 1 (k.toByte :: (le32 n ++ s)) = some ([k.toByte], le32 n ++ s) := by
    simp [flat, flatReadExact_one]
  unfold readInto
  rw [e1]
  simp only [List.head?_cons, Option.bind_some, Kind.ofByte_toByte]
  cases k with
  | exitStatus => exact absurd rfl hk
  | data | heartbeat | maybeSwitch => simp only [e2, ofLe32_le32 _ hn]; rw [if_pos (by omega)]

/-- C03, rejections: a truncated frame (any proper prefix of a legal frame) is refused with an EOF error, never
decoded as something else. -/
theorem C03_truncated_rejected (c : Chunk) (cap : Nat) (bs p : List UInt8) (hl : Legal c) (hcap : c.buf.length ≤ cap)
    (hw : writeTo c = .ok bs) (hp : p <+: bs) (hne : p ≠ bs) :
    readInto flat cap p = .error .eof := by
  -- if `p` decoded to something, or to another error, so would `bs`
  obtain ⟨q, hq⟩ := hp
  have hqne : q ≠ [] := by rintro rfl; simp at hq; exact hne hq
  have hfull := readInto_flat_writeTo c cap bs [] hl hcap hw
  rw [List.append_nil, ← hq] at hfull
  -- monotonicity of each `read_exact`
  have mono : ∀ n s a b, flat.readExact n s = some (a, b) → flat.readExact n (s ++ q) = some (a, b ++ q) := by
    intro n s a b h
    obtain ⟨rfl, rfl⟩ := flatReadExact_some h
    rw [List.append_assoc]; exact flatReadExact_append _ _
  unfold readInto at hfull ⊢
  cases h1 : flat.readExact 1 p with
  | none => rfl
  | some x =>
    obtain ⟨kb, s1⟩ := x
    rw [mono _ _ _ _ h1] at hfull
    dsimp only at hfull ⊢
    cases hk : kb.head?.bind Kind.ofByte with
    | none => rw [hk] at hfull; cases hfull
    | some k =>
      rw [hk] at hfull
      cases k
      case exitStatus =>
        dsimp only at hfull ⊢
        split at hfull
        · cases hfull
        · next hc =>
          rw [if_neg hc]
          cases h2 : flat.readExact 4 s1 with
          | none => rfl
          | some y =>
            obtain ⟨b, s2⟩ := y
            rw [mono _ _ _ _ h2] at hfull
            simp only [Except.ok.injEq, Prod.mk.injEq, List.append_eq_nil_iff] at hfull
            exact absurd hfull.2.2 hqne
      all_goals
        dsimp only at hfull ⊢
        cases h2 : flat.readExact 4 s1 with
        | none => rfl
        | some y =>
          obtain ⟨b, s2⟩ := y
          rw [mono _ _ _ _ h2] at hfull
          dsimp only at hfull ⊢
          cases h3 : ofLe32 b with
          | none => rfl
          | some len =>
            rw [h3] at hfull
            dsimp only at hfull ⊢
            split at hfull
            · cases hfull
            · next hc =>
              rw [if_neg hc]
              cases h4 : flat.readExact len s2 with
              | none => rfl
              | some z =>
                obtain ⟨b', s3⟩ := z
                rw [mono _ _ _ _ h4] at hfull
                simp only [Except.ok.injEq, Prod.mk.injEq, List.append_eq_nil_iff] at hfull
                exact absurd hfull.2.2 hqne

example : readInto flat 16384 [9, 1, 2] = .error .unknownKind := by rfl
example : (0 : UInt8) :: [2, 0, 0] <+: [0, 2, 0, 0, 0, 104, 105] := by decide

/-- C04. No frame's encoding is a prefix of another frame's encoding. -/
theorem C04_prefix_free (c d : Chunk) (bc bd : List UInt8) (hc : Legal c) (hd : Legal d)
    (wc : writeTo c = .ok bc) (wd : writeTo d = .ok bd) (h : bc <+: bd) : c = d := by
  obtain ⟨q, hq⟩ := h
  have h1 := readInto_flat_writeTo c (max c.buf.length d.buf.length) bc q hc (Nat.le_max_left ..) wc
  have h2 := readInto_flat_writeTo d (max c.buf.length d.buf.length) bd [] hd (Nat.le_max_right ..) wd
  rw [List.append_nil, ← hq, h1] at h2
  simp only [Except.ok.injEq, Prod.mk.injEq] at h2
  exact h2.1

/-- C04. Different frame sequences have different byte streams. -/
theorem C04_stream_injective (cs ds : List Chunk) (b : List UInt8) (hc : ∀ c ∈ cs, Legal c) (hd : ∀ d ∈ ds, Legal d)
    (wc : writeAll cs = .ok b) (wd : writeAll ds = .ok b) : cs = ds := by
  induction cs generalizing ds b with
  | nil =>
    cases wc
    cases ds with
    | nil => rfl
    | cons d ds =>
      obtain ⟨bd, hw, _⟩ := writeTo_legal d (hd d List.mem_cons_self)
      obtain ⟨t, rfl⟩ := writeTo_cons d bd hw
      simp only [writeAll, hw] at wd
      split at wd <;> simp at wd
  | cons c cs ih =>
    obtain ⟨bc, hwc, _⟩ := writeTo_legal c (hc c List.mem_cons_self)
    simp only [writeAll, hwc] at wc
    split at wc
    · cases wc
    · next rc hrc =>
      cases ds with
      | nil =>
        obtain ⟨t, rfl⟩ := writeTo_cons c bc hwc
        cases wd; simp at wc
      | cons d ds =>
        obtain ⟨bd, hwd, _⟩ := writeTo_legal d (hd d List.mem_cons_self)
        simp only [writeAll, hwd] at wd
        split at wd
        · cases wd
        · next rd hrd =>
          simp only [Except.ok.injEq] at wc wd
          have heq : bc ++ rc = bd ++ rd := wc.trans wd.symm
          have h1 := readInto_flat_writeTo c (max c.buf.length d.buf.length) bc rc (hc c List.mem_cons_self)
            (Nat.le_max_left ..) hwc
          have h2 := readInto_flat_writeTo d (max c.buf.length d.buf.length) bd rd (hd d List.mem_cons_self)
            (Nat.le_max_right ..) hwd
          rw [heq, h2] at h1
          simp only [Except.ok.injEq, Prod.mk.injEq] at h1
          obtain ⟨rfl, rfl⟩ := h1
          rw [ih ds rd (fun x hx => hc x (List.mem_cons_of_mem _ hx)) (fun x hx => hd x (List.mem_cons_of_mem _ hx))
            hrc hrd]

/-- The length cast makes frames of `2^32` bytes or more ambiguous, which is why `Legal` excludes them: the encoding
of such a data frame equals kind byte + truncated length + payload. -/
theorem C04_truncated_length (c : Chunk) (h : c.kind = .data) :
    ∃ b0 b1 b2 b3 : UInt8, writeTo c = .ok (0 :: ([b0, b1, b2, b3] ++ c.buf)) ∧
      b0.toNat + 256 * b1.toNat + 65536 * b2.toNat + 16777216 * b3.toNat = c.buf.length % 2 ^ 32 := by
  suffices h : writeTo c = .ok (0 :: (le32 (c.buf.length % 2 ^ 32) ++ c.buf)) by
    refine ⟨_, _, _, _, h, ?_⟩
    simp only [UInt8.toNat_ofNat']
    omega
  obtain ⟨k, buf⟩ := c
  subst h
  have : le32 buf.length = le32 (buf.length % 2 ^ 32) := by
    simp only [le32, List.cons.injEq, and_true]
    refine ⟨?_, ?_, ?_, ?_⟩ <;> apply UInt8.toNat_inj.mp <;> simp only [UInt8.toNat_ofNat'] <;> omega
  simp only [writeTo, this, Kind.toByte]

end Shpool.Chunk
