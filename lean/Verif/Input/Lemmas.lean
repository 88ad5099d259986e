import Verif.Input.Spec

namespace Shpool.Input
open Keys (BindingResult Action)

/-- Bytes `a..b` of a buffer. -/
def slice (buf : List UInt8) (a b : Nat) : List UInt8 := (buf.drop a).take (b - a)

/-- The kept bytes before the last snip. -/
def pre (buf : List UInt8) : Nat → List (Nat × Nat) → List UInt8
  | _, [] => []
  | cur, (l, e) :: r => slice buf cur (e + 1 - l) ++ pre buf (e + 1) r

/-- The end of the last snip. -/
def lastEnd : Nat → List (Nat × Nat) → Nat
  | cur, [] => cur
  | _, (_, e) :: r => lastEnd (e + 1) r

/-- Snips in order and within `len`. -/
def SortedFrom (len : Nat) : Nat → List (Nat × Nat) → Prop
  | cur, [] => cur ≤ len
  | cur, (l, e) :: r => cur ≤ e + 1 ∧ l ≤ e + 1 ∧ SortedFrom len (e + 1) r

/-- Keep sections in order. -/
def KSorted (top : Nat) : Nat → List (Nat × Nat) → Prop
  | cur, [] => cur ≤ top
  | cur, (a, b) :: r => cur ≤ a ∧ a ≤ b ∧ KSorted top b r

theorem KSorted.weaken {top cur cur' : Nat} {ks : List (Nat × Nat)} (h : KSorted top cur ks) (hc : cur' ≤ cur) :
    KSorted top cur' ks := by
  cases ks with
  | nil => exact Nat.le_trans hc h
  | cons k r => exact ⟨Nat.le_trans hc h.1, h.2⟩

theorem KSorted.le {top cur : Nat} {ks : List (Nat × Nat)} (h : KSorted top cur ks) : cur ≤ top := by
  induction ks generalizing cur with
  | nil => exact h
  | cons k r ih => obtain ⟨a, b⟩ := k; have := ih h.2.2; have := h.1; have := h.2.1; omega

theorem slice_nil (buf : List UInt8) (a b : Nat) (h : b ≤ a) : slice buf a b = [] := by
  simp [slice, show b - a = 0 by omega]

theorem lastEnd_append (cur : Nat) (s : List (Nat × Nat)) (l e : Nat) : lastEnd cur (s ++ [(l, e)]) = e + 1 := by
  induction s generalizing cur with
  | nil => rfl
  | cons x xs ih => exact ih _

theorem pre_append (buf : List UInt8) (cur : Nat) (s : List (Nat × Nat)) (l e : Nat) :
    pre buf cur (s ++ [(l, e)]) = pre buf cur s ++ slice buf (lastEnd cur s) (e + 1 - l) := by
  induction s generalizing cur with
  | nil => simp [pre, lastEnd]
  | cons x xs ih =>
    obtain ⟨l', e'⟩ := x
    simp only [List.cons_append, pre, lastEnd, ih, List.append_assoc]

theorem SortedFrom.le {len cur : Nat} {s : List (Nat × Nat)} (h : SortedFrom len cur s) : lastEnd cur s ≤ len := by
  induction s generalizing cur with
  | nil => exact h
  | cons x xs ih => obtain ⟨l, e⟩ := x; exact ih h.2.2

theorem SortedFrom.ge {len cur : Nat} {s : List (Nat × Nat)} (h : SortedFrom len cur s) : cur ≤ lastEnd cur s := by
  induction s generalizing cur with
  | nil => exact Nat.le_refl _
  | cons x xs ih => obtain ⟨l, e⟩ := x; exact Nat.le_trans h.1 (ih h.2.2)

theorem SortedFrom.mono {len len' cur : Nat} {s : List (Nat × Nat)} (h : SortedFrom len cur s) (hl : len ≤ len') :
    SortedFrom len' cur s := by
  induction s generalizing cur with
  | nil => exact Nat.le_trans h hl
  | cons x xs ih => obtain ⟨l, e⟩ := x; exact ⟨h.1, h.2.1, ih h.2.2⟩

theorem SortedFrom.append {len len' cur : Nat} {s : List (Nat × Nat)} (h : SortedFrom len cur s) (l e : Nat)
    (h1 : lastEnd cur s ≤ e + 1) (h2 : l ≤ e + 1) (h3 : e + 1 ≤ len') : SortedFrom len' cur (s ++ [(l, e)]) := by
  induction s generalizing cur with
  | nil => exact ⟨h1, h2, h3⟩
  | cons x xs ih => obtain ⟨l', e'⟩ := x; exact ⟨h.1, h.2.1, ih h.2.2 h1⟩

theorem SortedFrom.nil_of_zero {len : Nat} {s : List (Nat × Nat)} (h : SortedFrom len 0 s) (h0 : lastEnd 0 s = 0) :
    s = [] := by
  cases s with
  | nil => rfl
  | cons x xs =>
    obtain ⟨l, e⟩ := x
    have := h.2.2.ge
    simp only [lastEnd] at h0
    omega

/-- First half of `snip_buf`. -/
theorem keepLoop_ok (buf : List UInt8) (len cur : Nat) (keep snips : List (Nat × Nat)) (h : SortedFrom len cur snips) :
    ∃ ks, keepLoop cur keep snips = some (lastEnd cur snips, keep ++ ks) ∧ KSorted (lastEnd cur snips) cur ks ∧
      ks.flatMap (fun k => slice buf k.1 k.2) = pre buf cur snips := by
  induction snips generalizing cur keep with
  | nil => exact ⟨[], by simp [keepLoop, lastEnd], Nat.le_refl _, rfl⟩
  | cons x xs ih =>
    obtain ⟨l, e⟩ := x
    obtain ⟨h1, h2, h3⟩ := h
    simp only [keepLoop, lastEnd, pre]
    rw [if_neg (by omega)]
    by_cases hs : e + 1 - l > cur
    · rw [if_pos hs]
      obtain ⟨ks, k1, k2, k3⟩ := ih (e + 1) (keep ++ [(cur, e + 1 - l)]) h3
      refine ⟨(cur, e + 1 - l) :: ks, ?_, ⟨Nat.le_refl _, by omega, k2.weaken (by omega)⟩, ?_⟩
      · rw [k1]; simp
      · simp [k3]
    · rw [if_neg hs]
      obtain ⟨ks, k1, k2, k3⟩ := ih (e + 1) keep h3
      refine ⟨ks, k1, k2.weaken h1, ?_⟩
      rw [k3, slice_nil buf cur (e + 1 - l) (by omega)]
      simp

/-- Second half of `snip_buf`. -/
theorem copyLoop_ok (orig buf : List UInt8) (last cur top : Nat) (ks : List (Nat × Nat)) (h : KSorted top cur ks)
    (hl : last ≤ cur) (htop : top ≤ orig.length) (hlen : buf.length = orig.length)
    (hd : buf.drop cur = orig.drop cur) :
    ∃ buf' n, copyLoop buf last ks = some (buf', n) ∧
      buf'.take n = buf.take last ++ ks.flatMap (fun k => slice orig k.1 k.2) ∧ n ≤ top ∧
      buf'.length = orig.length := by
  induction ks generalizing buf last cur with
  | nil => exact ⟨buf, last, rfl, by simp, Nat.le_trans hl h, hlen⟩
  | cons k r ih =>
    obtain ⟨a, b⟩ := k
    obtain ⟨h1, h2, h3⟩ := h
    have hbt := h3.le
    have hda : ∀ n, cur ≤ n → buf.drop n = orig.drop n := by
      intro n hn
      have := congrArg (List.drop (n - cur)) hd
      rw [List.drop_drop, List.drop_drop] at this
      rwa [show cur + (n - cur) = n by omega] at this
    simp only [copyLoop, List.flatMap_cons]
    by_cases e1 : a = b
    · rw [if_pos e1]
      obtain ⟨buf', n, p1, p2, p3⟩ := ih buf last cur (h3.weaken (by omega)) hl hlen hd
      exact ⟨buf', n, p1, by rw [p2, slice_nil orig a b (by omega)]; simp, p3⟩
    · rw [if_neg e1]
      by_cases e2 : a = last
      · rw [if_pos e2]
        obtain ⟨buf', n, p1, p2, p3⟩ := ih buf b b h3 (Nat.le_refl _) hlen (hda b (by omega))
        refine ⟨buf', n, p1, ?_, p3⟩
        rw [p2, ← List.append_assoc]
        congr 1
        rw [slice, ← hda a h1, ← e2]
        conv => lhs; rw [show b = a + (b - a) by omega, List.take_add]
      · rw [if_neg e2, if_neg (by omega), if_neg (by omega), if_neg (by omega)]
        have hm : (memmove buf a last (b - a)).length = orig.length := by
          simp [memmove]; omega
        have htk : (memmove buf a last (b - a)).take (last + (b - a)) = buf.take last ++ slice orig a b := by
          have hlA : (buf.take last ++ (buf.drop a).take (b - a)).length = last + (b - a) := by
            simp; omega
          unfold memmove
          rw [List.take_append_of_le_length (by omega), List.take_of_length_le (by omega), slice, hda a h1]
        have hdr : (memmove buf a last (b - a)).drop b = orig.drop b := by
          have hlA : (buf.take last ++ (buf.drop a).take (b - a)).length = last + (b - a) := by
            simp; omega
          unfold memmove
          rw [List.drop_append, List.drop_eq_nil_of_le (by omega), List.nil_append, hlA, List.drop_drop,
            show last + (b - a) + (b - (last + (b - a))) = b by omega]
          exact hda b (by omega)
        obtain ⟨buf', n, p1, p2, p3⟩ := ih (memmove buf a last (b - a)) (last + (b - a)) b h3 (by omega) hm hdr
        refine ⟨buf', n, p1, ?_, p3⟩
        rw [p2, htk, List.append_assoc]

/-- `snip_buf` never panics on ordered snips and leaves exactly the bytes between them. -/
theorem snipBuf_ok (buf : List UInt8) (len : Nat) (snips : List (Nat × Nat)) (h : SortedFrom len 0 snips)
    (hlen : len ≤ buf.length) :
    ∃ buf' n, snipBuf buf len snips = some (buf', n) ∧
      buf'.take n = pre buf 0 snips ++ slice buf (lastEnd 0 snips) len ∧ n ≤ len ∧ buf'.length = buf.length := by
  unfold snipBuf
  by_cases he : snips.isEmpty
  · rw [if_pos he]
    have : snips = [] := List.isEmpty_iff.mp he
    subst this
    exact ⟨buf, len, rfl, by simp [pre, lastEnd, slice], Nat.le_refl _, rfl⟩
  · rw [if_neg he]
    obtain ⟨ks, k1, k2, k3⟩ := keepLoop_ok buf len 0 [] snips h
    rw [k1]
    dsimp only
    have hks : KSorted len 0 ([] ++ ks ++ [(lastEnd 0 snips, len)]) := by
      have hle := h.le
      clear k1 k3
      rw [List.nil_append]
      generalize lastEnd 0 snips = top at k2 hle ⊢
      generalize 0 = c at k2 ⊢
      induction ks generalizing c with
      | nil => exact ⟨k2, hle, Nat.le_refl _⟩
      | cons k r ih => obtain ⟨a, b⟩ := k; exact ⟨k2.1, k2.2.1, ih b k2.2.2⟩
    obtain ⟨buf', n, p1, p2, p3, p4⟩ := copyLoop_ok buf buf 0 0 len _ hks (Nat.le_refl _) hlen rfl rfl
    refine ⟨buf', n, p1, ?_, p3, p4⟩
    rw [p2]
    simp [k3]

theorem slice_snoc (buf : List UInt8) (a i : Nat) (b : UInt8) (ha : a ≤ i) (hb : buf[i]? = some b) :
    slice buf a (i + 1) = slice buf a i ++ [b] := by
  unfold slice
  rw [show i + 1 - a = (i - a) + 1 by omega, List.take_add_one]
  congr 1
  rw [List.getElem?_drop, show a + (i - a) = i by omega, hb]
  rfl

theorem slice_split (buf : List UInt8) (a m b : Nat) (h1 : a ≤ m) (h2 : m ≤ b) :
    slice buf a b = slice buf a m ++ slice buf m b := by
  unfold slice
  rw [show b - a = (m - a) + (b - m) by omega, List.take_add, List.drop_drop, show a + (m - a) = m by omega]

theorem slice_length (buf : List UInt8) (a b : Nat) (h : b ≤ buf.length) : (slice buf a b).length = b - a := by
  unfold slice; simp; omega

variable {σ : Type} {tr : σ → UInt8 → σ × BindingResult}

/-- Loop invariant of the scan at offset `i`.  `W` was written before this read, `G` is a hypothesis under which nothing is lost. -/
structure ScanInv (buf W : List UInt8) (G : Prop) (id : Ideal σ) (s : Scan σ) (i : Nat) : Prop where
  eng : s.eng = id.eng
  part : s.part = id.withheld
  sorted : SortedFrom i 0 s.snips
  cases :
    (s.part.length + lastEnd 0 s.snips ≤ i ∧ s.part = slice buf (i - s.part.length) i ∧
      (W ++ s.flushed ++ pre buf 0 s.snips ++ slice buf (lastEnd 0 s.snips) (i - s.part.length)).Sublist id.delivered ∧
      (G → W ++ s.flushed ++ pre buf 0 s.snips ++ slice buf (lastEnd 0 s.snips) (i - s.part.length) = id.delivered))
    ∨ (i < s.part.length ∧ s.snips = [] ∧ s.flushed = [] ∧ W.Sublist id.delivered ∧ (G → W = id.delivered))

theorem ScanInv.step {buf W : List UInt8} {G : Prop} {id : Ideal σ} {s : Scan σ} {i : Nat} (h : ScanInv buf W G id s i)
    (b : UInt8) (hb : buf[i]? = some b)
    (hG : G → ∀ a, (tr s.eng b).2 = .match a → s.part.length + 1 ≠ i) :
    ScanInv buf W G (id.step tr b) (scanByte tr s i b).1 (i + 1) := by
  have he := h.eng
  have hp := h.part
  have hs := h.sorted
  have hle := hs.le
  have hil : i < buf.length := (List.getElem?_eq_some_iff.mp hb).1
  unfold scanByte Ideal.step
  rw [← he, ← hp]
  cases hr : (tr s.eng b).2 with
  | noMatch =>
    dsimp only
    rcases h.cases with ⟨c1, c2, c3, c4⟩ | ⟨c1, c2, c3, c4, c5⟩
    · rw [if_neg (by rintro ⟨-, h⟩; omega)]
      have hsplit : slice buf (lastEnd 0 s.snips) (i + 1) =
          slice buf (lastEnd 0 s.snips) (i - s.part.length) ++ (s.part ++ [b]) := by
        rw [slice_snoc buf _ i b (by omega) hb, slice_split buf _ (i - s.part.length) i (by omega) (by omega), ← c2,
          List.append_assoc]
      refine ⟨rfl, rfl, hs.mono (by omega), .inl ⟨by simp; omega, by simp [slice], ?_, ?_⟩⟩
      · simp only [List.length_nil, Nat.sub_zero, hsplit]
        rw [← List.append_assoc, List.append_assoc id.delivered]
        exact List.Sublist.append c3 (List.Sublist.refl _)
      · intro g
        simp only [List.length_nil, Nat.sub_zero, hsplit]
        rw [← List.append_assoc, c4 g, List.append_assoc]
    · have hne : ¬ s.part.isEmpty = true := by
        intro hh
        have : s.part = [] := List.isEmpty_iff.mp hh
        rw [this] at c1; simp at c1
      rw [if_pos ⟨hne, c1⟩]
      rw [c2, c3]
      have hpre : pre buf 0 (if i > 0 then [] ++ [(i, i - 1)] else []) = [] := by
        split
        · simp [pre, slice_nil buf 0 (i - 1 + 1 - i) (by omega)]
        · rfl
      have hlast : lastEnd 0 (if i > 0 then [] ++ [(i, i - 1)] else []) = i := by
        split
        · simp [lastEnd]; omega
        · simp [lastEnd]; omega
      have hslice : slice buf i (i + 1) = [b] := by
        rw [slice_snoc buf i i b (Nat.le_refl _) hb, slice_nil buf i i (Nat.le_refl _)]; rfl
      refine ⟨rfl, rfl, ?_, .inl ⟨?_, by simp [slice], ?_, ?_⟩⟩
      · dsimp only
        split
        · refine ⟨by omega, by omega, ?_⟩
          show i - 1 + 1 ≤ i + 1
          omega
        · exact Nat.zero_le _
      · dsimp only; rw [hlast]; simp
      · dsimp only
        rw [hpre, hlast]
        simp only [List.length_nil, Nat.sub_zero, List.nil_append, List.append_nil, hslice]
        exact List.Sublist.append (List.Sublist.append c4 (List.Sublist.refl _)) (List.Sublist.refl _)
      · intro g
        dsimp only
        rw [hpre, hlast]
        simp only [List.length_nil, Nat.sub_zero, List.nil_append, List.append_nil, hslice, c5 g]
  | partialMatch =>
    dsimp only
    rcases h.cases with ⟨c1, c2, c3, c4⟩ | ⟨c1, c2, c3, c4, c5⟩
    · have hsub : i + 1 - (s.part ++ [b]).length = i - s.part.length := by simp
      refine ⟨rfl, rfl, hs.mono (by omega), .inl ⟨by simp; omega, ?_, ?_, ?_⟩⟩
      · dsimp only
        rw [hsub, slice_snoc buf _ i b (by omega) hb, ← c2]
      · dsimp only; rw [hsub]; exact c3
      · intro g; dsimp only; rw [hsub]; exact c4 g
    · exact ⟨rfl, rfl, hs.mono (by omega), .inr ⟨by simp; omega, c2, c3, c4, c5⟩⟩
  | «match» a =>
    dsimp only
    rcases h.cases with ⟨c1, c2, c3, c4⟩ | ⟨c1, c2, c3, c4, c5⟩
    · by_cases hk : s.part.length + 1 < i
      · rw [if_pos hk]
        have hend : slice buf (i + 1) (i + 1) = [] := slice_nil _ _ _ (Nat.le_refl _)
        refine ⟨rfl, rfl, hs.append _ _ (by omega) (by omega) (Nat.le_refl _), .inl ⟨?_, ?_, ?_, ?_⟩⟩
        · dsimp only; rw [lastEnd_append]; simp
        · simp [slice]
        · dsimp only
          rw [lastEnd_append, pre_append, List.length_nil, Nat.sub_zero, hend, List.append_nil, ← List.append_assoc,
            show i + 1 - (s.part.length + 1) = i - s.part.length by omega]
          exact c3
        · intro g
          dsimp only
          rw [lastEnd_append, pre_append, List.length_nil, Nat.sub_zero, hend, List.append_nil, ← List.append_assoc,
            show i + 1 - (s.part.length + 1) = i - s.part.length by omega]
          exact c4 g
      · rw [if_neg hk]
        have hend : slice buf (i + 1) (i + 1) = [] := slice_nil _ _ _ (Nat.le_refl _)
        have hzero : slice buf (lastEnd 0 s.snips) (i + 1 - (i + 1)) = [] := slice_nil _ _ _ (by omega)
        refine ⟨rfl, rfl, hs.append _ _ (by omega) (by omega) (Nat.le_refl _), .inl ⟨?_, ?_, ?_, ?_⟩⟩
        · dsimp only; rw [lastEnd_append]; simp
        · simp [slice]
        · dsimp only
          rw [lastEnd_append, pre_append, List.length_nil, Nat.sub_zero, hend, List.append_nil, hzero, List.append_nil]
          exact (List.sublist_append_left _ _).trans c3
        · intro g
          dsimp only
          rw [lastEnd_append, pre_append, List.length_nil, Nat.sub_zero, hend, List.append_nil, hzero, List.append_nil]
          have hno := hG g a hr
          rw [← c4 g, slice_nil buf (lastEnd 0 s.snips) (i - s.part.length), List.append_nil]
          by_cases h0 : lastEnd 0 s.snips = 0
          · have : s.part.length + 1 ≥ i := by omega
            omega
          · omega
    · rw [if_neg (by omega)]
      rw [c2, c3]
      refine ⟨rfl, rfl, ⟨by omega, by omega, Nat.le_refl _⟩, .inl ⟨?_, by simp [slice], ?_, ?_⟩⟩
      · simp [lastEnd]
      · simp only [List.nil_append, pre, lastEnd, slice_nil buf 0 (i + 1 - (i + 1)) (by omega), List.append_nil,
          List.length_nil, Nat.sub_zero, slice_nil buf (i + 1) (i + 1) (Nat.le_refl _)]
        exact c4
      · intro g
        simp only [List.nil_append, pre, lastEnd, slice_nil buf 0 (i + 1 - (i + 1)) (by omega), List.append_nil,
          List.length_nil, Nat.sub_zero, slice_nil buf (i + 1) (i + 1) (Nat.le_refl _)]
        exact c5 g

theorem scanByte_detach (s : Scan σ) (i : Nat) (b : UInt8) :
    (scanByte tr s i b).2 = true ↔ (tr s.eng b).2 = .match .detach := by
  unfold scanByte
  cases hr : (tr s.eng b).2 with
  | noMatch => dsimp only; split <;> simp
  | partialMatch => simp
  | «match» a => cases a <;> simp

/-- The loop when no detach fires. -/
theorem scan_running {buf W : List UInt8} {G : Prop} (bs : List UInt8) (id : Ideal σ) (s : Scan σ) (i : Nat)
    (h : ScanInv buf W G id s i) (hb : ∀ k, k < bs.length → buf[i + k]? = bs[k]?)
    (hnd : NoDetach tr s.eng bs) (hG : G → NoSecondByteStart tr s.eng s.part i bs) :
    ∃ s', scan tr s i bs = (s', false) ∧ ScanInv buf W G (id.run tr bs) s' (i + bs.length) := by
  induction bs generalizing id s i with
  | nil => exact ⟨s, rfl, h⟩
  | cons b bs ih =>
    have hb0 : buf[i]? = some b := by have := hb 0 (by simp); simpa using this
    have hstep := h.step (tr := tr) b hb0 (by
      intro g a hr
      have := hG g
      simp only [NoSecondByteStart, hr] at this
      exact this.1)
    have hfl : (scanByte tr s i b).2 = false := by
      cases hf : (scanByte tr s i b).2 with
      | false => rfl
      | true => exact absurd ((scanByte_detach s i b).mp hf) hnd.1
    have heng : (scanByte tr s i b).1.eng = (tr s.eng b).1 := by
      unfold scanByte
      cases (tr s.eng b).2 with
      | noMatch => dsimp only; split <;> rfl
      | partialMatch => rfl
      | «match» a => cases a <;> rfl
    obtain ⟨s', r1, r2⟩ := ih (id.step tr b) (scanByte tr s i b).1 (i + 1) hstep
      (by intro k hk; have := hb (k + 1) (by simp; omega); simpa [Nat.add_assoc, Nat.add_comm 1 k] using this)
      (by rw [heng]; exact hnd.2)
      (by
        intro g
        have := hG g
        rw [heng]
        revert this
        unfold scanByte
        simp only [NoSecondByteStart]
        cases hr : (tr s.eng b).2 with
        | noMatch => dsimp only; split <;> exact fun h => h
        | partialMatch => exact fun h => h
        | «match» a => cases a <;> exact fun h => h.2)
    refine ⟨s', ?_, ?_⟩
    · rw [scan]
      have : scanByte tr s i b = ((scanByte tr s i b).1, false) := by rw [← hfl]
      rw [this]; exact r1
    · have e : i + (b :: bs).length = i + 1 + bs.length := by simp; omega
      rw [e]; exact r2

theorem ScanInv.start (buf W : List UInt8) (G : Prop) (id : Ideal σ) (t : Thread σ) (he : t.eng = id.eng)
    (hp : t.part = id.withheld) (hW : W.Sublist id.delivered) (hG : G → W = id.delivered) :
    ScanInv buf W G id ⟨t.eng, t.part, [], []⟩ 0 := by
  refine ⟨he, hp, Nat.le_refl _, ?_⟩
  by_cases h0 : t.part = []
  · left
    dsimp only
    rw [h0]
    refine ⟨by simp [lastEnd], by simp [slice], ?_, ?_⟩
    · simpa [pre, slice] using hW
    · simpa [pre, slice] using hG
  · right
    exact ⟨List.length_pos_iff.mpr h0, rfl, rfl, hW, hG⟩

theorem readBuf_get (t : Thread σ) (chunk : List UInt8) (k : Nat) (hk : k < chunk.length) :
    (chunk ++ t.buf.drop chunk.length)[0 + k]? = chunk[k]? := by
  rw [Nat.zero_add, List.getElem?_append_left hk]

theorem processRead_running {W : List UInt8} {G : Prop} {id : Ideal σ} (t : Thread σ) (chunk : List UInt8)
    (hne : chunk ≠ []) (hcap : chunk.length ≤ t.buf.length) (he : t.eng = id.eng) (hp : t.part = id.withheld)
    (hW : W.Sublist id.delivered) (hGW : G → W = id.delivered) (hnd : NoDetach tr t.eng chunk)
    (hG : G → NoSecondByteStart tr t.eng t.part 0 chunk) :
    ∃ t' w, processRead tr t chunk = .running t' w ∧ t'.eng = (id.run tr chunk).eng ∧
      t'.part = (id.run tr chunk).withheld ∧ t'.buf.length = t.buf.length ∧
      (W ++ w).Sublist (id.run tr chunk).delivered ∧ (G → W ++ w = (id.run tr chunk).delivered) := by
  have hpos : 0 < chunk.length := List.length_pos_iff.mpr hne
  generalize hbuf : chunk ++ t.buf.drop chunk.length = buf
  have hblen : buf.length = t.buf.length := by rw [← hbuf]; simp; omega
  obtain ⟨s', hs, hinv⟩ := scan_running chunk id ⟨t.eng, t.part, [], []⟩ 0
    (ScanInv.start buf W G id t he hp hW hGW) (by intro k hk; rw [← hbuf]; exact readBuf_get t chunk k hk) hnd hG
  rw [Nat.zero_add] at hinv
  have htake : buf.take chunk.length = chunk := by rw [← hbuf]; simp
  unfold processRead
  simp only [hbuf, htake, hs]
  have hle := hinv.sorted.le
  by_cases hpe : s'.part = []
  · simp only [hpe, List.isEmpty_nil, not_true, if_false]
    obtain ⟨buf', n, k1, k2, k3, k4⟩ := snipBuf_ok buf chunk.length s'.snips hinv.sorted (by omega)
    rw [k1]
    refine ⟨_, _, rfl, hinv.eng, by rw [← hinv.part, hpe], by rw [k4, hblen], ?_⟩
    rcases hinv.cases with ⟨c1, c2, c3, c4⟩ | ⟨c1, -⟩
    · rw [hpe] at c3 c4
      simp only [List.length_nil, Nat.sub_zero] at c3 c4
      rw [k2]
      simp only [List.append_assoc] at c3 c4 ⊢
      exact ⟨c3, c4⟩
    · rw [hpe] at c1; simp at c1
  · have hpne : ¬ s'.part.isEmpty = true := by
      intro hh; exact hpe (List.isEmpty_iff.mp hh)
    rw [if_pos hpne]
    rcases hinv.cases with ⟨c1, c2, c3, c4⟩ | ⟨c1, c2, c3, c4, c5⟩
    · rw [if_neg (by omega)]
      have hsrt : SortedFrom chunk.length 0 (s'.snips ++ [(s'.part.length, chunk.length - 1)]) :=
        hinv.sorted.append _ _ (by omega) (by omega) (by omega)
      obtain ⟨buf', n, k1, k2, k3, k4⟩ := snipBuf_ok buf chunk.length _ hsrt (by omega)
      rw [k1]
      refine ⟨_, _, rfl, hinv.eng, hinv.part, by rw [k4, hblen], ?_⟩
      rw [k2, pre_append, lastEnd_append, slice_nil buf (chunk.length - 1 + 1) chunk.length (by omega), List.append_nil,
        show chunk.length - 1 + 1 - s'.part.length = chunk.length - s'.part.length by omega]
      simp only [List.append_assoc] at c3 c4 ⊢
      exact ⟨c3, c4⟩
    · rw [if_pos (by omega), c2]
      have hsrt : SortedFrom chunk.length 0 [(chunk.length, chunk.length - 1)] := by
        refine ⟨by omega, by omega, ?_⟩
        show chunk.length - 1 + 1 ≤ chunk.length
        omega
      obtain ⟨buf', n, k1, k2, k3, k4⟩ := snipBuf_ok buf chunk.length _ hsrt (by omega)
      rw [List.nil_append, k1]
      refine ⟨_, _, rfl, hinv.eng, hinv.part, by rw [k4, hblen], ?_⟩
      rw [k2, c3]
      simp only [pre, lastEnd, slice_nil buf 0 (chunk.length - 1 + 1 - chunk.length) (by omega),
        slice_nil buf (chunk.length - 1 + 1) chunk.length (by omega), List.append_nil]
      exact ⟨c4, c5⟩

theorem NoDetach.append {e : σ} {a b : List UInt8} (s : Ideal σ) (hs : s.eng = e) :
    NoDetach tr e (a ++ b) ↔ NoDetach tr e a ∧ NoDetach tr (s.run tr a).eng b := by
  induction a generalizing e s with
  | nil => simp [NoDetach, Ideal.run, hs]
  | cons x xs ih =>
    have heng : (s.step tr x).eng = (tr e x).1 := by
      unfold Ideal.step; rw [hs]; cases (tr e x).2 <;> rfl
    have := ih (e := (tr e x).1) (s.step tr x) heng
    simp only [List.cons_append, NoDetach, this, and_assoc]
    rfl

theorem run_append (s : Ideal σ) (a b : List UInt8) : s.run tr (a ++ b) = (s.run tr a).run tr b := by
  simp [Ideal.run, List.foldl_append]

/-- A series of reads without detach. -/
theorem runReads_running {W : List UInt8} {G : Prop} {id : Ideal σ} (t : Thread σ) (reads : List (List UInt8))
    (hl : LegalReads t.buf.length reads) (he : t.eng = id.eng) (hp : t.part = id.withheld)
    (hW : W.Sublist id.delivered) (hGW : G → W = id.delivered) (hnd : NoDetach tr t.eng reads.flatten)
    (hG : G → NoSecondByteStarts tr id reads) :
    ∃ t' w, runReads tr t W reads = .running t' w ∧ t'.eng = (id.run tr reads.flatten).eng ∧
      t'.part = (id.run tr reads.flatten).withheld ∧ t'.buf.length = t.buf.length ∧
      w.Sublist (id.run tr reads.flatten).delivered ∧ (G → w = (id.run tr reads.flatten).delivered) := by
  induction reads generalizing t W id with
  | nil => exact ⟨t, W, rfl, he, hp, rfl, hW, hGW⟩
  | cons c cs ih =>
    rw [List.flatten_cons] at hnd ⊢
    rw [NoDetach.append id he.symm] at hnd
    obtain ⟨hne, hcap⟩ := hl c (by simp)
    obtain ⟨t1, w1, r1, r2, r3, r4, r5, r6⟩ := processRead_running t c hne hcap he hp hW hGW hnd.1
      (fun g => by have := (hG g).1; rw [he, hp]; exact this)
    obtain ⟨t2, w2, q1, q2, q3, q4, q5, q6⟩ := ih (W := W ++ w1) (id := id.run tr c) t1
      (by rw [r4]; exact fun c' hc' => hl c' (List.mem_cons_of_mem _ hc')) r2 r3 r5 r6
      (by rw [r2]; exact hnd.2) (fun g => (hG g).2)
    refine ⟨t2, w2, ?_, ?_, ?_, by rw [q4, r4], ?_, ?_⟩
    · simp only [runReads, r1, q1]
    · rw [run_append]; exact q2
    · rw [run_append]; exact q3
    · rw [run_append]; exact q5
    · rw [run_append]; exact q6

theorem kept_sublist (buf : List UInt8) (len cur m : Nat) (s : List (Nat × Nat)) (h : SortedFrom len cur s)
    (hm : lastEnd cur s ≤ m) : (pre buf cur s ++ slice buf (lastEnd cur s) m).Sublist (slice buf cur m) := by
  induction s generalizing cur with
  | nil => exact List.Sublist.refl _
  | cons x xs ih =>
    obtain ⟨l, e⟩ := x
    obtain ⟨h1, h2, h3⟩ := h
    have hge := h3.ge
    have hle : e + 1 ≤ m := Nat.le_trans hge hm
    simp only [pre, lastEnd, List.append_assoc]
    rw [slice_split buf cur (e + 1) m h1 hle]
    refine List.Sublist.append ?_ (ih (e + 1) h3 hm)
    by_cases hc : cur ≤ e + 1 - l
    · rw [slice_split buf cur (e + 1 - l) (e + 1) hc (by omega)]
      exact List.sublist_append_left _ _
    · rw [slice_nil buf cur (e + 1 - l) (by omega)]
      exact List.nil_sublist _

theorem scan_append (s s1 : Scan σ) (i : Nat) (a b : List UInt8) (h : scan tr s i a = (s1, false)) :
    scan tr s i (a ++ b) = scan tr s1 (i + a.length) b := by
  induction a generalizing s i with
  | nil => cases h; rfl
  | cons x xs ih =>
    simp only [List.cons_append, scan] at h ⊢
    cases hsb : scanByte tr s i x with
    | mk s' f =>
      rw [hsb] at h
      cases f with
      | true => simp at h
      | false =>
        dsimp only at h ⊢
        rw [ih s' (i + 1) h]
        congr 1
        simp; omega

/-- The read in which the detach binding is completed (by byte `b`). -/
theorem processRead_detached {W : List UInt8} {G : Prop} {id : Ideal σ} (t : Thread σ) (c1 c2 : List UInt8) (b : UInt8)
    (he : t.eng = id.eng) (hp : t.part = id.withheld)
    (hW : W.Sublist id.delivered) (hGW : G → W = id.delivered) (hnd : NoDetach tr t.eng c1)
    (hb : (tr (id.run tr c1).eng b).2 = .match .detach)
    (hG : G → NoSecondByteStart tr t.eng t.part 0 c1) :
    ∃ w lost, processRead tr t (c1 ++ b :: c2) = .detached w ∧ lost.Sublist c1 ∧
      (W ++ w ++ lost).Sublist (id.run tr c1).delivered ∧ (G → W ++ w ++ lost = (id.run tr c1).delivered) ∧
      (c1.length ≤ (id.run tr c1).withheld.length → lost = []) := by
  generalize hchunk : c1 ++ b :: c2 = chunk
  generalize hbuf : chunk ++ t.buf.drop chunk.length = buf
  have hclen : c1.length ≤ chunk.length := by rw [← hchunk]; simp
  obtain ⟨s', hs, hinv⟩ := scan_running c1 id ⟨t.eng, t.part, [], []⟩ 0
    (ScanInv.start buf W G id t he hp hW hGW) (by
      intro k hk
      rw [← hbuf, readBuf_get t chunk k (by omega), ← hchunk, List.getElem?_append_left hk]) hnd hG
  have htake : buf.take chunk.length = chunk := by rw [← hbuf]; simp
  have hscan : scan tr ⟨t.eng, t.part, [], []⟩ 0 chunk = ((scanByte tr s' c1.length b).1, true) := by
    rw [← hchunk, scan_append _ _ _ _ _ hs, Nat.zero_add]
    have := (scanByte_detach (tr := tr) s' c1.length b).mpr (by rw [hinv.eng]; exact hb)
    simp only [scan]
    cases hsb : scanByte tr s' c1.length b with
    | mk s2 f => rw [hsb] at this; cases this; rfl
  have hfl : (scanByte tr s' c1.length b).1.flushed = s'.flushed := by
    have : (tr s'.eng b).2 = .match .detach := by rw [hinv.eng]; exact hb
    unfold scanByte; rw [this]
  rw [Nat.zero_add] at hinv
  have hb1 : buf.take c1.length = c1 := by
    have : buf.take c1.length = (buf.take chunk.length).take c1.length := by rw [List.take_take, Nat.min_eq_left hclen]
    rw [this, htake, ← hchunk]; simp
  rcases hinv.cases with ⟨k1, k2, k3, k4⟩ | ⟨k1, k2, k3, k4, k5⟩
  · refine ⟨s'.flushed, pre buf 0 s'.snips ++ slice buf (lastEnd 0 s'.snips) (c1.length - s'.part.length), ?_, ?_, ?_, ?_, ?_⟩
    · unfold processRead
      simp only [hbuf, htake, hscan, hfl]
    · have h1 := kept_sublist buf c1.length 0 (c1.length - s'.part.length) s'.snips hinv.sorted (by omega)
      refine h1.trans ?_
      have h2 : slice buf 0 (c1.length - s'.part.length) = c1.take (c1.length - s'.part.length) := by
        have h3 : c1.take (c1.length - s'.part.length) = (buf.take c1.length).take (c1.length - s'.part.length) := by rw [hb1]
        rw [h3, List.take_take, Nat.min_eq_left (by omega)]
        simp [slice]
      rw [h2]; exact List.take_sublist _ _
    · rw [← List.append_assoc]; exact k3
    · intro g; rw [← List.append_assoc]; exact k4 g
    · intro hlen
      rw [← hinv.part] at hlen
      have h0 : lastEnd 0 s'.snips = 0 := by omega
      have hnil := hinv.sorted.nil_of_zero h0
      rw [hnil]
      simp [pre, lastEnd, slice, show c1.length - s'.part.length = 0 by omega]
  · refine ⟨s'.flushed, [], ?_, List.nil_sublist _, ?_, ?_, fun _ => rfl⟩
    · unfold processRead
      simp only [hbuf, htake, hscan, hfl]
    · rw [k3]; simpa using k4
    · intro g; rw [k3]; simpa using k5 g

theorem NoFire.noDetach {e : σ} {bs : List UInt8} (h : NoFire tr e bs) : NoDetach tr e bs := by
  induction bs generalizing e with
  | nil => trivial
  | cons b bs ih => exact ⟨h.1 _, ih h.2⟩

theorem NoFire.noSecond {e : σ} {w : List UInt8} {i : Nat} {bs : List UInt8} (h : NoFire tr e bs) :
    NoSecondByteStart tr e w i bs := by
  induction bs generalizing e w i with
  | nil => trivial
  | cons b bs ih =>
    unfold NoSecondByteStart
    cases hr : (tr e b).2 with
    | noMatch => exact ih h.2
    | partialMatch => exact ih h.2
    | «match» a => exact absurd hr (h.1 a)

theorem NoFire.append {e : σ} {a b : List UInt8} (s : Ideal σ) (hs : s.eng = e) :
    NoFire tr e (a ++ b) ↔ NoFire tr e a ∧ NoFire tr (s.run tr a).eng b := by
  induction a generalizing e s with
  | nil => simp [NoFire, Ideal.run, hs]
  | cons x xs ih =>
    have heng : (s.step tr x).eng = (tr e x).1 := by
      unfold Ideal.step; rw [hs]; cases (tr e x).2 <;> rfl
    have := ih (e := (tr e x).1) (s.step tr x) heng
    simp only [List.cons_append, NoFire, this, and_assoc]
    rfl

theorem NoFire.noSeconds {id : Ideal σ} {reads : List (List UInt8)} (h : NoFire tr id.eng reads.flatten) :
    NoSecondByteStarts tr id reads := by
  induction reads generalizing id with
  | nil => trivial
  | cons c cs ih =>
    rw [List.flatten_cons, NoFire.append id rfl] at h
    exact ⟨h.1.noSecond, ih h.2⟩

/-- Without a firing binding the ideal filter passes everything on. -/
theorem ideal_noFire {id : Ideal σ} {input : List UInt8} (h : NoFire tr id.eng input) :
    (id.run tr input).delivered ++ (id.run tr input).withheld = id.delivered ++ id.withheld ++ input := by
  induction input generalizing id with
  | nil => simp [Ideal.run]
  | cons b bs ih =>
    have heng : (id.step tr b).eng = (tr id.eng b).1 := by
      unfold Ideal.step; cases (tr id.eng b).2 <;> rfl
    have := ih (id := id.step tr b) (by rw [heng]; exact h.2)
    show ((id.step tr b).run tr bs).delivered ++ ((id.step tr b).run tr bs).withheld = _
    rw [this]
    unfold Ideal.step
    cases hr : (tr id.eng b).2 with
    | noMatch => simp
    | partialMatch => simp
    | «match» a => exact absurd hr (h.1 a)

/-- Reads of one byte each never start a binding at their second byte. -/
theorem singles_noSecond {id : Ideal σ} {input : List UInt8} :
    NoSecondByteStarts tr id (input.map fun b => [b]) := by
  induction input generalizing id with
  | nil => trivial
  | cons b bs ih =>
    refine ⟨?_, ih⟩
    unfold NoSecondByteStart
    cases (tr id.eng b).2 with
    | noMatch => trivial
    | partialMatch => trivial
    | «match» a => exact ⟨by omega, trivial⟩

theorem runReads_append (t : Thread σ) (W : List UInt8) (a b : List (List UInt8)) (t1 : Thread σ) (W1 : List UInt8)
    (h : runReads tr t W a = .running t1 W1) : runReads tr t W (a ++ b) = runReads tr t1 W1 b := by
  induction a generalizing t W with
  | nil => cases h; rfl
  | cons c cs ih =>
    simp only [List.cons_append, runReads] at h ⊢
    cases hp : processRead tr t c with
    | running t' w => rw [hp] at h; exact ih _ _ h
    | detached w => rw [hp] at h; cases h
    | panicked => rw [hp] at h; cases h

theorem NoDetach.first {e : σ} (s : Ideal σ) (hs : s.eng = e) (bs : List UInt8) (h : ¬ NoDetach tr e bs) :
    ∃ a b c, bs = a ++ b :: c ∧ NoDetach tr e a ∧ (tr (s.run tr a).eng b).2 = .match .detach := by
  induction bs generalizing e s with
  | nil => exact absurd trivial h
  | cons x xs ih =>
    by_cases hx : (tr e x).2 = .match .detach
    · exact ⟨[], x, xs, rfl, trivial, by simpa [Ideal.run, hs] using hx⟩
    · have heng : (s.step tr x).eng = (tr e x).1 := by
        unfold Ideal.step; rw [hs]; cases (tr e x).2 <;> rfl
      obtain ⟨a, b, c, h1, h2, h3⟩ := ih (e := (tr e x).1) (s.step tr x) heng (fun hh => h ⟨hx, hh⟩)
      exact ⟨x :: a, b, c, by rw [h1]; rfl, ⟨hx, h2⟩, h3⟩

/-- What the ideal filter holds is always part of what it was given. -/
theorem ideal_sublist (id : Ideal σ) (input : List UInt8) :
    ((id.run tr input).delivered ++ (id.run tr input).withheld).Sublist (id.delivered ++ id.withheld ++ input) := by
  induction input generalizing id with
  | nil => simp [Ideal.run]
  | cons b bs ih =>
    refine (ih (id.step tr b)).trans ?_
    unfold Ideal.step
    cases (tr id.eng b).2 with
    | noMatch => simp
    | partialMatch => simp
    | «match» a =>
      simp only [List.append_nil, List.append_assoc]
      refine List.Sublist.append_left ?_ _
      exact (List.sublist_cons_self b bs).trans (List.sublist_append_right _ _)

/-- Any series of legal reads: no panic, and only received bytes are written. -/
theorem runReads_total {W : List UInt8} {id : Ideal σ} (t : Thread σ) (reads : List (List UInt8))
    (hl : LegalReads t.buf.length reads) (he : t.eng = id.eng) (hp : t.part = id.withheld)
    (hW : W.Sublist id.delivered) :
    ∃ w, w.Sublist (id.delivered ++ id.withheld ++ reads.flatten) ∧
      ((∃ t', runReads tr t W reads = .running t' w) ∨ runReads tr t W reads = .detached w) := by
  induction reads generalizing t W id with
  | nil => exact ⟨W, by simpa using hW.trans (List.sublist_append_left _ _), .inl ⟨t, rfl⟩⟩
  | cons c cs ih =>
    obtain ⟨hne, hcap⟩ := hl c (by simp)
    by_cases hd : NoDetach tr t.eng c
    · obtain ⟨t1, w1, r1, r2, r3, r4, r5, -⟩ := processRead_running (G := False) t c hne hcap he hp hW
        (fun h => h.elim) hd (fun h => h.elim)
      obtain ⟨w, hw, hr⟩ := ih (W := W ++ w1) (id := id.run tr c) t1
        (by rw [r4]; exact fun c' hc' => hl c' (List.mem_cons_of_mem _ hc')) r2 r3 r5
      refine ⟨w, ?_, ?_⟩
      · rw [List.flatten_cons, ← List.append_assoc]
        exact hw.trans (List.Sublist.append (ideal_sublist id c) (List.Sublist.refl _))
      · simp only [runReads, r1]; exact hr
    · obtain ⟨a, b, c2, h1, h2, h3⟩ := NoDetach.first id he.symm c hd
      obtain ⟨w, lost, r1, r2, r3, -, -⟩ := processRead_detached (G := False) t a c2 b he hp hW (fun h => h.elim) h2 h3
        (fun h => h.elim)
      rw [← h1] at r1
      refine ⟨W ++ w, ?_, .inr (by simp only [runReads, r1])⟩
      have k1 : (W ++ w).Sublist (id.run tr a).delivered := (List.sublist_append_left _ _).trans r3
      have k2 := k1.trans ((List.sublist_append_left _ _).trans (ideal_sublist id a))
      refine k2.trans (List.Sublist.append (List.Sublist.refl _) ?_)
      rw [List.flatten_cons, h1]
      simp

/-- A series of reads in which the detach binding is completed by byte `b` of the read `c1 ++ b :: c2`. -/
theorem runReads_detached {W : List UInt8} {G : Prop} {id : Ideal σ} (t : Thread σ) (before after : List (List UInt8))
    (c1 c2 : List UInt8) (b : UInt8)
    (hl : LegalReads t.buf.length before) (he : t.eng = id.eng) (hp : t.part = id.withheld)
    (hW : W.Sublist id.delivered) (hGW : G → W = id.delivered)
    (hnd : NoDetach tr t.eng (before.flatten ++ c1))
    (hb : (tr (id.run tr (before.flatten ++ c1)).eng b).2 = .match .detach)
    (hG : G → NoSecondByteStarts tr id (before ++ [c1])) :
    ∃ w lost, runReads tr t W (before ++ (c1 ++ b :: c2) :: after) = .detached w ∧ lost.Sublist c1 ∧
      (w ++ lost).Sublist (id.run tr (before.flatten ++ c1)).delivered ∧
      (G → w ++ lost = (id.run tr (before.flatten ++ c1)).delivered) ∧
      (c1.length ≤ (id.run tr (before.flatten ++ c1)).withheld.length → lost = []) := by
  have happ : ∀ (s : Ideal σ) (a : List (List UInt8)) (c : List UInt8), NoSecondByteStarts tr s (a ++ [c]) ↔
      NoSecondByteStarts tr s a ∧ NoSecondByteStart tr (s.run tr a.flatten).eng (s.run tr a.flatten).withheld 0 c := by
    intro s a c
    induction a generalizing s with
    | nil => simp [NoSecondByteStarts, Ideal.run]
    | cons x xs ih =>
      simp only [List.cons_append, NoSecondByteStarts, ih, List.flatten_cons, run_append, and_assoc]
  rw [NoDetach.append id he.symm] at hnd
  obtain ⟨t1, W1, r1, r2, r3, r4, r5, r6⟩ := runReads_running (W := W) (G := G) t before hl he hp hW hGW hnd.1
    (fun g => ((happ id before c1).mp (hG g)).1)
  rw [run_append] at hb ⊢
  obtain ⟨w, lost, q1, q2, q3, q4, q5⟩ := processRead_detached (W := W1) (G := G) t1 c1 c2 b r2 r3 r5 r6
    (by rw [r2]; exact hnd.2) hb (fun g => by rw [r2, r3]; exact ((happ id before c1).mp (hG g)).2)
  refine ⟨W1 ++ w, lost, ?_, q2, q3, q4, q5⟩
  rw [runReads_append t W before _ t1 W1 r1]
  simp only [runReads, q1]

end Shpool.Input
