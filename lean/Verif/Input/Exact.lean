import Verif.Input.Props
/-! # Exactly what the shell gets of the bytes the client sends (C13, C15, C16) -/

namespace Shpool.Input
open Keys (BindingResult Action Bindings Spells)

variable {σ : Type}

/-! ## Specification -/

/-- The bytes fire a binding, and all those before the one that does belong to it. -/
def firesNext (tr : σ → UInt8 → σ × BindingResult) : σ → List UInt8 → Bool
  | _, [] => false
  | e, b :: bs =>
    match (tr e b).2 with
    | .noMatch => false
    | .partialMatch => firesNext tr (tr e b).1 bs
    | .match _ => true

/-- The read begins with a byte that is to be passed on, and a binding fires that begins right after it. -/
def Costs (tr : σ → UInt8 → σ × BindingResult) (e : σ) : List UInt8 → Bool
  | [] => false
  | b :: bs =>
    match (tr e b).2 with
    | .noMatch => firesNext tr (tr e b).1 bs
    | _ => false

/-- The ideal filter, but a read of that kind loses its first byte. -/
def Ideal.read (tr : σ → UInt8 → σ × BindingResult) (s : Ideal σ) (c : List UInt8) : Ideal σ :=
  match c with
  | [] => s
  | b :: bs => if Costs tr s.eng (b :: bs) then Ideal.run tr ⟨(tr s.eng b).1, [], s.delivered ++ s.withheld⟩ bs else s.run tr (b :: bs)

/-- A series of reads. -/
def Ideal.reads (tr : σ → UInt8 → σ × BindingResult) (s : Ideal σ) (cs : List (List UInt8)) : Ideal σ := cs.foldl (Ideal.read tr) s

/-- The number of reads that lose their first byte. -/
def costs (tr : σ → UInt8 → σ × BindingResult) : Ideal σ → List (List UInt8) → Nat
  | _, [] => 0
  | s, c :: cs => (if Costs tr s.eng c then 1 else 0) + costs tr (s.run tr c) cs

/-- What is given up of the bytes withheld before a read, when the read shows that they belong to no binding. -/
def givenUp (tr : σ → UInt8 → σ × BindingResult) : σ → List UInt8 → List UInt8 → List UInt8
  | _, _, [] => []
  | e, w, b :: bs =>
    match (tr e b).2 with
    | .noMatch => w
    | .partialMatch => givenUp tr (tr e b).1 (w ++ [b]) bs
    | .match _ => []

/-! ## A machine with offsets -/

variable {tr : σ → UInt8 → σ × BindingResult}

/-- The ideal filter with the defect; `first` says that the first byte of the read was passed on. -/
structure Off (σ : Type) where
  id : Ideal σ
  first : Bool

def Off.step (tr : σ → UInt8 → σ × BindingResult) (s : Off σ) (i : Nat) (b : UInt8) : Off σ where
  id := match (tr s.id.eng b).2 with
    | .match _ => if s.id.withheld.length + 1 = i ∧ s.first = true then ⟨(tr s.id.eng b).1, [], s.id.delivered.dropLast⟩ else s.id.step tr b
    | _ => s.id.step tr b
  first := if i = 0 then (tr s.id.eng b).2 == .noMatch else s.first

def Off.run (tr : σ → UInt8 → σ × BindingResult) (s : Off σ) (i : Nat) : List UInt8 → Off σ
  | [] => s
  | b :: bs => Off.run tr (s.step tr i b) (i + 1) bs

theorem ideal_run_cons (s : Ideal σ) (b : UInt8) (bs : List UInt8) : s.run tr (b :: bs) = (s.step tr b).run tr bs := rfl

theorem off_later (bs : List UInt8) (s : Off σ) (i : Nat) (hi : 0 < i) (h : s.id.withheld.length + 1 ≠ i ∨ s.first = false) :
    (s.run tr i bs).id = s.id.run tr bs := by
  induction bs generalizing s i with
  | nil => rfl
  | cons b bs ih =>
    have hid : (s.step tr i b).id = s.id.step tr b := by
      simp only [Off.step]
      cases hr : (tr s.id.eng b).2 with
      | noMatch => rfl
      | partialMatch => rfl
      | «match» a =>
        dsimp only
        rw [if_neg]
        rintro ⟨h1, h2⟩
        rcases h with h | h
        · exact h h1
        · rw [h] at h2; cases h2
    rw [Off.run, ideal_run_cons, ← hid]
    refine ih _ _ (by omega) ?_
    rw [hid]
    simp only [Off.step, if_neg (show i ≠ 0 by omega)]
    rcases h with h | h
    · left
      unfold Ideal.step
      cases (tr s.id.eng b).2 <;> simp <;> omega
    · exact .inr h

theorem off_second (bs : List UInt8) (e : σ) (w d : List UInt8) (b0 : UInt8) :
    (Off.run tr ⟨⟨e, w, d ++ [b0]⟩, true⟩ (w.length + 1) bs).id =
      if firesNext tr e bs then Ideal.run tr ⟨e, w, d⟩ bs else Ideal.run tr ⟨e, w, d ++ [b0]⟩ bs := by
  induction bs generalizing e w with
  | nil => rfl
  | cons b bs ih =>
    rw [Off.run, firesNext, ideal_run_cons, ideal_run_cons]
    simp only [Off.step, Ideal.step, Nat.add_eq_zero_iff, Nat.succ_ne_self, and_false, if_false]
    cases hr : (tr e b).2 with
    | noMatch =>
      simp only [Bool.false_eq_true, if_false]
      rw [off_later _ _ _ (by omega) (.inl (by simp))]
    | partialMatch =>
      dsimp only
      have := ih (tr e b).1 (w ++ [b])
      rw [List.length_append] at this
      exact this
    | «match» a =>
      simp only [and_self, if_true, List.dropLast_concat]
      rw [off_later _ _ _ (by omega) (.inl (by simp))]

theorem off_read (c : List UInt8) (s : Ideal σ) (z : Bool) : (Off.run tr ⟨s, z⟩ 0 c).id = s.read tr c := by
  cases c with
  | nil => rfl
  | cons b bs =>
    rw [Off.run]
    simp only [Ideal.read, Costs]
    obtain ⟨r, hr⟩ : ∃ r, (tr s.eng b).2 = r := ⟨_, rfl⟩
    simp only [hr]
    cases r with
    | noMatch =>
      have hst : Off.step tr ⟨s, z⟩ 0 b = ⟨⟨(tr s.eng b).1, [], s.delivered ++ s.withheld ++ [b]⟩, true⟩ := by
        simp [Off.step, Ideal.step, hr]
      have hsec := off_second (tr := tr) bs (tr s.eng b).1 [] (s.delivered ++ s.withheld) b
      rw [List.length_nil] at hsec
      rw [hst, hsec]
      congr 1
      rw [ideal_run_cons, Ideal.step, hr]
    | partialMatch =>
      have hst : Off.step tr ⟨s, z⟩ 0 b = ⟨s.step tr b, false⟩ := by
        simp only [Off.step, hr]; rfl
      rw [hst, off_later _ _ _ (by omega) (.inr rfl)]
      rfl
    | «match» a =>
      have hst : Off.step tr ⟨s, z⟩ 0 b = ⟨s.step tr b, false⟩ := by
        simp [Off.step, hr]
      rw [hst, off_later _ _ _ (by omega) (.inr rfl)]
      rfl

/-! ## The scan -/

structure OffInv (buf W : List UInt8) (id : Off σ) (s : Scan σ) (i : Nat) : Prop where
  eng : s.eng = id.id.eng
  part : s.part = id.id.withheld
  sorted : SortedFrom i 0 s.snips
  cases :
    (s.part.length + lastEnd 0 s.snips ≤ i ∧ s.part = slice buf (i - s.part.length) i ∧
      W ++ s.flushed ++ pre buf 0 s.snips ++ slice buf (lastEnd 0 s.snips) (i - s.part.length) = id.id.delivered ∧
      (s.part.length + 1 = i → (id.first = true ∧ s.snips = []) ∨ (id.first = false ∧ lastEnd 0 s.snips = 1)))
    ∨ (i < s.part.length ∧ s.snips = [] ∧ s.flushed = [] ∧ W = id.id.delivered)

theorem OffInv.step {buf W : List UInt8} {id : Off σ} {s : Scan σ} {i : Nat} (h : OffInv buf W id s i)
    (b : UInt8) (hb : buf[i]? = some b) : OffInv buf W (id.step tr i b) (scanByte tr s i b).1 (i + 1) := by
  have he := h.eng
  have hp := h.part
  have hs := h.sorted
  have hle := hs.le
  have hil : i < buf.length := (List.getElem?_eq_some_iff.mp hb).1
  unfold scanByte Off.step Ideal.step
  rw [← he, ← hp]
  cases hr : (tr s.eng b).2 with
  | noMatch =>
    dsimp only
    rcases h.cases with ⟨c1, c2, c3, c4⟩ | ⟨c1, c2, c3, c4⟩
    · rw [if_neg (c := ¬ s.part.isEmpty = true ∧ i < s.part.length) (by rintro ⟨-, h⟩; omega)]
      have hsplit : slice buf (lastEnd 0 s.snips) (i + 1) =
          slice buf (lastEnd 0 s.snips) (i - s.part.length) ++ (s.part ++ [b]) := by
        rw [slice_snoc buf _ i b (by omega) hb, slice_split buf _ (i - s.part.length) i (by omega) (by omega), ← c2,
          List.append_assoc]
      refine ⟨rfl, rfl, hs.mono (by omega), .inl ⟨by simp; omega, by simp [slice], ?_, ?_⟩⟩
      · simp only [List.length_nil, Nat.sub_zero, hsplit]
        rw [← List.append_assoc, c3, List.append_assoc]
      · simp only [List.length_nil]
        intro hi
        have hi0 : i = 0 := by omega
        subst hi0
        exact .inl ⟨by simp, hs.nil_of_zero (by omega)⟩
    · have hne : ¬ s.part.isEmpty = true := by
        intro hh
        have : s.part = [] := List.isEmpty_iff.mp hh
        rw [this] at c1; simp at c1
      rw [if_pos (c := ¬ s.part.isEmpty = true ∧ i < s.part.length) ⟨hne, c1⟩]
      rw [c2, c3]
      have hpre : pre buf 0 (if i > 0 then [] ++ [(i, i - 1)] else []) = [] := by
        split
        · simp [pre, slice_nil buf 0 (i - 1 + 1 - i) (by omega)]
        · rfl
      have hlast : lastEnd 0 (if i > 0 then [] ++ [(i, i - 1)] else []) = i := by
        split
        · simp [lastEnd]; omega
        · simp [lastEnd]; omega
      have hslice : slice buf i (i + 1) = [b] := by
        rw [slice_snoc buf i i b (Nat.le_refl _) hb, slice_nil buf i i (Nat.le_refl _)]; rfl
      refine ⟨rfl, rfl, ?_, .inl ⟨?_, by simp [slice], ?_, ?_⟩⟩
      · dsimp only
        split
        · refine ⟨by omega, by omega, ?_⟩
          show i - 1 + 1 ≤ i + 1
          omega
        · exact Nat.zero_le _
      · dsimp only; rw [hlast]; simp
      · dsimp only
        rw [hpre, hlast]
        simp only [List.length_nil, Nat.sub_zero, List.nil_append, List.append_nil, hslice, c4]
      · simp only [List.length_nil]
        intro hi
        have hi0 : i = 0 := by omega
        subst hi0
        exact .inl ⟨by simp, by simp⟩
  | partialMatch =>
    dsimp only
    rcases h.cases with ⟨c1, c2, c3, c4⟩ | ⟨c1, c2, c3, c4⟩
    · have hsub : i + 1 - (s.part ++ [b]).length = i - s.part.length := by simp
      refine ⟨rfl, rfl, hs.mono (by omega), .inl ⟨by simp; omega, ?_, ?_, ?_⟩⟩
      · dsimp only
        rw [hsub, slice_snoc buf _ i b (by omega) hb, ← c2]
      · dsimp only; rw [hsub]; exact c3
      · simp only [List.length_append, List.length_singleton]
        intro hi
        rw [if_neg (c := i = 0) (by omega)]
        exact c4 (by omega)
    · exact ⟨rfl, rfl, hs.mono (by omega), .inr ⟨by simp; omega, c2, c3, c4⟩⟩
  | «match» a =>
    dsimp only
    have hend : slice buf (i + 1) (i + 1) = [] := slice_nil _ _ _ (Nat.le_refl _)
    rcases h.cases with ⟨c1, c2, c3, c4⟩ | ⟨c1, c2, c3, c4⟩
    · by_cases hk : s.part.length + 1 < i
      · rw [if_pos hk, if_neg (c := s.part.length + 1 = i ∧ id.first = true) (by omega)]
        refine ⟨rfl, rfl, hs.append _ _ (by omega) (by omega) (Nat.le_refl _), .inl ⟨?_, ?_, ?_, ?_⟩⟩
        · dsimp only; rw [lastEnd_append]; simp
        · simp [slice]
        · dsimp only
          rw [lastEnd_append, pre_append, List.length_nil, Nat.sub_zero, hend, List.append_nil, ← List.append_assoc,
            show i + 1 - (s.part.length + 1) = i - s.part.length by omega]
          exact c3
        · simp only [List.length_nil]
          intro hi; omega
      · rw [if_neg hk]
        have hzero : slice buf (lastEnd 0 s.snips) (i + 1 - (i + 1)) = [] := slice_nil _ _ _ (by omega)
        have hdel : W ++ s.flushed ++ pre buf 0 s.snips =
            if s.part.length + 1 = i ∧ id.first = true then id.id.delivered.dropLast else id.id.delivered := by
          by_cases h1 : s.part.length + 1 = i
          · rcases c4 h1 with ⟨k1, k2⟩ | ⟨k1, k2⟩
            · rw [if_pos ⟨h1, k1⟩, ← c3, k2]
              have : slice buf 0 (i - s.part.length) = [buf[0]] := by
                rw [show i - s.part.length = 0 + 1 by omega, slice_snoc buf 0 0 buf[0] (Nat.le_refl _) (by simp), slice_nil _ _ _ (Nat.le_refl _)]
                rfl
              rw [show lastEnd 0 [] = 0 from rfl, this]
              simp
            · rw [if_neg (by rw [k1]; simp), ← c3, k2, slice_nil buf 1 (i - s.part.length) (by omega), List.append_nil]
          · rw [if_neg (fun h => h1 h.1), ← c3, slice_nil buf (lastEnd 0 s.snips) (i - s.part.length) (by omega), List.append_nil]
        have hid : (if s.part.length + 1 = i ∧ id.first = true then (⟨(tr s.eng b).1, [], id.id.delivered.dropLast⟩ : Ideal σ) else
            ⟨(tr s.eng b).1, [], id.id.delivered⟩) = ⟨(tr s.eng b).1, [], W ++ s.flushed ++ pre buf 0 s.snips⟩ := by
          rw [hdel]; split <;> rfl
        rw [hid]
        refine ⟨rfl, rfl, hs.append _ _ (by omega) (by omega) (Nat.le_refl _), .inl ⟨?_, ?_, ?_, ?_⟩⟩
        · dsimp only; rw [lastEnd_append]; simp
        · simp [slice]
        · dsimp only
          rw [lastEnd_append, pre_append, List.length_nil, Nat.sub_zero, hend, List.append_nil, hzero, List.append_nil]
        · simp only [List.length_nil]
          intro hi
          have hi0 : i = 0 := by omega
          subst hi0
          exact .inr ⟨by simp, by rw [lastEnd_append]⟩
    · rw [if_neg (c := s.part.length + 1 < i) (by omega), if_neg (c := s.part.length + 1 = i ∧ id.first = true) (by omega)]
      rw [c2, c3]
      refine ⟨rfl, rfl, ⟨by omega, by omega, Nat.le_refl _⟩, .inl ⟨?_, by simp [slice], ?_, ?_⟩⟩
      · simp [lastEnd]
      · simp only [List.nil_append, pre, lastEnd, slice_nil buf 0 (i + 1 - (i + 1)) (by omega), List.append_nil,
          List.length_nil, Nat.sub_zero, slice_nil buf (i + 1) (i + 1) (Nat.le_refl _)]
        exact c4
      · simp only [List.length_nil]
        intro hi
        have hi0 : i = 0 := by omega
        subst hi0
        exact .inr ⟨by simp, by simp [lastEnd]⟩

theorem scanByte_eng (s : Scan σ) (i : Nat) (b : UInt8) : (scanByte tr s i b).1.eng = (tr s.eng b).1 := by
  unfold scanByte
  cases (tr s.eng b).2 with
  | noMatch => dsimp only; split <;> rfl
  | partialMatch => rfl
  | «match» a => cases a <;> rfl

theorem scan_off {buf W : List UInt8} (bs : List UInt8) (id : Off σ) (s : Scan σ) (i : Nat)
    (h : OffInv buf W id s i) (hb : ∀ k, k < bs.length → buf[i + k]? = bs[k]?) (hnd : NoDetach tr s.eng bs) :
    ∃ s', scan tr s i bs = (s', false) ∧ OffInv buf W (id.run tr i bs) s' (i + bs.length) := by
  induction bs generalizing id s i with
  | nil => exact ⟨s, rfl, h⟩
  | cons b bs ih =>
    have hb0 : buf[i]? = some b := by have := hb 0 (by simp); simpa using this
    have hfl : (scanByte tr s i b).2 = false := by
      cases hf : (scanByte tr s i b).2 with
      | false => rfl
      | true => exact absurd ((scanByte_detach s i b).mp hf) hnd.1
    obtain ⟨s', r1, r2⟩ := ih (id.step tr i b) (scanByte tr s i b).1 (i + 1) (h.step b hb0)
      (by intro k hk; have := hb (k + 1) (by simp; omega); simpa [Nat.add_assoc, Nat.add_comm 1 k] using this)
      (by rw [scanByte_eng]; exact hnd.2)
    refine ⟨s', ?_, ?_⟩
    · rw [scan]
      have : scanByte tr s i b = ((scanByte tr s i b).1, false) := by rw [← hfl]
      rw [this]; exact r1
    · have e : i + (b :: bs).length = i + 1 + bs.length := by simp; omega
      rw [e]; exact r2

theorem processRead_exact {id : Ideal σ} (t : Thread σ) (chunk : List UInt8) (hne : chunk ≠ []) (hcap : chunk.length ≤ t.buf.length)
    (he : t.eng = id.eng) (hp : t.part = id.withheld) (hnd : NoDetach tr t.eng chunk) :
    ∃ t' w, processRead tr t chunk = .running t' w ∧ t'.eng = (id.read tr chunk).eng ∧
      t'.part = (id.read tr chunk).withheld ∧ t'.buf.length = t.buf.length ∧ id.delivered ++ w = (id.read tr chunk).delivered := by
  have hpos : 0 < chunk.length := List.length_pos_iff.mpr hne
  generalize hbuf : chunk ++ t.buf.drop chunk.length = buf
  have hblen : buf.length = t.buf.length := by rw [← hbuf]; simp; omega
  have hstart : OffInv buf id.delivered ⟨id, false⟩ ⟨t.eng, t.part, [], []⟩ 0 := by
    refine ⟨he, hp, Nat.le_refl _, ?_⟩
    by_cases h0 : t.part = []
    · left
      dsimp only
      rw [h0]
      exact ⟨by simp [lastEnd], by simp [slice], by simp [pre, slice], by simp⟩
    · right
      exact ⟨List.length_pos_iff.mpr h0, rfl, rfl, rfl⟩
  obtain ⟨s', hs, hinv⟩ := scan_off chunk _ ⟨t.eng, t.part, [], []⟩ 0 hstart (by intro k hk; rw [← hbuf]; exact readBuf_get t chunk k hk) hnd
  rw [Nat.zero_add] at hinv
  have hread := off_read (tr := tr) chunk id false
  generalize Off.run tr ⟨id, false⟩ 0 chunk = o at hinv hread
  rw [← hread]
  have htake : buf.take chunk.length = chunk := by rw [← hbuf]; simp
  unfold processRead
  simp only [hbuf, htake, hs]
  have hle := hinv.sorted.le
  by_cases hpe : s'.part = []
  · simp only [hpe, List.isEmpty_nil, not_true, if_false]
    obtain ⟨buf', n, k1, k2, k3, k4⟩ := snipBuf_ok buf chunk.length s'.snips hinv.sorted (by omega)
    rw [k1]
    refine ⟨_, _, rfl, hinv.eng, by rw [← hinv.part, hpe], by rw [k4, hblen], ?_⟩
    rcases hinv.cases with ⟨c1, c2, c3, c4⟩ | ⟨c1, -⟩
    · rw [hpe] at c3
      simp only [List.length_nil, Nat.sub_zero] at c3
      rw [k2]
      simp only [List.append_assoc] at c3 ⊢
      exact c3
    · rw [hpe] at c1; simp at c1
  · have hpne : ¬ s'.part.isEmpty = true := by
      intro hh; exact hpe (List.isEmpty_iff.mp hh)
    rw [if_pos hpne]
    rcases hinv.cases with ⟨c1, c2, c3, c4⟩ | ⟨c1, c2, c3, c4⟩
    · rw [if_neg (by omega)]
      have hsrt : SortedFrom chunk.length 0 (s'.snips ++ [(s'.part.length, chunk.length - 1)]) :=
        hinv.sorted.append _ _ (by omega) (by omega) (by omega)
      obtain ⟨buf', n, k1, k2, k3, k4⟩ := snipBuf_ok buf chunk.length _ hsrt (by omega)
      rw [k1]
      refine ⟨_, _, rfl, hinv.eng, hinv.part, by rw [k4, hblen], ?_⟩
      rw [k2, pre_append, lastEnd_append, slice_nil buf (chunk.length - 1 + 1) chunk.length (by omega), List.append_nil,
        show chunk.length - 1 + 1 - s'.part.length = chunk.length - s'.part.length by omega]
      simp only [List.append_assoc] at c3 ⊢
      exact c3
    · rw [if_pos (by omega), c2]
      have hsrt : SortedFrom chunk.length 0 [(chunk.length, chunk.length - 1)] := by
        refine ⟨by omega, by omega, ?_⟩
        show chunk.length - 1 + 1 ≤ chunk.length
        omega
      obtain ⟨buf', n, k1, k2, k3, k4⟩ := snipBuf_ok buf chunk.length _ hsrt (by omega)
      rw [List.nil_append, k1]
      refine ⟨_, _, rfl, hinv.eng, hinv.part, by rw [k4, hblen], ?_⟩
      rw [k2, c3]
      simp only [pre, lastEnd, slice_nil buf 0 (chunk.length - 1 + 1 - chunk.length) (by omega),
        slice_nil buf (chunk.length - 1 + 1) chunk.length (by omega), List.append_nil]
      exact c4

/-! ## The state of the engine does not depend on what was delivered -/

theorem ideal_delivered (bs : List UInt8) (e : σ) (w d d' : List UInt8) :
    (Ideal.run tr ⟨e, w, d ++ d'⟩ bs).eng = (Ideal.run tr ⟨e, w, d'⟩ bs).eng ∧
    (Ideal.run tr ⟨e, w, d ++ d'⟩ bs).withheld = (Ideal.run tr ⟨e, w, d'⟩ bs).withheld ∧
    (Ideal.run tr ⟨e, w, d ++ d'⟩ bs).delivered = d ++ (Ideal.run tr ⟨e, w, d'⟩ bs).delivered := by
  induction bs generalizing e w d' with
  | nil => exact ⟨rfl, rfl, rfl⟩
  | cons b bs ih =>
    simp only [ideal_run_cons, Ideal.step]
    cases (tr e b).2 with
    | noMatch => simpa only [List.append_assoc] using ih (tr e b).1 [] (d' ++ w ++ [b])
    | partialMatch => exact ih _ _ _
    | «match» a => exact ih _ _ _

theorem ideal_length (bs : List UInt8) (e : σ) (w d : List UInt8) :
    (Ideal.run tr ⟨e, w, d⟩ bs).delivered.length = d.length + (Ideal.run tr ⟨e, w, []⟩ bs).delivered.length := by
  have := (ideal_delivered (tr := tr) bs e w d []).2.2
  rw [List.append_nil] at this
  rw [this, List.length_append]

theorem ideal_same (bs : List UInt8) (e : σ) (w d d' : List UInt8) :
    (Ideal.run tr ⟨e, w, d⟩ bs).eng = (Ideal.run tr ⟨e, w, d'⟩ bs).eng ∧
    (Ideal.run tr ⟨e, w, d⟩ bs).withheld = (Ideal.run tr ⟨e, w, d'⟩ bs).withheld := by
  have h1 := ideal_delivered (tr := tr) bs e w d []
  have h2 := ideal_delivered (tr := tr) bs e w d' []
  rw [List.append_nil] at h1 h2
  exact ⟨h1.1.trans h2.1.symm, h1.2.1.trans h2.2.1.symm⟩

/-- A read leaves the engine where the ideal filter leaves it, and delivers one byte less if it is of that kind. -/
theorem read_run (s s' : Ideal σ) (c : List UInt8) (he : s.eng = s'.eng) (hw : s.withheld = s'.withheld) :
    (s.read tr c).eng = (s'.run tr c).eng ∧ (s.read tr c).withheld = (s'.run tr c).withheld ∧
    (s.read tr c).delivered.length + (if Costs tr s.eng c then 1 else 0) + s'.delivered.length = (s'.run tr c).delivered.length + s.delivered.length := by
  obtain ⟨e, w, d⟩ := s
  obtain ⟨e', w', d'⟩ := s'
  obtain rfl : e = e' := he
  obtain rfl : w = w' := hw
  cases c with
  | nil => exact ⟨rfl, rfl, by simp only [Ideal.read, Costs, Ideal.run, List.foldl_nil]; simp; omega⟩
  | cons b bs =>
    simp only [Ideal.read]
    by_cases hc : Costs tr e (b :: bs) = true
    · rw [if_pos hc, if_pos hc]
      have hno : (tr e b).2 = .noMatch := by
        simp only [Costs] at hc
        split at hc
        · assumption
        · cases hc
      have hst : Ideal.step tr ⟨e, w, d'⟩ b = ⟨(tr e b).1, [], d' ++ w ++ [b]⟩ := by simp [Ideal.step, hno]
      rw [ideal_run_cons, hst]
      refine ⟨(ideal_same bs _ _ _ _).1, (ideal_same bs _ _ _ _).2, ?_⟩
      rw [ideal_length bs _ _ (d ++ w), ideal_length bs _ _ (d' ++ w ++ [b])]
      simp; omega
    · rw [if_neg hc, if_neg hc]
      refine ⟨(ideal_same (b :: bs) _ _ _ _).1, (ideal_same (b :: bs) _ _ _ _).2, ?_⟩
      rw [ideal_length (b :: bs) _ _ d, ideal_length (b :: bs) _ _ d']
      omega

theorem reads_run (cs : List (List UInt8)) (s s' : Ideal σ) (he : s.eng = s'.eng) (hw : s.withheld = s'.withheld) :
    (s.reads tr cs).eng = (s'.run tr cs.flatten).eng ∧ (s.reads tr cs).withheld = (s'.run tr cs.flatten).withheld ∧
    (s.reads tr cs).delivered.length + costs tr s cs + s'.delivered.length = (s'.run tr cs.flatten).delivered.length + s.delivered.length := by
  induction cs generalizing s s' with
  | nil => exact ⟨he, hw, by simp [costs, Ideal.reads, Ideal.run]; omega⟩
  | cons c cs ih =>
    obtain ⟨h1, h2, h3⟩ := read_run s s' c he hw
    obtain ⟨k1, k2, k3⟩ := ih (s.read tr c) (s'.run tr c) h1 h2
    rw [List.flatten_cons, run_append]
    refine ⟨k1, k2, ?_⟩
    simp only [costs, Ideal.reads, List.foldl_cons]
    have hcost : costs tr (s.run tr c) cs = costs tr (s.read tr c) cs := by
      have : ∀ (cs : List (List UInt8)) (a b : Ideal σ), a.eng = b.eng → a.withheld = b.withheld → costs tr a cs = costs tr b cs := by
        intro cs
        induction cs with
        | nil => intros; rfl
        | cons x xs ihx =>
          intro a b ha hb
          have hab : ∀ d d', (Ideal.run tr ⟨a.eng, a.withheld, d⟩ x).eng = (Ideal.run tr ⟨a.eng, a.withheld, d'⟩ x).eng ∧ _ :=
            fun d d' => ideal_same x _ _ _ _
          simp only [costs, ha]
          congr 1
          obtain ⟨ae, aw, ad⟩ := a
          obtain ⟨be, bw, bd⟩ := b
          cases ha; cases hb
          exact ihx _ _ (ideal_same x _ _ _ _).1 (ideal_same x _ _ _ _).2
      obtain ⟨q1, q2, _⟩ := read_run (tr := tr) s s c rfl rfl
      exact this cs _ _ q1.symm q2.symm
    rw [hcost]
    have k3' : (Ideal.reads tr (s.read tr c) cs).delivered.length + costs tr (s.read tr c) cs + (s'.run tr c).delivered.length =
      ((s'.run tr c).run tr cs.flatten).delivered.length + (s.read tr c).delivered.length := k3
    simp only [Ideal.reads] at k3'
    omega

theorem no_costs_ideal (cs : List (List UInt8)) (s : Ideal σ) (h : costs tr s cs = 0) : s.reads tr cs = s.run tr cs.flatten := by
  induction cs generalizing s with
  | nil => rfl
  | cons c cs ih =>
    simp only [costs, Nat.add_eq_zero_iff] at h
    have hr : s.read tr c = s.run tr c := by
      cases c with
      | nil => rfl
      | cons b bs =>
        simp only [Ideal.read]
        rw [if_neg]
        intro hc
        rw [if_pos hc] at h
        omega
    rw [List.flatten_cons, run_append, ← ih _ h.2]
    simp only [Ideal.reads, List.foldl_cons, hr]

theorem runReads_exact {W : List UInt8} {id : Ideal σ} (t : Thread σ) (reads : List (List UInt8))
    (hl : LegalReads t.buf.length reads) (he : t.eng = id.eng) (hp : t.part = id.withheld) (hW : W = id.delivered)
    (hnd : NoDetach tr t.eng reads.flatten) :
    ∃ t' w, runReads tr t W reads = .running t' w ∧ t'.eng = (id.reads tr reads).eng ∧
      t'.part = (id.reads tr reads).withheld ∧ t'.buf.length = t.buf.length ∧ w = (id.reads tr reads).delivered := by
  induction reads generalizing t W id with
  | nil => exact ⟨t, W, rfl, he, hp, rfl, hW⟩
  | cons c cs ih =>
    rw [List.flatten_cons, NoDetach.append id he.symm] at hnd
    obtain ⟨hne, hcap⟩ := hl c (by simp)
    obtain ⟨t1, w1, r1, r2, r3, r4, r5⟩ := processRead_exact t c hne hcap he hp hnd.1
    obtain ⟨t2, w2, q1, q2, q3, q4, q5⟩ := ih (W := W ++ w1) (id := id.read tr c) t1
      (by rw [r4]; exact fun c' hc' => hl c' (List.mem_cons_of_mem _ hc')) r2 r3 (by rw [hW]; exact r5)
      (by rw [r2, (read_run id id c rfl rfl).1]; exact hnd.2)
    exact ⟨t2, w2, by simp only [runReads, r1, q1], q2, q3, by rw [q4, r4], q5⟩

/-! ## The properties -/

/-- **C15** (exactly what): for every configuration and every series of reads without a detach, the shell has got what the ideal filter delivers, except
that a read that begins with a byte to be passed on and right after it has a binding that fires loses that byte. -/
theorem C15_exact (b : Bindings) (buf : List UInt8) (reads : List (List UInt8)) (hl : LegalReads buf.length reads)
    (hnd : NoDetach Bindings.transition b reads.flatten) :
    ∃ t, runReads Bindings.transition (Thread.start b buf) [] reads =
        .running t ((Ideal.start b).reads Bindings.transition reads).delivered ∧
      t.part = ((Ideal.start b).reads Bindings.transition reads).withheld := by
  obtain ⟨t, w, h1, _, h3, _, h5⟩ := runReads_exact (W := []) (id := Ideal.start b) (Thread.start b buf) reads hl rfl rfl rfl hnd
  exact ⟨t, h5 ▸ h1, h3⟩

/-- **C15** (exactly when): the shell gets all that is due exactly if no read is of that kind; otherwise it lacks as many bytes as there are such reads. -/
theorem C15_exact_loss (b : Bindings) (buf : List UInt8) (reads : List (List UInt8)) (hl : LegalReads buf.length reads)
    (hnd : NoDetach Bindings.transition b reads.flatten) :
    ∃ t w, runReads Bindings.transition (Thread.start b buf) [] reads = .running t w ∧
      w.length + costs Bindings.transition (Ideal.start b) reads = ((Ideal.start b).run Bindings.transition reads.flatten).delivered.length ∧
      (w = ((Ideal.start b).run Bindings.transition reads.flatten).delivered ↔ costs Bindings.transition (Ideal.start b) reads = 0) := by
  obtain ⟨t, h1, _⟩ := C15_exact b buf reads hl hnd
  have hlen := (reads_run (tr := Bindings.transition) reads (Ideal.start b) (Ideal.start b) rfl rfl).2.2
  refine ⟨t, _, h1, ?_, fun h => ?_, fun h => by rw [no_costs_ideal _ _ h]⟩
  · omega
  · rw [h] at hlen
    omega

/-- **C13** (exactly when): a series of reads leads to what typing the same bytes one by one leads to, exactly if no read begins with a byte to be passed on
and has a binding that fires right after it. -/
theorem C13_exact (b : Bindings) (buf : List UInt8) (reads : List (List UInt8)) (hl : LegalReads buf.length reads) (hcap : 1 ≤ buf.length)
    (hnd : NoDetach Bindings.transition b reads.flatten) :
    ∃ t w t' w', runReads Bindings.transition (Thread.start b buf) [] reads = .running t w ∧
      runReads Bindings.transition (Thread.start b buf) [] (reads.flatten.map fun x => [x]) = .running t' w' ∧
      (w = w' ↔ costs Bindings.transition (Ideal.start b) reads = 0) := by
  obtain ⟨t, w, h1, _, h3⟩ := C15_exact_loss b buf reads hl hnd
  have hf : ∀ l : List UInt8, (l.map fun x => [x]).flatten = l := by
    intro l
    induction l with
    | nil => rfl
    | cons x xs ih => simp [ih]
  have hl' : LegalReads buf.length (reads.flatten.map fun x => [x]) := by
    intro c hc
    obtain ⟨x, _, rfl⟩ := List.mem_map.mp hc
    exact ⟨by simp, by simpa using hcap⟩
  obtain ⟨t', w', k1, _, k3⟩ := C15_exact_loss b buf (reads.flatten.map fun x => [x]) hl' (by rw [hf]; exact hnd)
  have hz : ∀ (l : List UInt8) (s : Ideal Bindings), costs Bindings.transition s (l.map fun x => [x]) = 0 := by
    intro l
    induction l with
    | nil => intro s; rfl
    | cons x xs ih =>
      intro s
      have h1 : Costs Bindings.transition s.eng [x] = false := by
        simp only [Costs, firesNext]
        split <;> rfl
      simp [costs, h1, ih]
  refine ⟨t, w, t', w', h1, k1, ?_⟩
  rw [k3.mpr (hz _ _), hf]
  exact h3

/-! ## Detaching -/

theorem scanByte_flushed (s : Scan σ) (i : Nat) (b : UInt8) (h : s.part.length ≤ i) : (scanByte tr s i b).1.flushed = s.flushed ∧
    (scanByte tr s i b).1.part.length ≤ i + 1 := by
  unfold scanByte
  cases (tr s.eng b).2 with
  | noMatch => dsimp only; rw [if_neg (by rintro ⟨-, h'⟩; omega)]; simp
  | partialMatch => simpa using h
  | «match» a => cases a <;> simp

theorem scan_flushed_late (bs : List UInt8) (s s' : Scan σ) (i : Nat) (h : s.part.length ≤ i) (hs : scan tr s i bs = (s', false)) :
    s'.flushed = s.flushed := by
  induction bs generalizing s i with
  | nil => cases hs; rfl
  | cons b bs ih =>
    rw [scan] at hs
    obtain ⟨h1, h2⟩ := scanByte_flushed (tr := tr) s i b h
    split at hs
    · cases hs
    · next s1 heq =>
      have : s1 = (scanByte tr s i b).1 := by rw [heq]
      subst this
      rw [ih _ _ h2 hs, h1]

theorem scan_flushed (bs : List UInt8) (s s' : Scan σ) (i : Nat) (h : i < s.part.length) (hf : s.flushed = [])
    (hs : scan tr s i bs = (s', false)) : s'.flushed = givenUp tr s.eng s.part bs := by
  induction bs generalizing s i with
  | nil => cases hs; exact hf
  | cons b bs ih =>
    rw [scan] at hs
    split at hs
    · cases hs
    · next s1 heq =>
      have h1 : s1 = (scanByte tr s i b).1 := by rw [heq]
      subst h1
      rw [givenUp]
      have hne : ¬ s.part.isEmpty = true := by
        intro hh
        have : s.part = [] := List.isEmpty_iff.mp hh
        rw [this] at h; simp at h
      cases hr : (tr s.eng b).2 with
      | noMatch =>
        have hst : (scanByte tr s i b).1.flushed = s.part ∧ (scanByte tr s i b).1.part = [] := by
          unfold scanByte
          rw [hr]
          dsimp only
          rw [if_pos ⟨hne, h⟩]
          exact ⟨by simp [hf], rfl⟩
        rw [scan_flushed_late bs _ _ _ (by rw [hst.2]; simp) hs, hst.1]
      | partialMatch =>
        have hst : (scanByte tr s i b).1 = { s with eng := (tr s.eng b).1, part := s.part ++ [b] } := by
          unfold scanByte; rw [hr]
        rw [hst] at hs
        exact ih { s with eng := (tr s.eng b).1, part := s.part ++ [b] } (i + 1) (by simp; omega) hf hs
      | «match» a =>
        have hst : (scanByte tr s i b).1.flushed = [] ∧ (scanByte tr s i b).1.part = [] := by
          unfold scanByte
          rw [hr]
          exact ⟨hf, rfl⟩
        rw [scan_flushed_late bs _ _ _ (by rw [hst.2]; simp) hs, hst.1]

/-- **C16** (exactly what): when the byte `x` of the read `c1 ++ x :: c2` completes a detach binding, the shell has got what it had got of the reads before,
and the bytes withheld before the read if the read showed that they belong to no binding (with those of the read that were taken for the same binding);
of the rest of the read it gets nothing. -/
theorem C16_exact (b : Bindings) (buf : List UInt8) (before after : List (List UInt8)) (c1 c2 : List UInt8) (x : UInt8)
    (hl : LegalReads buf.length before) (hnd : NoDetach Bindings.transition b (before.flatten ++ c1))
    (hx : (((b.run (before.flatten ++ c1)).1).transition x).2 = .match .detach) :
    runReads Bindings.transition (Thread.start b buf) [] (before ++ (c1 ++ x :: c2) :: after) =
      .detached (((Ideal.start b).reads Bindings.transition before).delivered ++
        (if (b.track before.flatten).2 = [] then [] else givenUp Bindings.transition (b.run before.flatten).1 (b.track before.flatten).2 c1)) := by
  rw [NoDetach.append (e := b) (Ideal.start b) rfl] at hnd
  obtain ⟨t, w, h1, h2, h3, h4, h5⟩ := runReads_exact (W := []) (id := Ideal.start b) (Thread.start b buf) before hl rfl rfl rfl hnd.1
  obtain ⟨q1, q2, _⟩ := reads_run (tr := Bindings.transition) before (Ideal.start b) (Ideal.start b) rfl rfl
  have heng : t.eng = (b.run before.flatten).1 := by rw [h2, q1, (ideal_track b _).1, Keys.track_fst]
  have hpart : t.part = (b.track before.flatten).2 := by rw [h3, q2, (ideal_track b _).2]
  rw [runReads_append _ _ _ _ _ _ h1]
  have hnd' : NoDetach Bindings.transition t.eng c1 := by rw [h2, q1]; exact hnd.2
  have hx' : (Bindings.transition ((⟨t.eng, t.part, []⟩ : Ideal Bindings).run Bindings.transition c1).eng x).2 = .match .detach := by
    have he := ideal_same (tr := Bindings.transition) c1 t.eng t.part [] ((Ideal.start b).run Bindings.transition before.flatten).delivered
    have hsame : (⟨t.eng, t.part, ((Ideal.start b).run Bindings.transition before.flatten).delivered⟩ : Ideal Bindings) =
        (Ideal.start b).run Bindings.transition before.flatten := by
      rw [h2, q1, h3, q2]
    rw [he.1, hsame, ← run_append, (ideal_track b _).1, Keys.track_fst]
    exact hx
  generalize hchunk : c1 ++ x :: c2 = chunk
  generalize hbuf : chunk ++ t.buf.drop chunk.length = full
  have hclen : c1.length ≤ chunk.length := by rw [← hchunk]; simp
  have hstart : OffInv full [] ⟨⟨t.eng, t.part, []⟩, false⟩ ⟨t.eng, t.part, [], []⟩ 0 := by
    refine ⟨rfl, rfl, Nat.le_refl _, ?_⟩
    by_cases h0 : t.part = []
    · left
      dsimp only
      rw [h0]
      exact ⟨by simp [lastEnd], by simp [slice], by simp [pre, slice], by simp⟩
    · right
      exact ⟨List.length_pos_iff.mpr h0, rfl, rfl, rfl⟩
  obtain ⟨s', hs, hinv⟩ := scan_off (tr := Bindings.transition) c1 _ ⟨t.eng, t.part, [], []⟩ 0 hstart (by
      intro k hk
      rw [← hbuf, readBuf_get t chunk k (by omega), ← hchunk, List.getElem?_append_left hk]) hnd'
  have heng' : s'.eng = ((⟨t.eng, t.part, []⟩ : Ideal Bindings).run Bindings.transition c1).eng := by
    rw [hinv.eng, off_read, (read_run _ (⟨t.eng, t.part, []⟩ : Ideal Bindings) c1 rfl rfl).1]
  have htake : full.take chunk.length = chunk := by rw [← hbuf]; simp
  have hscan : scan Bindings.transition ⟨t.eng, t.part, [], []⟩ 0 chunk = ((scanByte Bindings.transition s' c1.length x).1, true) := by
    rw [← hchunk, scan_append _ _ _ _ _ hs, Nat.zero_add]
    have := (scanByte_detach (tr := Bindings.transition) s' c1.length x).mpr (by rw [heng']; exact hx')
    simp only [scan]
    cases hsb : scanByte Bindings.transition s' c1.length x with
    | mk s2 f => rw [hsb] at this; cases this; rfl
  have hfl : (scanByte Bindings.transition s' c1.length x).1.flushed = s'.flushed := by
    have : (Bindings.transition s'.eng x).2 = .match .detach := by rw [heng']; exact hx'
    unfold scanByte; rw [this]
  have hread : processRead Bindings.transition t chunk = .detached s'.flushed := by
    unfold processRead
    simp only [hbuf, htake, hscan, hfl]
  simp only [runReads, hread]
  rw [← h5]
  congr 2
  split
  · next h0 => rw [scan_flushed_late c1 _ _ _ (by rw [hpart, h0]; simp) hs]
  · next h0 =>
    rw [scan_flushed c1 _ _ _ (by rw [hpart]; exact List.length_pos_iff.mpr h0) rfl hs, heng, hpart]

/-- A Ctrl-Space from the read before, then "ls" and the detach sequence: the shell gets the Ctrl-Space and nothing of "ls". -/
example : session Keys.defaultCfg 16 [[0], [108, 115, 0, 17]] = some ([0], true) := by decide

/-- A read that loses its first byte, and one that does not although a binding fires at its second byte. -/
example : ∃ b, Bindings.new [("a".toList, .noOp)] = .ok b ∧ Costs Bindings.transition b [120, 97] = true ∧ Costs Bindings.transition b [97, 97] = false :=
  ⟨_, rfl, by decide, by decide⟩

end Shpool.Input
