import Verif.Wire.Model

set_option linter.unusedSimpArgs false

namespace Shpool.Wire

/-! ## Numbers -/

theorem be_length (k : Nat) : ∀ n, (be k n).length = k := by
  induction k with
  | zero => intro n; rfl
  | succ k ih => intro n; simp [be, ih]

theorem ofBe_append (a : Bytes) (b : UInt8) : ofBe (a ++ [b]) = ofBe a * 256 + b.toNat := by
  simp [ofBe]

theorem ofBe_be (k : Nat) : ∀ n, n < 256 ^ k → ofBe (be k n) = n := by
  induction k with
  | zero => intro n h; simp [be, ofBe] at *; omega
  | succ k ih =>
    intro n h
    have h' : n / 256 < 256 ^ k := by
      rw [Nat.pow_succ] at h
      exact Nat.div_lt_of_lt_mul (by omega)
    have : (UInt8.ofNat (n % 256)).toNat = n % 256 := by
      simp
    rw [be, ofBe_append, ih _ h', this]
    omega

theorem take_append (k : Nat) (a r : Bytes) (h : a.length = k) : take k (a ++ r) = some (a, r) := by
  subst h
  simp [take]

theorem takeBe_be (k n : Nat) (r : Bytes) (f : Nat → Head) (h : n < 256 ^ k) : takeBe k (be k n ++ r) f = some (f n, r) := by
  simp [takeBe, take_append k (be k n) r (be_length k n), ofBe_be k n h]

/-! ## Heads -/

theorem toNat_ofNat {n : Nat} (h : n < 256) : (UInt8.ofNat n).toNat = n := by
  simp; omega

theorem rh_c4 (r : Bytes) : readHead (0xc4 :: r) = takeBe 1 r .other := by simp [readHead]
theorem rh_c5 (r : Bytes) : readHead (0xc5 :: r) = takeBe 2 r .other := by simp [readHead]
theorem rh_c6 (r : Bytes) : readHead (0xc6 :: r) = takeBe 4 r .other := by simp [readHead]
theorem rh_c7 (r : Bytes) : readHead (0xc7 :: r) = takeBe 1 r (fun n => .other (n + 1)) := by simp [readHead]
theorem rh_c8 (r : Bytes) : readHead (0xc8 :: r) = takeBe 2 r (fun n => .other (n + 1)) := by simp [readHead]
theorem rh_c9 (r : Bytes) : readHead (0xc9 :: r) = takeBe 4 r (fun n => .other (n + 1)) := by simp [readHead]
theorem rh_ca (r : Bytes) : readHead (0xca :: r) = some (.other 4, r) := by simp [readHead]
theorem rh_cb (r : Bytes) : readHead (0xcb :: r) = some (.other 8, r) := by simp [readHead]
theorem rh_cc (r : Bytes) : readHead (0xcc :: r) = takeBe 1 r (fun n => .int n) := by simp [readHead]
theorem rh_cd (r : Bytes) : readHead (0xcd :: r) = takeBe 2 r (fun n => .int n) := by simp [readHead]
theorem rh_ce (r : Bytes) : readHead (0xce :: r) = takeBe 4 r (fun n => .int n) := by simp [readHead]
theorem rh_cf (r : Bytes) : readHead (0xcf :: r) = takeBe 8 r (fun n => .int n) := by simp [readHead]
theorem rh_d0 (r : Bytes) : readHead (0xd0 :: r) = takeBe 1 r (fun n => .int (signed 1 n)) := by simp [readHead]
theorem rh_d1 (r : Bytes) : readHead (0xd1 :: r) = takeBe 2 r (fun n => .int (signed 2 n)) := by simp [readHead]
theorem rh_d2 (r : Bytes) : readHead (0xd2 :: r) = takeBe 4 r (fun n => .int (signed 4 n)) := by simp [readHead]
theorem rh_d3 (r : Bytes) : readHead (0xd3 :: r) = takeBe 8 r (fun n => .int (signed 8 n)) := by simp [readHead]
theorem rh_d4 (r : Bytes) : readHead (0xd4 :: r) = some (.other 2, r) := by simp [readHead]
theorem rh_d5 (r : Bytes) : readHead (0xd5 :: r) = some (.other 3, r) := by simp [readHead]
theorem rh_d6 (r : Bytes) : readHead (0xd6 :: r) = some (.other 5, r) := by simp [readHead]
theorem rh_d7 (r : Bytes) : readHead (0xd7 :: r) = some (.other 9, r) := by simp [readHead]
theorem rh_d8 (r : Bytes) : readHead (0xd8 :: r) = some (.other 17, r) := by simp [readHead]
theorem rh_d9 (r : Bytes) : readHead (0xd9 :: r) = takeBe 1 r .str := by simp [readHead]
theorem rh_da (r : Bytes) : readHead (0xda :: r) = takeBe 2 r .str := by simp [readHead]
theorem rh_db (r : Bytes) : readHead (0xdb :: r) = takeBe 4 r .str := by simp [readHead]
theorem rh_dc (r : Bytes) : readHead (0xdc :: r) = takeBe 2 r .arr := by simp [readHead]
theorem rh_dd (r : Bytes) : readHead (0xdd :: r) = takeBe 4 r .arr := by simp [readHead]
theorem rh_de (r : Bytes) : readHead (0xde :: r) = takeBe 2 r .map := by simp [readHead]
theorem rh_df (r : Bytes) : readHead (0xdf :: r) = takeBe 4 r .map := by simp [readHead]
theorem rh_c0 (r : Bytes) : readHead (0xc0 :: r) = some (.nil, r) := by simp [readHead]
theorem rh_c2 (r : Bytes) : readHead (0xc2 :: r) = some (.bool false, r) := by simp [readHead]
theorem rh_c3 (r : Bytes) : readHead (0xc3 :: r) = some (.bool true, r) := by simp [readHead]

theorem head_uint (n : Nat) (r : Bytes) (h : n < 18446744073709551616) : readHead (encUint n ++ r) = some (.int n, r) := by
  unfold encUint
  split
  · have := toNat_ofNat (n := n) (by omega)
    simp only [List.cons_append, List.nil_append, readHead, this]
    rw [if_pos (by omega)]
  split
  · simp only [List.cons_append, rh_c4, rh_c5, rh_c6, rh_c7, rh_c8, rh_c9, rh_ca, rh_cb, rh_cc, rh_cd, rh_ce, rh_cf, rh_d0, rh_d1, rh_d2, rh_d3, rh_d4, rh_d5, rh_d6, rh_d7, rh_d8, rh_d9, rh_da, rh_db, rh_dc, rh_dd, rh_de, rh_df, rh_c2, rh_c3]; exact takeBe_be 1 n r _ (by omega)
  split
  · simp only [List.cons_append, rh_c4, rh_c5, rh_c6, rh_c7, rh_c8, rh_c9, rh_ca, rh_cb, rh_cc, rh_cd, rh_ce, rh_cf, rh_d0, rh_d1, rh_d2, rh_d3, rh_d4, rh_d5, rh_d6, rh_d7, rh_d8, rh_d9, rh_da, rh_db, rh_dc, rh_dd, rh_de, rh_df, rh_c2, rh_c3]; exact takeBe_be 2 n r _ (by omega)
  split
  · simp only [List.cons_append, rh_c4, rh_c5, rh_c6, rh_c7, rh_c8, rh_c9, rh_ca, rh_cb, rh_cc, rh_cd, rh_ce, rh_cf, rh_d0, rh_d1, rh_d2, rh_d3, rh_d4, rh_d5, rh_d6, rh_d7, rh_d8, rh_d9, rh_da, rh_db, rh_dc, rh_dd, rh_de, rh_df, rh_c2, rh_c3]; exact takeBe_be 4 n r _ (by omega)
  · simp only [List.cons_append, rh_c4, rh_c5, rh_c6, rh_c7, rh_c8, rh_c9, rh_ca, rh_cb, rh_cc, rh_cd, rh_ce, rh_cf, rh_d0, rh_d1, rh_d2, rh_d3, rh_d4, rh_d5, rh_d6, rh_d7, rh_d8, rh_d9, rh_da, rh_db, rh_dc, rh_dd, rh_de, rh_df, rh_c2, rh_c3]; exact takeBe_be 8 n r _ (by omega)

theorem signed_of (k n : Nat) (i : Int) (h : (n : Int) = i + (256 ^ k : Nat)) (hl : -((256 ^ k / 2 : Nat) : Int) ≤ i) (h2 : 256 ^ k % 2 = 0) :
    signed k n = i := by
  unfold signed
  rw [if_neg (by omega)]
  omega

theorem head_sint (i : Int) (r : Bytes) (hl : -9223372036854775808 ≤ i) (hh : i < 18446744073709551616) :
    readHead (encSint i ++ r) = some (.int i, r) := by
  unfold encSint
  split
  · rw [head_uint _ _ (by omega)]
    rw [show ((i.toNat : Nat) : Int) = i by omega]
  split
  · have := toNat_ofNat (n := (i + 256).toNat) (by omega)
    simp only [List.cons_append, List.nil_append, readHead, this]
    have hx : 224 ≤ (i + 256).toNat := by omega
    generalize hy : (i + 256).toNat = y at *
    repeat rw [if_neg (by omega)]
    rw [show (y : Int) - 256 = i by omega]
  split
  · rw [List.cons_append, rh_d0, takeBe_be 1 (i + 256).toNat r _ (by omega)]
    rw [signed_of 1 _ i (by omega) (by omega) (by decide)]
  split
  · rw [List.cons_append, rh_d1, takeBe_be 2 (i + 65536).toNat r _ (by omega)]
    rw [signed_of 2 _ i (by omega) (by omega) (by decide)]
  split
  · rw [List.cons_append, rh_d2, takeBe_be 4 (i + 4294967296).toNat r _ (by omega)]
    rw [signed_of 4 _ i (by omega) (by omega) (by decide)]
  · rw [List.cons_append, rh_d3, takeBe_be 8 (i + 18446744073709551616).toNat r _ (by omega)]
    rw [signed_of 8 _ i (by omega) (by omega) (by decide)]

theorem head_str (n : Nat) (r : Bytes) (h : n < 4294967296) : readHead (strHead n ++ r) = some (.str n, r) := by
  unfold strHead
  split
  · have := toNat_ofNat (n := 0xa0 + n) (by omega)
    simp only [List.cons_append, List.nil_append, readHead, this]
    repeat rw [if_neg (by omega)]
    rw [if_pos (by omega), show 0xa0 + n - 0xa0 = n by omega]
  split
  · simp only [List.cons_append, rh_c4, rh_c5, rh_c6, rh_c7, rh_c8, rh_c9, rh_ca, rh_cb, rh_cc, rh_cd, rh_ce, rh_cf, rh_d0, rh_d1, rh_d2, rh_d3, rh_d4, rh_d5, rh_d6, rh_d7, rh_d8, rh_d9, rh_da, rh_db, rh_dc, rh_dd, rh_de, rh_df, rh_c2, rh_c3]; exact takeBe_be 1 n r _ (by omega)
  split
  · simp only [List.cons_append, rh_c4, rh_c5, rh_c6, rh_c7, rh_c8, rh_c9, rh_ca, rh_cb, rh_cc, rh_cd, rh_ce, rh_cf, rh_d0, rh_d1, rh_d2, rh_d3, rh_d4, rh_d5, rh_d6, rh_d7, rh_d8, rh_d9, rh_da, rh_db, rh_dc, rh_dd, rh_de, rh_df, rh_c2, rh_c3]; exact takeBe_be 2 n r _ (by omega)
  · simp only [List.cons_append, rh_c4, rh_c5, rh_c6, rh_c7, rh_c8, rh_c9, rh_ca, rh_cb, rh_cc, rh_cd, rh_ce, rh_cf, rh_d0, rh_d1, rh_d2, rh_d3, rh_d4, rh_d5, rh_d6, rh_d7, rh_d8, rh_d9, rh_da, rh_db, rh_dc, rh_dd, rh_de, rh_df, rh_c2, rh_c3]; exact takeBe_be 4 n r _ (by omega)

theorem head_arr (n : Nat) (r : Bytes) (h : n < 4294967296) : readHead (arrHead n ++ r) = some (.arr n, r) := by
  unfold arrHead
  split
  · have := toNat_ofNat (n := 0x90 + n) (by omega)
    simp only [List.cons_append, List.nil_append, readHead, this]
    repeat rw [if_neg (by omega)]
    rw [if_pos (by omega), show 0x90 + n - 0x90 = n by omega]
  split
  · simp only [List.cons_append, rh_c4, rh_c5, rh_c6, rh_c7, rh_c8, rh_c9, rh_ca, rh_cb, rh_cc, rh_cd, rh_ce, rh_cf, rh_d0, rh_d1, rh_d2, rh_d3, rh_d4, rh_d5, rh_d6, rh_d7, rh_d8, rh_d9, rh_da, rh_db, rh_dc, rh_dd, rh_de, rh_df, rh_c2, rh_c3]; exact takeBe_be 2 n r _ (by omega)
  · simp only [List.cons_append, rh_c4, rh_c5, rh_c6, rh_c7, rh_c8, rh_c9, rh_ca, rh_cb, rh_cc, rh_cd, rh_ce, rh_cf, rh_d0, rh_d1, rh_d2, rh_d3, rh_d4, rh_d5, rh_d6, rh_d7, rh_d8, rh_d9, rh_da, rh_db, rh_dc, rh_dd, rh_de, rh_df, rh_c2, rh_c3]; exact takeBe_be 4 n r _ (by omega)

theorem head_map (n : Nat) (r : Bytes) (h : n < 4294967296) : readHead (mapHead n ++ r) = some (.map n, r) := by
  unfold mapHead
  split
  · have := toNat_ofNat (n := 0x80 + n) (by omega)
    simp only [List.cons_append, List.nil_append, readHead, this]
    repeat rw [if_neg (by omega)]
    rw [if_pos (by omega), show 0x80 + n - 0x80 = n by omega]
  split
  · simp only [List.cons_append, rh_c4, rh_c5, rh_c6, rh_c7, rh_c8, rh_c9, rh_ca, rh_cb, rh_cc, rh_cd, rh_ce, rh_cf, rh_d0, rh_d1, rh_d2, rh_d3, rh_d4, rh_d5, rh_d6, rh_d7, rh_d8, rh_d9, rh_da, rh_db, rh_dc, rh_dd, rh_de, rh_df, rh_c2, rh_c3]; exact takeBe_be 2 n r _ (by omega)
  · simp only [List.cons_append, rh_c4, rh_c5, rh_c6, rh_c7, rh_c8, rh_c9, rh_ca, rh_cb, rh_cc, rh_cd, rh_ce, rh_cf, rh_d0, rh_d1, rh_d2, rh_d3, rh_d4, rh_d5, rh_d6, rh_d7, rh_d8, rh_d9, rh_da, rh_db, rh_dc, rh_dd, rh_de, rh_df, rh_c2, rh_c3]; exact takeBe_be 4 n r _ (by omega)

theorem strHead_pos (n : Nat) : 0 < (strHead n).length := by unfold strHead; split <;> (try split) <;> (try split) <;> simp
theorem arrHead_pos (n : Nat) : 0 < (arrHead n).length := by unfold arrHead; split <;> (try split) <;> simp
theorem mapHead_pos (n : Nat) : 0 < (mapHead n).length := by unfold mapHead; split <;> (try split) <;> simp
theorem encUint_pos (n : Nat) : 0 < (encUint n).length := by
  unfold encUint; split <;> (try split) <;> (try split) <;> (try split) <;> simp
theorem encSint_pos (i : Int) : 0 < (encSint i).length := by
  unfold encSint; split
  · exact encUint_pos _
  all_goals (try split) <;> (try split) <;> (try split) <;> (try split) <;> simp

end Shpool.Wire
