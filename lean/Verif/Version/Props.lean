import Verif.Version.Model
import Verif.Util.NumSpec
/-!
# Property C06: version comparison
-/

namespace Shpool.Version
open Shpool.Str

/-- Specification: `v` is a well formed version text with the three given numbers: three pieces with dots between them, each
standing for an integer of 64 bits (`DenotesI64`). -/
def IsVersion (v : List Char) (major minor patch : Int) : Prop :=
  ∃ a b c, v = a ++ '.' :: (b ++ '.' :: c) ∧ DenotesI64 a major ∧ DenotesI64 b minor ∧ DenotesI64 c patch

/-- Plain decimal versions are versions. -/
theorem isVersion_of_numerals {a b c : List Char} {x y z : Nat} (ha : Denotes a x) (hb : Denotes b y) (hc : Denotes c z)
    (hx : x < 2 ^ 63) (hy : y < 2 ^ 63) (hz : z < 2 ^ 63) :
    IsVersion (a ++ '.' :: (b ++ '.' :: c)) x y z :=
  ⟨a, b, c, rfl, ⟨a, x, ha, .inl ⟨rfl, rfl⟩, by omega, by omega⟩, ⟨b, y, hb, .inl ⟨rfl, rfl⟩, by omega, by omega⟩,
    ⟨c, z, hc, .inl ⟨rfl, rfl⟩, by omega, by omega⟩⟩

theorem dot_not_mem_of_parseI64 {p : List Char} {v : Int} (h : parseI64 p = some v) : '.' ∉ p := by
  have nd : ∀ r n, parseDigits r = some n → '.' ∉ r := fun r n hr hm => by
    have := (denotes_of_parseDigits hr).all_digit '.' hm
    revert this; decide
  unfold parseI64 at h
  split at h
  · next r =>
    split at h
    · cases h
    · next n hn => simp only [List.mem_cons, not_or]; exact ⟨by decide, nd _ _ hn⟩
  · next r =>
    split at h
    · cases h
    · next n hn => simp only [List.mem_cons, not_or]; exact ⟨by decide, nd _ _ hn⟩
  · split at h
    · cases h
    · next n hn => exact nd _ _ hn

theorem parseParts_length {ps : List (List Char)} {vs : List Int} (h : parseParts ps = some vs) :
    vs.length = ps.length := by
  induction ps generalizing vs with
  | nil => cases h; rfl
  | cons p ps ih =>
    simp only [parseParts] at h
    split at h
    · cases h
    · split at h
      · cases h
      · next vs' hvs => cases h; simp [ih hvs]

theorem parse_of_isVersion {v : List Char} {x y z : Int} (h : IsVersion v x y z) :
    parseParts (split '.' v) = some [x, y, z] := by
  obtain ⟨a, b, c, rfl, ha, hb, hc⟩ := h
  rw [← parseI64_iff] at ha hb hc
  rw [split_append_sep (dot_not_mem_of_parseI64 ha), split_append_sep (dot_not_mem_of_parseI64 hb),
    split_of_not_mem (dot_not_mem_of_parseI64 hc)]
  simp [parseParts, ha, hb, hc]

theorem isVersion_of_parse {v : List Char} {x y z : Int} (h : parseParts (split '.' v) = some [x, y, z]) :
    IsVersion v x y z := by
  have hj := (join_split '.' v).1
  have hl := parseParts_length h
  match hs : split '.' v, hl with
  | [a, b, c], _ =>
    rw [hs] at hj h
    simp only [parseParts] at h
    simp only [join] at hj
    refine ⟨a, b, c, hj.symm, ?_, ?_, ?_⟩
    all_goals
      rw [← parseI64_iff]
      revert h
      cases parseI64 a <;> simp
      cases parseI64 b <;> simp
      cases parseI64 c <;> simp
      try (intros; assumption)

/-- C06. On well formed versions the answer compares minor numbers when both majors are 0, else major numbers; the patch
number is irrelevant. -/
theorem C06_version_order (u v : List Char) (a b c x y z : Int) (hu : IsVersion u a b c) (hv : IsVersion v x y z) :
    versionOrd u v = .ok (if a = 0 ∧ x = 0 then compare b y else compare a x) := by
  simp only [versionOrd, parse_of_isVersion hu, parse_of_isVersion hv]
  split <;> rfl

/-- C06. The comparison succeeds exactly when both texts are well formed versions. -/
theorem C06_accepts_iff (u v : List Char) :
    (∃ o, versionOrd u v = .ok o) ↔ (∃ a b c, IsVersion u a b c) ∧ (∃ x y z, IsVersion v x y z) := by
  constructor
  · rintro ⟨o, h⟩
    unfold versionOrd at h
    split at h
    · cases h
    · next cp hcp =>
      split at h
      · next c0 c1 c2 =>
        split at h
        · cases h
        · next dp hdp =>
          split at h
          · next d0 d1 d2 => exact ⟨⟨_, _, _, isVersion_of_parse hcp⟩, ⟨_, _, _, isVersion_of_parse hdp⟩⟩
          · cases h
      · cases h
  · rintro ⟨⟨a, b, c, hu⟩, ⟨x, y, z, hv⟩⟩
    exact ⟨_, C06_version_order u v a b c x y z hu hv⟩

theorem compare_int_swap (a b : Int) : compare b a = (compare a b).swap := by
  simp only [compare, compareOfLessAndEq]
  by_cases h1 : a < b
  · rw [if_neg (by omega), if_neg (by omega), if_pos h1]; rfl
  · by_cases h2 : a = b
    · subst h2; rw [if_neg (by omega), if_pos rfl]; rfl
    · rw [if_pos (by omega), if_neg h1, if_neg h2]; rfl

theorem compare_ne_gt (a b : Int) : compare a b ≠ .gt ↔ a ≤ b := by
  simp only [compare, compareOfLessAndEq]
  split
  · simp; omega
  · split
    · simp; omega
    · simp; omega

/-- C06. Swapping client and daemon reverses the answer. -/
theorem C06_antisymmetric (u v : List Char) (o : Ordering) (h : versionOrd u v = .ok o) :
    versionOrd v u = .ok o.swap := by
  obtain ⟨⟨a, b, c, hu⟩, ⟨x, y, z, hv⟩⟩ := (C06_accepts_iff u v).mp ⟨o, h⟩
  rw [C06_version_order u v a b c x y z hu hv] at h
  rw [C06_version_order v u x y z a b c hv hu]
  simp only [Except.ok.injEq] at h ⊢
  subst h
  by_cases h0 : a = 0 ∧ x = 0
  · rw [if_pos h0, if_pos ⟨h0.2, h0.1⟩, compare_int_swap]
  · rw [if_neg h0, if_neg (fun hh => h0 ⟨hh.2, hh.1⟩), compare_int_swap]

/-- C06. "Not newer than" is transitive. -/
theorem C06_transitive (u v w : List Char) (o₁ o₂ : Ordering) (h₁ : versionOrd u v = .ok o₁)
    (h₂ : versionOrd v w = .ok o₂) (n₁ : o₁ ≠ .gt) (n₂ : o₂ ≠ .gt) :
    ∃ o₃, versionOrd u w = .ok o₃ ∧ o₃ ≠ .gt := by
  obtain ⟨⟨a, b, c, hu⟩, ⟨x, y, z, hv⟩⟩ := (C06_accepts_iff u v).mp ⟨o₁, h₁⟩
  obtain ⟨-, ⟨p, q, r, hw⟩⟩ := (C06_accepts_iff v w).mp ⟨o₂, h₂⟩
  rw [C06_version_order u v a b c x y z hu hv] at h₁
  rw [C06_version_order v w x y z p q r hv hw] at h₂
  refine ⟨_, C06_version_order u w a b c p q r hu hw, ?_⟩
  simp only [Except.ok.injEq] at h₁ h₂
  subst h₁ h₂
  split at n₁ <;> split at n₂ <;> split <;> rw [compare_ne_gt] at * <;> omega

/-- C06. A daemon whose version equals the client's is never reported as mismatching; one whose header cannot be decoded is
still usable but reported. -/
theorem C06_client_new (own : List Char) (a b c : Int) (h : IsVersion own a b c) :
    clientNew own (some own) = .ok .justClient ∧ clientNew own none = .ok .mismatchUnknown := by
  refine ⟨?_, rfl⟩
  simp only [clientNew, C06_version_order own own a b c a b c h h]
  have : ∀ i : Int, compare i i = .eq := by intro i; simp [compare, compareOfLessAndEq]
  split <;> simp_all

/-- C06. Which warning the user gets: "client is older" exactly if the daemon's deciding number is larger, "client is newer"
exactly if it is smaller, none if they agree. -/
theorem C06_warning (own v : List Char) (a b c x y z : Int) (hu : IsVersion own a b c) (hv : IsVersion v x y z) :
    (clientNew own (some v) = .ok .clientOlder ↔ if a = 0 ∧ x = 0 then b < y else a < x) ∧
    (clientNew own (some v) = .ok .clientNewer ↔ if a = 0 ∧ x = 0 then y < b else x < a) ∧
    (clientNew own (some v) = .ok .justClient ↔ if a = 0 ∧ x = 0 then b = y else a = x) := by
  have key : ∀ i j : Int, (compare i j = .lt ↔ i < j) ∧ (compare i j = .gt ↔ j < i) ∧ (compare i j = .eq ↔ i = j) := by
    intro i j
    simp only [compare, compareOfLessAndEq]
    by_cases h1 : i < j
    · simp [h1]; omega
    · by_cases h2 : i = j
      · simp [h2]
      · simp [h1, h2]; omega
  simp only [clientNew, C06_version_order own v a b c x y z hu hv]
  by_cases h0 : a = 0 ∧ x = 0
  · simp only [if_pos h0]
    obtain ⟨k1, k2, k3⟩ := key b y
    rw [← k1, ← k2, ← k3]
    cases compare b y <;> simp
  · simp only [if_neg h0]
    obtain ⟨k1, k2, k3⟩ := key a x
    rw [← k1, ← k2, ← k3]
    cases compare a x <;> simp

/-- C06. A daemon whose version cannot be compared with the client's is refused, with an error that names the side at fault: the
client's own if that is not a version, else the daemon's. -/
theorem C06_error (own v : List Char) :
    ((∃ e, clientNew own (some v) = .error e) ↔ ¬ ((∃ a b c, IsVersion own a b c) ∧ (∃ x y z, IsVersion v x y z))) ∧
    ((∃ e, clientNew own (some v) = .error e ∧ (e = .clientNotInt ∨ e = .clientParts)) ↔ ¬ ∃ a b c, IsVersion own a b c) := by
  have hacc := C06_accepts_iff own v
  have herr : (∃ e, clientNew own (some v) = .error e) ↔ ¬ ∃ o, versionOrd own v = .ok o := by
    simp only [clientNew]
    cases versionOrd own v with
    | error e => simp
    | ok o => cases o <;> simp
  refine ⟨by rw [herr, hacc], ⟨?_, ?_⟩⟩
  · rintro ⟨e, he, hs⟩ ⟨a, b, c, hu⟩
    have : versionOrd own v = .error e := by
      simp only [clientNew] at he
      cases ho : versionOrd own v with
      | error e' => rw [ho] at he; cases he; rfl
      | ok o => rw [ho] at he; cases o <;> cases he
    simp only [versionOrd, parse_of_isVersion hu] at this
    split at this
    · cases this; simp at hs
    · split at this
      · split at this <;> cases this
      · cases this; simp at hs
  · intro hno
    simp only [clientNew, versionOrd]
    cases hp : parseParts (split '.' own) with
    | none => exact ⟨_, rfl, .inl rfl⟩
    | some cp =>
      match cp with
      | [x, y, z] => exact absurd ⟨x, y, z, isVersion_of_parse hp⟩ hno
      | [] => exact ⟨_, rfl, .inr rfl⟩
      | [_] => exact ⟨_, rfl, .inr rfl⟩
      | [_, _] => exact ⟨_, rfl, .inr rfl⟩
      | _ :: _ :: _ :: _ :: _ => exact ⟨_, rfl, .inr rfl⟩

example : clientNew "0.3.1".toList (some "0.x.0".toList) = .error .daemonNotInt := by decide
example : clientNew "0.3".toList (some "0.x.0".toList) = .error .clientParts := by decide

example : IsVersion ['0', '.', '3', '.', '1'] 0 3 1 := 
  ⟨['0'], ['3'], ['1'], rfl, parseI64_iff.mp rfl, parseI64_iff.mp rfl, parseI64_iff.mp rfl⟩
example : IsVersion "0.-9223372036854775808.+1".toList 0 (-(2 ^ 63)) 1 :=
  ⟨"0".toList, "-9223372036854775808".toList, "+1".toList, by decide +kernel, parseI64_iff.mp (by decide +kernel),
    parseI64_iff.mp (by decide +kernel), parseI64_iff.mp (by decide +kernel)⟩
example : versionOrd "0.3.1".toList "0.4.0".toList = .ok .lt := by decide
example : versionOrd "1.3.1".toList "0.4.0".toList = .ok .gt := by decide
example : versionOrd "1.3".toList "0.4.0".toList = .error .clientParts := by decide

end Shpool.Version
