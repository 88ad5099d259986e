import Verif.Duration.Props
/-! # Exactly what becomes of a ttl that is written as documented (C27) -/

namespace Shpool.Duration
open Shpool.Str

/-- Spec: what the parser makes of a value: the value if it fits 64 bits; else, with overflow checks, a crash, and without them the value's remainder. -/
def outcome (b : Build) (v : Nat) : Res :=
  if v < 2 ^ 64 then .ok v
  else match b with
    | .checked => .panic
    | .wrapping => .ok (v % 2 ^ 64)

theorem arithW (v : Nat) (k : Nat → Res) : arith .wrapping v k = k (v % 2 ^ 64) := by
  unfold arith
  split
  · rw [Nat.mod_eq_of_lt (by assumption)]
  · rfl

theorem arithC (v : Nat) (k : Nat → Res) : arith .checked v k = if v < 2 ^ 64 then k v else .panic := rfl

theorem outcomeW (v : Nat) : outcome .wrapping v = .ok (v % 2 ^ 64) := by
  unfold outcome
  split
  · rw [Nat.mod_eq_of_lt (by assumption)]
  · rfl

theorem outcomeC (v : Nat) : outcome .checked v = if v < 2 ^ 64 then .ok v else .panic := rfl

/-- **C27** (exactly what): a number that fits 64 bits and a unit letter: the value if that fits too; otherwise a crash, or the wrong value. -/
theorem C27_exact_suffix (t : CharTables) (ht : t.Faithful) (b : Build) (cs : List Char) (n k : Nat) (u : Char)
    (hn : Denotes cs n) (hu : unitSecs u = some k) (hr : n < 2 ^ 64) : parse t b (cs ++ [u]) = outcome b (n * k) := by
  have hcol : ':' ∉ cs ++ [u] := by
    simp only [List.mem_append, List.mem_singleton, not_or]
    exact ⟨colon_not_mem hn, by rintro rfl; simp [unitSecs] at hu⟩
  have hlast : (cs ++ [u]).getLast? = some u := by simp
  have hucases : (u = 's' ∧ k = 1) ∨ (u = 'm' ∧ k = 60) ∨ (u = 'h' ∧ k = 3600) ∨ (u = 'd' ∧ k = 86400) := by
    unfold unitSecs at hu
    split at hu <;> simp at hu <;> simp [hu]
  have hascii : u.toNat < 128 := by
    rcases hucases with ⟨rfl, _⟩ | ⟨rfl, _⟩ | ⟨rfl, _⟩ | ⟨rfl, _⟩ <;> decide
  have halpha : t.alphabetic u = true := by
    rw [ht.alpha u hascii]
    rcases hucases with ⟨rfl, _⟩ | ⟨rfl, _⟩ | ⟨rfl, _⟩ | ⟨rfl, _⟩ <;> decide
  have hnn : t.numeric u = false := by
    rw [ht.num u hascii]
    rcases hucases with ⟨rfl, _⟩ | ⟨rfl, _⟩ | ⟨rfl, _⟩ | ⟨rfl, _⟩ <;> decide
  have htake : (cs ++ [u]).takeWhile t.numeric = cs := takeWhile_append_stop _ _ _ _ (numeral_numeric ht hn) hnn
  unfold parse
  rw [if_neg hcol, hlast]
  simp only [Option.map_some, halpha, Option.getD_some, if_true, parseSuffix, hlast, htake,
    parseU64_of_denotes hn hr]
  cases b
  · rcases hucases with ⟨rfl, rfl⟩ | ⟨rfl, rfl⟩ | ⟨rfl, rfl⟩ | ⟨rfl, rfl⟩ <;> simp only [makeSuffix, arithC, outcomeC] <;>
      simp only [Char.reduceEq, if_true, if_false] <;> grind
  · rcases hucases with ⟨rfl, rfl⟩ | ⟨rfl, rfl⟩ | ⟨rfl, rfl⟩ | ⟨rfl, rfl⟩ <;> simp only [makeSuffix, arithW, outcomeW] <;>
      simp only [Char.reduceEq, if_true, if_false] <;> congr 1 <;> omega

/-- **C27** (exactly what): a number that does not fit is refused. -/
theorem C27_exact_number (t : CharTables) (ht : t.Faithful) (b : Build) (cs : List Char) (n k : Nat) (u : Char)
    (hn : Denotes cs n) (hu : unitSecs u = some k) (hr : 2 ^ 64 ≤ n) : parse t b (cs ++ [u]) = .err := by
  have hcol : ':' ∉ cs ++ [u] := by
    simp only [List.mem_append, List.mem_singleton, not_or]
    exact ⟨colon_not_mem hn, by rintro rfl; simp [unitSecs] at hu⟩
  have hlast : (cs ++ [u]).getLast? = some u := by simp
  have hucases : (u = 's' ∧ k = 1) ∨ (u = 'm' ∧ k = 60) ∨ (u = 'h' ∧ k = 3600) ∨ (u = 'd' ∧ k = 86400) := by
    unfold unitSecs at hu
    split at hu <;> simp at hu <;> simp [hu]
  have hascii : u.toNat < 128 := by
    rcases hucases with ⟨rfl, _⟩ | ⟨rfl, _⟩ | ⟨rfl, _⟩ | ⟨rfl, _⟩ <;> decide
  have hnn : t.numeric u = false := by
    rw [ht.num u hascii]
    rcases hucases with ⟨rfl, _⟩ | ⟨rfl, _⟩ | ⟨rfl, _⟩ | ⟨rfl, _⟩ <;> decide
  have htake : (cs ++ [u]).takeWhile t.numeric = cs := takeWhile_append_stop _ _ _ _ (numeral_numeric ht hn) hnn
  have hp : parseU64 cs = none := by
    cases h : parseU64 cs with
    | none => rfl
    | some m =>
      exfalso
      obtain ⟨h1, h2⟩ := parseU64_some h
      rcases h2 with h2 | ⟨r, rfl, _⟩
      · have := (parseDigits_of_denotes h2).symm.trans (parseDigits_of_denotes hn)
        simp only [Option.some.injEq] at this
        omega
      · have := hn.all_digit '+' (by simp)
        revert this; decide
  unfold parse
  rw [if_neg hcol]
  split
  · simp only [parseSuffix, hlast, htake, hp]
  · rfl

/-- **C27** (exactly what): minutes and seconds. -/
theorem C27_exact_minutes (t : CharTables) (b : Build) (ms ss : List Char) (m s : Nat)
    (hm : Denotes ms m) (hs : Denotes ss s) (h1 : m < 2 ^ 64) (h2 : s < 2 ^ 64) :
    parse t b (ms ++ ':' :: ss) = outcome b (60 * m + s) := by
  have hsp : split ':' (ms ++ ':' :: ss) = [ms, ss] := by
    rw [split_append_sep (colon_not_mem hm), split_of_not_mem (colon_not_mem hs)]
  unfold parse
  rw [if_pos (by simp)]
  simp only [parseColon, hsp, List.reverse_cons, List.reverse_nil, List.nil_append, List.cons_append,
    parseU64_of_denotes hs h2, parseU64_of_denotes hm h1]
  cases b
  · simp only [arithC, outcomeC]; grind
  · simp only [arithW, outcomeW]; congr 1; omega

/-- **C27** (exactly what): hours, minutes and seconds. -/
theorem C27_exact_hours (t : CharTables) (b : Build) (hs ms ss : List Char) (h m s : Nat)
    (hh : Denotes hs h) (hm : Denotes ms m) (hs' : Denotes ss s) (h0 : h < 2 ^ 64) (h1 : m < 2 ^ 64) (h2 : s < 2 ^ 64) :
    parse t b (hs ++ ':' :: (ms ++ ':' :: ss)) = outcome b (3600 * h + 60 * m + s) := by
  have hsp : split ':' (hs ++ ':' :: (ms ++ ':' :: ss)) = [hs, ms, ss] := by
    rw [split_append_sep (colon_not_mem hh), split_append_sep (colon_not_mem hm),
      split_of_not_mem (colon_not_mem hs')]
  unfold parse
  rw [if_pos (by simp)]
  simp only [parseColon, hsp, List.reverse_cons, List.reverse_nil, List.nil_append, List.cons_append,
    parseU64_of_denotes hs' h2, parseU64_of_denotes hm h1, parseU64_of_denotes hh h0]
  cases b
  · simp only [arithC, outcomeC]; grind
  · simp only [arithW, outcomeW]; congr 1; omega

/-- **C27** (exactly what): days, hours, minutes and seconds. -/
theorem C27_exact_days (t : CharTables) (b : Build) (ds hs ms ss : List Char) (d h m s : Nat)
    (hd : Denotes ds d) (hh : Denotes hs h) (hm : Denotes ms m) (hs' : Denotes ss s) (h00 : d < 2 ^ 64) (h0 : h < 2 ^ 64)
    (h1 : m < 2 ^ 64) (h2 : s < 2 ^ 64) :
    parse t b (ds ++ ':' :: (hs ++ ':' :: (ms ++ ':' :: ss))) = outcome b (86400 * d + 3600 * h + 60 * m + s) := by
  have hsp : split ':' (ds ++ ':' :: (hs ++ ':' :: (ms ++ ':' :: ss))) = [ds, hs, ms, ss] := by
    rw [split_append_sep (colon_not_mem hd), split_append_sep (colon_not_mem hh),
      split_append_sep (colon_not_mem hm), split_of_not_mem (colon_not_mem hs')]
  unfold parse
  rw [if_pos (by simp)]
  simp only [parseColon, hsp, List.reverse_cons, List.reverse_nil, List.nil_append, List.cons_append,
    parseU64_of_denotes hs' h2, parseU64_of_denotes hm h1, parseU64_of_denotes hh h0, parseU64_of_denotes hd h00]
  cases b
  · simp only [arithC, outcomeC]; grind
  · simp only [arithW, outcomeW]; congr 1; omega

example : Denotes ['9'] 9 ∧ (9 : Nat) < 2 ^ 64 ∧ outcome .wrapping (2 ^ 64 + 5) = .ok 5 ∧ outcome .checked (2 ^ 64 + 5) = .panic :=
  ⟨.one 9 (by decide), by decide, rfl, rfl⟩

end Shpool.Duration
