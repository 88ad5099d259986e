import Verif.Duration.Model
import Verif.Util.NumSpec
/-!
# Properties C25-C27: ttl durations
-/

namespace Shpool.Duration
open Shpool.Str

theorem arith_of_lt {b : Build} {v : Nat} {k : Nat → Res} (h : v < 2 ^ 64) : arith b v k = k v := by
  simp only [arith, h, if_true]

theorem colon_not_mem {cs : List Char} {n : Nat} (h : Denotes cs n) : ':' ∉ cs := fun hm => by
  have := h.all_digit ':' hm
  revert this; decide

/-- C25, mm:ss. -/
theorem C25_minutes_seconds (t : CharTables) (b : Build) (ms ss : List Char) (m s : Nat)
    (hm : Denotes ms m) (hs : Denotes ss s) (hr : 60 * m + s < 2 ^ 64) :
    parse t b (ms ++ ':' :: ss) = .ok (60 * m + s) := by
  have hsp : split ':' (ms ++ ':' :: ss) = [ms, ss] := by
    rw [split_append_sep (colon_not_mem hm), split_of_not_mem (colon_not_mem hs)]
  unfold parse
  rw [if_pos (by simp)]
  simp only [parseColon, hsp, List.reverse_cons, List.reverse_nil, List.nil_append, List.cons_append,
    parseU64_of_denotes hs (by omega), parseU64_of_denotes hm (by omega)]
  rw [arith_of_lt (by omega), arith_of_lt (by omega)]
  congr 1; omega

/-- C25, hh:mm:ss. -/
theorem C25_hours_minutes_seconds (t : CharTables) (b : Build) (hs ms ss : List Char) (h m s : Nat)
    (hh : Denotes hs h) (hm : Denotes ms m) (hs' : Denotes ss s) (hr : 3600 * h + 60 * m + s < 2 ^ 64) :
    parse t b (hs ++ ':' :: (ms ++ ':' :: ss)) = .ok (3600 * h + 60 * m + s) := by
  have hsp : split ':' (hs ++ ':' :: (ms ++ ':' :: ss)) = [hs, ms, ss] := by
    rw [split_append_sep (colon_not_mem hh), split_append_sep (colon_not_mem hm),
      split_of_not_mem (colon_not_mem hs')]
  unfold parse
  rw [if_pos (by simp)]
  simp only [parseColon, hsp, List.reverse_cons, List.reverse_nil, List.nil_append, List.cons_append,
    parseU64_of_denotes hs' (by omega), parseU64_of_denotes hm (by omega), parseU64_of_denotes hh (by omega)]
  repeat rw [arith_of_lt (by omega)]
  congr 1; omega

/-- C25, dd:hh:mm:ss. -/
theorem C25_days_hours_minutes_seconds (t : CharTables) (b : Build) (ds hs ms ss : List Char) (d h m s : Nat)
    (hd : Denotes ds d) (hh : Denotes hs h) (hm : Denotes ms m) (hs' : Denotes ss s)
    (hr : 86400 * d + 3600 * h + 60 * m + s < 2 ^ 64) :
    parse t b (ds ++ ':' :: (hs ++ ':' :: (ms ++ ':' :: ss))) = .ok (86400 * d + 3600 * h + 60 * m + s) := by
  have hsp : split ':' (ds ++ ':' :: (hs ++ ':' :: (ms ++ ':' :: ss))) = [ds, hs, ms, ss] := by
    rw [split_append_sep (colon_not_mem hd), split_append_sep (colon_not_mem hh),
      split_append_sep (colon_not_mem hm), split_of_not_mem (colon_not_mem hs')]
  unfold parse
  rw [if_pos (by simp)]
  simp only [parseColon, hsp, List.reverse_cons, List.reverse_nil, List.nil_append, List.cons_append,
    parseU64_of_denotes hs' (by omega), parseU64_of_denotes hm (by omega), parseU64_of_denotes hh (by omega),
    parseU64_of_denotes hd (by omega)]
  repeat rw [arith_of_lt (by omega)]
  congr 1; omega

example : Denotes ['1', '0'] 10 ∧ Denotes ['5'] 5 ∧ 60 * 10 + 5 < 2 ^ 64 :=
  ⟨.snoc _ 1 0 (.one 1 (by decide)) (by decide), .one 5 (by decide), by decide⟩
example : parse asciiTables .checked "01:00:10:05".toList = .ok 87005 := by decide

/-- The seconds in one unit, as documented for `--ttl`. -/
def unitSecs : Char → Option Nat
  | 's' => some 1
  | 'm' => some 60
  | 'h' => some 3600
  | 'd' => some 86400
  | _ => none

theorem digit_ascii {c : Char} (h : 48 ≤ c.toNat ∧ c.toNat ≤ 57) : asciiDigit c = true := by
  simp [asciiDigit]; omega

theorem takeWhile_append_stop {α} (p : α → Bool) (a : List α) (x : α) (b : List α) (ha : ∀ y ∈ a, p y = true)
    (hx : p x = false) : (a ++ x :: b).takeWhile p = a := by
  induction a with
  | nil => simp [hx]
  | cons y ys ih =>
    simp only [List.cons_append, List.takeWhile, ha y List.mem_cons_self]
    rw [ih (fun z hz => ha z (List.mem_cons_of_mem _ hz))]

theorem numeral_numeric {t : CharTables} (ht : t.Faithful) {cs : List Char} {n : Nat} (h : Denotes cs n) :
    ∀ c ∈ cs, t.numeric c = true := fun c hc => by
  have := h.all_digit c hc
  rw [ht.num c (by omega)]; exact digit_ascii this

/-- C26. A numeral followed by a unit letter denotes that many units. -/
theorem C26_suffix_duration (t : CharTables) (ht : t.Faithful) (b : Build) (cs : List Char) (n k : Nat) (u : Char)
    (hn : Denotes cs n) (hu : unitSecs u = some k) (hr : n * k < 2 ^ 64) :
    parse t b (cs ++ [u]) = .ok (n * k) := by
  have hcol : ':' ∉ cs ++ [u] := by
    simp only [List.mem_append, List.mem_singleton, not_or]
    exact ⟨colon_not_mem hn, by rintro rfl; simp [unitSecs] at hu⟩
  have hlast : (cs ++ [u]).getLast? = some u := by simp
  have hucases : (u = 's' ∧ k = 1) ∨ (u = 'm' ∧ k = 60) ∨ (u = 'h' ∧ k = 3600) ∨ (u = 'd' ∧ k = 86400) := by
    unfold unitSecs at hu
    split at hu <;> simp at hu <;> simp [hu]
  have hascii : u.toNat < 128 := by
    rcases hucases with ⟨rfl, _⟩ | ⟨rfl, _⟩ | ⟨rfl, _⟩ | ⟨rfl, _⟩ <;> decide
  have halpha : t.alphabetic u = true := by
    rw [ht.alpha u hascii]
    rcases hucases with ⟨rfl, _⟩ | ⟨rfl, _⟩ | ⟨rfl, _⟩ | ⟨rfl, _⟩ <;> decide
  have hnn : t.numeric u = false := by
    rw [ht.num u hascii]
    rcases hucases with ⟨rfl, _⟩ | ⟨rfl, _⟩ | ⟨rfl, _⟩ | ⟨rfl, _⟩ <;> decide
  have htake : (cs ++ [u]).takeWhile t.numeric = cs := takeWhile_append_stop _ _ _ _ (numeral_numeric ht hn) hnn
  have hn64 : n < 2 ^ 64 := by
    rcases hucases with ⟨rfl, rfl⟩ | ⟨rfl, rfl⟩ | ⟨rfl, rfl⟩ | ⟨rfl, rfl⟩ <;> omega
  unfold parse
  rw [if_neg hcol, hlast]
  simp only [Option.map_some, halpha, Option.getD_some, if_true, parseSuffix, hlast, htake,
    parseU64_of_denotes hn hn64]
  rcases hucases with ⟨rfl, rfl⟩ | ⟨rfl, rfl⟩ | ⟨rfl, rfl⟩ | ⟨rfl, rfl⟩ <;> simp only [makeSuffix] <;>
    simp only [Char.reduceEq, if_true, if_false]
  · congr 1; omega
  · rw [arith_of_lt (by omega)]
  · rw [arith_of_lt (by omega), arith_of_lt (by omega)]; congr 1; omega
  · rw [arith_of_lt (by omega), arith_of_lt (by omega), arith_of_lt (by omega)]; congr 1; omega

example : Denotes ['2', '0'] 20 ∧ unitSecs 'd' = some 86400 ∧ 20 * 86400 < 2 ^ 64 :=
  ⟨.snoc _ 2 0 (.one 2 (by decide)) (by decide), rfl, by decide⟩

/-- C27 is false of the code: overlong values crash (with overflow checks) or yield a wrong duration (without), and text
between the number and the unit is silently ignored. -/
theorem C27_false :
    parse asciiTables .checked "18446744073709551615m".toList = .panic ∧
    parse asciiTables .wrapping "18446744073709551615m".toList = .ok 18446744073709551556 ∧
    parse asciiTables .checked "5 weeks and a hundred".toList = .ok (5 * 86400) ∧
    parse asciiTables .checked "99999999999999999999:00".toList = .err := by
  decide

/-- What a piece of a colon duration may look like. -/
def Literal (p : List Char) (n : Nat) : Prop := Denotes p n ∨ ∃ r, p = '+' :: r ∧ Denotes r n

/-- C27, what is provable: with overflow checks, an accepted string is either two to four numerals (each with an optional
plus sign) joined by colons with exactly the documented value, or a number followed by arbitrary text ending in a unit letter
with exactly the documented value.  Missing with respect to C27: the text between number and unit should be empty, and
overflow should be an error instead of a panic (see `C27_false`). -/
theorem C27_accepted_form_partial (t : CharTables) (src : List Char) (v : Nat)
    (h : parse t .checked src = .ok v) :
    (∃ m s mv sv, src = m ++ ':' :: s ∧ Literal m mv ∧ Literal s sv ∧ v = 60 * mv + sv) ∨
    (∃ h m s hv mv sv, src = h ++ ':' :: (m ++ ':' :: s) ∧ Literal h hv ∧ Literal m mv ∧ Literal s sv ∧
      v = 3600 * hv + 60 * mv + sv) ∨
    (∃ d h m s dv hv mv sv, src = d ++ ':' :: (h ++ ':' :: (m ++ ':' :: s)) ∧ Literal d dv ∧ Literal h hv ∧ Literal m mv ∧
      Literal s sv ∧ v = 86400 * dv + 3600 * hv + 60 * mv + sv) ∨
    (∃ num junk u n k, src = num ++ junk ++ [u] ∧ Literal num n ∧ unitSecs u = some k ∧ v = n * k) := by
  have hck : ∀ {x : Nat} {k : Nat → Res}, arith .checked x k = .ok v → k x = .ok v := by
    intro x k hk
    unfold arith at hk
    split at hk
    · exact hk
    · cases hk
  have hlit : ∀ {p : List Char} {n : Nat}, parseU64 p = some n → Literal p n := fun hp => (parseU64_some hp).2
  unfold parse at h
  split at h
  · -- colon branch
    have hj := (join_split ':' src).1
    next hmem =>
    have h1 := (join_split ':' src).2
    have hrev : split ':' src = ((split ':' src).reverse).reverse := by simp
    unfold parseColon at h
    rcases hps : (split ':' src).reverse with _ | ⟨s, _ | ⟨m, _ | ⟨hp, _ | ⟨dp, _ | ⟨e, ps⟩⟩⟩⟩⟩ <;>
      rw [hps] at h <;> rw [hrev, hps] at hj h1 <;> dsimp only at h <;>
      simp only [List.reverse_cons, List.reverse_nil, List.nil_append, List.cons_append, join] at hj h1
    · cases h
    · -- a single piece contradicts the presence of a colon
      exact absurd (by rw [hj]; exact hmem) (h1 s (by simp))
    · cases hsv : parseU64 s with
      | none => simp only [hsv] at h; cases h
      | some sv =>
      cases hmv : parseU64 m with
      | none => simp only [hsv, hmv] at h; cases h
      | some mv =>
      simp only [hsv, hmv] at h
      have h := hck (hck h)
      simp only [Res.ok.injEq] at h
      left
      exact ⟨m, s, mv, sv, hj.symm, hlit hmv, hlit hsv, by omega⟩
    · cases hsv : parseU64 s with
      | none => simp only [hsv] at h; cases h
      | some sv =>
      cases hmv : parseU64 m with
      | none => simp only [hsv, hmv] at h; cases h
      | some mv =>
      simp only [hsv, hmv] at h
      have h := hck (hck h)
      cases hhv : parseU64 hp with
      | none => simp only [hhv] at h; cases h
      | some hv =>
      simp only [hhv] at h
      have h := hck (hck (hck h))
      simp only [Res.ok.injEq] at h
      right; left
      exact ⟨hp, m, s, hv, mv, sv, hj.symm, hlit hhv, hlit hmv, hlit hsv, by omega⟩
    · cases hsv : parseU64 s with
      | none => simp only [hsv] at h; cases h
      | some sv =>
      cases hmv : parseU64 m with
      | none => simp only [hsv, hmv] at h; cases h
      | some mv =>
      simp only [hsv, hmv] at h
      have h := hck (hck h)
      cases hhv : parseU64 hp with
      | none => simp only [hhv] at h; cases h
      | some hv =>
      simp only [hhv] at h
      have h := hck (hck (hck h))
      cases hdv : parseU64 dp with
      | none => simp only [hdv] at h; cases h
      | some dv =>
      simp only [hdv] at h
      have h := hck (hck (hck (hck h)))
      simp only [Res.ok.injEq] at h
      right; right; left
      exact ⟨dp, hp, m, s, dv, hv, mv, sv, hj.symm, hlit hdv, hlit hhv, hlit hmv, hlit hsv, by omega⟩
    · cases hsv : parseU64 s with
      | none => simp only [hsv] at h; cases h
      | some sv =>
      cases hmv : parseU64 m with
      | none => simp only [hsv, hmv] at h; cases h
      | some mv =>
      simp only [hsv, hmv] at h
      have h := hck (hck h)
      cases hhv : parseU64 hp with
      | none => simp only [hhv] at h; cases h
      | some hv =>
      simp only [hhv] at h
      have h := hck (hck (hck h))
      cases hdv : parseU64 dp with
      | none => simp only [hdv] at h; cases h
      | some dv =>
      simp only [hdv] at h
      have h := hck (hck (hck (hck h)))
      cases h
  · split at h
    · right; right; right
      unfold parseSuffix at h
      split at h
      · cases h
      · next u hu =>
        split at h
        · cases h
        · next n hn =>
          -- the number is a proper prefix: the last character is a unit letter
          have hunit : ∃ k, unitSecs u = some k ∧ v = n * k := by
            unfold makeSuffix at h
            split at h
            · next e => subst e; cases h; exact ⟨1, rfl, by omega⟩
            · split at h
              · next e => subst e; have := hck h; cases this; exact ⟨60, rfl, rfl⟩
              · split at h
                · next e => subst e; have := hck (hck h); cases this; exact ⟨3600, rfl, by omega⟩
                · split at h
                  · next e => subst e; have := hck (hck (hck h)); cases this; exact ⟨86400, rfl, by omega⟩
                  · cases h
          obtain ⟨k, hk, hv⟩ := hunit
          obtain ⟨init, hinit⟩ : ∃ init, src = init ++ [u] := List.getLast?_eq_some_iff.mp hu
          have hlitn := hlit hn
          -- characters of the numeric prefix are digits or plus
          have hpre : src.takeWhile t.numeric <+: src := List.takeWhile_prefix _
          have hunot : u ∉ src.takeWhile t.numeric := by
            intro hm
            have hd : ∀ r x, Denotes r x → u ∈ r → False := fun r x hr hmr => by
              have := hr.all_digit u hmr
              unfold unitSecs at hk
              split at hk
              · revert this; decide
              · revert this; decide
              · revert this; decide
              · revert this; decide
              · cases hk
            rcases hlitn with hd1 | ⟨r, hr, hd1⟩
            · exact hd _ _ hd1 hm
            · rw [hr] at hm
              rcases List.mem_cons.mp hm with rfl | hm
              · simp [unitSecs] at hk
              · exact hd _ _ hd1 hm
          obtain ⟨q, hq⟩ := hpre
          rcases List.eq_nil_or_concat q with rfl | ⟨q, x, rfl⟩
          · exfalso
            rw [List.append_nil] at hq
            exact hunot (by rw [hq, hinit]; simp)
          · rw [List.concat_eq_append, ← List.append_assoc] at hq
            have := hq.trans hinit
            have hx : x = u := by simpa using (List.append_inj' this rfl).2
            subst hx
            exact ⟨_, q, x, n, k, hq.symm, hlitn, hk, hv⟩
    · cases h

example : parse asciiTables .checked "+3:20".toList = .ok 200 := by decide

/-- How a build without overflow checks relates to one with them. -/
def Agree (checked wrapping : Res) : Prop := wrapping ≠ .panic ∧ (checked ≠ .panic → wrapping = checked)

theorem agree_same {r : Res} (h : r ≠ .panic) : Agree r r := ⟨h, fun _ => rfl⟩

theorem agree_arith (v : Nat) {k₁ k₂ : Nat → Res} (h : ∀ v, Agree (k₁ v) (k₂ v)) :
    Agree (arith .checked v k₁) (arith .wrapping v k₂) := by
  unfold arith
  split
  · exact h v
  · exact ⟨(h _).1, fun hn => absurd rfl hn⟩

theorem agree_colon (src : List Char) : Agree (parseColon .checked src) (parseColon .wrapping src) := by
  unfold parseColon
  split
  · exact agree_same nofun
  · split
    · exact agree_same nofun
    · split
      · exact agree_same nofun
      · split
        · exact agree_same nofun
        · refine agree_arith _ fun _ => agree_arith _ fun _ => ?_
          split
          · exact agree_same nofun
          · split
            · exact agree_same nofun
            · refine agree_arith _ fun _ => agree_arith _ fun _ => agree_arith _ fun _ => ?_
              split
              · exact agree_same nofun
              · split
                · exact agree_same nofun
                · refine agree_arith _ fun _ => agree_arith _ fun _ => agree_arith _ fun _ => agree_arith _ fun _ => ?_
                  split <;> exact agree_same nofun

theorem agree_suffix (t : CharTables) (src : List Char) : Agree (parseSuffix t .checked src) (parseSuffix t .wrapping src) := by
  have hok : ∀ v, Agree (.ok v) (.ok v) := fun v => agree_same nofun
  unfold parseSuffix
  split
  · exact agree_same nofun
  · split
    · exact agree_same nofun
    · unfold makeSuffix
      split
      · exact hok _
      · split
        · exact agree_arith _ hok
        · split
          · exact agree_arith _ fun _ => agree_arith _ hok
          · split
            · exact agree_arith _ fun _ => agree_arith _ fun _ => agree_arith _ hok
            · exact agree_same nofun

/-- C27, without overflow checks (the release profile): no string makes the parser panic, and it differs from the build with checks
only for strings on which that one panics, that is whose value is too large. -/
theorem C27_release_partial (t : CharTables) (src : List Char) :
    parse t .wrapping src ≠ .panic ∧ (parse t .checked src ≠ .panic → parse t .wrapping src = parse t .checked src) := by
  unfold parse
  split
  · exact agree_colon src
  · split
    · exact agree_suffix t src
    · exact agree_same nofun

example : parse asciiTables .checked "20d".toList ≠ .panic ∧ parse asciiTables .wrapping "20d".toList = .ok 1728000 := by decide

/-- C27: what has none of the two forms is rejected, also without overflow checks. -/
theorem C27_rejected_partial (t : CharTables) (b : Build) (src : List Char) (hc : ':' ∉ src)
    (hu : ∀ u, src.getLast? = some u → unitSecs u = none) : parse t b src = .err := by
  unfold parse
  rw [if_neg hc]
  split
  · unfold parseSuffix
    split
    · rfl
    · rename_i u hl
      split
      · rfl
      · have := hu u hl
        unfold makeSuffix
        have h1 : u ≠ 's' := by rintro rfl; cases this
        have h2 : u ≠ 'm' := by rintro rfl; cases this
        have h3 : u ≠ 'h' := by rintro rfl; cases this
        have h4 : u ≠ 'd' := by rintro rfl; cases this
        rw [if_neg h1, if_neg h2, if_neg h3, if_neg h4]
  · rfl

example : ':' ∉ "3600".toList ∧ ∀ u, "3600".toList.getLast? = some u → unitSecs u = none := by decide

end Shpool.Duration
