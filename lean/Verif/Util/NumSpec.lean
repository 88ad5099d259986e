import Verif.Util.Str
/-!
# Specification of decimal numerals (independent of the parser) and facts about splitting
-/

namespace Shpool.Str

/-- The character for a decimal digit. -/
def digitChar (d : Nat) : Char := Char.ofNat (48 + d)

/-- `Denotes cs n`: the decimal numeral `cs` (leading zeros allowed) denotes `n`. -/
inductive Denotes : List Char → Nat → Prop
  | one (d : Nat) : d < 10 → Denotes [digitChar d] d
  | snoc (cs : List Char) (n d : Nat) : Denotes cs n → d < 10 → Denotes (cs ++ [digitChar d]) (10 * n + d)

theorem digitChar_toNat {d : Nat} (h : d < 10) : (digitChar d).toNat = 48 + d := by
  have : d = 0 ∨ d = 1 ∨ d = 2 ∨ d = 3 ∨ d = 4 ∨ d = 5 ∨ d = 6 ∨ d = 7 ∨ d = 8 ∨ d = 9 := by omega
  rcases this with rfl|rfl|rfl|rfl|rfl|rfl|rfl|rfl|rfl|rfl <;> decide

theorem digit?_digitChar {d : Nat} (h : d < 10) : digit? (digitChar d) = some d := by
  unfold digit?
  rw [digitChar_toNat h, if_pos (by omega)]
  congr 1; omega

theorem digit?_some {c : Char} {d : Nat} (h : digit? c = some d) : d < 10 ∧ c = digitChar d := by
  unfold digit? at h
  split at h
  · simp only [Option.some.injEq] at h
    have hd : d < 10 := by omega
    refine ⟨hd, ?_⟩
    apply Char.toNat_inj.mp
    rw [digitChar_toNat hd]; omega
  · cases h

theorem digitsAcc_append (acc : Nat) (a b : List Char) :
    digitsAcc acc (a ++ b) = (digitsAcc acc a).bind (fun n => digitsAcc n b) := by
  induction a generalizing acc with
  | nil => rfl
  | cons c cs ih =>
    simp only [List.cons_append, digitsAcc]
    split
    · rfl
    · exact ih _

theorem digitsAcc_of_denotes {cs : List Char} {n : Nat} (h : Denotes cs n) : digitsAcc 0 cs = some n := by
  induction h with
  | one d hd => simp [digitsAcc, digit?_digitChar hd]
  | snoc cs n d _ hd ih => simp [digitsAcc_append, ih, digitsAcc, digit?_digitChar hd]

theorem Denotes.ne_nil {cs : List Char} {n : Nat} (h : Denotes cs n) : cs ≠ [] := by
  cases h <;> simp

theorem parseDigits_of_denotes {cs : List Char} {n : Nat} (h : Denotes cs n) : parseDigits cs = some n := by
  have := digitsAcc_of_denotes h
  cases cs with
  | nil => exact absurd rfl h.ne_nil
  | cons c cs => exact this

theorem denotes_digitsAcc {cs : List Char} {pre : List Char} {m n : Nat} (hp : Denotes pre m)
    (h : digitsAcc m cs = some n) : Denotes (pre ++ cs) n := by
  induction cs generalizing pre m with
  | nil => simp only [digitsAcc, Option.some.injEq] at h; subst h; simpa using hp
  | cons c cs ih =>
    simp only [digitsAcc] at h
    split at h
    · cases h
    · next d hd =>
      obtain ⟨hlt, rfl⟩ := digit?_some hd
      have := ih (Denotes.snoc _ _ _ hp hlt) h
      simpa using this

theorem denotes_of_parseDigits {cs : List Char} {n : Nat} (h : parseDigits cs = some n) : Denotes cs n := by
  cases cs with
  | nil => cases h
  | cons c cs =>
    simp only [parseDigits, digitsAcc] at h
    split at h
    · cases h
    · next d hd =>
      obtain ⟨hlt, rfl⟩ := digit?_some hd
      have := denotes_digitsAcc (Denotes.one d hlt) (by simpa using h)
      simpa using this

theorem parseDigits_iff (cs : List Char) (n : Nat) : parseDigits cs = some n ↔ Denotes cs n :=
  ⟨denotes_of_parseDigits, parseDigits_of_denotes⟩

/-- Every character of a numeral is an ASCII digit. -/
theorem Denotes.all_digit {cs : List Char} {n : Nat} (h : Denotes cs n) : ∀ c ∈ cs, 48 ≤ c.toNat ∧ c.toNat ≤ 57 := by
  induction h with
  | one d hd => intro c hc; simp only [List.mem_singleton] at hc; subst hc; rw [digitChar_toNat hd]; omega
  | snoc cs n d _ hd ih =>
    intro c hc
    simp only [List.mem_append, List.mem_singleton] at hc
    rcases hc with hc | rfl
    · exact ih c hc
    · rw [digitChar_toNat hd]; omega

theorem parseU64_of_denotes {cs : List Char} {n : Nat} (h : Denotes cs n) (hn : n < 2 ^ 64) :
    parseU64 cs = some n := by
  have hp := parseDigits_of_denotes h
  have hb : stripPlus cs = cs := by
    unfold stripPlus
    split
    · next r =>
      exact absurd (h.all_digit '+' List.mem_cons_self) (by decide)
    · rfl
  simp only [parseU64, hb, hp, hn, if_true]

/-- An accepted `u64` literal: an optional plus sign and a numeral below `2^64`. -/
theorem parseU64_some {cs : List Char} {n : Nat} (h : parseU64 cs = some n) :
    n < 2 ^ 64 ∧ (Denotes cs n ∨ ∃ r, cs = '+' :: r ∧ Denotes r n) := by
  unfold parseU64 at h
  split at h
  · cases h
  · next m hm =>
    split at h
    · next hlt =>
      simp only [Option.some.injEq] at h; subst h
      refine ⟨hlt, ?_⟩
      unfold stripPlus at hm
      split at hm
      · next r => exact Or.inr ⟨r, rfl, denotes_of_parseDigits hm⟩
      · exact Or.inl (denotes_of_parseDigits hm)
    · cases h

theorem split_ne_nil (sep : Char) (cs : List Char) : split sep cs ≠ [] := by
  cases cs with
  | nil => simp [split]
  | cons c cs =>
    simp only [split]
    split
    · simp
    · split <;> simp

theorem split_of_not_mem {sep : Char} {p : List Char} (h : sep ∉ p) : split sep p = [p] := by
  induction p with
  | nil => rfl
  | cons c cs ih =>
    simp only [List.mem_cons, not_or] at h
    simp only [split]
    rw [if_neg (fun e => h.1 e.symm), ih h.2]

theorem split_append_sep {sep : Char} {p rest : List Char} (h : sep ∉ p) :
    split sep (p ++ sep :: rest) = p :: split sep rest := by
  induction p with
  | nil => simp [split]
  | cons c cs ih =>
    simp only [List.mem_cons, not_or] at h
    simp only [List.cons_append, split]
    rw [if_neg (fun e => h.1 e.symm), ih h.2]

/-- Splitting what was joined gives the pieces back, if no piece contains the separator. -/
theorem split_join {sep : Char} {ps : List (List Char)} (hne : ps ≠ []) (h : ∀ p ∈ ps, sep ∉ p) :
    split sep (join sep ps) = ps := by
  induction ps with
  | nil => exact absurd rfl hne
  | cons p ps ih =>
    cases ps with
    | nil => exact split_of_not_mem (h p List.mem_cons_self)
    | cons q qs =>
      simp only [join]
      rw [split_append_sep (h p List.mem_cons_self), ih (by simp) (fun x hx => h x (List.mem_cons_of_mem _ hx))]

/-- Joining what was split gives the string back, and no piece contains the separator. -/
theorem join_split (sep : Char) (cs : List Char) : join sep (split sep cs) = cs ∧ ∀ p ∈ split sep cs, sep ∉ p := by
  induction cs with
  | nil => simp [split, join]
  | cons c cs ih =>
    simp only [split]
    split
    · next hc =>
      subst hc
      refine ⟨?_, ?_⟩
      · have hne := split_ne_nil c cs
        cases hs : split c cs with
        | nil => exact absurd hs hne
        | cons h t => rw [hs] at ih; simp [join, ih.1]
      · intro p hp
        simp only [List.mem_cons] at hp
        rcases hp with rfl | hp
        · simp
        · exact ih.2 p hp
    · next hc =>
      cases hs : split sep cs with
      | nil => exact absurd hs (split_ne_nil sep cs)
      | cons h t =>
        rw [hs] at ih
        refine ⟨?_, ?_⟩
        · have := ih.1
          cases t with
          | nil => simp only [join] at this ⊢; rw [this]
          | cons q qs => simp only [join, List.cons_append] at this ⊢; rw [this]
        · intro p hp
          simp only [List.mem_cons] at hp
          rcases hp with rfl | hp
          · simp only [List.mem_cons, not_or]
            exact ⟨fun e => hc e.symm, ih.2 h List.mem_cons_self⟩
          · exact ih.2 p (List.mem_cons_of_mem _ hp)

/-- What `parse::<i64>` accepts: an optionally signed numeral in range. -/
theorem parseI64_of_denotes {cs : List Char} {n : Nat} (h : Denotes cs n) (hn : n < 2 ^ 63) :
    parseI64 cs = some (n : Int) := by
  have hp := parseDigits_of_denotes h
  unfold parseI64
  split
  · exact absurd (h.all_digit '-' List.mem_cons_self) (by decide)
  · exact absurd (h.all_digit '+' List.mem_cons_self) (by decide)
  · simp only [hp, hn, if_true]

/-- Specification: the text `cs` stands for the integer `z` of 64 bits: a decimal numeral, perhaps with a sign before it,
whose value is neither below the smallest nor above the largest of them. -/
def DenotesI64 (cs : List Char) (z : Int) : Prop :=
  ∃ ds n, Denotes ds n ∧ ((cs = ds ∧ z = n) ∨ (cs = '+' :: ds ∧ z = n) ∨ (cs = '-' :: ds ∧ z = -(n : Int))) ∧
    -(2 ^ 63) ≤ z ∧ z < 2 ^ 63

/-- What `parse::<i64>` accepts, and the number it reads. -/
theorem parseI64_iff {cs : List Char} {z : Int} : parseI64 cs = some z ↔ DenotesI64 cs z := by
  constructor
  · intro h
    unfold parseI64 at h
    split at h
    · split at h
      · cases h
      · next r _ n hn =>
        split at h
        · next hle =>
          cases h
          exact ⟨r, n, denotes_of_parseDigits hn, .inr (.inr ⟨rfl, rfl⟩), by omega, by omega⟩
        · cases h
    · split at h
      · cases h
      · next r _ n hn =>
        split at h
        · next hle =>
          cases h
          exact ⟨r, n, denotes_of_parseDigits hn, .inr (.inl ⟨rfl, rfl⟩), by omega, by omega⟩
        · cases h
    · split at h
      · cases h
      · next n hn =>
        split at h
        · next hle =>
          cases h
          exact ⟨cs, n, denotes_of_parseDigits hn, .inl ⟨rfl, rfl⟩, by omega, by omega⟩
        · cases h
  · rintro ⟨ds, n, hd, (⟨rfl, rfl⟩ | ⟨rfl, rfl⟩ | ⟨rfl, rfl⟩), h1, h2⟩
    · exact parseI64_of_denotes hd (by omega)
    · simp only [parseI64, parseDigits_of_denotes hd]
      rw [if_pos (by omega)]
    · simp only [parseI64, parseDigits_of_denotes hd]
      rw [if_pos (by omega)]

end Shpool.Str
