import Verif.EtcEnv.Model
/-!
# Property C31: parsing `/etc/environment`
-/

namespace Shpool.EtcEnv
open Shpool.Str

/-! ## Specification -/

/-- A legal key: not empty, ASCII letters, digits and underscores. -/
def LegalKey (k : List Char) : Prop :=
  k ≠ [] ∧ ∀ c ∈ k, ('a' ≤ c ∧ c ≤ 'z') ∨ ('A' ≤ c ∧ c ≤ 'Z') ∨ ('0' ≤ c ∧ c ≤ '9') ∨ c = '_'

def Quote (c : Char) : Prop := c = '\'' ∨ c = '"'

/-- How a value may be written. -/
inductive Written : List Char → List Char → Prop where
  /-- as it is, if it does not begin with a quote -/
  | plain (v : List Char) (h : ∀ c r, v = c :: r → ¬ Quote c) : Written v v
  /-- between quotes, if it neither begins nor ends with one -/
  | quoted (q q' : Char) (v : List Char) (hq : Quote q) (hq' : Quote q')
      (h : ∀ c r, v = c :: r → ¬ Quote c) (h' : ∀ c r, v = r ++ [c] → ¬ Quote c) : Written (q :: v ++ [q']) v

/-- What may follow the value: white space up to the end of the line, or a comment. -/
inductive Tail : List Char → List Char → Prop where
  | ws (raw w : List Char) (hw : ∀ c ∈ w, isWhitespace c = true) (h : ∀ c r, raw = r ++ [c] → isWhitespace c = false) :
      Tail raw w
  | comment (raw t : List Char) : Tail raw ('#' :: t)

/-- A line saying `key=value`. -/
inductive Assigns : List Char → List Char → List Char → Prop where
  | intro (w pre key raw value tail : List Char) (hw : ∀ c ∈ w, isWhitespace c = true)
      (hpre : pre = [] ∨ pre = "export ".toList) (hk : LegalKey key) (hr : '#' ∉ raw) (hv : Written raw value)
      (ht : Tail raw tail) : Assigns (w ++ pre ++ key ++ ['='] ++ raw ++ tail) key value

/-- A blank line or a comment line. -/
def Blank (line : List Char) : Prop :=
  (∀ c ∈ line, isWhitespace c = true) ∨ ∃ w t, (∀ c ∈ w, isWhitespace c = true) ∧ line = w ++ '#' :: t

/-! ## Lemmas -/

theorem trimStart_ws {w s : List Char} (hw : ∀ c ∈ w, isWhitespace c = true) : trimStart (w ++ s) = trimStart s := by
  unfold trimStart
  induction w with
  | nil => rfl
  | cons c w ih =>
    rw [List.cons_append, List.dropWhile_cons_of_pos (hw c (by simp))]
    exact ih (fun d hd => hw d (List.mem_cons_of_mem _ hd))

theorem trimStart_of_head {c : Char} {s : List Char} (h : isWhitespace c = false) : trimStart (c :: s) = c :: s := by
  unfold trimStart; rw [List.dropWhile_cons_of_neg (by simp [h])]

theorem trimEnd_ws {s w : List Char} (hw : ∀ c ∈ w, isWhitespace c = true) : trimEnd (s ++ w) = trimEnd s := by
  unfold trimEnd
  rw [List.reverse_append]
  have := @trimStart_ws w.reverse s.reverse (fun c hc => hw c (List.mem_reverse.mp hc))
  unfold trimStart at this
  rw [this]

theorem trimEnd_of_last {c : Char} {s : List Char} (h : isWhitespace c = false) : trimEnd (s ++ [c]) = s ++ [c] := by
  unfold trimEnd
  rw [List.reverse_append, List.reverse_singleton, List.singleton_append, List.dropWhile_cons_of_neg (by simp [h])]
  simp

theorem trimEnd_prefix (s : List Char) : ∃ w, s = trimEnd s ++ w ∧ ∀ c ∈ w, isWhitespace c = true := by
  unfold trimEnd
  refine ⟨(s.reverse.takeWhile isWhitespace).reverse, ?_, ?_⟩
  · rw [← List.reverse_append, List.takeWhile_append_dropWhile, List.reverse_reverse]
  · intro c hc
    rw [List.mem_reverse] at hc
    have := List.all_takeWhile (p := isWhitespace) (l := s.reverse)
    rw [List.all_eq_true] at this
    exact this c hc

theorem trimEnd_last (s r : List Char) (c : Char) (h : trimEnd s = r ++ [c]) : isWhitespace c = false := by
  unfold trimEnd at h
  have h2 : s.reverse.dropWhile isWhitespace = c :: r.reverse := by
    have := congrArg List.reverse h
    simpa using this
  have := List.head?_dropWhile_not isWhitespace s.reverse
  rw [h2] at this
  simpa using this

theorem trim_sublist (s : List Char) : ∀ c ∈ trim s, c ∈ s := by
  intro c hc
  unfold trim trimEnd trimStart at hc
  rw [List.mem_reverse] at hc
  have := (List.dropWhile_suffix _).subset hc
  rw [List.mem_reverse] at this
  exact (List.dropWhile_suffix _).subset this

theorem char_le_nat {a b : Char} : a ≤ b ↔ a.toNat ≤ b.toNat := by
  rw [Char.le_def, UInt32.le_iff_toNat_le]; rfl

theorem keyChar_iff (c : Char) : keyChar c = true ↔
    ('a' ≤ c ∧ c ≤ 'z') ∨ ('A' ≤ c ∧ c ≤ 'Z') ∨ ('0' ≤ c ∧ c ≤ '9') ∨ c = '_' := by
  simp only [keyChar, asciiAlpha, asciiDigit, Bool.or_eq_true, Bool.and_eq_true, decide_eq_true_eq, beq_iff_eq, char_le_nat]
  have h1 : 'a'.toNat = 97 := rfl
  have h2 : 'z'.toNat = 122 := rfl
  have h3 : 'A'.toNat = 65 := rfl
  have h4 : 'Z'.toNat = 90 := rfl
  have h5 : '0'.toNat = 48 := rfl
  have h6 : '9'.toNat = 57 := rfl
  rw [h1, h2, h3, h4, h5, h6]
  constructor
  · rintro (((h | h) | h) | h)
    · exact .inr (.inl h)
    · exact .inl h
    · exact .inr (.inr (.inl h))
    · exact .inr (.inr (.inr h))
  · rintro (h | h | h | h)
    · exact .inl (.inl (.inr h))
    · exact .inl (.inl (.inl h))
    · exact .inl (.inr h)
    · exact .inr h

theorem legalKey_iff (k : List Char) : (k ≠ [] ∧ k.all keyChar = true) ↔ LegalKey k := by
  unfold LegalKey
  rw [List.all_eq_true]
  constructor
  · rintro ⟨h1, h2⟩; exact ⟨h1, fun c hc => (keyChar_iff c).mp (h2 c hc)⟩
  · rintro ⟨h1, h2⟩; exact ⟨h1, fun c hc => (keyChar_iff c).mpr (h2 c hc)⟩

theorem keyChar_nat {c : Char} (h : keyChar c = true) :
    (65 ≤ c.toNat ∧ c.toNat ≤ 90) ∨ (97 ≤ c.toNat ∧ c.toNat ≤ 122) ∨ (48 ≤ c.toNat ∧ c.toNat ≤ 57) ∨ c.toNat = 95 := by
  simp only [keyChar, asciiAlpha, asciiDigit, Bool.or_eq_true, Bool.and_eq_true, decide_eq_true_eq, beq_iff_eq] at h
  rcases h with ((h | h) | h) | rfl
  · exact .inl h
  · exact .inr (.inl h)
  · exact .inr (.inr (.inl h))
  · exact .inr (.inr (.inr rfl))

theorem keyChar_facts {c : Char} (h : keyChar c = true) : isWhitespace c = false ∧ c ≠ '#' ∧ c ≠ '=' ∧ c ≠ ' ' := by
  have hn := keyChar_nat h
  refine ⟨?_, ?_, ?_, ?_⟩
  · unfold isWhitespace
    simp only [Bool.or_eq_false_iff, Bool.and_eq_false_iff, decide_eq_false_iff_not, beq_eq_false_iff_ne, ne_eq]
    omega
  all_goals
    intro e
    subst e
    revert hn
    decide

theorem splitEq_append {k v : List Char} (h : '=' ∉ k) : splitEq (k ++ '=' :: v) = some (k, v) := by
  induction k with
  | nil => simp [splitEq]
  | cons c k ih =>
    simp only [List.mem_cons, not_or] at h
    simp only [List.cons_append, splitEq, if_neg (Ne.symm h.1), ih h.2, Option.map_some]

theorem splitEq_some {l k v : List Char} (h : splitEq l = some (k, v)) : l = k ++ '=' :: v := by
  induction l generalizing k with
  | nil => cases h
  | cons c l ih =>
    simp only [splitEq] at h
    split at h
    · next he => cases h; rw [he]; rfl
    · cases hs : splitEq l with
      | none => rw [hs] at h; cases h
      | some p =>
        rw [hs] at h
        simp only [Option.map_some, Option.some.injEq, Prod.mk.injEq] at h
        obtain ⟨rfl, rfl⟩ := h
        rw [ih (k := p.1) (by rw [hs])]; rfl

theorem takeWhile_all {s : List Char} (h : '#' ∉ s) : s.takeWhile (· ≠ '#') = s := by
  induction s with
  | nil => rfl
  | cons c s ih =>
    simp only [List.mem_cons, not_or] at h
    rw [List.takeWhile_cons, if_pos (by simpa using Ne.symm h.1), ih h.2]

theorem takeWhile_comment {s t : List Char} (h : '#' ∉ s) : (s ++ '#' :: t).takeWhile (· ≠ '#') = s := by
  induction s with
  | nil => rfl
  | cons c s ih =>
    simp only [List.mem_cons, not_or] at h
    rw [List.cons_append, List.takeWhile_cons, if_pos (by simpa using Ne.symm h.1), ih h.2]

theorem stripPrefix_self (p s : List Char) : stripPrefix p (p ++ s) = s := by
  unfold stripPrefix
  rw [if_pos (by simp)]
  simp

theorem stripSuffix_self (c : Char) (s : List Char) : stripSuffix c (s ++ [c]) = s := by
  simp [stripSuffix]

theorem stripPrefix_mem (p s : List Char) : ∀ c ∈ stripPrefix p s, c ∈ s := by
  intro c hc
  unfold stripPrefix at hc
  split at hc
  · exact List.mem_of_mem_drop hc
  · exact hc

theorem stripSuffix_mem (x : Char) (s : List Char) : ∀ c ∈ stripSuffix x s, c ∈ s := by
  intro c hc
  unfold stripSuffix at hc
  split at hc
  · exact List.dropLast_subset _ hc
  · exact hc

theorem unquote_mem (v : List Char) : ∀ c ∈ unquote v, c ∈ v := by
  intro c hc
  unfold unquote at hc
  dsimp only at hc
  split at hc
  · exact stripPrefix_mem _ _ c (stripPrefix_mem _ _ c (stripSuffix_mem _ _ c (stripSuffix_mem _ _ c hc)))
  · exact stripPrefix_mem _ _ c (stripPrefix_mem _ _ c hc)

theorem stripPrefix_one_ne {q : Char} {s : List Char} (h : ∀ c r, s = c :: r → c ≠ q) : stripPrefix [q] s = s := by
  unfold stripPrefix
  cases s with
  | nil => rfl
  | cons c s =>
    have := h c s rfl
    rw [if_neg]
    simp [List.isPrefixOf, Ne.symm this]

theorem stripSuffix_ne {q : Char} {s : List Char} (h : ∀ c r, s = r ++ [c] → c ≠ q) : stripSuffix q s = s := by
  unfold stripSuffix
  rw [if_neg]
  intro hl
  obtain ⟨r, hr⟩ := List.getLast?_eq_some_iff.mp hl
  exact h q r hr rfl

theorem written_unquote {raw v : List Char} (h : Written raw v) : unquote raw = v := by
  cases h with
  | plain _ h =>
    have hp1 : stripPrefix ['\''] raw = raw := stripPrefix_one_ne (fun c r e he => h c r e (.inl he))
    have hp2 : stripPrefix ['"'] raw = raw := stripPrefix_one_ne (fun c r e he => h c r e (.inr he))
    unfold unquote
    dsimp only
    rw [hp1, hp2, if_neg]
    intro hl
    cases raw with
    | nil => rcases hl with hl | hl <;> cases hl
    | cons c r =>
      have := h c r rfl
      rcases hl with hl | hl
      · simp at hl; exact this (.inl hl)
      · simp at hl; exact this (.inr hl)
  | quoted q q' _ hq hq' h h' =>
    -- after stripping one leading quote what remains does not begin with one, unless it is only the closing quote
    have hlead : (q :: v ++ [q']).head? = some '\'' ∨ (q :: v ++ [q']).head? = some '"' := by
      rcases hq with rfl | rfl
      · exact .inl rfl
      · exact .inr rfl
    unfold unquote
    dsimp only
    rw [if_pos hlead]
    have hsuf : ∀ s, (∀ c r, s = r ++ [c] → ¬ Quote c) → stripSuffix '"' (stripSuffix '\'' s) = s := by
      intro s hs
      rw [stripSuffix_ne (fun c r e he => hs c r e (.inl he)), stripSuffix_ne (fun c r e he => hs c r e (.inr he))]
    have hend : stripSuffix '"' (stripSuffix '\'' (v ++ [q'])) = v := by
      rcases hq' with rfl | rfl
      · rw [stripSuffix_self, stripSuffix_ne (fun c r e he => h' c r e (.inr he))]
      · rw [stripSuffix_ne (s := v ++ ['"'])]
        · exact stripSuffix_self _ _
        · intro c r e
          have := List.append_inj_right' e rfl
          simp at this
          rw [← this]; decide
    have hmid : ∀ q0 : Char, Quote q0 → v ≠ [] → stripPrefix [q0] (v ++ [q']) = v ++ [q'] := by
      intro q0 hq0 hv
      apply stripPrefix_one_ne
      intro c r e he
      cases v with
      | nil => exact hv rfl
      | cons x xs =>
        simp only [List.cons_append, List.cons.injEq] at e
        have := h x xs rfl
        apply this
        rw [e.1, he]; exact hq0
    have hfirst : stripPrefix ['"'] (stripPrefix ['\''] (q :: v ++ [q'])) = v ++ [q'] ∨
        (v = [] ∧ stripPrefix ['"'] (stripPrefix ['\''] (q :: v ++ [q'])) = []) := by
      by_cases hv : v = []
      · subst hv
        rcases hq with rfl | rfl <;> rcases hq' with rfl | rfl <;> decide
      · left
        rcases hq with rfl | rfl
        · rw [show ('\'' :: v ++ [q'] : List Char) = ['\''] ++ (v ++ [q']) from rfl, stripPrefix_self, hmid '"' (.inr rfl) hv]
        · have h1 : stripPrefix ['\''] ('"' :: v ++ [q']) = '"' :: v ++ [q'] := by
            apply stripPrefix_one_ne
            intro c r e
            simp only [List.cons_append, List.cons.injEq] at e
            rw [← e.1]; decide
          rw [h1]
          exact stripPrefix_self ['"'] (v ++ [q'])
    rcases hfirst with h0 | ⟨h0, h1⟩
    · rw [h0]; exact hend
    · rw [h1, h0]; rfl

theorem export_not_prefix {k rest : List Char} (hk : ∀ c ∈ k, keyChar c = true) :
    stripPrefix "export ".toList (k ++ '=' :: rest) = k ++ '=' :: rest := by
  unfold stripPrefix
  rw [if_neg]
  intro hp
  rw [List.isPrefixOf_iff_prefix] at hp
  obtain ⟨t, ht⟩ := hp
  -- the blank of "export " is position 6; a key has no blank, and '=' is not among the first six letters
  have hsplit := List.append_eq_append_iff.mp ht
  rcases hsplit with ⟨a, h1, -⟩ | ⟨a, h1, h2⟩
  · -- k = "export " ++ a
    have := hk ' ' (by rw [h1]; simp)
    exact absurd this (by decide)
  · -- "export " = k ++ a, a starts with '='
    cases a with
    | nil =>
      have := hk ' ' (by
        have : k = "export ".toList := by simpa using h1.symm
        rw [this]; decide)
      exact absurd this (by decide)
    | cons x xs =>
      simp only [List.cons_append, List.cons.injEq] at h2
      have : '=' ∈ "export ".toList := by rw [h1, h2.1]; simp
      exact absurd this (by decide)

/-! ## C31 -/

/-- C31 (assignments). A line `key=value` — with optional leading white space, optional `export `, the value as it is or between
quotes, then white space or a comment — contributes exactly that pair. -/
theorem C31_assignment (line key value : List Char) (h : Assigns line key value) : parseLine line = some (key, value) := by
  obtain ⟨w, pre, _, raw, _, tail, hw, hpre, hk, hr, hv, ht⟩ := h
  obtain ⟨hne, hall⟩ := (legalKey_iff key).mpr hk
  have hkc : ∀ c ∈ key, keyChar c = true := List.all_eq_true.mp hall
  have hk' : '=' ∉ key := fun hm => (keyChar_facts (hkc _ hm)).2.2.1 rfl
  have hkh : '#' ∉ key := fun hm => (keyChar_facts (hkc _ hm)).2.1 rfl
  -- the core of the line starts with a non-blank character other than '#'
  have hstart : ∀ x, ∃ c r, pre ++ key ++ '=' :: x = c :: r ∧ isWhitespace c = false ∧ c ≠ '#' := by
    intro x
    rcases hpre with rfl | rfl
    · cases key with
      | nil => exact absurd rfl hne
      | cons c k =>
        obtain ⟨h1, h2, -⟩ := keyChar_facts (hkc c (by simp))
        exact ⟨c, k ++ '=' :: x, rfl, h1, h2⟩
    · exact ⟨'e', "xport ".toList ++ key ++ '=' :: x, rfl, by decide, by decide⟩
  have hcore : ∀ x, stripPrefix "export ".toList (pre ++ key ++ '=' :: x) = key ++ '=' :: x := by
    intro x
    rcases hpre with rfl | rfl
    · exact export_not_prefix hkc
    · rw [List.append_assoc]; exact stripPrefix_self _ _
  have hcut : '#' ∉ key ++ '=' :: raw := by
    intro hm
    rcases List.mem_append.mp hm with hm | hm
    · exact hkh hm
    · rcases List.mem_cons.mp hm with hm | hm
      · exact absurd hm (by decide)
      · exact hr hm
  -- it suffices to know that trimming leaves the core followed by something starting with '#', or nothing
  suffices hsuf : ∃ x, trim (w ++ pre ++ key ++ ['='] ++ raw ++ tail) = pre ++ key ++ '=' :: (raw ++ x) ∧
      (x = [] ∨ ∃ t, x = '#' :: t) by
    obtain ⟨x, hx, hx'⟩ := hsuf
    obtain ⟨c, r, hcr, hc1, hc2⟩ := hstart (raw ++ x)
    unfold parseLine
    dsimp only
    rw [hx, if_neg (by rw [hcr]; simp [hc2]), hcore]
    have htw : (key ++ '=' :: (raw ++ x)).takeWhile (· ≠ '#') = key ++ '=' :: raw := by
      rcases hx' with rfl | ⟨t, rfl⟩
      · rw [List.append_nil]; exact takeWhile_all hcut
      · have : key ++ '=' :: (raw ++ '#' :: t) = (key ++ '=' :: raw) ++ '#' :: t := by simp
        rw [this]; exact takeWhile_comment hcut
    rw [htw, splitEq_append hk']
    dsimp only
    rw [if_neg hne, if_neg (by simp [hall]), written_unquote hv]
  have hassoc : w ++ pre ++ key ++ ['='] ++ raw ++ tail = w ++ (pre ++ key ++ '=' :: (raw ++ tail)) := by simp
  rw [hassoc]
  unfold trim
  rw [trimStart_ws hw]
  obtain ⟨c, r, hcr, hc1, -⟩ := hstart (raw ++ tail)
  rw [hcr, trimStart_of_head hc1, ← hcr]
  cases ht with
  | ws _ hws hlast =>
    refine ⟨[], ?_, .inl rfl⟩
    have : pre ++ key ++ '=' :: (raw ++ tail) = (pre ++ key ++ '=' :: raw) ++ tail := by simp
    rw [this, trimEnd_ws hws, List.append_nil]
    rcases List.eq_nil_or_concat raw with rfl | ⟨a, y, rfl⟩
    · have : pre ++ key ++ '=' :: [] = (pre ++ key) ++ ['='] := rfl
      rw [this]; exact trimEnd_of_last (by decide)
    · rw [List.concat_eq_append] at hlast ⊢
      have : pre ++ key ++ '=' :: (a ++ [y]) = (pre ++ key ++ '=' :: a) ++ [y] := by simp
      rw [this]; exact trimEnd_of_last (hlast y a rfl)
  | comment t =>
    -- trimming cuts only white space off the comment
    have hsp : pre ++ key ++ '=' :: (raw ++ '#' :: t) = (pre ++ key ++ '=' :: raw ++ ['#']) ++ t := by simp
    rw [hsp]
    -- trimEnd (A ++ '#' ++ t) keeps A ++ '#'
    have key2 : ∀ (A : List Char), ∃ t', trimEnd (A ++ ['#'] ++ t) = A ++ '#' :: t' := by
      intro A
      obtain ⟨ws, h1, h2⟩ := trimEnd_prefix (A ++ ['#'] ++ t)
      rcases List.append_eq_append_iff.mp h1 with ⟨a, h3, -⟩ | ⟨a, h3, h4⟩
      · exact ⟨a, by rw [h3]; simp⟩
      · -- the '#' would be trimmed: impossible unless a = []
        rcases List.eq_nil_or_concat a with rfl | ⟨a', y, rfl⟩
        · exact ⟨[], by simpa using h3.symm⟩
        · exfalso
          rw [List.concat_eq_append, ← List.append_assoc] at h3
          have := List.append_inj_right' h3 rfl
          simp at this
          have := h2 y (by rw [h4]; simp)
          rw [← ‹'#' = y›] at this
          exact absurd this (by decide)
    obtain ⟨t', ht'⟩ := key2 (pre ++ key ++ '=' :: raw)
    refine ⟨'#' :: t', ?_, .inr ⟨t', rfl⟩⟩
    rw [ht']; simp

/-- C31 (comments). Blank and comment lines contribute nothing. -/
theorem C31_blank (line : List Char) (h : Blank line) : parseLine line = none := by
  rcases h with h | ⟨w, t, hw, rfl⟩
  · have : trim line = [] := by
      unfold trim
      have := @trimStart_ws line [] h
      rw [List.append_nil] at this
      rw [this]; rfl
    unfold parseLine
    dsimp only
    rw [if_pos (.inl this)]
  · have : ∃ t', trim (w ++ '#' :: t) = '#' :: t' := by
      unfold trim
      rw [trimStart_ws hw, trimStart_of_head (by decide)]
      obtain ⟨ws, h1, h2⟩ := trimEnd_prefix ('#' :: t)
      cases he : trimEnd ('#' :: t) with
      | nil =>
        rw [he] at h1
        have := h2 '#' (by rw [List.nil_append] at h1; rw [← h1]; simp)
        exact absurd this (by decide)
      | cons x xs =>
        rw [he, List.cons_append] at h1
        injection h1 with h3 h4
        exact ⟨xs, by rw [← h3]⟩
    obtain ⟨t', ht'⟩ := this
    unfold parseLine
    dsimp only
    rw [ht', if_pos (.inr rfl)]

/-- The text `t` as file contents. -/
def text (t : List Char) : List Sym := t.map .ch

theorem readLines_append_nl (a b : List Sym) : readLines (a ++ .ch '\n' :: b) = readLines (a ++ [.ch '\n']) ++ readLines b := by
  induction a with
  | nil => simp [readLines]
  | cons c a ih =>
    simp only [List.cons_append, readLines]
    by_cases hc : c = .ch '\n'
    · rw [if_pos hc, if_pos hc, ih]; rfl
    · rw [if_neg hc, if_neg hc, ih]
      cases hq : readLines (a ++ [.ch '\n']) with
      | nil =>
        exfalso
        cases a with
        | nil => simp [readLines] at hq
        | cons d a =>
          simp only [List.cons_append, readLines] at hq
          split at hq
          · cases hq
          · split at hq <;> cases hq
      | cons l ls => rfl

theorem parseLines_append (a b : List (List Sym)) : parseLines (a ++ b) =
    match parseLines a, parseLines b with
    | some p, some q => some (p ++ q)
    | _, _ => none := by
  induction a with
  | nil => cases h : parseLines b <;> simp [parseLines, h]
  | cons l a ih =>
    simp only [List.cons_append, parseLines]
    cases hd : decode l with
    | none => rfl
    | some cs =>
      dsimp only
      rw [ih]
      cases ha : parseLines a with
      | none => cases hb : parseLines b <;> rfl
      | some p => cases hb : parseLines b <;> simp

theorem decode_text (t : List Char) : decode (text t) = some t := by
  induction t with
  | nil => rfl
  | cons c t ih =>
    show (decode (text t)).map (c :: ·) = _
    rw [ih]; rfl

/-- A line in a file: its text and a line feed. -/
def fileOf (lines : List (List Char)) : List Sym := lines.flatMap (fun l => text l ++ [.ch '\n'])

theorem readLines_line {l : List Char} (h : '\n' ∉ l) : readLines (text l ++ [.ch '\n']) = [text l ++ [.ch '\n']] := by
  induction l with
  | nil => simp [text, readLines]
  | cons c l ih =>
    simp only [List.mem_cons, not_or] at h
    have : text (c :: l) = .ch c :: text l := rfl
    rw [this, List.cons_append, readLines, if_neg (by simpa using Ne.symm h.1), ih h.2]

theorem parseLine_nl (l : List Char) : parseLine (l ++ ['\n']) = parseLine l := by
  have : trim (l ++ ['\n']) = trim l := by
    by_cases h : ∀ c ∈ l, isWhitespace c = true
    · have h1 : trimStart l = [] := by
        have := @trimStart_ws l [] h
        simpa [trimStart] using this
      have h2 : trimStart (l ++ ['\n']) = [] := by rw [trimStart_ws h]; decide
      unfold trim; rw [h1, h2]
    · have : trimStart (l ++ ['\n']) = trimStart l ++ ['\n'] := by
        induction l with
        | nil => exact absurd (fun c hc => by cases hc) h
        | cons c l ih =>
          by_cases hc : isWhitespace c = true
          · have : ¬ ∀ d ∈ l, isWhitespace d = true := by
              intro h2; apply h; intro d hd
              rcases List.mem_cons.mp hd with rfl | hd
              · exact hc
              · exact h2 d hd
            have h3 := ih this
            unfold trimStart at h3 ⊢
            rw [List.cons_append, List.dropWhile_cons_of_pos hc, List.dropWhile_cons_of_pos hc]
            exact h3
          · rw [List.cons_append, trimStart_of_head (by simpa using hc), trimStart_of_head (by simpa using hc)]; rfl
      unfold trim
      rw [this]; exact trimEnd_ws (by decide)
  unfold parseLine
  rw [this]

/-- C31 (the file). The result for a text file is what its lines contribute one by one, in file order: no line affects another. -/
theorem C31_lines_independent (lines : List (List Char)) (h : ∀ l ∈ lines, '\n' ∉ l) :
    parseCompat (fileOf lines) = some (lines.filterMap parseLine) := by
  induction lines with
  | nil => rfl
  | cons l lines ih =>
    unfold parseCompat at ih ⊢
    have : fileOf (l :: lines) = text l ++ .ch '\n' :: fileOf lines := by simp [fileOf]
    rw [this, readLines_append_nl, readLines_line (h l (by simp)), parseLines_append,
      ih (fun l' hl' => h l' (List.mem_cons_of_mem _ hl'))]
    have hd : decode (text l ++ [.ch '\n']) = some (l ++ ['\n']) := by
      have : text l ++ [.ch '\n'] = text (l ++ ['\n']) := by simp [text]
      rw [this]; exact decode_text _
    simp only [parseLines, hd, parseLine_nl, List.append_nil]
    cases hp : parseLine l <;> simp [List.filterMap_cons, hp]

/-- The last line may lack its line feed. -/
theorem C31_last_line (lines : List (List Char)) (last : List Char) (h : ∀ l ∈ lines, '\n' ∉ l) (hl : '\n' ∉ last) :
    parseCompat (fileOf lines ++ text last) = some ((lines ++ [last]).filterMap parseLine) := by
  have hone : ∀ l : List Char, '\n' ∉ l → parseLines (readLines (text l)) = some (parseLine l).toList := by
    intro l hl
    cases l with
    | nil => rfl
    | cons c l =>
      have : readLines (text (c :: l)) = [text (c :: l)] := by
        induction l generalizing c with
        | nil => simp at hl; simp [text, readLines, Ne.symm hl]
        | cons d l ih =>
          simp only [List.mem_cons, not_or] at hl
          have : text (c :: d :: l) = .ch c :: text (d :: l) := rfl
          rw [this, readLines, if_neg (by simpa using Ne.symm hl.1), ih d (by simp [hl.2.1, hl.2.2])]
      rw [this]
      simp only [parseLines, decode_text, List.append_nil]
  induction lines with
  | nil =>
    show parseLines (readLines (text last)) = _
    rw [hone last hl]
    cases hp : parseLine last <;> simp [List.filterMap_cons, hp]
  | cons l lines ih =>
    unfold parseCompat at ih ⊢
    have : fileOf (l :: lines) ++ text last = text l ++ .ch '\n' :: (fileOf lines ++ text last) := by simp [fileOf]
    rw [this, readLines_append_nl, readLines_line (h l (by simp)), parseLines_append,
      ih (fun l' hl' => h l' (List.mem_cons_of_mem _ hl'))]
    have hd : decode (text l ++ [.ch '\n']) = some (l ++ ['\n']) := by
      have : text l ++ [.ch '\n'] = text (l ++ ['\n']) := by simp [text]
      rw [this]; exact decode_text _
    simp only [parseLines, hd, parseLine_nl, List.append_nil]
    cases hp : parseLine l <;> simp [List.filterMap_cons, hp]

theorem parseLine_wf {l k v : List Char} (h : parseLine l = some (k, v)) : LegalKey k ∧ '#' ∉ v ∧ (∀ c ∈ v, c ∈ trim l) := by
  unfold parseLine at h
  dsimp only at h
  split at h
  · cases h
  · split at h
    · cases h
    · next key val hs =>
      split at h
      · cases h
      · next hne =>
        split at h
        · cases h
        · next hall =>
          simp only [Option.some.injEq, Prod.mk.injEq] at h
          obtain ⟨rfl, rfl⟩ := h
          have hl := splitEq_some hs
          have hmem : ∀ c ∈ val, c ∈ (stripPrefix "export ".toList (trim l)).takeWhile (· ≠ '#') := by
            intro c hc; rw [hl]; simp [hc]
          refine ⟨(legalKey_iff key).mp ⟨hne, by simpa using hall⟩, ?_, ?_⟩
          · intro hm
            have := hmem _ (unquote_mem _ _ hm)
            have hall := List.all_takeWhile (p := (fun c : Char => decide (c ≠ '#'))) (l := stripPrefix "export ".toList (trim l))
            rw [List.all_eq_true] at hall
            have := hall _ this
            simp at this
          · intro c hc
            have := hmem _ (unquote_mem _ _ hc)
            exact stripPrefix_mem _ _ c ((List.takeWhile_prefix _).subset this)

theorem trim_no_nl_of_line {l : List Char} (h : ∀ pre post, l = pre ++ '\n' :: post → post = []) : '\n' ∉ trim l := by
  intro hm
  -- a line feed in the trimmed line is followed by a non-blank character
  unfold trim at hm
  obtain ⟨w, h1, h2⟩ := trimEnd_prefix (trimStart l)
  obtain ⟨a, b, hab⟩ := List.append_of_mem hm
  obtain ⟨u, hu⟩ : ∃ u, l = u ++ trimStart l := by
    unfold trimStart; exact ⟨_, (List.takeWhile_append_dropWhile (p := isWhitespace) (l := l)).symm⟩
  have hl : l = (u ++ a) ++ '\n' :: (b ++ w) := by
    rw [hu, h1, hab]; simp
  have := h _ _ hl
  have hb : b = [] := (List.append_eq_nil_iff.mp this).1
  rw [hb] at hab
  have := trimEnd_last _ _ _ hab
  exact absurd this (by decide)

theorem readLines_line_form (f : List Sym) : ∀ l ∈ readLines f, ∀ pre post, l = pre ++ .ch '\n' :: post → post = [] := by
  induction f with
  | nil => intro l hl; cases hl
  | cons c f ih =>
    intro l hl pre post he
    simp only [readLines] at hl
    split at hl
    · next hc =>
      rcases List.mem_cons.mp hl with rfl | hl
      · cases pre with
        | nil => simp at he; exact he.2
        | cons x xs => simp at he
      · exact ih l hl pre post he
    · next hc =>
      split at hl
      · rw [List.mem_singleton] at hl
        subst hl
        cases pre with
        | nil => simp at he; exact he.2
        | cons x xs => simp at he
      · next l0 ls hq =>
        rcases List.mem_cons.mp hl with rfl | hl
        · cases pre with
          | nil => simp at he; exact absurd he.1 hc
          | cons x xs =>
            simp only [List.cons_append, List.cons.injEq] at he
            exact ih l0 (by rw [hq]; simp) xs post he.2
        · exact ih l (by rw [hq]; exact List.mem_cons_of_mem _ hl) pre post he

theorem decode_some {l : List Sym} {cs : List Char} (h : decode l = some cs) : l = text cs := by
  induction l generalizing cs with
  | nil => cases h; rfl
  | cons x l ih =>
    cases x with
    | bad b => cases h
    | ch c =>
      simp only [decode] at h
      cases hd : decode l with
      | none => rw [hd] at h; cases h
      | some r => rw [hd] at h; cases h; rw [ih hd]; rfl

/-- C31 (well-formed result). Whatever the file, every key is legal and no value contains a `#` or a line feed. -/
theorem C31_well_formed (file : List Sym) (ps : List (List Char × List Char)) (h : parseCompat file = some ps) :
    ∀ k v, (k, v) ∈ ps → LegalKey k ∧ '#' ∉ v ∧ '\n' ∉ v := by
  unfold parseCompat at h
  have hform := readLines_line_form file
  revert h hform
  generalize readLines file = ls
  intro h hform
  induction ls generalizing ps with
  | nil => cases h; intro k v hm; cases hm
  | cons l ls ih =>
    simp only [parseLines] at h
    split at h
    · cases h
    · next cs hd =>
      split at h
      · cases h
      · next qs hq =>
        cases h
        intro k v hm
        rcases List.mem_append.mp hm with hm | hm
        · rw [Option.mem_toList] at hm
          obtain ⟨h1, h2, h3⟩ := parseLine_wf hm
          refine ⟨h1, h2, ?_⟩
          intro hn
          refine trim_no_nl_of_line ?_ (h3 _ hn)
          intro pre post he
          have := hform l (by simp) (text pre) (text post) (by rw [decode_some hd, he]; simp [text])
          simpa [text] using this
        · exact ih qs hq (fun l' hl' => hform l' (List.mem_cons_of_mem _ hl')) k v hm

/-- "One malformed line never affects the others" is false for a line that is not UTF-8, even a comment: everything is lost (and
the caller, server.rs 1269, then refuses the attach). -/
theorem C31_false : ∃ (l : List Sym), parseCompat (text "A=b\n".toList) = some [(['A'], ['b'])] ∧
    parseCompat (text "A=b\n# caf".toList ++ l) = none := ⟨[.bad 0xE9], by decide, by decide⟩

/-- C31 (if the file is UTF-8). Any text file decomposes into lines as in `C31_lines_independent`, so parsing never fails. -/
theorem C31_utf8_total_partial (t : List Char) : ∃ ps, parseCompat (text t) = some ps := by
  unfold parseCompat
  have : ∀ l ∈ readLines (text t), ∃ cs, decode l = some cs := by
    induction t with
    | nil => intro l hl; cases hl
    | cons c t ih =>
      intro l hl
      have hx : text (c :: t) = .ch c :: text t := rfl
      rw [hx] at hl
      simp only [readLines] at hl
      split at hl
      · rcases List.mem_cons.mp hl with rfl | hl
        · exact ⟨[c], rfl⟩
        · exact ih l hl
      · split at hl
        · rw [List.mem_singleton] at hl; subst hl; exact ⟨[c], rfl⟩
        · next l0 ls hq =>
          rcases List.mem_cons.mp hl with rfl | hl
          · obtain ⟨cs, hcs⟩ := ih l0 (by rw [hq]; simp)
            exact ⟨c :: cs, by simp [decode, hcs]⟩
          · exact ih l (by rw [hq]; exact List.mem_cons_of_mem _ hl)
  revert this
  generalize readLines (text t) = ls
  intro this
  induction ls with
  | nil => exact ⟨[], rfl⟩
  | cons l ls ih =>
    obtain ⟨cs, hcs⟩ := this l (by simp)
    obtain ⟨ps, hps⟩ := ih (fun l' hl' => this l' (List.mem_cons_of_mem _ hl'))
    exact ⟨(parseLine cs).toList ++ ps, by simp [parseLines, hcs, hps]⟩

example : Assigns "  export JAVA_HOME='/opt/jdk' ".toList "JAVA_HOME".toList "/opt/jdk".toList :=
  .intro "  ".toList "export ".toList "JAVA_HOME".toList "'/opt/jdk'".toList "/opt/jdk".toList " ".toList (by decide) (.inr rfl)
    ⟨by decide, by decide⟩ (by decide)
    (.quoted '\'' '\'' "/opt/jdk".toList (.inl rfl) (.inl rfl)
      (fun c r e => by cases e; rintro (h | h) <;> exact absurd h (by decide))
      (fun c r e => by
        have : some c = some 'k' := by rw [← List.getLast?_concat (l := r), ← e]; rfl
        cases this
        rintro (h | h) <;> exact absurd h (by decide)))
    (.ws _ _ (by decide) (fun c r e => by
        have : some c = some '\'' := by rw [← List.getLast?_concat (l := r), ← e]; rfl
        cases this; decide))
example : Assigns "A=b=c # d".toList ['A'] "b=c ".toList :=
  .intro [] [] ['A'] "b=c ".toList "b=c ".toList "# d".toList (by decide) (.inl rfl) ⟨by decide, by decide⟩ (by decide)
    (.plain _ (fun c r e => by cases e; rintro (h | h) <;> exact absurd h (by decide))) (.comment _ _)
example : Blank "  # x=y".toList := .inr ⟨"  ".toList, " x=y".toList, by decide, rfl⟩
/-- The upstream unit test. -/
example : parseCompat (text "\nBASIC=foo\nexport  E=foo\nL='wut is\nM='wut\"\nD=foo=bar\n        ".toList) =
    some [("BASIC".toList, "foo".toList), ("L".toList, "wut is".toList), ("M".toList, "wut".toList),
      ("D".toList, "foo=bar".toList)] := by decide

end Shpool.EtcEnv
