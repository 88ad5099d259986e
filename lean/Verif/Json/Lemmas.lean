import Verif.Json.Spec
/-! # Reading back what was printed -/

namespace Shpool.Json

theorem hexVal_hexDigit : ∀ n : Fin 16, hexVal (hexDigit n.1) = some n.1 := by decide

theorem ofNat_toNat' (c : Char) : Char.ofNat c.toNat = c := Char.ofNat_toNat c

theorem readStr_esc (c : Char) (r : Str) : readStr (escChar c ++ r) = (readStr r).map fun p => (c :: p.1, p.2) := by
  unfold escChar
  split
  · subst_vars; rfl
  split
  · subst_vars; rfl
  split
  · subst_vars; rfl
  split
  · subst_vars; rfl
  split
  · subst_vars; rfl
  split
  · subst_vars; rfl
  split
  · subst_vars; rfl
  split
  · rename_i h
    have h1 := hexVal_hexDigit ⟨c.toNat / 16, by omega⟩
    have h2 := hexVal_hexDigit ⟨c.toNat % 16, by omega⟩
    have h0 : hexVal '0' = some 0 := by decide
    simp only [List.cons_append, List.nil_append]
    rw [readStr]
    have h4 : hex4 '0' '0' (hexDigit (c.toNat / 16)) (hexDigit (c.toNat % 16)) = some c.toNat := by
      unfold hex4
      rw [h0, h1, h2]
      simp only
      congr 1
      omega
    rw [h4]
    simp only
    rw [if_pos (by unfold Nat.isValidChar; omega), ofNat_toNat']
  · rename_i h1 h2 _ _ _ _ _ h3
    simp only [List.cons_append, List.nil_append]
    rw [readStr]
    · rw [if_neg h1, if_neg (by simp [h2, h3])]
    · intro a b c' d r' h; cases h; exact absurd rfl h2
    · intro a b h; cases h; exact absurd rfl h2

theorem readStr_flat (s r : Str) : readStr (s.flatMap escChar ++ '"' :: r) = some (s, r) := by
  induction s with
  | nil => rw [List.flatMap_nil, List.nil_append, readStr] <;> simp
  | cons c s ih => rw [List.flatMap_cons, List.append_assoc, readStr_esc, ih]; rfl

/-! Numbers. -/

theorem digit_toNat : ∀ n : Fin 10, (Char.ofNat (48 + n.1)).toNat = 48 + n.1 := by decide

theorem digitsAux_spec (f n : Nat) (acc : Str) (h : n < f) : ∃ ds, digitsAux f n acc = ds ++ acc ∧ natOf ds = n ∧
    (∀ c ∈ ds, isDigit c = true) ∧ ds ≠ [] ∧ (ds.head? = some '0' → ds = ['0']) := by
  induction f generalizing n acc with
  | zero => omega
  | succ f ih =>
    have hd := digit_toNat ⟨n % 10, by omega⟩
    simp only at hd
    have hdig : isDigit (Char.ofNat (48 + n % 10)) = true := by
      unfold isDigit; rw [hd]; simp; omega
    rw [digitsAux]
    split
    · rename_i hz
      refine ⟨[Char.ofNat (48 + n % 10)], rfl, ?_, by simpa using hdig, by simp, ?_⟩
      · simp only [natOf, List.foldl_cons, List.foldl_nil, hd]; omega
      · intro h; simp only [List.head?_cons, Option.some.injEq] at h; rw [h]
    · rename_i hz
      obtain ⟨ds, h1, h2, h3, h4, h5⟩ := ih (n / 10) (Char.ofNat (48 + n % 10) :: acc) (by omega)
      refine ⟨ds ++ [Char.ofNat (48 + n % 10)], by rw [h1]; simp, ?_, ?_, by simp, ?_⟩
      · unfold natOf at h2 ⊢
        rw [List.foldl_append, h2]
        simp only [List.foldl_cons, List.foldl_nil, hd]; omega
      · intro c hc
        rcases List.mem_append.mp hc with h | h
        · exact h3 c h
        · simp at h; subst h; exact hdig
      · intro h
        have h : ds.head? = some '0' := by
          cases ds with
          | nil => exact absurd rfl h4
          | cons c ds => exact h
        have := h5 h
        rw [this] at h2
        have : natOf ['0'] = 0 := by decide
        omega

/-- What may follow a number. -/
def Stops (r : Str) : Prop := ∀ c, r.head? = some c → isDigit c = false ∧ c ≠ '.' ∧ c ≠ 'e' ∧ c ≠ 'E'

theorem takeWhile_all {p : Char → Bool} {ds r : Str} (h : ∀ c ∈ ds, p c = true) (hr : ∀ c, r.head? = some c → p c = false) :
    (ds ++ r).takeWhile p = ds ∧ (ds ++ r).dropWhile p = r := by
  induction ds with
  | nil =>
    cases r with
    | nil => simp
    | cons c r => have := hr c rfl; simp [this]
  | cons c ds ih =>
    have := ih (fun c hc => h c (by simp [hc]))
    have hc := h c (by simp)
    simp [hc, this]

theorem readNat_show (n : Nat) (r : Str) (hr : Stops r) : readNat (showNat n ++ r) = some (n, r) := by
  obtain ⟨ds, h1, h2, h3, h4, h5⟩ := digitsAux_spec (n + 1) n [] (by omega)
  unfold showNat
  rw [h1, List.append_nil]
  have ht := takeWhile_all h3 (fun c hc => (hr c hc).1)
  unfold readNat
  dsimp only
  rw [ht.1, ht.2]
  rw [if_neg, h2]
  simp only [not_or, not_and, Decidable.not_not]
  refine ⟨h4, h5, fun h => (hr _ h).2.1 rfl, fun h => (hr _ h).2.2.1 rfl, fun h => (hr _ h).2.2.2 rfl⟩

theorem showNat_head (n : Nat) : ∃ c s, showNat n = c :: s ∧ isDigit c = true := by
  obtain ⟨ds, h1, h2, h3, h4, h5⟩ := digitsAux_spec (n + 1) n [] (by omega)
  unfold showNat
  rw [h1, List.append_nil]
  cases ds with
  | nil => exact absurd rfl h4
  | cons c s => exact ⟨c, s, rfl, h3 c (by simp)⟩

theorem readInt_show (i : Int) (r : Str) (hr : Stops r) : readInt (showInt i ++ r) = some (i, r) := by
  unfold showInt
  split
  · rw [List.cons_append, readInt, readNat_show _ _ hr]
    simp only [Option.map_some, Option.some.injEq, Prod.mk.injEq, and_true]
    omega
  · obtain ⟨c, s, hc, hd⟩ := showNat_head i.natAbs
    have := readNat_show i.natAbs r hr
    rw [hc] at this ⊢
    rw [List.cons_append, readInt]
    · rw [← List.cons_append, this]
      simp only [Option.map_some, Option.some.injEq, Prod.mk.injEq, and_true]
      omega
    · intro s' h
      simp only [List.cons.injEq] at h
      rw [h.1] at hd
      cases hd

theorem skip_ws {a : Str} (h : ∀ c ∈ a, ws c = true) (s : Str) : skip (a ++ s) = skip s := by
  unfold skip
  induction a with
  | nil => rfl
  | cons c a ih => rw [List.cons_append, List.dropWhile_cons_of_pos (h c (by simp)), ih (fun c hc => h c (by simp [hc]))]

/-- The layout consists of blanks. -/
structure Layout.Blank (y : Layout) : Prop where
  nl : ∀ n, ∀ c ∈ y.nl n, ws c = true
  sp : ∀ c ∈ y.sp, ws c = true

theorem blank_pretty : prettyLayout.Blank := by
  constructor
  · intro n c hc
    simp only [prettyLayout, List.mem_cons, List.mem_replicate] at hc
    rcases hc with rfl | ⟨_, rfl⟩ <;> decide
  · intro c hc
    simp only [prettyLayout, List.mem_cons, List.not_mem_nil, or_false] at hc
    subst hc; decide

theorem blank_compact : compactLayout.Blank := by
  constructor <;> simp [compactLayout]

theorem skip_cons {c : Char} (h : ws c = false) (s : Str) : skip (c :: s) = c :: s := by
  unfold skip; rw [List.dropWhile_cons_of_neg (by simp [h])]

/-- The first character of a printed value. -/
theorem print_head (y : Layout) (n : Nat) (v : Json) : ∃ c s, print y n v = c :: s ∧ ws c = false ∧ c ≠ ']' ∧ c ≠ '}' := by
  cases v with
  | null => exact ⟨_, _, by rw [print], by decide, by decide, by decide⟩
  | int i =>
    rw [print]; unfold showInt
    split
    · exact ⟨_, _, rfl, by decide, by decide, by decide⟩
    · obtain ⟨c, s, h, hd⟩ := showNat_head i.natAbs
      refine ⟨c, s, h, ?_, ?_, ?_⟩
      · unfold isDigit at hd; unfold ws
        simp only [Bool.and_eq_true, decide_eq_true_eq] at hd
        simp only [Bool.or_eq_false_iff, beq_eq_false_iff_ne, ne_eq]
        refine ⟨⟨⟨?_, ?_⟩, ?_⟩, ?_⟩ <;> (rintro rfl; revert hd; decide)
      · rintro rfl; revert hd; decide
      · rintro rfl; revert hd; decide
  | str s => exact ⟨_, _, by rw [print, quote]; rfl, by decide, by decide, by decide⟩
  | arr l =>
    cases l with
    | nil => exact ⟨_, _, by rw [print], by decide, by decide, by decide⟩
    | cons v l => exact ⟨_, _, by rw [print], by decide, by decide, by decide⟩
  | obj l =>
    cases l with
    | nil => exact ⟨_, _, by rw [print], by decide, by decide, by decide⟩
    | cons v l => obtain ⟨k, v⟩ := v; exact ⟨_, _, by rw [print], by decide, by decide, by decide⟩

theorem skip_skip (s : Str) : skip (skip s) = skip s := by
  unfold skip
  induction s with
  | nil => rfl
  | cons c s ih =>
    by_cases h : ws c = true
    · rw [List.dropWhile_cons_of_pos h, ih]
    · rw [List.dropWhile_cons_of_neg h, List.dropWhile_cons_of_neg h]

/-- `value` skips blanks. -/
theorem value_skip (f : Nat) (s : Str) : value f (skip s) = value f s := by
  cases f with
  | zero => rw [value, value]
  | succ f =>
    rw [value, value, skip_skip]

theorem elements_skip (f : Nat) (s : Str) : elements f (skip s) = elements f s := by
  cases f with
  | zero => rw [elements, elements]
  | succ f => rw [elements, elements, value_skip]

theorem members_skip (f : Nat) (s : Str) : members f (skip s) = members f s := by
  cases f with
  | zero => rw [members, members]
  | succ f =>
    rw [members, members, skip_skip]

mutual
/-- How deep the reader has to recurse. -/
def cost : Json → Nat
  | .null => 1
  | .int _ => 1
  | .str _ => 1
  | .arr l => 1 + costItems l
  | .obj l => 1 + costMembers l
def costItems : List Json → Nat
  | [] => 0
  | v :: l => 1 + cost v + costItems l
def costMembers : List (Str × Json) → Nat
  | [] => 0
  | (_, v) :: l => 1 + cost v + costMembers l
end

theorem stops_ws {a : Str} (h : ∀ c ∈ a, ws c = true) {c : Char} (hc : c = ',' ∨ c = ']' ∨ c = '}') (s : Str) :
    Stops (a ++ c :: s) := by
  intro d hd
  cases a with
  | nil =>
    simp only [List.nil_append, List.head?_cons, Option.some.injEq] at hd
    subst hd
    rcases hc with rfl | rfl | rfl <;> decide
  | cons b a =>
    have hb := h b (by simp)
    simp only [List.cons_append, List.head?_cons, Option.some.injEq] at hd
    subst hd
    simp only [ws, Bool.or_eq_true, beq_iff_eq] at hb
    rcases hb with ((rfl | rfl) | rfl) | rfl <;> decide

theorem stops_items {y : Layout} (hy : y.Blank) (n m : Nat) (l : List Json) (s : Str) :
    Stops (printItems y n l ++ (y.nl m ++ ']' :: s)) := by
  cases l with
  | nil => rw [printItems]; exact stops_ws (hy.nl m) (by simp) s
  | cons v l =>
    intro c h
    rw [printItems] at h
    simp only [List.cons_append, List.head?_cons, Option.some.injEq] at h
    subst h; decide

theorem stops_members {y : Layout} (hy : y.Blank) (n m : Nat) (l : List (Str × Json)) (s : Str) :
    Stops (printMembers y n l ++ (y.nl m ++ '}' :: s)) := by
  cases l with
  | nil => rw [printMembers]; exact stops_ws (hy.nl m) (by simp) s
  | cons v l =>
    obtain ⟨k, v⟩ := v
    intro c h
    rw [printMembers] at h
    simp only [List.cons_append, List.head?_cons, Option.some.injEq] at h
    subst h; decide

mutual
theorem value_print {y : Layout} (hy : y.Blank) (n : Nat) (v : Json) (f : Nat) (r : Str) (hf : cost v ≤ f) (hr : Stops r) :
    value f (print y n v ++ r) = some (v, r) := by
  cases f with
  | zero => cases v <;> simp [cost] at hf
  | succ f =>
    match v with
    | .null => rw [value, print]; rfl
    | .int i =>
      obtain ⟨c, s, h, hw, _, _⟩ := print_head y n (.int i)
      have hd : c = '-' ∨ isDigit c = true := by
        rw [print] at h
        unfold showInt at h
        split at h
        · cases h; exact .inl rfl
        · obtain ⟨c', s', h', hd'⟩ := showNat_head i.natAbs
          rw [h'] at h; cases h; exact .inr hd'
      rw [value]
      have hs : skip (print y n (.int i) ++ r) = print y n (.int i) ++ r := by rw [h, List.cons_append, skip_cons hw]
      rw [hs]
      have hrd := readInt_show i r hr
      rw [print] at h hs ⊢
      rw [h] at hrd ⊢
      rw [List.cons_append] at hrd ⊢
      split
      · rename_i heq; exfalso; rw [(List.cons.inj heq).1] at hd; revert hd; decide
      · rename_i heq; exfalso; rw [(List.cons.inj heq).1] at hd; revert hd; decide
      · rename_i heq; exfalso; rw [(List.cons.inj heq).1] at hd; revert hd; decide
      · rename_i heq; exfalso; rw [(List.cons.inj heq).1] at hd; revert hd; decide
      · rw [hrd]; rfl
    | .str s =>
      rw [value, print, quote]
      simp only [List.cons_append, List.append_assoc, List.nil_append]
      rw [skip_cons (by decide)]
      simp only
      rw [readStr_flat]; rfl
    | .arr [] =>
      rw [value, print]; rfl
    | .arr (v :: l) =>
      rw [value, print]
      simp only [List.cons_append, List.append_assoc, List.nil_append]
      rw [skip_cons (by decide)]
      simp only
      rw [skip_ws (hy.nl _)]
      obtain ⟨c, s, h, hw, hb, _⟩ := print_head y (n + 1) v
      have he := elements_print hy (n + 1) n v l f r (by simp [cost, costItems] at hf ⊢; omega)
      rw [h] at he ⊢
      rw [List.cons_append] at he ⊢
      rw [skip_cons hw]
      split
      · rename_i heq; cases heq; exact absurd rfl hb
      · rw [he]; rfl
    | .obj [] => rw [value, print]; rfl
    | .obj ((k, v) :: l) =>
      rw [value, print]
      simp only [List.cons_append, List.append_assoc, List.nil_append]
      rw [skip_cons (by decide)]
      simp only
      rw [skip_ws (hy.nl _)]
      have he := members_print hy (n + 1) n k v l f r (by simp [cost, costMembers] at hf ⊢; omega)
      unfold quote at he ⊢
      simp only [List.cons_append, List.append_assoc, List.nil_append] at he ⊢
      rw [skip_cons (by decide)]
      split
      · rename_i heq; exact absurd (List.cons.inj heq).1 (by decide)
      · rw [he]; rfl
termination_by f

theorem elements_print {y : Layout} (hy : y.Blank) (n m : Nat) (v : Json) (l : List Json) (f : Nat) (r : Str) (hf : 1 + cost v + costItems l ≤ f) :
    elements f (print y n v ++ (printItems y n l ++ (y.nl m ++ ']' :: r))) = some (v :: l, r) := by
  cases f with
  | zero => omega
  | succ f =>
    rw [elements, value_print hy n v f _ (by omega) (stops_items hy _ _ _ _)]
    simp only
    match l with
    | [] =>
      rw [printItems, List.nil_append, skip_ws (hy.nl _), skip_cons (by decide)]; rfl
    | v' :: l =>
      rw [printItems]
      simp only [List.cons_append, List.append_assoc]
      rw [skip_cons (by decide)]
      simp only
      rw [← elements_skip, skip_ws (hy.nl _), elements_skip, elements_print hy n m v' l f r (by simp [costItems] at hf; omega)]
      rfl
termination_by f

theorem members_print {y : Layout} (hy : y.Blank) (n m : Nat) (k : Str) (v : Json) (l : List (Str × Json)) (f : Nat) (r : Str)
    (hf : 1 + cost v + costMembers l ≤ f) :
    members f (quote k ++ (':' :: (y.sp ++ (print y n v ++ (printMembers y n l ++ (y.nl m ++ '}' :: r)))))) = some ((k, v) :: l, r) := by
  cases f with
  | zero => omega
  | succ f =>
    rw [members]
    unfold quote
    simp only [List.cons_append, List.append_assoc, List.nil_append]
    rw [skip_cons (by decide)]
    simp only
    rw [readStr_flat]
    simp only
    rw [skip_cons (by decide)]
    simp only
    rw [← value_skip, skip_ws hy.sp, value_skip, value_print hy n v f _ (by omega) (stops_members hy _ _ _ _)]
    simp only
    match l with
    | [] =>
      rw [printMembers, List.nil_append, skip_ws (hy.nl _), skip_cons (by decide)]; rfl
    | (k', v') :: l =>
      rw [printMembers]
      simp only [List.cons_append, List.append_assoc, List.nil_append]
      rw [skip_cons (by decide)]
      simp only
      rw [← members_skip, skip_ws (hy.nl _), members_skip]
      rw [members_print hy n m k' v' l f r (by simp [costMembers] at hf; omega)]
      rfl
termination_by f
end

mutual
theorem cost_le (y : Layout) (n : Nat) (v : Json) : cost v ≤ (print y n v).length := by
  match v with
  | .null => simp [cost, print]
  | .int i =>
    obtain ⟨c, s, h, _⟩ := print_head y n (.int i)
    rw [h]; simp [cost]
  | .str s => rw [print, quote]; simp [cost]
  | .arr [] => simp [cost, costItems, print]
  | .arr (v :: l) =>
    have h1 := cost_le y (n + 1) v
    have h2 := costItems_le y (n + 1) l
    rw [print]
    simp [cost, costItems] at *
    omega
  | .obj [] => simp [cost, costMembers, print]
  | .obj ((k, v) :: l) =>
    have h1 := cost_le y (n + 1) v
    have h2 := costMembers_le y (n + 1) l
    rw [print]
    simp [cost, costMembers] at *
    omega

theorem costItems_le (y : Layout) (n : Nat) (l : List Json) : costItems l ≤ (printItems y n l).length := by
  match l with
  | [] => simp [costItems]
  | v :: l =>
    have h1 := cost_le y n v
    have h2 := costItems_le y n l
    rw [printItems]
    simp [costItems] at *
    omega

theorem costMembers_le (y : Layout) (n : Nat) (l : List (Str × Json)) : costMembers l ≤ (printMembers y n l).length := by
  match l with
  | [] => simp [costMembers]
  | (k, v) :: l =>
    have h1 := cost_le y n v
    have h2 := costMembers_le y n l
    rw [printMembers]
    simp [costMembers] at *
    omega
end

theorem parse_print {y : Layout} (hy : y.Blank) (v : Json) : parse (print y 0 v ++ ['\n']) = some v := by
  unfold parse
  rw [value_print hy 0 v _ ['\n'] (by have := cost_le y 0 v; simp; omega) (by intro c h; simp at h; subst h; decide)]
  rfl

/-- What is printed, with a newline after it, reads back as what it was. -/
theorem parse_pretty (v : Json) : parse (pretty v ++ ['\n']) = some v := parse_print blank_pretty v

theorem parse_compact (v : Json) : parse (compact v ++ ['\n']) = some v := parse_print blank_compact v

end Shpool.Json
