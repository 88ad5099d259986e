import Verif.Wire.Spec
import Verif.Wire.Lemmas

namespace Shpool.Wire

theorem Values.append {j k : Nat} {a b : Bytes} (ha : Values j a) (hb : Values k b) : Values (j + k) (a ++ b) := by
  induction ha with
  | none => simpa using hb
  | nil j r _ ih =>
    rw [Nat.add_right_comm]; exact .nil _ _ ih
  | bool x j r _ ih =>
    rw [Nat.add_right_comm]; exact .bool x _ _ ih
  | int i j r h1 h2 _ ih =>
    rw [Nat.add_right_comm, List.append_assoc]; exact .int i _ _ h1 h2 ih
  | float32 d j r h _ ih =>
    rw [Nat.add_right_comm, List.append_assoc]; exact .float32 d _ _ h ih
  | float64 d j r h _ ih =>
    rw [Nat.add_right_comm, List.append_assoc]; exact .float64 d _ _ h ih
  | str d j r h _ ih =>
    rw [Nat.add_right_comm, List.append_assoc, List.append_assoc]; exact .str d _ _ h ih
  | bin8 d j r h _ ih =>
    rw [Nat.add_right_comm, List.append_assoc, List.append_assoc]; exact .bin8 d _ _ h ih
  | bin16 d j r h _ ih =>
    rw [Nat.add_right_comm, List.append_assoc, List.append_assoc]; exact .bin16 d _ _ h ih
  | bin32 d j r h _ ih =>
    rw [Nat.add_right_comm, List.append_assoc, List.append_assoc]; exact .bin32 d _ _ h ih
  | ext8 t d j r h _ ih =>
    rw [Nat.add_right_comm, List.append_assoc, List.append_assoc]; exact .ext8 t d _ _ h ih
  | ext16 t d j r h _ ih =>
    rw [Nat.add_right_comm, List.append_assoc, List.append_assoc]; exact .ext16 t d _ _ h ih
  | ext32 t d j r h _ ih =>
    rw [Nat.add_right_comm, List.append_assoc, List.append_assoc]; exact .ext32 t d _ _ h ih
  | fixext m t d j r h _ ih =>
    rw [Nat.add_right_comm, List.append_assoc]; exact .fixext m t d _ _ h ih
  | arr n j r h _ ih =>
    rw [Nat.add_right_comm, List.append_assoc]
    exact .arr n _ _ h (by rw [← Nat.add_assoc]; exact ih)
  | map n j r h _ ih =>
    rw [Nat.add_right_comm, List.append_assoc]
    exact .map n _ _ h (by rw [← Nat.add_assoc]; exact ih)

theorem Values.flatten (l : List Bytes) (h : ∀ b ∈ l, Values 1 b) : Values l.length l.flatten := by
  induction l with
  | nil => exact .none
  | cons b l ih =>
    have := (h b (by simp)).append (ih fun b hb => h b (by simp [hb]))
    simpa [Nat.add_comm] using this

/-- Skipping values that are there. -/
theorem skipN_values {k : Nat} {bs : Bytes} (h : Values k bs) (rest : Bytes) :
    ∀ fuel, bs.length ≤ fuel → skipN fuel k (bs ++ rest) = some rest := by
  induction h with
  | none => intro fuel _; cases fuel <;> simp [skipN]
  | nil k r _ ih =>
    intro fuel hf
    obtain ⟨fuel, rfl⟩ : ∃ f, fuel = f + 1 := ⟨fuel - 1, by simp at hf; omega⟩
    simp only [skipN, List.cons_append, rh_c0]
    exact ih _ (by simp at hf; omega)
  | bool b k r _ ih =>
    intro fuel hf
    obtain ⟨fuel, rfl⟩ : ∃ f, fuel = f + 1 := ⟨fuel - 1, by simp at hf; omega⟩
    cases b <;> simp [skipN, List.cons_append, rh_c2, rh_c3] <;> exact ih _ (by simp at hf; omega)
  | int i k r h1 h2 _ ih =>
    intro fuel hf
    have := encSint_pos i
    obtain ⟨fuel, rfl⟩ : ∃ f, fuel = f + 1 := ⟨fuel - 1, by simp at hf; omega⟩
    simp only [skipN, List.append_assoc, head_sint i _ h1 h2]
    exact ih _ (by simp at hf; omega)
  | float32 d k r h _ ih =>
    intro fuel hf
    obtain ⟨fuel, rfl⟩ : ∃ f, fuel = f + 1 := ⟨fuel - 1, by simp at hf; omega⟩
    simp only [skipN, List.append_assoc, List.cons_append, rh_ca, take_append _ d _ h]
    exact ih _ (by simp at hf; omega)
  | float64 d k r h _ ih =>
    intro fuel hf
    obtain ⟨fuel, rfl⟩ : ∃ f, fuel = f + 1 := ⟨fuel - 1, by simp at hf; omega⟩
    simp only [skipN, List.append_assoc, List.cons_append, rh_cb, take_append _ d _ h]
    exact ih _ (by simp at hf; omega)
  | str d k r h _ ih =>
    intro fuel hf
    have := strHead_pos d.length
    obtain ⟨fuel, rfl⟩ : ∃ f, fuel = f + 1 := ⟨fuel - 1, by simp at hf; omega⟩
    simp only [skipN, List.append_assoc, head_str _ _ h, take_append _ d _ rfl]
    exact ih _ (by simp at hf; omega)
  | bin8 d k r h _ ih =>
    intro fuel hf
    obtain ⟨fuel, rfl⟩ : ∃ f, fuel = f + 1 := ⟨fuel - 1, by simp at hf; omega⟩
    simp only [skipN, List.append_assoc, List.cons_append, rh_c4, takeBe_be 1 _ _ _ (show d.length < 256 ^ 1 by omega), take_append _ d _ rfl]
    exact ih _ (by simp at hf; omega)
  | bin16 d k r h _ ih =>
    intro fuel hf
    obtain ⟨fuel, rfl⟩ : ∃ f, fuel = f + 1 := ⟨fuel - 1, by simp at hf; omega⟩
    simp only [skipN, List.append_assoc, List.cons_append, rh_c5, takeBe_be 2 _ _ _ (show d.length < 256 ^ 2 by omega), take_append _ d _ rfl]
    exact ih _ (by simp at hf; omega)
  | bin32 d k r h _ ih =>
    intro fuel hf
    obtain ⟨fuel, rfl⟩ : ∃ f, fuel = f + 1 := ⟨fuel - 1, by simp at hf; omega⟩
    simp only [skipN, List.append_assoc, List.cons_append, rh_c6, takeBe_be 4 _ _ _ (show d.length < 256 ^ 4 by omega), take_append _ d _ rfl]
    exact ih _ (by simp at hf; omega)
  | ext8 t d k r h _ ih =>
    intro fuel hf
    obtain ⟨fuel, rfl⟩ : ∃ f, fuel = f + 1 := ⟨fuel - 1, by simp at hf; omega⟩
    have e := take_append (d.length + 1) (t :: d) (r ++ rest) rfl
    simp only [List.cons_append] at e
    simp only [skipN, List.append_assoc, List.cons_append, rh_c7, takeBe_be 1 _ _ _ (show d.length < 256 ^ 1 by omega), e]
    exact ih _ (by simp at hf; omega)
  | ext16 t d k r h _ ih =>
    intro fuel hf
    obtain ⟨fuel, rfl⟩ : ∃ f, fuel = f + 1 := ⟨fuel - 1, by simp at hf; omega⟩
    have e := take_append (d.length + 1) (t :: d) (r ++ rest) rfl
    simp only [List.cons_append] at e
    simp only [skipN, List.append_assoc, List.cons_append, rh_c8, takeBe_be 2 _ _ _ (show d.length < 256 ^ 2 by omega), e]
    exact ih _ (by simp at hf; omega)
  | ext32 t d k r h _ ih =>
    intro fuel hf
    obtain ⟨fuel, rfl⟩ : ∃ f, fuel = f + 1 := ⟨fuel - 1, by simp at hf; omega⟩
    have e := take_append (d.length + 1) (t :: d) (r ++ rest) rfl
    simp only [List.cons_append] at e
    simp only [skipN, List.append_assoc, List.cons_append, rh_c9, takeBe_be 4 _ _ _ (show d.length < 256 ^ 4 by omega), e]
    exact ih _ (by simp at hf; omega)
  | fixext m t d k r h _ ih =>
    intro fuel hf
    obtain ⟨fuel, rfl⟩ : ∃ f, fuel = f + 1 := ⟨fuel - 1, by simp at hf; omega⟩
    have e := take_append (d.length + 1) (t :: d) (r ++ rest) rfl
    simp only [List.cons_append] at e
    have i := ih fuel (by simp at hf; omega)
    simp only [List.mem_cons, Prod.mk.injEq, List.not_mem_nil, or_false] at h
    rcases h with ⟨rfl, h⟩ | ⟨rfl, h⟩ | ⟨rfl, h⟩ | ⟨rfl, h⟩ | ⟨rfl, h⟩ <;> rw [h] at e <;>
      simp only [skipN, List.append_assoc, List.cons_append, rh_d4, rh_d5, rh_d6, rh_d7, rh_d8, e, i]
  | arr n k r h _ ih =>
    intro fuel hf
    have := arrHead_pos n
    obtain ⟨fuel, rfl⟩ : ∃ f, fuel = f + 1 := ⟨fuel - 1, by simp at hf; omega⟩
    simp only [skipN, List.append_assoc, head_arr _ _ h]
    exact ih _ (by simp at hf; omega)
  | map n k r h _ ih =>
    intro fuel hf
    have := mapHead_pos n
    obtain ⟨fuel, rfl⟩ : ∃ f, fuel = f + 1 := ⟨fuel - 1, by simp at hf; omega⟩
    simp only [skipN, List.append_assoc, head_map _ _ h]
    exact ih _ (by simp at hf; omega)

theorem skip_values {k : Nat} {bs : Bytes} (h : Values k bs) (rest : Bytes) : skip k (bs ++ rest) = some rest :=
  skipN_values h rest _ (by simp)

/-! ## Codecs -/

/-- A codec that reads what it writes, and writes one value, which is nil only if `nilable`. -/
structure Lawful {α : Type} (c : Codec α) (P : α → Prop) : Prop where
  rt : RoundTrip c P
  one : ∀ a, P a → Values 1 (c.enc a)

def NotNil {α : Type} (c : Codec α) (P : α → Prop) : Prop := ∀ a, P a → ∀ rest r, readHead (c.enc a ++ rest) ≠ some (.nil, r)

theorem Lawful.all {α : Type} {c : Codec α} {P : α → Prop} (h : Lawful c P) {a : α} (ha : P a) : c.dec (c.enc a) = some (a, []) := by
  simpa using h.rt a ha []

theorem intIn_lawful (lo hi : Int) (hl : -9223372036854775808 ≤ lo) (hh : hi < 18446744073709551616) : Lawful (intIn lo hi) (Between lo hi) where
  rt a ha rest := by
    simp only [intIn, head_sint a rest (by have := ha.1; omega) (by have := ha.2; omega)]
    rw [if_pos (show lo ≤ a ∧ a ≤ hi from ha)]
  one a ha := by
    have := Values.int a 0 [] (by have := ha.1; omega) (by have := ha.2; omega) .none
    simpa [intIn] using this

theorem intIn_notNil (lo hi : Int) (hl : -9223372036854775808 ≤ lo) (hh : hi < 18446744073709551616) : NotNil (intIn lo hi) (Between lo hi) := by
  intro a ha rest r
  simp [intIn, head_sint a rest (by have := ha.1; omega) (by have := ha.2; omega)]

variable {valid : Bytes → Bool}

theorem text_lawful : Lawful (text valid) (IsText valid) where
  rt a ha rest := by
    simp only [text, List.append_assoc, head_str _ _ ha.2, take_append _ a rest rfl, ha.1]
    rfl
  one a ha := by
    have := Values.str a 0 [] ha.2 .none
    simpa [text] using this

theorem text_notNil : NotNil (text valid) (IsText valid) := by
  intro a ha rest r
  simp [text, List.append_assoc, head_str _ _ ha.2]

theorem opt_lawful {α : Type} {c : Codec α} {P : α → Prop} (h : Lawful c P) (hn : NotNil c P) : Lawful (opt c) (IsOpt P) where
  rt a ha rest := by
    cases a with
    | none => simp [opt, rh_c0]
    | some a =>
      have hp := ha a rfl
      simp only [opt]
      split
      · next r he => exact absurd he (hn a hp rest r)
      · rw [h.rt a hp rest]; rfl
  one a ha := by
    cases a with
    | none => exact .nil 0 [] .none
    | some a => exact h.one a (ha a rfl)

theorem decMany_enc {α : Type} {c : Codec α} {P : α → Prop} (h : Lawful c P) (l : List α) (hl : ∀ a ∈ l, P a) (rest : Bytes) :
    decMany c l.length ((l.map c.enc).flatten ++ rest) = some (l, rest) := by
  induction l with
  | nil => rfl
  | cons a l ih =>
    simp only [List.length_cons, decMany, List.map_cons, List.flatten_cons, List.append_assoc]
    rw [h.rt a (hl a (by simp))]
    simp only [ih fun a ha => hl a (by simp [ha])]
    rfl

theorem vec_lawful {α : Type} {c : Codec α} {P : α → Prop} (h : Lawful c P) : Lawful (vec c) (IsVec P) where
  rt l hl rest := by
    simp only [vec, List.append_assoc, head_arr _ _ hl.1]
    exact decMany_enc h l hl.2 rest
  one l hl := by
    have := Values.flatten (l.map c.enc) (by
      intro b hb
      obtain ⟨a, ha, rfl⟩ := List.mem_map.1 hb
      exact h.one a (hl.2 a ha))
    exact .arr _ _ _ hl.1 (by simpa using this)

theorem pair_lawful {α β : Type} {c : Codec α} {d : Codec β} {P : α → Prop} {Q : β → Prop} (h : Lawful c P) (h' : Lawful d Q) :
    Lawful (pair c d) (IsPair P Q) where
  rt p hp rest := by
    simp only [pair, List.append_assoc, head_arr 2 _ (by decide)]
    rw [h.rt _ hp.1]
    simp only [h'.rt _ hp.2]
    rfl
  one p hp := by
    have := (h.one _ hp.1).append (h'.one _ hp.2)
    have := Values.arr 2 0 _ (by decide) (by simpa using this)
    simpa [pair] using this

/-! ## Structs and enums -/

/-- Entries that can be sent: every name is a string, every value is one value. -/
def IsMap (valid : Bytes → Bool) (m : Entries) : Prop := m.length < 4294967296 ∧ ∀ e ∈ m, IsText valid e.1 ∧ Values 1 e.2

theorem decEntries_enc (m : Entries) (hm : ∀ e ∈ m, IsText valid e.1 ∧ Values 1 e.2) (rest : Bytes) :
    decEntries valid m.length ((m.map fun p => (text valid).enc p.1 ++ p.2).flatten ++ rest) = some (m, rest) := by
  induction m with
  | nil => rfl
  | cons e m ih =>
    simp only [List.length_cons, decEntries, List.map_cons, List.flatten_cons, List.append_assoc]
    have he := hm e (by simp)
    rw [text_lawful.rt e.1 he.1]
    simp only [skip_values he.2, ih fun e h => hm e (by simp [h]), Option.map_some]
    simp

theorem decMap_enc (m : Entries) (hm : IsMap valid m) (rest : Bytes) : decMap valid (encMap valid m ++ rest) = some (m, rest) := by
  simp only [decMap, encMap, List.append_assoc, head_map _ _ hm.1]
  exact decEntries_enc m hm.2 rest

theorem entries_values (m : Entries) (hm : ∀ e ∈ m, IsText valid e.1 ∧ Values 1 e.2) :
    Values (2 * m.length) (m.map fun p => (text valid).enc p.1 ++ p.2).flatten := by
  induction m with
  | nil => exact .none
  | cons e m ih =>
    have he := hm e (by simp)
    have := ((text_lawful.one e.1 he.1).append he.2).append (ih fun e h => hm e (by simp [h]))
    simp only [List.map_cons, List.flatten_cons, List.length_cons]
    rw [show 2 * (m.length + 1) = 1 + 1 + 2 * m.length by omega]
    exact this

theorem encMap_one (m : Entries) (hm : IsMap valid m) : Values 1 (encMap valid m) :=
  .map _ _ _ hm.1 (entries_values m hm.2)

theorem struct_lawful {α : Type} {to : α → Entries} {of : Entries → Option α} {P : α → Prop}
    (h1 : ∀ a, P a → IsMap valid (to a)) (h2 : ∀ a, P a → of (to a) = some a) : Lawful (struct valid to of) P where
  rt a ha rest := by
    simp only [struct, decMap_enc _ (h1 a ha), h2 a ha]
    rfl
  one a ha := encMap_one _ (h1 a ha)

theorem struct_notNil {α : Type} {to : α → Entries} {of : Entries → Option α} {P : α → Prop}
    (h1 : ∀ a, P a → IsMap valid (to a)) : NotNil (struct valid to of) P := by
  intro a ha rest r
  simp [struct, encMap, List.append_assoc, head_map _ _ (h1 a ha).1]

theorem enum_lawful {α : Type} {to : α → Text × Option Bytes} {of : Text → Option Bytes → Option α} {P : α → Prop}
    (h1 : ∀ a, P a → IsText valid (to a).1 ∧ ∀ d, (to a).2 = some d → Values 1 d)
    (h2 : ∀ a, P a → of (to a).1 (to a).2 = some a) : Lawful (enum valid to of) P where
  rt a ha rest := by
    obtain ⟨ht, hd⟩ := h1 a ha
    have h2 := h2 a ha
    simp only [enum, encVariant]
    cases hx : (to a).2 with
    | none =>
      have e := text_lawful.rt _ ht rest
      have e' : readHead ((text valid).enc (to a).1 ++ rest) = some (.str (to a).1.length, (to a).1 ++ rest) := by
        simp [text, List.append_assoc, head_str _ _ ht.2]
      simp only [decVariant, e', e, Option.map_some]
      rw [hx] at h2
      simp [h2]
    | some d =>
      have hm := decEntries_enc [((to a).1, d)] (by intro e he; simp at he; subst he; exact ⟨ht, hd d hx⟩) rest
      simp only [List.length_cons, List.length_nil] at hm
      simp only [decVariant, encMap, List.append_assoc, List.length_cons, List.length_nil, head_map 1 _ (by decide), hm]
      rw [hx] at h2
      simp [h2]
  one a ha := by
    obtain ⟨ht, hd⟩ := h1 a ha
    simp only [enum, encVariant]
    cases hx : (to a).2 with
    | none => exact text_lawful.one _ ht
    | some d => exact encMap_one _ ⟨by simp, by intro e he; simp at he; subst he; exact ⟨ht, hd d hx⟩⟩

end Shpool.Wire
