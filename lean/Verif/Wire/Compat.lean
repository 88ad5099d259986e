import Verif.Wire.Messages

/-! Reading messages of another version: the specification of what such a message is, and lemmas. -/

namespace Shpool.Wire

variable {valid : Bytes → Bool}

/-- The bytes `raw` are one value, read as `a`, whatever follows them. -/
def Reads {α : Type} (c : Codec α) (raw : Bytes) (a : α) : Prop :=
  Values 1 raw ∧ ∀ rest, c.dec (raw ++ rest) = some (a, rest)

/-- The entries `m` of a message say that a field is `a`: the field is there once, with bytes that read as `a`, or it is not there
and `a` is its default. -/
def Gives {α : Type} (m : Entries) (name : String) (c : Codec α) (dflt : Option α) (a : α) : Prop :=
  ((∀ e ∈ m, e.1 ≠ nm name) ∧ dflt = some a) ∨
  ∃ before raw after, m = before ++ (nm name, raw) :: after ∧ (∀ e ∈ before ++ after, e.1 ≠ nm name) ∧ Reads c raw a

theorem field_gives {α : Type} {m : Entries} {name : String} {c : Codec α} {dflt : Option α} {a : α} (h : Gives m name c dflt a) :
    field m (nm name) c dflt = some a := by
  rcases h with ⟨h, rfl⟩ | ⟨before, raw, after, rfl, h, hr⟩
  · have : m.filter (fun p => p.1 == nm name) = [] := by
      rw [List.filter_eq_nil_iff]
      intro p hp
      simpa using h p hp
    simp [field, this]
  · have hb : before.filter (fun p => p.1 == nm name) = [] := by
      rw [List.filter_eq_nil_iff]
      intro p hp
      simpa using h p (by simp [hp])
    have ha : after.filter (fun p => p.1 == nm name) = [] := by
      rw [List.filter_eq_nil_iff]
      intro p hp
      simpa using h p (by simp [hp])
    have := hr.2 []
    simp only [List.append_nil] at this
    simp [field, List.filter_append, hb, ha, this]

theorem struct_reads {α : Type} {to : α → Entries} {of : Entries → Option α} {m : Entries} {a : α} (hm : IsMap valid m) (h : of m = some a) :
    Reads (struct valid to of) (encMap valid m) a := by
  refine ⟨encMap_one m hm, fun rest => ?_⟩
  simp [struct, decMap_enc m hm rest, h]

theorem Lawful.reads {α : Type} {c : Codec α} {P : α → Prop} (h : Lawful c P) {a : α} (ha : P a) : Reads c (c.enc a) a :=
  ⟨h.one a ha, h.rt a ha⟩

theorem decVariant_some (name : Text) (d rest : Bytes) (hn : IsText valid name) (hd : Values 1 d) :
    decVariant valid (encVariant valid name (some d) ++ rest) = some ((name, some d), rest) := by
  have hm := decEntries_enc [(name, d)] (by intro e he; simp at he; subst he; exact ⟨hn, hd⟩) rest
  simp only [List.length_cons, List.length_nil] at hm
  simp only [decVariant, encVariant, encMap, List.append_assoc, List.length_cons, List.length_nil, head_map 1 _ (by decide), hm]

theorem decVariant_none (name : Text) (rest : Bytes) (hn : IsText valid name) :
    decVariant valid (encVariant valid name none ++ rest) = some ((name, none), rest) := by
  have e := text_lawful.rt _ hn rest
  have e' : readHead ((text valid).enc name ++ rest) = some (.str name.length, name ++ rest) := by
    simp [text, List.append_assoc, head_str _ _ hn.2]
  simp only [decVariant, encVariant, e', e, Option.map_some]

theorem variant_one (name : Text) (d : Option Bytes) (hn : IsText valid name) (hd : ∀ b, d = some b → Values 1 b) :
    Values 1 (encVariant valid name d) := by
  cases d with
  | none => exact text_lawful.one _ hn
  | some d => exact encMap_one _ ⟨by simp, by intro e he; simp at he; subst he; exact ⟨hn, hd _ rfl⟩⟩

theorem whole_reads {α : Type} {c : Codec α} {raw : Bytes} {a : α} (h : Reads c raw a) : whole c (some raw) = some a := by
  have := h.2 []
  simp only [List.append_nil] at this
  simp [whole, this]

/-- Values one after another, each of which reads as the element of a list at its place. -/
inductive ReadsAll {α : Type} (c : Codec α) : List Bytes → List α → Prop
  | nil : ReadsAll c [] []
  | cons {raw a raws as} : Reads c raw a → ReadsAll c raws as → ReadsAll c (raw :: raws) (a :: as)

theorem vec_reads {α : Type} {c : Codec α} {raws : List Bytes} {as : List α} (h : ReadsAll c raws as) (hl : raws.length < 4294967296) :
    Reads (vec c) (arrHead raws.length ++ raws.flatten) as := by
  have h1 : ∀ b ∈ raws, Values 1 b := by
    clear hl
    induction h with
    | nil => simp
    | cons hr _ ih => intro b hb; exact (List.mem_cons.1 hb).elim (fun e => e ▸ hr.1) (ih b)
  refine ⟨.arr _ _ _ hl (by simpa using Values.flatten raws h1), fun rest => ?_⟩
  simp only [vec, List.append_assoc, head_arr _ _ hl]
  clear hl h1
  induction h with
  | nil => rfl
  | cons hr _ ih =>
    simp only [List.length_cons, decMany, List.flatten_cons, List.append_assoc, hr.2, ih]
    rfl

end Shpool.Wire
