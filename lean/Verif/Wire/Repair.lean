import Verif.Wire.Props
/-!
# Window sizes of other versions: exactly which are read, and a repair (C103)

The repair is a counterfactual: `TtySize`, `/repo/shpool-protocol/src/lib.rs` 355-361, with `#[serde(default)]` on each field, as the other structs
of the protocol have it.
-/

namespace Shpool.Wire

section
variable {valid : Bytes → Bool}

/-- Spec: a window size of some other version, with some of the four fields, each at most once, with its value. -/
def SomeSize (m : Entries) : Prop :=
  (∀ e ∈ m, ∃ name ∈ ["rows", "cols", "xpixel", "ypixel"], e.1 = nm name ∧ ∃ i, Reads u16 e.2 i) ∧ (m.map (·.1)).Nodup

private theorem gives_there {m : Entries} (hs : SomeSize m) {name : String} (h : nm name ∈ m.map (·.1)) (d : Option Int) :
    ∃ i, Gives m name u16 d i := by
  obtain ⟨e, he, hk⟩ := List.mem_map.mp h
  obtain ⟨_, _, _, i, hi⟩ := hs.1 e he
  obtain ⟨before, after, rfl⟩ := List.append_of_mem he
  refine ⟨i, .inr ⟨before, e.2, after, by rw [← hk], ?_, hi⟩⟩
  intro f hf hfk
  have hn := hs.2
  simp only [List.map_append, List.map_cons, List.nodup_append, List.nodup_cons, List.mem_map, List.mem_cons] at hn
  rcases List.mem_append.mp hf with hf | hf
  · exact hn.2.2 f.1 ⟨f, hf, rfl⟩ e.1 (.inl rfl) (hfk.trans hk.symm)
  · exact hn.2.1.1 ⟨f, hf, hfk.trans hk.symm⟩

private theorem field_missing {m : Entries} {name : String} (h : nm name ∉ m.map (·.1)) : field m (nm name) u16 none = none := by
  have : m.filter (fun p => p.1 == nm name) = [] := by
    rw [List.filter_eq_nil_iff]
    intro p hp
    simp only [beq_iff_eq]
    exact fun e => h (List.mem_map.mpr ⟨p, hp, e⟩)
  simp [field, this]

/-- **C103** (window sizes, exactly).  A window size with some of the fields is read if and only if all four are there. -/
theorem C103_exact (m : Entries) (hm : IsMap valid m) (hs : SomeSize m) :
    (∃ t, Reads (ttySize valid) (encMap valid m) t) ↔ ∀ name ∈ ["rows", "cols", "xpixel", "ypixel"], nm name ∈ m.map (·.1) := by
  constructor
  · rintro ⟨t, _, ht⟩ name hname
    refine Classical.byContradiction fun hc => ?_
    have hf := field_missing hc
    have := ht []
    simp only [ttySize, struct, decMap_enc m hm []] at this
    simp only [List.mem_cons, List.not_mem_nil, or_false] at hname
    rcases hname with rfl | rfl | rfl | rfl <;> simp [hf] at this
  · intro h
    obtain ⟨a, ha⟩ := gives_there hs (h "rows" (by simp)) none
    obtain ⟨b, hb⟩ := gives_there hs (h "cols" (by simp)) none
    obtain ⟨c, hc⟩ := gives_there hs (h "xpixel" (by simp)) none
    obtain ⟨d, hd⟩ := gives_there hs (h "ypixel" (by simp)) none
    exact ⟨_, (C103_required_partial valid m hm).2.1 a b c d ha hb hc hd⟩

/-- `TtySize`, lib.rs 355-361, with a default for each field. -/
def ttySizeR (valid : Bytes → Bool) : Codec TtySize := struct valid
  (fun t => [(nm "rows", u16.enc t.rows), (nm "cols", u16.enc t.cols), (nm "xpixel", u16.enc t.xpixel), (nm "ypixel", u16.enc t.ypixel)])
  (fun m => do return ⟨← field m (nm "rows") u16 (some 0), ← field m (nm "cols") u16 (some 0), ← field m (nm "xpixel") u16 (some 0),
    ← field m (nm "ypixel") u16 (some 0)⟩)

/-- **C103** (window sizes, repaired).  With a default for each field every such window size is read, each field as it was sent or, if it was not,
as zero; what is sent stays the same. -/
theorem C103_repaired : (∀ (m : Entries), IsMap valid m → SomeSize m → ∃ t, Reads (ttySizeR valid) (encMap valid m) t ∧
      Gives m "rows" u16 (some 0) t.rows ∧ Gives m "cols" u16 (some 0) t.cols ∧ Gives m "xpixel" u16 (some 0) t.xpixel ∧
      Gives m "ypixel" u16 (some 0) t.ypixel) ∧
    (ttySizeR valid).enc = (ttySize valid).enc := by
  refine ⟨fun m hm hs => ?_, rfl⟩
  have key : ∀ name, ∃ i, Gives m name u16 (some 0) i := by
    intro name
    by_cases h : nm name ∈ m.map (·.1)
    · exact gives_there hs h _
    · exact ⟨0, .inl ⟨fun e he hk => h (List.mem_map.mpr ⟨e, he, hk⟩), rfl⟩⟩
  obtain ⟨a, ha⟩ := key "rows"
  obtain ⟨b, hb⟩ := key "cols"
  obtain ⟨c, hc⟩ := key "xpixel"
  obtain ⟨d, hd⟩ := key "ypixel"
  exact ⟨⟨a, b, c, d⟩, struct_reads hm (by simp [field_gives ha, field_gives hb, field_gives hc, field_gives hd]), ha, hb, hc, hd⟩

end

/-- A window size without the sizes in pixels meets the hypotheses. -/
example : IsMap (fun _ => true) [(nm "cols", [80]), (nm "rows", [24])] ∧ SomeSize [(nm "cols", [80]), (nm "rows", [24])] := by
  refine ⟨⟨by decide, ?_⟩, ?_, by decide⟩
  · intro e he
    simp only [List.mem_cons, List.not_mem_nil, or_false] at he
    rcases he with rfl | rfl
    · exact ⟨⟨rfl, by decide⟩, .int 80 0 [] (by decide) (by decide) .none⟩
    · exact ⟨⟨rfl, by decide⟩, .int 24 0 [] (by decide) (by decide) .none⟩
  · intro e he
    simp only [List.mem_cons, List.not_mem_nil, or_false] at he
    rcases he with rfl | rfl
    · exact ⟨"cols", by simp, rfl, 80, .int 80 0 [] (by decide) (by decide) .none, fun rest => u16_lawful.rt 80 ⟨by decide, by decide⟩ rest⟩
    · exact ⟨"rows", by simp, rfl, 24, .int 24 0 [] (by decide) (by decide) .none, fun rest => u16_lawful.rt 24 ⟨by decide, by decide⟩ rest⟩
example : (ttySizeR (fun _ => true)).dec (encMap (fun _ => true) [(nm "cols", [80]), (nm "rows", [24])]) = some (⟨24, 80, 0, 0⟩, []) := by decide

end Shpool.Wire
