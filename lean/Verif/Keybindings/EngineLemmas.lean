import Verif.Keybindings.ParseLemmas
import Verif.Trie.Props

namespace Shpool.Keys
open Str

/-- Pigeonhole for duplicate free lists. -/
theorem nodup_length_le {α : Type} [DecidableEq α] (l m : List α) (hn : l.Nodup) (hs : ∀ x ∈ l, x ∈ m) :
    l.length ≤ m.length := by
  induction l generalizing m with
  | nil => simp
  | cons x xs ih =>
    have hx := hs x (by simp)
    have hnx := List.nodup_cons.mp hn
    have := ih (m.erase x) hnx.2 (by
      intro y hy
      have hne : y ≠ x := fun e => hnx.1 (e ▸ hy)
      exact (List.mem_erase_of_ne hne).mpr (hs y (List.mem_cons_of_mem _ hy)))
    rw [List.length_erase_of_mem hx] at this
    have : 0 < m.length := List.length_pos_of_mem hx
    simp; omega

/-- The uppercase letters, which `is_sym` accepts too. -/
def upperTexts : List (List Char) :=
  ['A', 'B', 'C', 'D', 'E', 'F', 'G', 'H', 'I', 'J', 'K', 'L', 'M', 'N', 'O', 'P', 'Q', 'R', 'S', 'T', 'U', 'V', 'W',
    'X', 'Y', 'Z'].map fun c => [c]

/-- All chords that have a key code. -/
def codable : List Chord := (symTexts ++ upperTexts).map (fun k => [k]) ++ controlCodes.map (fun e => [ctrlWord, e.1])

theorem isSym_mem (k : List Char) (h : isSym k = true) : k ∈ symTexts ++ upperTexts := by
  unfold isSym at h
  split at h
  · next e => subst e; decide
  · split at h
    · next c _ =>
      simp only [Bool.or_eq_true, decide_eq_true_eq, isDigit36] at h
      rcases h with h | (h | h) | h
      · rcases h with rfl | rfl | rfl | rfl | rfl | rfl | rfl <;> decide
      · exact char_range (P := fun c => [c] ∈ symTexts ++ upperTexts) 48 57 (by decide) (by decide) c h
      · exact char_range (P := fun c => [c] ∈ symTexts ++ upperTexts) 97 122 (by decide) (by decide) c h
      · exact char_range (P := fun c => [c] ∈ symTexts ++ upperTexts) 65 90 (by decide) (by decide) c h
    · cases h

theorem keyCode_codable (c : Chord) (code : UInt8) (h : keyCode c = .ok code) : c ∈ codable := by
  unfold keyCode at h
  split at h
  · cases h
  · next hv =>
    split at h
    · next k =>
      split at h
      · next hs =>
        exact List.mem_append_left _ (List.mem_map.mpr ⟨k, isSym_mem k hs, rfl⟩)
      · cases h
    · next k1 k2 =>
      split at h
      · next e he =>
        have h1 : k1 = ctrlWord := by
          unfold checkValid at hv
          split at hv
          · cases hv
          · dsimp only at hv
            split at hv
            · cases hv
            · next hc => simpa [isCtrl] using hc
        have h2 : e.1 = k2 := by simpa using List.find?_some he
        subst h1 h2
        exact List.mem_append_right _ (List.mem_map.mpr ⟨e, List.mem_of_find?_eq_some he, rfl⟩)
      · cases h
    · cases h

theorem codable_length : codable.length = 112 := by decide

/-- Invariant of the locals of `Bindings::new`. `seen` are the chords processed so far, `ci` the insertions into the
chord trie. -/
structure BInv (st : BuildState) (seen : List Chord) (ci : List (List UInt8 × UInt8)) : Prop where
  chords_eq : st.chords = Trie.build ci
  seen_iff : ∀ c, c ∈ seen ↔ ∃ a, (c, a) ∈ st.atoms
  ci_sound : ∀ e ∈ ci, ∃ c code, (c, e.2) ∈ st.atoms ∧ keyCode c = .ok code ∧ e.1 = [code]
  ci_complete : ∀ e ∈ st.atoms, ∃ code, keyCode e.1 = .ok code ∧ ([code], e.2) ∈ ci
  counter : st.atoms.length = st.counter
  atom_val : ∀ i e, st.atoms[i]? = some e → e.2 = UInt8.ofNat i
  nodup : (st.atoms.map (·.1)).Nodup

theorem BInv.init : BInv .init [] [] :=
  ⟨rfl, by simp [BuildState.init], by simp, by simp [BuildState.init], rfl, by simp [BuildState.init],
    by simp [BuildState.init]⟩

theorem BInv.bound {st seen ci} (h : BInv st seen ci) : st.counter ≤ 112 := by
  have := nodup_length_le (st.atoms.map (·.1)) codable h.nodup (by
    intro c hc
    obtain ⟨e, he, rfl⟩ := List.mem_map.mp hc
    obtain ⟨code, hcode, -⟩ := h.ci_complete e he
    exact keyCode_codable _ _ hcode)
  rw [codable_length, List.length_map, h.counter] at this
  exact this

theorem lookupAtom_some {atoms : List (Chord × UInt8)} {c : Chord} {a : UInt8} (h : lookupAtom atoms c = some a) :
    (c, a) ∈ atoms := by
  unfold lookupAtom at h
  cases hf : atoms.find? (fun e => e.1 = c) with
  | none => rw [hf] at h; cases h
  | some e =>
    rw [hf] at h
    have h1 : e.1 = c := by simpa using List.find?_some hf
    have h2 : e.2 = a := by simpa using h
    have := List.mem_of_find?_eq_some hf
    rw [← h1, ← h2]; exact this

theorem lookupAtom_none {atoms : List (Chord × UInt8)} {c : Chord} (h : lookupAtom atoms c = none) :
    ∀ a, (c, a) ∉ atoms := by
  intro a ha
  unfold lookupAtom at h
  simp only [Option.map_eq_none_iff, List.find?_eq_none, decide_eq_true_eq] at h
  exact h _ ha rfl

theorem lookupAtom_append (atoms more : List (Chord × UInt8)) (c : Chord) (a : UInt8) (h : lookupAtom atoms c = some a) :
    lookupAtom (atoms ++ more) c = some a := by
  unfold lookupAtom at h ⊢
  rw [List.find?_append]
  cases hf : atoms.find? (fun e => e.1 = c) with
  | none => rw [hf] at h; cases h
  | some e => rw [hf] at h; simpa using h

theorem lookupAtom_of_mem {atoms : List (Chord × UInt8)} (hn : (atoms.map (·.1)).Nodup) {c : Chord} {a : UInt8}
    (h : (c, a) ∈ atoms) : lookupAtom atoms c = some a := by
  induction atoms with
  | nil => cases h
  | cons e es ih =>
    obtain ⟨c', a'⟩ := e
    have hn' := List.nodup_cons.mp hn
    unfold lookupAtom
    by_cases hc : c' = c
    · subst hc
      rcases List.mem_cons.mp h with he | he
      · cases he; simp
      · exact absurd (List.mem_map.mpr ⟨_, he, rfl⟩) hn'.1
    · rcases List.mem_cons.mp h with he | he
      · cases he; exact absurd rfl hc
      · have := ih hn'.2 he
        unfold lookupAtom at this
        simpa [hc] using this

/-- Adding a chord that has a key code succeeds, and the other way round. -/
theorem addChord_inv {st seen ci} (h : BInv st seen ci) (c : Chord) (code : UInt8) (hc : keyCode c = .ok code) :
    ∃ st' a, addChord st c = .ok st' ∧ BInv st' (seen ++ [c]) (ci ++ [([code], a)]) ∧
      st'.sequences = st.sequences ∧
      (∀ c' a', lookupAtom st.atoms c' = some a' → lookupAtom st'.atoms c' = some a') := by
  have hb := h.bound
  have hbuild : ∀ a, (Trie.build ci).insert [code] a = Trie.build (ci ++ [([code], a)]) := by
    intro a; simp [Trie.build, List.foldl_append]
  cases hl : lookupAtom st.atoms c with
  | some a =>
    have hm := lookupAtom_some hl
    refine ⟨{ st with chords := st.chords.insert [code] a }, a, ?_, ?_, rfl, fun _ _ h => h⟩
    · simp only [addChord, hc, hl]
      rw [if_neg (by omega)]
    · refine ⟨by rw [← hbuild, h.chords_eq], ?_, ?_, ?_, h.counter, h.atom_val, h.nodup⟩
      · intro c'
        rw [List.mem_append, h.seen_iff, List.mem_singleton]
        constructor
        · rintro (h' | rfl)
          · exact h'
          · exact ⟨a, hm⟩
        · exact .inl
      · intro e he
        rcases List.mem_append.mp he with he | he
        · exact h.ci_sound e he
        · rw [List.mem_singleton.mp he]; exact ⟨c, code, hm, hc, rfl⟩
      · intro e he
        obtain ⟨code', h1, h2⟩ := h.ci_complete e he
        exact ⟨code', h1, List.mem_append_left _ h2⟩
  | none =>
    have hno := lookupAtom_none hl
    refine ⟨{ st with chords := st.chords.insert [code] (UInt8.ofNat st.counter), counter := st.counter + 1,
                      atoms := st.atoms ++ [(c, UInt8.ofNat st.counter)] }, UInt8.ofNat st.counter, ?_, ?_, rfl, ?_⟩
    · simp only [addChord, hc, hl]
      rw [if_neg (by omega)]
    · refine ⟨by rw [← hbuild, h.chords_eq], ?_, ?_, ?_, ?_, ?_, ?_⟩
      · intro c'
        simp only [List.mem_append, h.seen_iff, List.mem_singleton, Prod.mk.injEq]
        constructor
        · rintro (⟨a, h'⟩ | rfl)
          · exact ⟨a, .inl h'⟩
          · exact ⟨_, .inr ⟨rfl, rfl⟩⟩
        · rintro ⟨a, h' | h'⟩
          · exact .inl ⟨a, h'⟩
          · exact .inr h'.1
      · intro e he
        rcases List.mem_append.mp he with he | he
        · obtain ⟨c', code', h1, h2⟩ := h.ci_sound e he
          exact ⟨c', code', List.mem_append_left _ h1, h2⟩
        · rw [List.mem_singleton.mp he]
          exact ⟨c, code, List.mem_append_right _ (by simp), hc, rfl⟩
      · intro e he
        rcases List.mem_append.mp he with he | he
        · obtain ⟨code', h1, h2⟩ := h.ci_complete e he
          exact ⟨code', h1, List.mem_append_left _ h2⟩
        · rw [List.mem_singleton.mp he]
          exact ⟨code, hc, List.mem_append_right _ (by simp)⟩
      · simp [h.counter]
      · intro i e he
        dsimp only at he
        by_cases hi : i < st.atoms.length
        · rw [List.getElem?_append_left hi] at he
          exact h.atom_val i e he
        · rw [List.getElem?_append_right (by omega)] at he
          have : i - st.atoms.length = 0 := by
            rcases Nat.eq_zero_or_pos (i - st.atoms.length) with h0 | h0
            · exact h0
            · rw [List.getElem?_eq_none (by simp; omega)] at he; cases he
          rw [this] at he
          simp only [List.getElem?_cons_zero, Option.some.injEq] at he
          rw [← he]
          have : i = st.counter := by rw [← h.counter]; omega
          rw [this]
      · rw [List.map_append, List.nodup_append]
        refine ⟨h.nodup, by simp, ?_⟩
        intro x hx y hy
        simp only [List.map_cons, List.map_nil, List.mem_singleton] at hy
        subst hy
        obtain ⟨e, he, rfl⟩ := List.mem_map.mp hx
        intro heq
        apply hno e.2
        rw [← heq]; exact he
    · intro c' a' h'
      exact lookupAtom_append _ _ _ _ h'

theorem addChord_ok {st : BuildState} {c : Chord} {st' : BuildState} (h : addChord st c = .ok st') :
    ∃ code, keyCode c = .ok code := by
  unfold addChord at h
  cases hk : keyCode c with
  | error e => rw [hk] at h; cases h
  | ok code => exact ⟨code, rfl⟩

theorem addChords_inv {st seen ci} (h : BInv st seen ci) (cs : List Chord) (hc : ∀ c ∈ cs, ∃ code, keyCode c = .ok code) :
    ∃ st' ci', addChords st cs = .ok st' ∧ BInv st' (seen ++ cs) ci' ∧ st'.sequences = st.sequences ∧
      (∀ c' a', lookupAtom st.atoms c' = some a' → lookupAtom st'.atoms c' = some a') := by
  induction cs generalizing st seen ci with
  | nil => exact ⟨st, ci, rfl, by simpa using h, rfl, fun _ _ h => h⟩
  | cons c cs ih =>
    obtain ⟨code, hcode⟩ := hc c (by simp)
    obtain ⟨st1, a, e1, i1, s1, m1⟩ := addChord_inv h c code hcode
    obtain ⟨st2, ci2, e2, i2, s2, m2⟩ := ih i1 (fun c h => hc c (List.mem_cons_of_mem _ h))
    refine ⟨st2, ci2, ?_, by simpa using i2, by rw [s2, s1], fun c' a' h' => m2 _ _ (m1 _ _ h')⟩
    simp only [addChords, e1, e2]

theorem addChords_ok {st : BuildState} {cs : List Chord} {st' : BuildState} {seen ci} (hinv : BInv st seen ci)
    (h : addChords st cs = .ok st') : ∀ c ∈ cs, ∃ code, keyCode c = .ok code := by
  induction cs generalizing st seen ci with
  | nil => simp
  | cons c cs ih =>
    intro c' hc'
    simp only [addChords] at h
    cases h1 : addChord st c with
    | error e => rw [h1] at h; cases h
    | ok st1 =>
      obtain ⟨code, hcode⟩ := addChord_ok h1
      rcases List.mem_cons.mp hc' with rfl | hm
      · exact ⟨code, hcode⟩
      · obtain ⟨st1', a, e1, i1, -⟩ := addChord_inv hinv c code hcode
        rw [h1] at e1; cases e1
        rw [h1] at h
        exact ih i1 h c' hm

/-- The code of every chord of the sequence is known after `addChords` (the `unwrap` of keybindings.rs 151). -/
theorem addChords_known {st seen ci} (h : BInv st seen ci) (c : Chord) (hc : c ∈ seen) :
    ∃ a, lookupAtom st.atoms c = some a := by
  obtain ⟨a, ha⟩ := (h.seen_iff c).mp hc
  exact ⟨a, lookupAtom_of_mem h.nodup ha⟩

/-- The atom of a known chord. -/
def atomOf (atoms : List (Chord × UInt8)) (c : Chord) : UInt8 := (lookupAtom atoms c).getD 0

theorem filterMap_known (atoms : List (Chord × UInt8)) (cs : List Chord) (h : ∀ c ∈ cs, ∃ a, lookupAtom atoms c = some a) :
    cs.filterMap (lookupAtom atoms) = cs.map (atomOf atoms) := by
  induction cs with
  | nil => rfl
  | cons c cs ih =>
    obtain ⟨a, ha⟩ := h c (by simp)
    simp [atomOf, ha, ih (fun c h' => h c (List.mem_cons_of_mem _ h'))]

/-- Invariant of the binding loop: `done` are the parsed bindings so far. -/
structure CInv (st : BuildState) (done : List (List Chord × Action)) (ci : List (List UInt8 × UInt8)) : Prop where
  inv : BInv st (done.flatMap (·.1)) ci
  seqs : st.sequences = Trie.build (done.map fun d => (d.1.map (atomOf st.atoms), d.2))

theorem addBinding_inv {st done ci} (h : CInv st done ci) (src : List Char) (a : Action) (chords : List Chord)
    (hu : understood src chords) :
    ∃ st' ci', addBinding st src a = .ok st' ∧ CInv st' (done ++ [(chords, a)]) ci' := by
  obtain ⟨toks, h1, h2, h3⟩ := hu
  obtain ⟨st1, ci1, e1, i1, s1, m1⟩ := addChords_inv h.inv chords h3
  have hmem : ∀ c ∈ chords, ∃ a, lookupAtom st1.atoms c = some a :=
    fun c hc => addChords_known i1 c (List.mem_append_right _ hc)
  refine ⟨{ st1 with sequences := st1.sequences.insert (chords.filterMap (lookupAtom st1.atoms)) a }, ci1, ?_, ?_, ?_⟩
  · simp only [addBinding, h1, h2, e1]
  · have : (done ++ [(chords, a)]).flatMap (·.1) = done.flatMap (·.1) ++ chords := by simp
    rw [this]
    exact ⟨i1.chords_eq, i1.seen_iff, i1.ci_sound, i1.ci_complete, i1.counter, i1.atom_val, i1.nodup⟩
  · dsimp only
    rw [filterMap_known _ _ hmem, s1, h.seqs]
    have : done.map (fun d => (d.1.map (atomOf st.atoms), d.2)) =
        done.map (fun d => (d.1.map (atomOf st1.atoms), d.2)) := by
      apply List.map_congr_left
      intro d hd
      congr 1
      apply List.map_congr_left
      intro c hc
      obtain ⟨a', ha'⟩ := addChords_known h.inv c (List.mem_flatMap.mpr ⟨d, hd, hc⟩)
      simp [atomOf, ha', m1 _ _ ha']
    rw [this]
    simp [Trie.build, List.foldl_append]

theorem addBinding_ok {st done ci} (h : CInv st done ci) (src : List Char) (a : Action) (st' : BuildState)
    (hok : addBinding st src a = .ok st') : ∃ chords, understood src chords := by
  unfold addBinding at hok
  cases ht : tokenize src with
  | error e => rw [ht] at hok; cases hok
  | ok toks =>
    rw [ht] at hok
    dsimp only at hok
    cases hp : parse toks with
    | error e => rw [hp] at hok; cases hok
    | ok chords =>
      rw [hp] at hok
      dsimp only at hok
      cases ha : addChords st chords with
      | error e => rw [ha] at hok; cases hok
      | ok st1 => exact ⟨chords, toks, ht, hp, addChords_ok h.inv ha⟩

/-- Pointwise relation between the configuration and its parsed form. -/
inductive ParsedAs : List (List Char × Action) → List (List Chord × Action) → Prop
  | nil : ParsedAs [] []
  | cons {src a chords cfg pc} : understood src chords → ParsedAs cfg pc → ParsedAs ((src, a) :: cfg) ((chords, a) :: pc)

theorem addBindings_inv {st done ci} (h : CInv st done ci) (cfg : List (List Char × Action)) (pc) (hp : ParsedAs cfg pc) :
    ∃ st' ci', addBindings st cfg = .ok st' ∧ CInv st' (done ++ pc) ci' := by
  induction hp generalizing st done ci with
  | nil => exact ⟨st, ci, rfl, by simpa using h⟩
  | @cons src a chords cfg pc hu hp ih =>
    obtain ⟨st1, ci1, e1, i1⟩ := addBinding_inv h src a chords hu
    obtain ⟨st2, ci2, e2, i2⟩ := ih i1
    exact ⟨st2, ci2, by simp only [addBindings, e1, e2], by simpa using i2⟩

theorem addBindings_ok {st done ci} (h : CInv st done ci) (cfg : List (List Char × Action)) (st' : BuildState)
    (hok : addBindings st cfg = .ok st') : ∃ pc, ParsedAs cfg pc := by
  induction cfg generalizing st done ci with
  | nil => exact ⟨[], .nil⟩
  | cons e cfg ih =>
    obtain ⟨src, a⟩ := e
    simp only [addBindings] at hok
    cases hb : addBinding st src a with
    | error e => rw [hb] at hok; cases hok
    | ok st1 =>
      rw [hb] at hok
      obtain ⟨chords, hu⟩ := addBinding_ok h src a st1 hb
      obtain ⟨st1', ci1, e1, i1⟩ := addBinding_inv h src a chords hu
      rw [hb] at e1; cases e1
      obtain ⟨pc, hpc⟩ := ih i1 hok
      exact ⟨_, .cons hu hpc⟩

/-- What `Bindings::new` compiles to, expressed with the parsed bindings `pc` and an injective numbering of chords. -/
structure Compiled (b : Bindings) (pc : List (List Chord × Action)) (num : Chord → UInt8)
    (ci : List (List UInt8 × UInt8)) : Prop where
  chords_eq : b.chords = Trie.build ci
  seqs_eq : b.sequences = Trie.build (pc.map fun d => (d.1.map num, d.2))
  ci_sound : ∀ e ∈ ci, ∃ c code, c ∈ pc.flatMap (·.1) ∧ keyCode c = .ok code ∧ e = ([code], num c)
  ci_complete : ∀ c ∈ pc.flatMap (·.1), ∃ code, keyCode c = .ok code ∧ ([code], num c) ∈ ci
  inj : ∀ c ∈ pc.flatMap (·.1), ∀ c' ∈ pc.flatMap (·.1), num c = num c' → c = c'

theorem CInv.init : CInv .init [] [] := ⟨BInv.init, rfl⟩

theorem ofNat_inj_small (i j : Nat) (hi : i < 256) (hj : j < 256) (h : UInt8.ofNat i = UInt8.ofNat j) : i = j := by
  have := congrArg UInt8.toNat h
  simp only [UInt8.toNat_ofNat'] at this
  omega

theorem CInv.compiled {st pc ci} (h : CInv st pc ci) :
    Compiled ⟨st.chords, .start, st.sequences, .start⟩ pc (atomOf st.atoms) ci := by
  have hnum : ∀ c a, (c, a) ∈ st.atoms → atomOf st.atoms c = a := by
    intro c a hca
    simp [atomOf, lookupAtom_of_mem h.inv.nodup hca]
  refine ⟨h.inv.chords_eq, h.seqs, ?_, ?_, ?_⟩
  · intro e he
    obtain ⟨c, code, h1, h2, h3⟩ := h.inv.ci_sound e he
    refine ⟨c, code, (h.inv.seen_iff c).mpr ⟨_, h1⟩, h2, ?_⟩
    rw [hnum c _ h1, ← h3]
  · intro c hc
    obtain ⟨a, ha⟩ := (h.inv.seen_iff c).mp hc
    obtain ⟨code, h1, h2⟩ := h.inv.ci_complete _ ha
    exact ⟨code, h1, by rw [hnum c _ ha]; exact h2⟩
  · intro c hc c' hc' he
    obtain ⟨a, ha⟩ := (h.inv.seen_iff c).mp hc
    obtain ⟨a', ha'⟩ := (h.inv.seen_iff c').mp hc'
    rw [hnum c _ ha, hnum c' _ ha'] at he
    subst he
    obtain ⟨i, hi, ei⟩ := List.mem_iff_getElem.mp ha
    obtain ⟨j, hj, ej⟩ := List.mem_iff_getElem.mp ha'
    have h1 := h.inv.atom_val i _ (by rw [List.getElem?_eq_getElem hi])
    have h2 := h.inv.atom_val j _ (by rw [List.getElem?_eq_getElem hj])
    rw [ei] at h1; rw [ej] at h2
    have hb := h.inv.bound
    have hcnt := h.inv.counter
    have := ofNat_inj_small i j (by omega) (by omega) (by rw [← h1, ← h2])
    subst this
    rw [ei] at ej
    exact (Prod.mk.inj ej).1

theorem new_ok_iff (cfg : List (List Char × Action)) :
    (∃ b, Bindings.new cfg = .ok b) ↔ ∃ pc, ParsedAs cfg pc := by
  constructor
  · rintro ⟨b, hb⟩
    unfold Bindings.new at hb
    cases ha : addBindings .init cfg with
    | error e => rw [ha] at hb; cases hb
    | ok st => exact addBindings_ok CInv.init cfg st ha
  · rintro ⟨pc, hpc⟩
    obtain ⟨st, ci, h, -⟩ := addBindings_inv CInv.init cfg pc hpc
    exact ⟨_, by unfold Bindings.new; rw [h]⟩

theorem new_compiled (cfg : List (List Char × Action)) (b : Bindings) (h : Bindings.new cfg = .ok b) :
    ∃ pc num ci, ParsedAs cfg pc ∧ Compiled b pc num ci ∧ b.chordsCursor = .start ∧ b.sequencesCursor = .start := by
  obtain ⟨pc, hpc⟩ := (new_ok_iff cfg).mp ⟨b, h⟩
  obtain ⟨st, ci, hst, hinv⟩ := addBindings_inv CInv.init cfg pc hpc
  unfold Bindings.new at h
  rw [hst] at h
  cases h
  rw [List.nil_append] at hinv
  exact ⟨pc, _, ci, hpc, hinv.compiled, rfl, rfl⟩

/-! ## The matching engine -/

/-- The engine has matched the atoms `s` since it was last idle. -/
structure At (b : Bindings) (s : List UInt8) : Prop where
  cc : b.chordsCursor = .start
  sc : b.sequencesCursor = b.sequences.feed .start s

/-- Two engines share their tables. -/
def SameTables (b b' : Bindings) : Prop := b'.chords = b.chords ∧ b'.sequences = b.sequences

open Trie (lastInserted) in
/-- One byte, in terms of what was inserted. -/
theorem transition_spec {b : Bindings} {pc num ci} (hc : Compiled b pc num ci) {s : List UInt8} (hat : At b s)
    (byte : UInt8) :
    let si := pc.map fun d => (d.1.map num, d.2)
    SameTables b (b.transition byte).1 ∧
    match lastInserted ci [byte] with
    | none => (b.transition byte).2 = .noMatch ∧ At (b.transition byte).1 []
    | some atom =>
      match lastInserted si (s ++ [atom]) with
      | some a => (b.transition byte).2 = .match a ∧ At (b.transition byte).1 []
      | none =>
        if ∃ kv ∈ si, (s ++ [atom]) <+: kv.1 then
          (b.transition byte).2 = .partialMatch ∧ At (b.transition byte).1 (s ++ [atom])
        else (b.transition byte).2 = .noMatch ∧ At (b.transition byte).1 [] := by
  intro si
  have hcur : b.chords.advance b.chordsCursor byte = b.chords.feed .start [byte] := by rw [hat.cc]; rfl
  have hget : b.chords.get (b.chords.advance b.chordsCursor byte) = lastInserted ci [byte] := by
    rw [hcur, hc.chords_eq]; exact Trie.C07_lookup ci [byte] (by simp)
  have hcurs := Trie.C07_cursor ci [byte] (by simp)
  cases hl : lastInserted ci [byte] with
  | none =>
    have hno : ¬ ∃ kv ∈ ci, [byte] <+: kv.1 := by
      rintro ⟨kv, hkv, hpre⟩
      obtain ⟨c, code, -, -, rfl⟩ := hc.ci_sound kv hkv
      have : code = byte := by
        obtain ⟨t, ht⟩ := hpre
        simp only [List.cons_append, List.nil_append, List.cons.injEq] at ht
        exact ht.1.symm
      subst this
      unfold lastInserted at hl
      simp only [Option.map_eq_none_iff, List.find?_eq_none, List.mem_reverse, decide_eq_true_eq] at hl
      exact hl _ hkv rfl
    have hadv : b.chords.advance b.chordsCursor byte = .noMatch := by
      rw [hcur, hc.chords_eq]; exact hcurs.2 hno
    have ht : b.transition byte = ({ b with chordsCursor := .start, sequencesCursor := .start }, .noMatch) := by
      unfold Bindings.transition
      simp only [hadv]
      rfl
    rw [ht]
    exact ⟨⟨rfl, rfl⟩, rfl, rfl, rfl⟩
  | some atom =>
    have hsc : b.sequences.advance b.sequencesCursor atom = b.sequences.feed .start (s ++ [atom]) := by
      rw [hat.sc]; simp [Trie.feed, List.foldl_append]
    have hseqc := Trie.C07_cursor si (s ++ [atom]) (by simp)
    have hseqg := Trie.C07_lookup si (s ++ [atom]) (by simp)
    have hseq : b.sequences = Trie.build si := hc.seqs_eq
    by_cases hp : ∃ kv ∈ si, (s ++ [atom]) <+: kv.1
    · obtain ⟨idx, hidx⟩ := hseqc.1 hp
      rw [hidx] at hseqg
      cases hv : lastInserted si (s ++ [atom]) with
      | some a =>
        rw [hv] at hidx hseqg
        have ht : b.transition byte = ({ b with chordsCursor := .start, sequencesCursor := .start }, .match a) := by
          unfold Bindings.transition
          simp only [hget, hl, hsc]
          simp only [hseq, hidx, Option.isNone_some, Bool.false_eq_true, if_false] at hseqg ⊢
          rw [hseqg]
        rw [ht]
        simp only [hv]
        exact ⟨⟨rfl, rfl⟩, trivial, rfl, rfl⟩
      | none =>
        rw [hv] at hidx
        have ht : b.transition byte =
            ({ b with chordsCursor := .start, sequencesCursor := b.sequences.feed .start (s ++ [atom]) }, .partialMatch) := by
          unfold Bindings.transition
          simp only [hget, hl, hsc]
          simp only [hseq, hidx, Option.isNone_none, if_true]
        rw [ht]
        simp only [hv, if_pos hp]
        exact ⟨⟨rfl, rfl⟩, trivial, rfl, rfl⟩
    · have hno := hseqc.2 hp
      have hv : lastInserted si (s ++ [atom]) = none := by
        unfold lastInserted
        simp only [Option.map_eq_none_iff, List.find?_eq_none, List.mem_reverse, decide_eq_true_eq]
        intro kv hkv he
        exact hp ⟨kv, hkv, by rw [he]; exact List.prefix_refl _⟩
      have ht : b.transition byte = ({ b with chordsCursor := .start, sequencesCursor := .start }, .noMatch) := by
        unfold Bindings.transition
        simp only [hget, hl, hsc]
        simp only [hseq, hno]
      dsimp only
      rw [hv]
      dsimp only
      rw [if_neg hp, ht]
      exact ⟨⟨rfl, rfl⟩, rfl, rfl, rfl⟩

theorem lastInserted_mem {Sym V : Type} [DecidableEq Sym] {hist : List (List Sym × V)} {k : List Sym} {v : V}
    (h : Trie.lastInserted hist k = some v) : (k, v) ∈ hist := by
  unfold Trie.lastInserted at h
  cases hf : hist.reverse.find? (fun kv => kv.1 = k) with
  | none => rw [hf] at h; cases h
  | some e =>
    rw [hf] at h
    have h1 : e.1 = k := by simpa using List.find?_some hf
    have h2 : e.2 = v := by simpa using h
    have := List.mem_of_find?_eq_some hf
    rw [← h1, ← h2]; exact List.mem_reverse.mp this

theorem lastInserted_none {Sym V : Type} [DecidableEq Sym] {hist : List (List Sym × V)} {k : List Sym}
    (h : Trie.lastInserted hist k = none) : ∀ v, (k, v) ∉ hist := by
  intro v hv
  unfold Trie.lastInserted at h
  simp only [Option.map_eq_none_iff, List.find?_eq_none, List.mem_reverse, decide_eq_true_eq] at h
  exact h _ hv rfl

/-- The engine together with the bytes of the current run of partial results (the buffer `partial_keybinding` of
shell.rs 848-904 without the delivery of its content). -/
def Bindings.track (b : Bindings) : List UInt8 → Bindings × List UInt8 :=
  List.foldl (fun bw x => match (bw.1.transition x).2 with
    | .partialMatch => ((bw.1.transition x).1, bw.2 ++ [x])
    | _ => ((bw.1.transition x).1, [])) (b, [])

theorem track_snoc (b : Bindings) (h : List UInt8) (x : UInt8) :
    b.track (h ++ [x]) = match ((b.track h).1.transition x).2 with
      | .partialMatch => (((b.track h).1.transition x).1, (b.track h).2 ++ [x])
      | _ => (((b.track h).1.transition x).1, []) := by
  unfold Bindings.track
  rw [List.foldl_append]; rfl

theorem run_append (b : Bindings) (h1 h2 : List UInt8) :
    b.run (h1 ++ h2) = (((b.run h1).1.run h2).1, (b.run h1).2 ++ ((b.run h1).1.run h2).2) := by
  induction h1 generalizing b with
  | nil => rfl
  | cons x xs ih => simp only [List.cons_append, Bindings.run, ih]

theorem track_fst (b : Bindings) (h : List UInt8) : (b.track h).1 = (b.run h).1 := by
  rcases List.eq_nil_or_concat h with rfl | ⟨h, x, rfl⟩
  · rfl
  rw [List.concat_eq_append]
  induction hn : h.length generalizing h x with
  | zero =>
    have : h = [] := List.length_eq_zero_iff.mp hn
    subst this
    simp only [List.nil_append, Bindings.track, List.foldl_cons, List.foldl_nil, Bindings.run]
    cases (b.transition x).2 <;> rfl
  | succ n ih =>
    rcases List.eq_nil_or_concat h with rfl | ⟨h, y, rfl⟩
    · simp at hn
    rw [List.concat_eq_append] at hn ⊢
    have := ih h y (by simp at hn; exact hn)
    rw [track_snoc, run_append, this]
    simp only [Bindings.run]
    cases ((b.run (h ++ [y])).1.transition x).2 <;> rfl

/-- Invariant of the engine along a history `h`: the pending bytes `w` and the atoms `s` they stand for. -/
structure EInv (b b' : Bindings) (pc : List (List Chord × Action)) (num : Chord → UInt8) (ci : List (List UInt8 × UInt8))
    (h w s : List UInt8) : Prop where
  tables : SameTables b b'
  at_ : At b' s
  codes : w.map (fun x => Trie.lastInserted ci [x]) = s.map some
  suffix : w <:+ h
  pending : s ≠ [] → ∃ d ∈ pc, s <+: d.1.map num ∧ s ≠ d.1.map num

theorem Compiled.same {b b' pc num ci} (h : Compiled b pc num ci) (hs : SameTables b b') : Compiled b' pc num ci :=
  ⟨by rw [hs.1]; exact h.chords_eq, by rw [hs.2]; exact h.seqs_eq, h.ci_sound, h.ci_complete, h.inj⟩

theorem EInv.step {b b' pc num ci h w s} (hc : Compiled b pc num ci) (hi : EInv b b' pc num ci h w s) (x : UInt8) :
    ∃ s', EInv b (b'.transition x).1 pc num ci (h ++ [x])
      (match (b'.transition x).2 with | .partialMatch => w ++ [x] | _ => []) s' := by
  have hspec := transition_spec (hc.same hi.tables) hi.at_ x
  dsimp only at hspec
  obtain ⟨ht, hm⟩ := hspec
  have htab : SameTables b (b'.transition x).1 := ⟨by rw [ht.1, hi.tables.1], by rw [ht.2, hi.tables.2]⟩
  have idle : ∀ b2 : Bindings, SameTables b b2 → At b2 [] → EInv b b2 pc num ci (h ++ [x]) [] [] := by
    intro b2 h1 h2
    exact ⟨h1, h2, rfl, List.nil_suffix, fun h => absurd rfl h⟩
  cases hl : Trie.lastInserted ci [x] with
  | none =>
    rw [hl] at hm
    dsimp only at hm
    rw [hm.1]
    exact ⟨[], idle _ htab hm.2⟩
  | some atom =>
    rw [hl] at hm
    dsimp only at hm
    cases hv : Trie.lastInserted (pc.map fun d => (d.1.map num, d.2)) (s ++ [atom]) with
    | some a =>
      rw [hv] at hm
      dsimp only at hm
      rw [hm.1]
      exact ⟨[], idle _ htab hm.2⟩
    | none =>
      rw [hv] at hm
      dsimp only at hm
      by_cases hp : ∃ kv ∈ pc.map fun d => (d.1.map num, d.2), (s ++ [atom]) <+: kv.1
      · rw [if_pos hp] at hm
        rw [hm.1]
        refine ⟨s ++ [atom], htab, hm.2, ?_, ?_, ?_⟩
        · simp [hi.codes, hl]
        · obtain ⟨t, ht⟩ := hi.suffix
          exact ⟨t, by rw [← ht]; simp⟩
        · intro _
          obtain ⟨kv, hkv, hpre⟩ := hp
          obtain ⟨d, hd, rfl⟩ := List.mem_map.mp hkv
          refine ⟨d, hd, hpre, ?_⟩
          intro he
          exact lastInserted_none hv d.2 (by rw [he]; exact hkv)
      · rw [if_neg hp] at hm
        rw [hm.1]
        exact ⟨[], idle _ htab hm.2⟩

theorem EInv.start {b pc num ci} (h1 : b.chordsCursor = .start) (h2 : b.sequencesCursor = .start) :
    EInv b b pc num ci [] [] [] :=
  ⟨⟨rfl, rfl⟩, ⟨h1, h2⟩, rfl, List.nil_suffix, fun h => absurd rfl h⟩

theorem EInv.track {b pc num ci} (hc : Compiled b pc num ci) (h1 : b.chordsCursor = .start)
    (h2 : b.sequencesCursor = .start) (h : List UInt8) :
    ∃ s, EInv b (b.track h).1 pc num ci h (b.track h).2 s := by
  induction hn : h.length generalizing h with
  | zero =>
    have : h = [] := List.length_eq_zero_iff.mp hn
    subst this
    exact ⟨[], EInv.start h1 h2⟩
  | succ n ih =>
    rcases List.eq_nil_or_concat h with rfl | ⟨h, y, rfl⟩
    · simp at hn
    rw [List.concat_eq_append] at hn ⊢
    obtain ⟨s, hs⟩ := ih h (by simp at hn; exact hn)
    obtain ⟨s', hs'⟩ := hs.step hc y
    refine ⟨s', ?_⟩
    rw [track_snoc]
    revert hs'
    cases ((b.track h).1.transition y).2 <;> exact id

/-- Bytes standing for the atoms of a chord sequence are the codes of the chords. -/
theorem codes_of_atoms {b pc num ci} (hc : Compiled b pc num ci) (w : List UInt8) (cs : List Chord)
    (hcs : ∀ c ∈ cs, c ∈ pc.flatMap (·.1))
    (h : w.map (fun x => Trie.lastInserted ci [x]) = (cs.map num).map some) :
    cs.map keyCode = w.map Except.ok := by
  induction cs generalizing w with
  | nil =>
    have : w = [] := by simpa using h
    subst this; rfl
  | cons c cs ih =>
    cases w with
    | nil => simp at h
    | cons x w =>
      simp only [List.map_cons, List.cons.injEq] at h
      have hm := lastInserted_mem h.1
      obtain ⟨c', code, h1, h2, h3⟩ := hc.ci_sound _ hm
      simp only [Prod.mk.injEq, List.cons.injEq, and_true] at h3
      have : c = c' := hc.inj c (hcs c (by simp)) c' h1 h3.2
      subst this
      simp only [List.map_cons, List.cons.injEq]
      exact ⟨by rw [h2, h3.1], ih w (fun c h => hcs c (List.mem_cons_of_mem _ h)) h.2⟩

/-- From an idle engine, the codes of a binding that no other binding shadows run through to its action. -/
theorem run_binding {b pc num ci} (hc : Compiled b pc num ci)
    (hdist : ∀ c ∈ pc.flatMap (·.1), ∀ c' ∈ pc.flatMap (·.1), keyCode c = keyCode c' → c = c')
    (cs : List Chord) (a : Action) (hd : (cs, a) ∈ pc)
    (hsh : ∀ d ∈ pc, d.1 ≠ [] → d.1 <+: cs → d.1 = cs ∧ d.2 = a)
    (done todo : List Chord) (hsplit : cs = done ++ todo) (htodo : todo ≠ []) (codes : List UInt8)
    (hcodes : todo.map keyCode = codes.map Except.ok) (b' : Bindings) (ht : SameTables b b')
    (hat : At b' (done.map num)) :
    (b'.run codes).2 = List.replicate (todo.length - 1) .partialMatch ++ [.match a] := by
  induction todo generalizing done codes b' with
  | nil => exact absurd rfl htodo
  | cons c todo ih =>
    cases codes with
    | nil => simp at hcodes
    | cons x codes =>
      simp only [List.map_cons, List.cons.injEq] at hcodes
      have hmem : ∀ c ∈ cs, c ∈ pc.flatMap (·.1) := fun c hc => List.mem_flatMap.mpr ⟨_, hd, hc⟩
      have hcm : c ∈ pc.flatMap (·.1) := hmem c (by rw [hsplit]; simp)
      have hlook : Trie.lastInserted ci [x] = some (num c) := by
        cases hl : Trie.lastInserted ci [x] with
        | none =>
          obtain ⟨code, h1, h2⟩ := hc.ci_complete c hcm
          rw [hcodes.1] at h1; cases h1
          exact absurd h2 (lastInserted_none hl _)
        | some y =>
          obtain ⟨c', code, h1, h2, h3⟩ := hc.ci_sound _ (lastInserted_mem hl)
          simp only [Prod.mk.injEq, List.cons.injEq, and_true] at h3
          have : c = c' := hdist c hcm c' h1 (by rw [hcodes.1, h2, h3.1])
          subst this
          rw [h3.2]
      have hspec := transition_spec (hc.same ht) hat x
      dsimp only at hspec
      rw [hlook] at hspec
      dsimp only at hspec
      obtain ⟨ht', hm⟩ := hspec
      have hsnoc : done.map num ++ [num c] = (done ++ [c]).map num := by simp
      rw [hsnoc] at hm
      -- which binding has exactly these atoms
      have hexact : ∀ d ∈ pc, d.1.map num = (done ++ [c]).map num → d.1 = done ++ [c] := by
        intro d hdm he
        have inj : ∀ l l' : List Chord, (∀ c ∈ l, c ∈ pc.flatMap (·.1)) → (∀ c ∈ l', c ∈ pc.flatMap (·.1)) →
            l.map num = l'.map num → l = l' := by
          intro l
          induction l with
          | nil => intro l' _ _ h; cases l' with
            | nil => rfl
            | cons _ _ => simp at h
          | cons p l ihl =>
            intro l' h1 h2 h
            cases l' with
            | nil => simp at h
            | cons q l' =>
              simp only [List.map_cons, List.cons.injEq] at h
              rw [hc.inj p (h1 p (by simp)) q (h2 q (by simp)) h.1,
                ihl l' (fun c h => h1 c (List.mem_cons_of_mem _ h)) (fun c h => h2 c (List.mem_cons_of_mem _ h)) h.2]
        refine inj _ _ (fun c hc => List.mem_flatMap.mpr ⟨d, hdm, hc⟩) (fun c' hc' => hmem c' ?_) he
        rw [hsplit]
        rcases List.mem_append.mp hc' with h | h
        · exact List.mem_append_left _ h
        · rw [List.mem_singleton.mp h]; simp
      have hpre : done ++ [c] <+: cs := ⟨todo, by rw [hsplit]; simp⟩
      have htab : SameTables b (b'.transition x).1 := ⟨by rw [ht'.1, ht.1], by rw [ht'.2, ht.2]⟩
      cases todo with
      | nil =>
        have hcs : cs = done ++ [c] := by rw [hsplit]
        have hcodes2 : codes = [] := by simpa using hcodes.2.symm
        subst hcodes2
        cases hv : Trie.lastInserted (pc.map fun d => (d.1.map num, d.2)) ((done ++ [c]).map num) with
        | none =>
          exact absurd (List.mem_map.mpr ⟨(cs, a), hd, by rw [hcs]⟩) (lastInserted_none hv a)
        | some a' =>
          obtain ⟨d, hdm, he⟩ := List.mem_map.mp (lastInserted_mem hv)
          simp only [Prod.mk.injEq] at he
          have hd1 := hexact d hdm he.1
          have := (hsh d hdm (by rw [hd1]; simp) (by rw [hd1, hcs]; exact List.prefix_refl _)).2
          rw [hv] at hm
          dsimp only at hm
          simp only [Bindings.run, hm.1, List.length_singleton, Nat.sub_self, List.replicate_zero, List.nil_append]
          rw [← he.2, this]
      | cons c2 todo =>
        cases hv : Trie.lastInserted (pc.map fun d => (d.1.map num, d.2)) ((done ++ [c]).map num) with
        | some a' =>
          exfalso
          obtain ⟨d, hdm, he⟩ := List.mem_map.mp (lastInserted_mem hv)
          simp only [Prod.mk.injEq] at he
          have hd1 := hexact d hdm he.1
          have := (hsh d hdm (by rw [hd1]; simp) (by rw [hd1]; exact hpre)).1
          rw [hd1, hsplit] at this
          have := congrArg List.length this
          simp at this
        | none =>
          rw [hv] at hm
          dsimp only at hm
          rw [if_pos ⟨(cs.map num, a), List.mem_map.mpr ⟨(cs, a), hd, rfl⟩, by
            obtain ⟨t, ht⟩ := hpre
            exact ⟨t.map num, by rw [← List.map_append, ht]⟩⟩] at hm
          have hrec := ih (done ++ [c]) (by rw [hsplit]; simp) (by simp) codes hcodes.2 (b'.transition x).1 htab hm.2
          simp only [Bindings.run, hm.1]
          rw [hrec]
          simp [List.replicate_succ]

end Shpool.Keys
