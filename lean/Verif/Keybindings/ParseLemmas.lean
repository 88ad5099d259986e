import Verif.Keybindings.LexLemmas

namespace Shpool.Keys
open Str

/-- The tokens of one chord. -/
def chordToks : Chord → List Token
  | [] => []
  | [k] => [.key k]
  | k :: k2 :: ks => .key k :: .dash :: chordToks (k2 :: ks)

theorem chordToks_snoc (ks : Chord) (h : ks ≠ []) (k : List Char) :
    chordToks (ks ++ [k]) = chordToks ks ++ [.dash, .key k] := by
  induction ks with
  | nil => exact absurd rfl h
  | cons a as ih =>
    cases as with
    | nil => rfl
    | cons b bs =>
      have := ih (by simp)
      simp only [List.cons_append] at this ⊢
      simp only [chordToks, this, List.cons_append]

theorem parseLoop_ok_form (chords : List Chord) (keys : Chord) (sd : Bool) (ts : List Token) (out : List Chord)
    (hk : keys = [] → sd = true ∧ chords = []) (hch : ∀ c ∈ chords, c ≠ [])
    (h : parseLoop chords keys sd ts = .ok out) :
    (∀ c ∈ out, c ≠ []) ∧ ∃ tr, (tr = [] ∨ (tr = [.dash] ∧ out ≠ [])) ∧
      chords.flatMap chordToks ++ chordToks keys ++ (if sd ∧ keys ≠ [] then [.dash] else []) ++ ts =
        out.flatMap chordToks ++ tr := by
  induction ts generalizing chords keys sd with
  | nil =>
    cases keys with
    | nil =>
      obtain ⟨-, rfl⟩ := hk rfl
      cases h
      exact ⟨by simp, [], .inl rfl, by simp [chordToks]⟩
    | cons k ks =>
      simp only [parseLoop, List.isEmpty_cons, Bool.false_eq_true, if_false, Except.ok.injEq] at h
      subst h
      refine ⟨?_, ?_⟩
      · intro c hc
        rcases List.mem_append.mp hc with h' | h'
        · exact hch c h'
        · rw [List.mem_singleton.mp h']; simp
      · cases sd with
        | true => exact ⟨[.dash], .inr ⟨rfl, by simp⟩, by simp⟩
        | false => exact ⟨[], .inl rfl, by simp⟩
  | cons t ts ih =>
    cases t with
    | key k =>
      cases sd with
      | true =>
        simp only [parseLoop, if_true] at h
        have hi := ih chords (keys ++ [k]) false (by simp) hch h
        refine ⟨hi.1, ?_⟩
        obtain ⟨tr, h1, h2⟩ := hi.2
        refine ⟨tr, h1, ?_⟩
        rw [← h2]
        cases keys with
        | nil =>
          obtain ⟨-, rfl⟩ := hk rfl
          simp [chordToks]
        | cons a as =>
          rw [chordToks_snoc (a :: as) (by simp) k]
          simp
      | false =>
        simp only [parseLoop, Bool.false_eq_true, if_false] at h
        have hkn : keys ≠ [] := by
          intro e; have := (hk e).1; cases this
        have hi := ih (chords ++ [keys]) [k] false (by simp) (by
          intro c hc
          rcases List.mem_append.mp hc with h' | h'
          · exact hch c h'
          · rw [List.mem_singleton.mp h']; exact hkn) h
        refine ⟨hi.1, ?_⟩
        obtain ⟨tr, h1, h2⟩ := hi.2
        refine ⟨tr, h1, ?_⟩
        rw [← h2]
        simp [chordToks]
    | dash =>
      cases sd with
      | true => simp [parseLoop] at h
      | false =>
        have hkn : keys ≠ [] := by
          intro e; have := (hk e).1; cases this
        simp only [parseLoop, Bool.false_eq_true, if_false] at h
        have hi := ih chords keys true (fun e => absurd e hkn) hch h
        refine ⟨hi.1, ?_⟩
        obtain ⟨tr, h1, h2⟩ := hi.2
        refine ⟨tr, h1, ?_⟩
        rw [← h2]
        simp [hkn]

theorem parse_ok_form (ts : List Token) (out : List Chord) (h : parse ts = .ok out) :
    (∀ c ∈ out, c ≠ []) ∧ ∃ tr, (tr = [] ∨ (tr = [.dash] ∧ out ≠ [])) ∧ ts = out.flatMap chordToks ++ tr := by
  have := parseLoop_ok_form [] [] true ts out (fun _ => ⟨rfl, rfl⟩) (by simp) h
  simpa [chordToks] using this

/-- Parsing the rest of a chord. -/
theorem parseLoop_chord (chords : List Chord) (keys ks : Chord) (hks : ks ≠ []) (rest : List Token) :
    parseLoop chords keys true (chordToks ks ++ rest) = parseLoop chords (keys ++ ks) false rest := by
  induction ks generalizing keys with
  | nil => exact absurd rfl hks
  | cons k ks ih =>
    cases ks with
    | nil => simp [chordToks, parseLoop]
    | cons k2 ks =>
      have := ih (keys ++ [k]) (by simp)
      simp only [chordToks, List.cons_append, parseLoop, if_true, Bool.false_eq_true, if_false]
      rw [this]; simp

theorem parseLoop_chords (chords : List Chord) (keys : Chord) (cs : List Chord) (hcs : ∀ c ∈ cs, c ≠ [])
    (hkeys : keys ≠ []) (tr : List Token) (htr : tr = [] ∨ tr = [.dash]) :
    parseLoop chords keys false (cs.flatMap chordToks ++ tr) = .ok (chords ++ keys :: cs) := by
  induction cs generalizing chords keys with
  | nil =>
    rcases htr with rfl | rfl <;> simp [parseLoop, hkeys]
  | cons c cs ih =>
    have hc := hcs c (by simp)
    rw [List.flatMap_cons, List.append_assoc]
    cases c with
    | nil => exact absurd rfl hc
    | cons k ks =>
      have hstep : parseLoop chords keys false (chordToks (k :: ks) ++ (cs.flatMap chordToks ++ tr)) =
          parseLoop (chords ++ [keys]) [] true (chordToks (k :: ks) ++ (cs.flatMap chordToks ++ tr)) := by
        cases ks <;> simp [chordToks, parseLoop]
      rw [hstep, parseLoop_chord _ _ _ (by simp), List.nil_append,
        ih (chords ++ [keys]) (k :: ks) (fun c h => hcs c (List.mem_cons_of_mem _ h)) (by simp)]
      simp

theorem parse_chords (cs : List Chord) (hcs : ∀ c ∈ cs, c ≠ []) (tr : List Token)
    (htr : tr = [] ∨ (tr = [.dash] ∧ cs ≠ [])) : parse (cs.flatMap chordToks ++ tr) = .ok cs := by
  cases cs with
  | nil =>
    rcases htr with rfl | ⟨-, h⟩
    · rfl
    · exact absurd rfl h
  | cons c cs =>
    unfold parse
    rw [List.flatMap_cons, List.append_assoc, parseLoop_chord _ _ _ (hcs c (by simp)), List.nil_append,
      parseLoop_chords [] c cs (fun c h => hcs c (List.mem_cons_of_mem _ h)) (hcs c (by simp)) tr
        (by rcases htr with h | ⟨h, -⟩; exact .inl h; exact .inr h)]
    rfl

/-- All key texts of the grammar. -/
def symTexts : List (List Char) :=
  ['S', 'p', 'a', 'c', 'e'] ::
    (['\\', '[', ']', '@', '^', '_', '?', '0', '1', '2', '3', '4', '5', '6', '7', '8', '9', 'a', 'b', 'c', 'd', 'e',
      'f', 'g', 'h', 'i', 'j', 'k', 'l', 'm', 'n', 'o', 'p', 'q', 'r', 's', 't', 'u', 'v', 'w', 'x', 'y', 'z'].map
      fun c => [c])

theorem char_range {P : Char → Prop} (lo hi : Nat) (h : ∀ n, n < 128 → lo ≤ n → n ≤ hi → P (Char.ofNat n))
    (hhi : hi < 128) (c : Char) (hc : lo ≤ c.toNat ∧ c.toNat ≤ hi) : P c := by
  have := h c.toNat (by omega) hc.1 hc.2
  rwa [Char.ofNat_toNat] at this

theorem sym_text_mem (s : Sym) : s.text ∈ symTexts := by
  cases s with
  | space => simp [Sym.text, symTexts]
  | punct c h =>
    show [c] ∈ symTexts
    simp only [List.mem_cons, List.not_mem_nil, or_false] at h
    rcases h with rfl | rfl | rfl | rfl | rfl | rfl | rfl <;> decide
  | digit c h => exact char_range (P := fun c => [c] ∈ symTexts) 48 57 (by decide) (by decide) c h
  | letter c h => exact char_range (P := fun c => [c] ∈ symTexts) 97 122 (by decide) (by decide) c h

theorem exists_sym (k : List Char) (h : k ∈ symTexts) : ∃ s : Sym, s.text = k := by
  simp only [symTexts, List.map_cons, List.map_nil, List.mem_cons, List.not_mem_nil, or_false] at h
  rcases h with rfl | rfl | rfl | rfl | rfl | rfl | rfl | rfl | rfl | rfl | rfl | rfl | rfl | rfl | rfl | rfl | rfl |
    rfl | rfl | rfl | rfl | rfl | rfl | rfl | rfl | rfl | rfl | rfl | rfl | rfl | rfl | rfl | rfl | rfl | rfl | rfl |
    rfl | rfl | rfl | rfl | rfl | rfl | rfl | rfl
  · exact ⟨.space, rfl⟩
  all_goals first
    | exact ⟨.punct _ (by decide), rfl⟩
    | exact ⟨.digit _ (by decide), rfl⟩
    | exact ⟨.letter _ (by decide), rfl⟩

theorem keyCode_plain (k : List Char) (h : k ∈ symTexts) : ∃ code, keyCode [k] = .ok code := by
  have : ∀ k ∈ symTexts, (keyCode [k]).isOk := by decide
  have := this k h
  cases hk : keyCode [k] with
  | ok code => exact ⟨code, rfl⟩
  | error e => rw [hk] at this; cases this

theorem keyCode_ctrl (k : List Char) (h : k ∈ symTexts) :
    (k ≠ ['1'] ∧ k ≠ ['9'] → ∃ code, keyCode [ctrlWord, k] = .ok code) ∧
    (k = ['1'] ∨ k = ['9'] → keyCode [ctrlWord, k] = .error .unknownCode) := by
  have h1 : ∀ k ∈ symTexts, k ≠ ['1'] ∧ k ≠ ['9'] → (keyCode [ctrlWord, k]).isOk := by decide
  refine ⟨fun hk => ?_, ?_⟩
  · have := h1 k h hk
    cases hk : keyCode [ctrlWord, k] with
    | ok code => exact ⟨code, rfl⟩
    | error e => rw [hk] at this; cases this
  · rintro (rfl | rfl) <;> decide

/-- A chord made of lexer keys has a key code exactly if it is a chord of the grammar with a code. -/
theorem keyCode_ok_iff (c : Chord) (hne : c ≠ []) (hk : ∀ k ∈ c, k = ctrlWord ∨ ∃ s : Sym, s.text = k) :
    (∃ code, keyCode c = .ok code) ↔ ∃ sc : SpecChord, sc.keys = c ∧ ¬ sc.Codeless := by
  have hsc : ∀ s : Sym, isCtrl s.text = false := by
    intro s
    have : ∀ k ∈ symTexts, isCtrl k = false := by decide
    exact this _ (sym_text_mem s)
  have hcc : isCtrl ctrlWord = true := rfl
  constructor
  · rintro ⟨code, h⟩
    rcases c with _ | ⟨k1, _ | ⟨k2, _ | ⟨k3, ks⟩⟩⟩
    · exact absurd rfl hne
    · rcases hk k1 (by simp) with rfl | ⟨s, rfl⟩
      · exact absurd h (by unfold keyCode checkValid; simp [hcc, isKey])
      · exact ⟨⟨false, s⟩, rfl, by simp [SpecChord.Codeless]⟩
    · rcases hk k1 (by simp) with rfl | ⟨s, rfl⟩
      · rcases hk k2 (by simp) with rfl | ⟨s, rfl⟩
        · exact absurd h (by unfold keyCode checkValid; simp [hcc, isKey])
        · refine ⟨⟨true, s⟩, rfl, ?_⟩
          rintro ⟨-, hcl⟩
          have := (keyCode_ctrl s.text (sym_text_mem s)).2 hcl
          rw [this] at h; cases h
      · exfalso
        revert h
        unfold keyCode checkValid
        split
        · intro h; cases h
        · next hval =>
          split at hval
          · cases hval
          · simp [hsc] at hval
    · exfalso
      revert h
      unfold keyCode checkValid
      split
      · intro h; cases h
      · next hval => split at hval <;> cases hval
  · rintro ⟨⟨ctrl, s⟩, rfl, hcl⟩
    cases ctrl with
    | false => exact keyCode_plain s.text (sym_text_mem s)
    | true =>
      refine (keyCode_ctrl s.text (sym_text_mem s)).1 ⟨fun h => hcl ⟨rfl, .inl h⟩, fun h => hcl ⟨rfl, .inr h⟩⟩

theorem specChord_toks (c : SpecChord) : (∀ t ∈ chordToks c.keys, LexTok t) ∧
    (chordToks c.keys).flatMap Token.text = c.text ∧ c.keys ≠ [] := by
  rcases c with ⟨_ | _, s⟩
  · refine ⟨?_, ?_, by simp [SpecChord.keys]⟩
    · intro t ht
      simp only [SpecChord.keys, Bool.false_eq_true, if_false, chordToks, List.mem_singleton] at ht
      subst ht; exact .sym s
    · simp [SpecChord.keys, SpecChord.text, chordToks, Token.text]
  · refine ⟨?_, ?_, by simp [SpecChord.keys]⟩
    · intro t ht
      simp only [SpecChord.keys, if_true, chordToks, List.mem_cons, List.not_mem_nil, or_false] at ht
      rcases ht with rfl | rfl | rfl
      · exact .ctrl
      · exact .dash
      · exact .sym s
    · simp [SpecChord.keys, SpecChord.text, chordToks, Token.text]

/-- What may follow the chords without being noticed: nothing, a cut off word, or (after at least one chord) a dash and
possibly a cut off word. -/
def LenientTail (cs : List SpecChord) (tail : List Char) : Prop :=
  tail = [] ∨ tail ∈ wordPrefixes ∨ (cs ≠ [] ∧ (tail = ['-'] ∨ ∃ w ∈ wordPrefixes, tail = '-' :: w))

/-- The chords understood from a spec: the tokenizing, parsing and code resolution steps of keybindings.rs 129-134. -/
def understood (src : List Char) (chords : List Chord) : Prop :=
  ∃ toks, tokenize src = .ok toks ∧ parse toks = .ok chords ∧ ∀ c ∈ chords, ∃ code, keyCode c = .ok code

theorem understood_of_text (src : List Char) (cs : List SpecChord) (tail : List Char) (ht : LenientTail cs tail)
    (hs : squeeze src = cs.flatMap SpecChord.text ++ tail) (hcl : ∀ c ∈ cs, ¬ c.Codeless) :
    understood src (cs.map SpecChord.keys) := by
  -- split the tail into a possible dash and a cut off word
  obtain ⟨tr, w, htr, hw, htail⟩ : ∃ tr w, (tr = [] ∨ (tr = [Token.dash] ∧ cs.map SpecChord.keys ≠ [])) ∧
      (w = [] ∨ w ∈ wordPrefixes) ∧ tail = tr.flatMap Token.text ++ w := by
    rcases ht with rfl | h | ⟨hne, rfl | ⟨w, hw, rfl⟩⟩
    · exact ⟨[], [], .inl rfl, .inl rfl, rfl⟩
    · exact ⟨[], tail, .inl rfl, .inr h, rfl⟩
    · exact ⟨[.dash], [], .inr ⟨rfl, by simpa using hne⟩, .inl rfl, rfl⟩
    · exact ⟨[.dash], w, .inr ⟨rfl, by simpa using hne⟩, .inr hw, rfl⟩
  have htext : squeeze src =
      ((cs.map SpecChord.keys).flatMap chordToks ++ tr).flatMap Token.text ++ w := by
    rw [hs, htail, List.flatMap_append, List.append_assoc]
    congr 1
    rw [List.flatMap_map, List.flatMap_assoc]
    congr 1; funext c
    exact (specChord_toks c).2.1.symm
  have hlextok : ∀ t ∈ (cs.map SpecChord.keys).flatMap chordToks ++ tr, LexTok t := by
    intro t ht
    rcases List.mem_append.mp ht with h | h
    · obtain ⟨c, hc, hc2⟩ := List.mem_flatMap.mp h
      obtain ⟨sc, -, rfl⟩ := List.mem_map.mp hc
      exact (specChord_toks sc).1 t hc2
    · rcases htr with rfl | ⟨rfl, -⟩
      · cases h
      · rw [List.mem_singleton.mp h]; exact .dash
  have hlex := lex_tokens _ hlextok w [] (lex_tail w hw)
  rw [← htext, List.append_nil] at hlex
  refine ⟨_, by unfold tokenize; rw [lexLoop_squeeze]; exact hlex, parse_chords _ ?_ tr htr, ?_⟩
  · intro c hc
    obtain ⟨sc, -, rfl⟩ := List.mem_map.mp hc
    exact (specChord_toks sc).2.2
  · intro c hc
    obtain ⟨sc, hsc, rfl⟩ := List.mem_map.mp hc
    refine (keyCode_ok_iff sc.keys (specChord_toks sc).2.2 ?_).mpr ⟨sc, rfl, hcl sc hsc⟩
    intro k hk
    rcases sc with ⟨_ | _, s⟩
    · simp only [SpecChord.keys, Bool.false_eq_true, if_false, List.mem_singleton] at hk
      exact .inr ⟨s, hk.symm⟩
    · simp only [SpecChord.keys, if_true, List.mem_cons, List.not_mem_nil, or_false] at hk
      rcases hk with rfl | rfl
      · exact .inl rfl
      · exact .inr ⟨s, rfl⟩

theorem text_of_understood (src : List Char) (chords : List Chord) (h : understood src chords) :
    ∃ cs : List SpecChord, ∃ tail, chords = cs.map SpecChord.keys ∧ (∀ c ∈ cs, ¬ c.Codeless) ∧
      LenientTail cs tail ∧ squeeze src = cs.flatMap SpecChord.text ++ tail := by
  obtain ⟨toks, h1, h2, h3⟩ := h
  unfold tokenize at h1
  rw [lexLoop_squeeze] at h1
  obtain ⟨l1, w, hw, l2⟩ := lex_ok_form _ (squeeze src) (Nat.le_refl _)
    (fun c hc => by have := (List.mem_filter.mp hc).2; simpa using this) toks h1
  obtain ⟨p1, tr, p2, p3⟩ := parse_ok_form toks chords h2
  -- every chord is a grammar chord
  have keys_of : ∀ c : Chord, (∀ t ∈ chordToks c, LexTok t) → ∀ k ∈ c, k = ctrlWord ∨ ∃ s : Sym, s.text = k := by
    intro c
    induction c with
    | nil => intro _ k hk; cases hk
    | cons a as ih =>
      intro ht k hk
      have ha : LexTok (.key a) := ht _ (by cases as <;> simp [chordToks])
      have has : ∀ t ∈ chordToks as, LexTok t := by
        intro t h'
        apply ht
        cases as with
        | nil => cases h'
        | cons b bs => simp only [chordToks, List.mem_cons]; right; right; exact h'
      rcases List.mem_cons.mp hk with rfl | hk
      · cases ha with
        | ctrl => exact .inl rfl
        | sym s => exact .inr ⟨s, rfl⟩
      · exact ih has k hk
  have hall : ∀ c ∈ chords, ∃ sc : SpecChord, sc.keys = c ∧ ¬ sc.Codeless := by
    intro c hc
    refine (keyCode_ok_iff c (p1 c hc) (keys_of c ?_)).mp (h3 c hc)
    intro t ht
    apply l1
    rw [p3]
    exact List.mem_append_left _ (List.mem_flatMap.mpr ⟨c, hc, ht⟩)
  have hlist : ∃ cs : List SpecChord, chords = cs.map SpecChord.keys ∧ ∀ c ∈ cs, ¬ c.Codeless := by
    clear h2 h3 p1 p2 p3
    induction chords with
    | nil => exact ⟨[], rfl, by simp⟩
    | cons c cs ih =>
      obtain ⟨sc, e, hc⟩ := hall c (by simp)
      obtain ⟨scs, e2, hcs⟩ := ih (fun c h => hall c (List.mem_cons_of_mem _ h))
      refine ⟨sc :: scs, by simp [e, e2], ?_⟩
      intro c' hc'
      rcases List.mem_cons.mp hc' with rfl | h'
      · exact hc
      · exact hcs _ h'
  obtain ⟨cs, rfl, hcl⟩ := hlist
  refine ⟨cs, tr.flatMap Token.text ++ w, rfl, hcl, ?_, ?_⟩
  · rcases p2 with rfl | ⟨rfl, hne⟩
    · rcases hw with rfl | hw
      · exact .inl rfl
      · exact .inr (.inl hw)
    · have hne' : cs ≠ [] := by simpa using hne
      rcases hw with rfl | hw
      · exact .inr (.inr ⟨hne', .inl rfl⟩)
      · exact .inr (.inr ⟨hne', .inr ⟨w, hw, rfl⟩⟩)
  · rw [l2, p3, List.flatMap_append, List.append_assoc]
    congr 1
    rw [List.flatMap_map, List.flatMap_assoc]
    congr 1; funext c
    exact (specChord_toks c).2.1

/-! ## What a spec says, without the lexer and the parser -/

/-- The chords a spec is read as: apart from white space it is their texts in order, perhaps with something dangling at the end
that is ignored (`LenientTail`), and each of them has a byte. -/
def ReadAs (src : List Char) (cs : List SpecChord) : Prop :=
  ∃ tail, LenientTail cs tail ∧ squeeze src = cs.flatMap SpecChord.text ++ tail ∧ ∀ c ∈ cs, c.byte ≠ none

/-- The byte sequence of a binding spec: the bytes of the chords it is read as. -/
def Spells (src : List Char) (codes : List UInt8) : Prop :=
  ∃ cs, ReadAs src cs ∧ cs.map SpecChord.byte = codes.map some

theorem keyCode_keys (c : SpecChord) : keyCode c.keys = match c.byte with
    | some b => .ok b
    | none => .error .unknownCode := by
  obtain ⟨ctrl, sym⟩ := c
  cases ctrl with
  | false =>
    cases sym with
    | space => rfl
    | punct c h =>
      show keyCode [[c]] = _
      simp only [List.mem_cons, List.not_mem_nil, or_false] at h
      rcases h with rfl | rfl | rfl | rfl | rfl | rfl | rfl <;> rfl
    | digit c h => exact char_range (P := fun c => keyCode [[c]] = .ok (UInt8.ofNat c.toNat)) 48 57 (by decide) (by decide) c h
    | letter c h => exact char_range (P := fun c => keyCode [[c]] = .ok (UInt8.ofNat c.toNat)) 97 122 (by decide) (by decide) c h
  | true =>
    cases sym with
    | space => rfl
    | punct c h =>
      show keyCode [ctrlWord, [c]] = _
      simp only [List.mem_cons, List.not_mem_nil, or_false] at h
      rcases h with rfl | rfl | rfl | rfl | rfl | rfl | rfl <;> rfl
    | digit c h => exact char_range (P := fun c => keyCode [ctrlWord, [c]] = match ctrlDigit c with
        | some b => .ok b
        | none => .error .unknownCode) 48 57 (by decide) (by decide) c h
    | letter c h => exact char_range (P := fun c => keyCode [ctrlWord, [c]] =
        .ok (if c = 'x' then 25 else if c = 'y' then 24 else UInt8.ofNat (c.toNat - 96))) 97 122 (by decide) (by decide) c h

theorem keyCode_byte (c : SpecChord) (b : UInt8) : keyCode c.keys = .ok b ↔ c.byte = some b := by
  rw [keyCode_keys]
  cases c.byte <;> simp

theorem sym_text_inj {s t : Sym} (h : s.text = t.text) : s = t := by
  have hp : ∀ c ∈ ['\\', '[', ']', '@', '^', '_', '?'], ¬ (48 ≤ c.toNat ∧ c.toNat ≤ 57) ∧ ¬ (97 ≤ c.toNat ∧ c.toNat ≤ 122) := by
    decide
  cases s <;> cases t <;> simp only [Sym.text, List.cons.injEq, and_true, reduceCtorEq, and_false] at h <;> first
    | rfl
    | (subst h; rfl)
    | (subst h; rename_i h1 h2; first
        | exact absurd h2 (hp _ h1).1 | exact absurd h2 (hp _ h1).2
        | exact absurd h1 (hp _ h2).1 | exact absurd h1 (hp _ h2).2
        | omega)

theorem keys_inj {c d : SpecChord} (h : c.keys = d.keys) : c = d := by
  obtain ⟨c1, c2⟩ := c
  obtain ⟨d1, d2⟩ := d
  cases c1 <;> cases d1 <;> simp only [SpecChord.keys, Bool.false_eq_true, if_false, if_true, List.cons.injEq, and_true,
    true_and, reduceCtorEq, and_false] at h
  · rw [sym_text_inj h]
  · rw [sym_text_inj h]

theorem codeless_iff (c : SpecChord) : c.Codeless ↔ c.byte = none := by
  obtain ⟨ctrl, sym⟩ := c
  cases ctrl with
  | false => cases sym <;> simp [SpecChord.Codeless, SpecChord.byte]
  | true =>
    cases sym with
    | space => simp [SpecChord.Codeless, SpecChord.byte, Sym.text]
    | punct c h =>
      simp only [SpecChord.Codeless, SpecChord.byte, Sym.text, List.cons.injEq, and_true, true_and, reduceCtorEq, iff_false]
      simp only [List.mem_cons, List.not_mem_nil, or_false] at h
      rcases h with rfl | rfl | rfl | rfl | rfl | rfl | rfl <;> decide
    | digit c h =>
      simp only [SpecChord.Codeless, SpecChord.byte, Sym.text, List.cons.injEq, and_true, true_and]
      exact char_range (P := fun c => (c = '1' ∨ c = '9') ↔ ctrlDigit c = none) 48 57 (by decide) (by decide) c h
    | letter c h =>
      simp only [SpecChord.Codeless, SpecChord.byte, Sym.text, List.cons.injEq, and_true, true_and, reduceCtorEq, iff_false]
      rintro (rfl | rfl) <;> revert h <;> decide

/-- What the program understands a spec as is what it is read as. -/
theorem understood_iff (src : List Char) (chords : List Chord) :
    understood src chords ↔ ∃ cs, ReadAs src cs ∧ chords = cs.map SpecChord.keys := by
  constructor
  · intro h
    obtain ⟨cs, tail, h1, h2, h3, h4⟩ := text_of_understood src chords h
    exact ⟨cs, ⟨tail, h3, h4, fun c hc hb => h2 c hc ((codeless_iff c).mpr hb)⟩, h1⟩
  · rintro ⟨cs, ⟨tail, h1, h2, h3⟩, rfl⟩
    exact understood_of_text src cs tail h1 h2 fun c hc hb => h3 c hc ((codeless_iff c).mp hb)

theorem codes_keys (cs : List SpecChord) (codes : List UInt8) :
    (cs.map SpecChord.keys).map keyCode = codes.map Except.ok ↔ cs.map SpecChord.byte = codes.map some := by
  induction cs generalizing codes with
  | nil => cases codes <;> simp
  | cons c cs ih =>
    cases codes with
    | nil => simp
    | cons b codes => simp only [List.map_cons, List.cons.injEq, ih, keyCode_byte]

theorem understood_of_codes {src : List Char} {toks : List Token} {chords : List Chord} {codes : List UInt8}
    (h1 : tokenize src = .ok toks) (h2 : parse toks = .ok chords) (h3 : chords.map keyCode = codes.map Except.ok) :
    understood src chords := by
  refine ⟨toks, h1, h2, fun c hc => ?_⟩
  have : keyCode c ∈ codes.map Except.ok := h3 ▸ List.mem_map_of_mem hc
  obtain ⟨b, -, hb⟩ := List.mem_map.mp this
  exact ⟨b, hb.symm⟩

/-- The byte sequence of a spec as the program works it out. -/
theorem spells_iff (src : List Char) (codes : List UInt8) : Spells src codes ↔
    ∃ toks chords, tokenize src = .ok toks ∧ parse toks = .ok chords ∧ chords.map keyCode = codes.map Except.ok := by
  constructor
  · rintro ⟨cs, hr, hb⟩
    obtain ⟨toks, h1, h2, -⟩ := (understood_iff src _).mpr ⟨cs, hr, rfl⟩
    exact ⟨toks, _, h1, h2, (codes_keys cs codes).mpr hb⟩
  · rintro ⟨toks, chords, h1, h2, h3⟩
    obtain ⟨cs, hr, rfl⟩ := (understood_iff src chords).mp (understood_of_codes h1 h2 h3)
    exact ⟨cs, hr, (codes_keys cs codes).mp h3⟩

end Shpool.Keys
