import Verif.Keybindings.Props
/-! # What the keybinding engine answers to every input (C12) -/

namespace Shpool.Keys

deriving instance DecidableEq for Sym
deriving instance DecidableEq for SpecChord

/-! ## Specification: the bindings as a list, no tries and no numbers -/

/-- The chord a byte is taken for: of all the chords in the configuration that stand for it, the one written last. -/
def heard (t : List (List SpecChord × Action)) (x : UInt8) : Option SpecChord :=
  (t.flatMap (·.1)).reverse.find? (fun c => c.byte = some x)

/-- What a sequence of chords is bound to: of all the bindings with just these chords, the one written last. -/
def boundTo (t : List (List SpecChord × Action)) (cs : List SpecChord) : Option Action :=
  (t.reverse.find? (fun d => d.1 = cs)).map (·.2)

/-- One byte, with the chords `held` of a binding under way: it fires, it leads on, or everything is forgotten. -/
def press (t : List (List SpecChord × Action)) (held : List SpecChord) (x : UInt8) : List SpecChord × BindingResult :=
  match heard t x with
  | none => ([], .noMatch)
  | some c =>
    match boundTo t (held ++ [c]) with
    | some a => ([], .match a)
    | none => if ∃ d ∈ t, held ++ [c] <+: d.1 then (held ++ [c], .partialMatch) else ([], .noMatch)

/-- The answers to a whole input. -/
def answers (t : List (List SpecChord × Action)) (held : List SpecChord) : List UInt8 → List BindingResult
  | [] => []
  | x :: xs => (press t held x).2 :: answers t (press t held x).1 xs

/-! ## The order in which chords are entered -/

private def codeOf (c : Chord) : UInt8 := match keyCode c with | .ok x => x | .error _ => 0

private def OInv (st : BuildState) (seen : List Chord) : Prop :=
  st.chords = Trie.build (seen.map fun c => ([codeOf c], atomOf st.atoms c)) ∧
  ∀ c ∈ seen, ∃ a, lookupAtom st.atoms c = some a

private theorem OInv.mono {st st' : BuildState} {seen : List Chord} (h : OInv st seen)
    (hm : ∀ c' a', lookupAtom st.atoms c' = some a' → lookupAtom st'.atoms c' = some a') :
    seen.map (fun c => ([codeOf c], atomOf st'.atoms c)) = seen.map (fun c => ([codeOf c], atomOf st.atoms c)) := by
  apply List.map_congr_left
  intro c hc
  obtain ⟨a, ha⟩ := h.2 c hc
  simp [atomOf, ha, hm _ _ ha]

private theorem lookupAtom_new (atoms : List (Chord × UInt8)) (c : Chord) (a : UInt8) (h : lookupAtom atoms c = none) :
    lookupAtom (atoms ++ [(c, a)]) c = some a := by
  unfold lookupAtom at h ⊢
  have hn : atoms.find? (fun e => decide (e.1 = c)) = none := by simpa using h
  rw [List.find?_append, hn]
  simp

private theorem addChord_order {st : BuildState} {seen : List Chord} {ci} (hb : BInv st seen ci) (h : OInv st seen) (c : Chord) (st' : BuildState)
    (hok : addChord st c = .ok st') : OInv st' (seen ++ [c]) := by
  obtain ⟨code, hc⟩ := addChord_ok hok
  obtain ⟨st1, a, e1, -, -, hm⟩ := addChord_inv hb c code hc
  rw [hok] at e1; cases e1
  have hcode : codeOf c = code := by simp [codeOf, hc]
  have key : st'.chords = st.chords.insert [code] (atomOf st'.atoms c) ∧ ∃ a, lookupAtom st'.atoms c = some a := by
    unfold addChord at hok
    rw [hc] at hok
    dsimp only at hok
    cases hl : lookupAtom st.atoms c with
    | some a =>
      rw [hl] at hok
      dsimp only at hok
      split at hok
      · cases hok
      · cases hok
        exact ⟨by simp [atomOf, hl], a, hl⟩
    | none =>
      rw [hl] at hok
      dsimp only at hok
      split at hok
      · cases hok
      · cases hok
        have := lookupAtom_new st.atoms c (UInt8.ofNat st.counter) hl
        exact ⟨by simp [atomOf, this], _, this⟩
  refine ⟨?_, ?_⟩
  · rw [key.1, List.map_append, h.mono hm, h.1]
    simp [Trie.build, List.foldl_append, hcode]
  · intro c' hc'
    rcases List.mem_append.mp hc' with h' | h'
    · obtain ⟨a, ha⟩ := h.2 c' h'
      exact ⟨a, hm _ _ ha⟩
    · rw [List.mem_singleton.mp h']; exact key.2

private theorem addChords_order {st : BuildState} {seen : List Chord} {ci} (hb : BInv st seen ci) (h : OInv st seen) (cs : List Chord) (st' : BuildState)
    (hok : addChords st cs = .ok st') : OInv st' (seen ++ cs) := by
  induction cs generalizing st seen ci with
  | nil => simp only [addChords, Except.ok.injEq] at hok; subst hok; simpa using h
  | cons c cs ih =>
    simp only [addChords] at hok
    cases h1 : addChord st c with
    | error e => rw [h1] at hok; cases hok
    | ok st1 =>
      rw [h1] at hok
      obtain ⟨code, hcode⟩ := addChord_ok h1
      obtain ⟨st1', a, e1, i1, -⟩ := addChord_inv hb c code hcode
      rw [h1] at e1; cases e1
      have := ih i1 (addChord_order hb h c st1 h1) hok
      simpa using this

private theorem addBindings_order {st : BuildState} {done ci} (hb : CInv st done ci) (h : OInv st (done.flatMap (·.1)))
    (cfg : List (List Char × Action)) (pc) (hp : ParsedAs cfg pc) (st' : BuildState) (hok : addBindings st cfg = .ok st') :
    OInv st' ((done ++ pc).flatMap (·.1)) := by
  induction hp generalizing st done ci with
  | nil => simp only [addBindings, Except.ok.injEq] at hok; subst hok; simpa using h
  | @cons src a chords cfg pc hu hp ih =>
    obtain ⟨st1, ci1, e1, i1⟩ := addBinding_inv hb src a chords hu
    simp only [addBindings, e1] at hok
    have ho : OInv st1 ((done ++ [(chords, a)]).flatMap (·.1)) := by
      obtain ⟨toks, h1, h2, h3⟩ := hu
      obtain ⟨st2, ci2, e2, -⟩ := addChords_inv hb.inv chords h3
      have o2 := addChords_order hb.inv h chords st2 e2
      simp only [addBinding, h1, h2, e2, Except.ok.injEq] at e1
      subst e1
      have : (done ++ [(chords, a)]).flatMap (·.1) = done.flatMap (·.1) ++ chords := by simp
      rw [this]
      exact o2
    have := ih i1 ho hok
    simpa using this

private theorem parsed_codes {cfg pc} (hp : ParsedAs cfg pc) : ∀ c ∈ pc.flatMap (·.1), ∃ code, keyCode c = .ok code := by
  induction hp with
  | nil => simp
  | cons hu hp ih =>
    obtain ⟨_, _, _, h3⟩ := hu
    intro c hc
    simp only [List.flatMap_cons, List.mem_append] at hc
    rcases hc with hc | hc
    · exact h3 c hc
    · exact ih c hc

/-- What the configuration is compiled to, with the chords in the order of the configuration. -/
private theorem new_ordered (cfg : List (List Char × Action)) (pc) (hpc : ParsedAs cfg pc) (b : Bindings) (h : Bindings.new cfg = .ok b) :
    ∃ num, Compiled b pc num ((pc.flatMap (·.1)).map fun c => ([codeOf c], num c)) ∧
      b.chordsCursor = .start ∧ b.sequencesCursor = .start := by
  obtain ⟨st, ci, hst, hinv⟩ := addBindings_inv CInv.init cfg pc hpc
  have ho := addBindings_order CInv.init (by exact ⟨rfl, by simp⟩) cfg pc hpc st hst
  unfold Bindings.new at h
  rw [hst] at h
  cases h
  rw [List.nil_append] at hinv ho
  have hcomp := hinv.compiled
  refine ⟨_, ⟨ho.1, hcomp.seqs_eq, ?_, ?_, hcomp.inj⟩, rfl, rfl⟩
  · intro e he
    obtain ⟨c, hc, rfl⟩ := List.mem_map.mp he
    obtain ⟨code, hk⟩ := parsed_codes hpc c hc
    exact ⟨c, code, hc, hk, by simp [codeOf, hk]⟩
  · intro c hc
    obtain ⟨code, hk⟩ := parsed_codes hpc c hc
    exact ⟨code, hk, List.mem_map.mpr ⟨c, hc, by simp [codeOf, hk]⟩⟩

/-! ## From numbers back to chords -/

private theorem find_map {α β : Type} (l : List α) (f : α → β) (p : β → Bool) : (l.map f).find? p = (l.find? (fun a => p (f a))).map f := by
  induction l with
  | nil => rfl
  | cons a l ih => simp only [List.map_cons, List.find?_cons]; split <;> simp_all

private theorem find_congr {α : Type} (l : List α) (p q : α → Bool) (h : ∀ a ∈ l, p a = q a) : l.find? p = l.find? q := by
  induction l with
  | nil => rfl
  | cons a l ih =>
    simp only [List.find?_cons, h a (by simp)]
    rw [ih (fun a ha => h a (List.mem_cons_of_mem _ ha))]

private def toPc (t : List (List SpecChord × Action)) : List (List Chord × Action) :=
  t.map fun d => (d.1.map SpecChord.keys, d.2)

private theorem toPc_chords (t : List (List SpecChord × Action)) : (toPc t).flatMap (·.1) = (t.flatMap (·.1)).map SpecChord.keys := by
  simp [toPc, List.flatMap_map, List.map_flatMap]

private theorem heard_last (t : List (List SpecChord × Action)) (num : Chord → UInt8) (x : UInt8)
    (hcodes : ∀ c ∈ t.flatMap (·.1), c.byte ≠ none) :
    Trie.lastInserted (((toPc t).flatMap (·.1)).map fun c => ([codeOf c], num c)) [x] = (heard t x).map fun c => num c.keys := by
  unfold Trie.lastInserted heard
  rw [toPc_chords, List.map_map, ← List.map_reverse, find_map]
  rw [Option.map_map]
  rw [find_congr _ _ (fun c : SpecChord => decide (c.byte = some x))]
  · rfl
  · intro c hc
    have hb := hcodes c (by simpa using hc)
    cases hcb : c.byte with
    | none => exact absurd hcb hb
    | some k =>
      have := (keyCode_byte c k).mpr hcb
      simp [Function.comp, codeOf, this]

private theorem map_inj_on {α β : Type} (f : α → β) (S : α → Prop) (hf : ∀ a b, S a → S b → f a = f b → a = b)
    (l m : List α) (hl : ∀ a ∈ l, S a) (hm : ∀ a ∈ m, S a) (h : l.map f = m.map f) : l = m := by
  induction l generalizing m with
  | nil => cases m with
    | nil => rfl
    | cons _ _ => simp at h
  | cons a l ih =>
    cases m with
    | nil => simp at h
    | cons b m =>
      simp only [List.map_cons, List.cons.injEq] at h
      rw [hf a b (hl a (by simp)) (hm b (by simp)) h.1,
        ih m (fun a ha => hl a (List.mem_cons_of_mem _ ha)) (fun a ha => hm a (List.mem_cons_of_mem _ ha)) h.2]

private theorem prefix_inj_on {α β : Type} (f : α → β) (S : α → Prop) (hf : ∀ a b, S a → S b → f a = f b → a = b)
    (l m : List α) (hl : ∀ a ∈ l, S a) (hm : ∀ a ∈ m, S a) : l.map f <+: m.map f ↔ l <+: m := by
  constructor
  · intro h
    have h' : l.map f = (m.take l.length).map f := by
      rw [List.prefix_iff_eq_take] at h
      rw [h, List.map_take]; simp
    rw [map_inj_on f S hf l _ hl (fun a ha => hm a (List.mem_of_mem_take ha)) h']
    exact List.take_prefix _ _
  · rintro ⟨r, rfl⟩
    simp

private theorem engine_answers (t : List (List SpecChord × Action)) (num : Chord → UInt8)
    (b : Bindings) (hc : Compiled b (toPc t) num (((toPc t).flatMap (·.1)).map fun c => ([codeOf c], num c)))
    (hcodes : ∀ c ∈ t.flatMap (·.1), c.byte ≠ none) (input : List UInt8) :
    ∀ (held : List SpecChord) (b' : Bindings), (∀ c ∈ held, c ∈ t.flatMap (·.1)) → SameTables b b' →
      At b' (held.map fun c => num c.keys) → (b'.run input).2 = answers t held input := by
  have hinj : ∀ c d : SpecChord, c ∈ t.flatMap (·.1) → d ∈ t.flatMap (·.1) → num c.keys = num d.keys → c = d := by
    intro c d h1 h2 he
    refine keys_inj (hc.inj _ ?_ _ ?_ he) <;> rw [toPc_chords]
    · exact List.mem_map.mpr ⟨c, h1, rfl⟩
    · exact List.mem_map.mpr ⟨d, h2, rfl⟩
  induction input with
  | nil => intros; rfl
  | cons x xs ih =>
    intro held b' hheld htab hat
    have hspec := transition_spec (hc.same htab) hat x
    dsimp only at hspec
    rw [heard_last t num x hcodes] at hspec
    obtain ⟨ht', hm⟩ := hspec
    have htab' : SameTables b (b'.transition x).1 := ⟨by rw [ht'.1, htab.1], by rw [ht'.2, htab.2]⟩
    have idle : ∀ r, (b'.transition x).2 = r → At (b'.transition x).1 [] → press t held x = ([], r) →
        (b'.run (x :: xs)).2 = answers t held (x :: xs) := by
      intro r h1 h2 h3
      simp only [Bindings.run, answers, h3, h1]
      rw [ih [] _ (by simp) htab' h2]
    cases hh : heard t x with
    | none =>
      rw [hh] at hm
      exact idle _ hm.1 hm.2 (by simp [press, hh])
    | some c =>
      rw [hh] at hm
      dsimp only [Option.map_some] at hm
      have hcm : c ∈ t.flatMap (·.1) := by
        have := List.mem_of_find?_eq_some hh
        simpa using this
      have hheld' : ∀ d ∈ held ++ [c], d ∈ t.flatMap (·.1) := by
        intro d hd
        rcases List.mem_append.mp hd with h | h
        · exact hheld d h
        · rw [List.mem_singleton.mp h]; exact hcm
      have hsnoc : (held.map fun c => num c.keys) ++ [num c.keys] = (held ++ [c]).map fun c => num c.keys := by simp
      have hdm : ∀ d ∈ t, ∀ c ∈ d.1, c ∈ t.flatMap (·.1) := fun d hd c hc => List.mem_flatMap.mpr ⟨d, hd, hc⟩
      rw [hsnoc] at hm
      have hbound : Trie.lastInserted ((toPc t).map fun d => (d.1.map num, d.2)) ((held ++ [c]).map fun c => num c.keys) =
          boundTo t (held ++ [c]) := by
        unfold Trie.lastInserted boundTo toPc
        rw [List.map_map, ← List.map_reverse, find_map, Option.map_map]
        rw [find_congr _ _ (fun d : List SpecChord × Action => decide (d.1 = held ++ [c]))]
        · rfl
        · intro d hd
          have hd' : d ∈ t := by simpa using hd
          simp only [Function.comp, List.map_map]
          by_cases he : d.1 = held ++ [c]
          · rw [he]
            simp [Function.comp_def]
          · rw [decide_eq_false he, decide_eq_false]
            intro h'
            exact he (map_inj_on (fun c : SpecChord => num c.keys) (fun c => c ∈ t.flatMap (·.1))
              (fun a b ha hb => hinj a b ha hb) _ _ (hdm d hd') hheld' h')
      have hpre : (∃ kv ∈ (toPc t).map fun d => (d.1.map num, d.2), ((held ++ [c]).map fun c => num c.keys) <+: kv.1) ↔
          ∃ d ∈ t, held ++ [c] <+: d.1 := by
        constructor
        · rintro ⟨kv, hkv, hp⟩
          simp only [toPc, List.map_map, List.mem_map] at hkv
          obtain ⟨d, hd, rfl⟩ := hkv
          refine ⟨d, hd, ?_⟩
          simp only [Function.comp, List.map_map] at hp
          exact (prefix_inj_on (fun c : SpecChord => num c.keys) (fun c => c ∈ t.flatMap (·.1))
              (fun a b ha hb => hinj a b ha hb) _ _ hheld' (hdm d hd)).mp hp
        · rintro ⟨d, hd, hp⟩
          refine ⟨(d.1.map fun c => num c.keys, d.2), ?_, ?_⟩
          · simp only [toPc, List.map_map, List.mem_map]
            exact ⟨d, hd, by simp [Function.comp_def]⟩
          · exact (prefix_inj_on (fun c : SpecChord => num c.keys) (fun c => c ∈ t.flatMap (·.1))
              (fun a b ha hb => hinj a b ha hb) _ _ hheld' (hdm d hd)).mpr hp
      rw [hbound] at hm
      cases hbt : boundTo t (held ++ [c]) with
      | some a =>
        rw [hbt] at hm
        exact idle _ hm.1 hm.2 (by simp [press, hh, hbt])
      | none =>
        rw [hbt] at hm
        dsimp only at hm
        by_cases hp : ∃ d ∈ t, held ++ [c] <+: d.1
        · rw [if_pos (hpre.mpr hp)] at hm
          have h3 : press t held x = (held ++ [c], .partialMatch) := by simp only [press, hh, hbt, if_pos hp]
          simp only [Bindings.run, answers, h3, hm.1]
          rw [ih (held ++ [c]) _ hheld' htab' hm.2]
        · rw [if_neg (fun h => hp (hpre.mp h))] at hm
          exact idle _ hm.1 hm.2 (by simp only [press, hh, hbt, if_neg hp])

private theorem parsed_of (entries : List (List Char × List SpecChord × Action)) (hread : ∀ e ∈ entries, ReadAs e.1 e.2.1) :
    ParsedAs (entries.map fun e => (e.1, e.2.2)) (toPc (entries.map (·.2))) := by
  induction entries with
  | nil => exact .nil
  | cons e es ih =>
    refine .cons ((understood_iff _ _).mpr ⟨e.2.1, hread e (by simp), rfl⟩) ?_
    have := ih fun e he => hread e (List.mem_cons_of_mem _ he)
    exact this

/-- **C12** (everything): a configuration whose specs are read as the given chords is accepted, and the engine answers every input as the
list of bindings says: each byte is taken for the chord written last for it, a sequence that is bound fires the action written last for it
at once, one that begins a binding is kept, and anything else is forgotten. -/
theorem C12_engine (entries : List (List Char × List SpecChord × Action)) (hread : ∀ e ∈ entries, ReadAs e.1 e.2.1) (input : List UInt8) :
    ∃ b, Bindings.new (entries.map fun e => (e.1, e.2.2)) = .ok b ∧ (b.run input).2 = answers (entries.map (·.2)) [] input := by
  have hp := parsed_of entries hread
  obtain ⟨b, hb⟩ := (new_ok_iff _).mpr ⟨_, hp⟩
  obtain ⟨num, hc, h1, h2⟩ := new_ordered _ _ hp b hb
  refine ⟨b, hb, engine_answers _ num b hc ?_ input [] b (by simp) ⟨rfl, rfl⟩ ⟨h1, h2⟩⟩
  intro c hcm
  obtain ⟨d, hd, hcd⟩ := List.mem_flatMap.mp hcm
  obtain ⟨e, he, rfl⟩ := List.mem_map.mp hd
  obtain ⟨_, _, _, h3⟩ := hread e he
  exact h3 c hcd

private theorem answers_fire (t : List (List SpecChord × Action)) (a : Action) (codes : List UInt8) (hne : codes ≠ []) (held : List SpecChord) :
    answers t held codes = List.replicate (codes.length - 1) .partialMatch ++ [.match a] ↔
      ∃ cs, codes.map (heard t) = cs.map some ∧ boundTo t (held ++ cs) = some a ∧
        ∀ p, p ≠ [] → p <+: cs → p ≠ cs → boundTo t (held ++ p) = none := by
  induction codes generalizing held with
  | nil => exact absurd rfl hne
  | cons x xs ih =>
    cases xs with
    | nil =>
      simp only [answers, List.length_singleton, Nat.sub_self, List.replicate_zero, List.nil_append, List.cons.injEq, and_true,
        List.map_cons, List.map_nil]
      constructor
      · intro h
        unfold press at h
        cases hh : heard t x with
        | none => rw [hh] at h; cases h
        | some c =>
          rw [hh] at h
          dsimp only at h
          cases hb : boundTo t (held ++ [c]) with
          | none => rw [hb] at h; dsimp only at h; split at h <;> cases h
          | some a' =>
            rw [hb] at h
            cases h
            refine ⟨[c], by simp, hb, ?_⟩
            intro p hp1 hp2 hp3
            exfalso
            cases p with
            | nil => exact hp1 rfl
            | cons y p =>
              obtain ⟨r, hr⟩ := hp2
              simp only [List.cons_append, List.cons.injEq, List.append_eq_nil_iff] at hr
              exact hp3 (by rw [hr.1, hr.2.1])
      · rintro ⟨cs, h1, h2, -⟩
        cases cs with
        | nil => simp at h1
        | cons c cs =>
          simp only [List.map_cons, List.cons.injEq] at h1
          have : cs = [] := by simpa using h1.2.symm
          subst this
          simp [press, h1.1, h2]
    | cons y ys =>
      have hl : (x :: y :: ys).length - 1 = ((y :: ys).length - 1) + 1 := by simp
      rw [hl, List.replicate_succ, List.cons_append]
      rw [answers, List.cons.injEq]
      constructor
      · rintro ⟨h1, h2⟩
        unfold press at h1 h2
        cases hh : heard t x with
        | none => rw [hh] at h1; cases h1
        | some c =>
          rw [hh] at h1 h2
          dsimp only at h1 h2
          cases hb : boundTo t (held ++ [c]) with
          | some a' => rw [hb] at h1; cases h1
          | none =>
            rw [hb] at h1 h2
            dsimp only at h1 h2
            by_cases hp : ∃ d ∈ t, held ++ [c] <+: d.1
            · rw [if_pos hp] at h2
              obtain ⟨cs, e1, e2, e3⟩ := (ih (by simp) (held ++ [c])).mp h2
              refine ⟨c :: cs, by rw [List.map_cons, hh, e1]; rfl, by simpa using e2, ?_⟩
              intro p hp1 hp2 hp3
              cases p with
              | nil => exact absurd rfl hp1
              | cons z p =>
                rw [List.cons_prefix_cons] at hp2
                obtain ⟨rfl, hp2⟩ := hp2
                by_cases hpn : p = []
                · subst hpn; exact hb
                · have := e3 p hpn hp2 (fun h => hp3 (by rw [h]))
                  simpa using this
            · rw [if_neg hp] at h1; cases h1
      · rintro ⟨cs, e1, e2, e3⟩
        cases cs with
        | nil => simp at e1
        | cons c cs =>
          simp only [List.map_cons, List.cons.injEq] at e1
          have hcs : cs ≠ [] := by rintro rfl; simp at e1
          have hb : boundTo t (held ++ [c]) = none := e3 [c] (by simp) (by simp) (by simpa using Ne.symm hcs)
          have hp : ∃ d ∈ t, held ++ [c] <+: d.1 := by
            unfold boundTo at e2
            cases hf : t.reverse.find? (fun d => d.1 = held ++ c :: cs) with
            | none => rw [hf] at e2; cases e2
            | some d =>
              refine ⟨d, by simpa using List.mem_of_find?_eq_some hf, ?_⟩
              have : d.1 = held ++ c :: cs := by simpa using List.find?_some hf
              rw [this]
              exact ⟨cs, by simp⟩
          have h3 : press t held x = (held ++ [c], .partialMatch) := by simp only [press, e1.1, hb, if_pos hp]
          rw [h3]
          refine ⟨rfl, (ih (by simp) (held ++ [c])).mpr ⟨cs, e1.2, by simpa using e2, ?_⟩⟩
          intro p hp1 hp2 hp3
          have := e3 (c :: p) (by simp) (by rw [List.cons_prefix_cons]; exact ⟨rfl, hp2⟩) (fun h => hp3 (by simpa using h))
          simpa using this

/-- **C12** (exactly when): from the start, some bytes fire an action with the last of them and not before exactly if the chords they are
taken for are bound to it and no beginning of these chords is bound to anything.  So a binding that is typed fires exactly if every one of
its keys is the last name written for its byte, it is the last binding of its chords, and no binding is a beginning of it. -/
theorem C12_exact (entries : List (List Char × List SpecChord × Action)) (hread : ∀ e ∈ entries, ReadAs e.1 e.2.1)
    (b : Bindings) (hb : Bindings.new (entries.map fun e => (e.1, e.2.2)) = .ok b) (codes : List UInt8) (hne : codes ≠ []) (a : Action) :
    (b.run codes).2 = List.replicate (codes.length - 1) .partialMatch ++ [.match a] ↔
      ∃ cs, codes.map (heard (entries.map (·.2))) = cs.map some ∧ boundTo (entries.map (·.2)) cs = some a ∧
        ∀ p, p ≠ [] → p <+: cs → p ≠ cs → boundTo (entries.map (·.2)) p = none := by
  obtain ⟨b', hb', hr⟩ := C12_engine entries hread codes
  rw [hb] at hb'
  cases hb'
  rw [hr]
  exact answers_fire _ a codes hne []

/-- Two bindings with two names of one byte: the chord written last is heard, so only the second binding can fire. -/
def twoNames : List (List Char × List SpecChord × Action) :=
  [("Ctrl-Space a".toList, [⟨true, .space⟩, ⟨false, .letter 'a' (by decide)⟩], .detach),
   ("Ctrl-@ b".toList, [⟨true, .punct '@' (by decide)⟩, ⟨false, .letter 'b' (by decide)⟩], .noOp)]

example : ∀ e ∈ twoNames, ReadAs e.1 e.2.1 := by
  intro e he
  simp only [twoNames, List.mem_cons, List.not_mem_nil, or_false] at he
  rcases he with rfl | rfl
  · exact ⟨[], .inl rfl, by decide, by decide⟩
  · exact ⟨[], .inl rfl, by decide, by decide⟩

example : answers (twoNames.map (·.2)) [] [0, 97, 0, 98] = [.partialMatch, .noMatch, .partialMatch, .match .noOp] := by decide

end Shpool.Keys
