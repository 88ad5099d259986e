import Verif.Keybindings.Spec

namespace Shpool.Keys
open Str

theorem advance_eq (i : Nat) (p : Bool) (c : Char) (f : Char → Option Nat) (hf : (wordsTrie.node i).tab = f) :
    wordsTrie.advance (.match i p) c = match f c with
      | some idx => .match idx (wordsTrie.node idx).value.isNone
      | none => .noMatch := by
  subst hf; rfl

theorem adv0 (c : Char) : wordsTrie.advance .start c =
    if c = 'S' then .match 5 true else if c = 'C' then .match 1 true else .noMatch := by
  have : (wordsTrie.node 0).tab = fun c => if c = 'S' then some 5 else if c = 'C' then some 1 else none := rfl
  simp only [Trie.advance, this]
  by_cases h1 : c = 'S'
  · simp only [h1, if_true]; rfl
  · by_cases h2 : c = 'C'
    · simp only [h2, if_true]; rfl
    · simp [h1, h2]

theorem adv_mid (i j : Nat) (x : Char) (b : Bool) (p : Bool) (c : Char)
    (hf : (wordsTrie.node i).tab = fun c => if c = x then some j else none)
    (hj : (wordsTrie.node j).value.isNone = b) :
    wordsTrie.advance (.match i p) c = if c = x then .match j b else .noMatch := by
  rw [advance_eq i p c _ hf]
  by_cases h : c = x
  · simp [h, hj]
  · simp [h]

theorem advC (c : Char) : wordsTrie.advance (.match 1 true) c = if c = 't' then .match 2 true else .noMatch :=
  adv_mid 1 2 't' true _ c rfl rfl
theorem advCt (c : Char) : wordsTrie.advance (.match 2 true) c = if c = 'r' then .match 3 true else .noMatch :=
  adv_mid 2 3 'r' true _ c rfl rfl
theorem advCtr (c : Char) : wordsTrie.advance (.match 3 true) c = if c = 'l' then .match 4 false else .noMatch :=
  adv_mid 3 4 'l' false _ c rfl rfl
theorem advS (c : Char) : wordsTrie.advance (.match 5 true) c = if c = 'p' then .match 6 true else .noMatch :=
  adv_mid 5 6 'p' true _ c rfl rfl
theorem advSp (c : Char) : wordsTrie.advance (.match 6 true) c = if c = 'a' then .match 7 true else .noMatch :=
  adv_mid 6 7 'a' true _ c rfl rfl
theorem advSpa (c : Char) : wordsTrie.advance (.match 7 true) c = if c = 'c' then .match 8 true else .noMatch :=
  adv_mid 7 8 'c' true _ c rfl rfl
theorem advSpac (c : Char) : wordsTrie.advance (.match 8 true) c = if c = 'e' then .match 9 false else .noMatch :=
  adv_mid 8 9 'e' false _ c rfl rfl

/-- White space is ignored wherever it stands. -/
theorem lexLoop_squeeze (cur : TrieCursor) (w src : List Char) :
    lexLoop cur w src = lexLoop cur w (squeeze src) := by
  induction src generalizing cur w with
  | nil => rfl
  | cons c cs ih =>
    by_cases hc : isWhitespace c = true
    · have : squeeze (c :: cs) = squeeze cs := by simp [squeeze, hc]
      rw [this, lexLoop, if_pos hc, ih]
    · have : squeeze (c :: cs) = c :: squeeze cs := by simp [squeeze, hc]
      rw [this, lexLoop, lexLoop, if_neg hc, if_neg hc]
      cases wordsTrie.advance cur c with
      | start => rfl
      | noMatch => dsimp only; rw [ih]
      | «match» i p => dsimp only; rw [ih, ih]

/-- A pending word that starts like a word but is not completed makes the lexer fail. -/
theorem emit_bad (x : Char) (w : List Char) (hx : x = 'C' ∨ x = 'S') : emitChars (x :: w) = .error .unexpectedChar := by
  rcases hx with rfl | rfl <;> rfl

/-- Result of the lexer as a plain recursive function of a white-space free source. -/
def cons? (t : Token) (r : Except Err (List Token)) : Except Err (List Token) :=
  match r with
  | .error e => .error e
  | .ok ts => .ok (t :: ts)

theorem lex_word_ctrl (r : List Char) : lexLoop .start [] ('C' :: 't' :: 'r' :: 'l' :: r) =
    cons? (.key ctrlWord) (lexLoop .start [] r) := by
  simp only [lexLoop, adv0]
  rfl

theorem lex_word_space (r : List Char) : lexLoop .start [] ('S' :: 'p' :: 'a' :: 'c' :: 'e' :: r) =
    cons? (.key spaceWord) (lexLoop .start [] r) := by
  simp only [lexLoop, adv0]
  rfl

theorem charToken_ok {c : Char} {t : Token} (h : charToken c = .ok t) :
    (t = .dash ∧ c = '-') ∨
    (t = .key [c] ∧ (c ∈ ['\\', '[', ']', '@', '^', '_', '?'] ∨ (48 ≤ c.toNat ∧ c.toNat ≤ 57) ∨
      (97 ≤ c.toNat ∧ c.toNat ≤ 122))) := by
  unfold charToken at h
  split at h
  · cases h; left; exact ⟨rfl, by assumption⟩
  · split at h
    · cases h; right; refine ⟨rfl, .inl ?_⟩; simpa using by assumption
    · split at h
      · cases h; right; exact ⟨rfl, .inr (.inl (by assumption))⟩
      · split at h
        · cases h; right; exact ⟨rfl, .inr (.inr (by assumption))⟩
        · cases h

theorem not_ws_of_token {c : Char} {t : Token} (h : charToken c = .ok t) : isWhitespace c = false := by
  rcases charToken_ok h with ⟨-, rfl⟩ | ⟨-, h | h | h⟩
  · decide
  · simp only [List.mem_cons, List.not_mem_nil, or_false] at h
    rcases h with rfl | rfl | rfl | rfl | rfl | rfl | rfl <;> decide
  all_goals
    simp only [isWhitespace, Bool.or_eq_false_iff, Bool.and_eq_false_iff, decide_eq_false_iff_not, beq_eq_false_iff_ne]
    omega

theorem ne_word_of_token {c : Char} {t : Token} (h : charToken c = .ok t) : c ≠ 'C' ∧ c ≠ 'S' := by
  constructor <;> (rintro rfl; cases h)

theorem lex_char (c : Char) (t : Token) (r : List Char) (h : charToken c = .ok t) :
    lexLoop .start [] (c :: r) = cons? t (lexLoop .start [] r) := by
  obtain ⟨hC, hS⟩ := ne_word_of_token h
  simp only [lexLoop, adv0, not_ws_of_token h, hC, hS, if_false, List.nil_append, emitChars, h]
  rfl

/-- The beginnings of "Ctrl" and "Space" that are not complete words. -/
def wordPrefixes : List (List Char) :=
  [['C'], ['C', 't'], ['C', 't', 'r'], ['S'], ['S', 'p'], ['S', 'p', 'a'], ['S', 'p', 'a', 'c']]

/-- How a token is written. -/
def Token.text : Token → List Char
  | .key k => k
  | .dash => ['-']

/-- The tokens the lexer can produce. -/
inductive LexTok : Token → Prop
  | ctrl : LexTok (.key ctrlWord)
  | sym (s : Sym) : LexTok (.key s.text)
  | dash : LexTok .dash

theorem lexTok_char {c : Char} {t : Token} (h : charToken c = .ok t) : LexTok t ∧ t.text = [c] := by
  rcases charToken_ok h with ⟨rfl, rfl⟩ | ⟨rfl, h | h | h⟩
  · exact ⟨.dash, rfl⟩
  · exact ⟨.sym (.punct c h), rfl⟩
  · exact ⟨.sym (.digit c h), rfl⟩
  · exact ⟨.sym (.letter c h), rfl⟩

/-- Everything the lexer accepts is a sequence of token texts followed by nothing or by a cut off word. -/
theorem lex_ok_form (n : Nat) (src : List Char) (hn : src.length ≤ n) (hws : ∀ c ∈ src, isWhitespace c = false)
    (ts : List Token) (h : lexLoop .start [] src = .ok ts) :
    (∀ t ∈ ts, LexTok t) ∧ ∃ tail, (tail = [] ∨ tail ∈ wordPrefixes) ∧ src = ts.flatMap Token.text ++ tail := by
  induction n generalizing src ts with
  | zero =>
    have : src = [] := List.length_eq_zero_iff.mp (by omega)
    subst this
    cases h
    exact ⟨by simp, [], .inl rfl, rfl⟩
  | succ n ih =>
    -- a helper for the recursive step
    have step : ∀ (t : Token) (r : List Char), LexTok t → src = t.text ++ r → t.text ≠ [] →
        lexLoop .start [] src = cons? t (lexLoop .start [] r) →
        (∀ t ∈ ts, LexTok t) ∧ ∃ tail, (tail = [] ∨ tail ∈ wordPrefixes) ∧ src = ts.flatMap Token.text ++ tail := by
      intro t r ht hsrc hne he
      rw [h] at he
      cases hr : lexLoop .start [] r with
      | error e => rw [hr] at he; cases he
      | ok rs =>
        rw [hr] at he
        simp only [cons?, Except.ok.injEq] at he
        subst he
        have hlen : r.length ≤ n := by
          have := congrArg List.length hsrc
          have hp : 0 < t.text.length := List.length_pos_iff.mpr hne
          simp at this; omega
        obtain ⟨i1, tail, i2, i3⟩ := ih r hlen (fun c hc => hws c (by rw [hsrc]; simp [hc])) rs hr
        refine ⟨?_, tail, i2, ?_⟩
        · intro t' ht'
          rcases List.mem_cons.mp ht' with rfl | h'
          · exact ht
          · exact i1 _ h'
        · rw [hsrc, i3]; simp
    cases src with
    | nil => cases h; exact ⟨by simp, [], .inl rfl, rfl⟩
    | cons c cs =>
      have hwc := hws c (by simp)
      by_cases hC : c = 'C'
      · subst hC
        rcases cs with _ | ⟨c2, cs⟩
        · cases h; exact ⟨by simp, ['C'], .inr (by simp [wordPrefixes]), rfl⟩
        have hw2 := hws c2 (by simp)
        by_cases h2 : c2 = 't'
        rotate_left
        · simp [lexLoop, adv0, advC, h2, hw2, hwc, emit_bad 'C' _ (.inl rfl)] at h
        subst h2
        rcases cs with _ | ⟨c3, cs⟩
        · cases h; exact ⟨by simp, ['C', 't'], .inr (by simp [wordPrefixes]), rfl⟩
        have hw3 := hws c3 (by simp)
        by_cases h3 : c3 = 'r'
        rotate_left
        · simp [lexLoop, adv0, advC, advCt, h3, hw2, hw3, hwc, emit_bad 'C' _ (.inl rfl)] at h
        subst h3
        rcases cs with _ | ⟨c4, cs⟩
        · cases h; exact ⟨by simp, ['C', 't', 'r'], .inr (by simp [wordPrefixes]), rfl⟩
        have hw4 := hws c4 (by simp)
        by_cases h4 : c4 = 'l'
        rotate_left
        · simp [lexLoop, adv0, advC, advCt, advCtr, h4, hw2, hw3, hw4, hwc, emit_bad 'C' _ (.inl rfl)] at h
        subst h4
        exact step _ cs .ctrl rfl (by simp [Token.text, ctrlWord]) (lex_word_ctrl cs)
      by_cases hS : c = 'S'
      · subst hS
        rcases cs with _ | ⟨c2, cs⟩
        · cases h; exact ⟨by simp, ['S'], .inr (by simp [wordPrefixes]), rfl⟩
        have hw2 := hws c2 (by simp)
        by_cases h2 : c2 = 'p'
        rotate_left
        · simp [lexLoop, adv0, advS, h2, hw2, hwc, emit_bad 'S' _ (.inr rfl)] at h
        subst h2
        rcases cs with _ | ⟨c3, cs⟩
        · cases h; exact ⟨by simp, ['S', 'p'], .inr (by simp [wordPrefixes]), rfl⟩
        have hw3 := hws c3 (by simp)
        by_cases h3 : c3 = 'a'
        rotate_left
        · simp [lexLoop, adv0, advS, advSp, h3, hw2, hw3, hwc, emit_bad 'S' _ (.inr rfl)] at h
        subst h3
        rcases cs with _ | ⟨c4, cs⟩
        · cases h; exact ⟨by simp, ['S', 'p', 'a'], .inr (by simp [wordPrefixes]), rfl⟩
        have hw4 := hws c4 (by simp)
        by_cases h4 : c4 = 'c'
        rotate_left
        · simp [lexLoop, adv0, advS, advSp, advSpa, h4, hw2, hw3, hw4, hwc, emit_bad 'S' _ (.inr rfl)] at h
        subst h4
        rcases cs with _ | ⟨c5, cs⟩
        · cases h; exact ⟨by simp, ['S', 'p', 'a', 'c'], .inr (by simp [wordPrefixes]), rfl⟩
        have hw5 := hws c5 (by simp)
        by_cases h5 : c5 = 'e'
        rotate_left
        · simp [lexLoop, adv0, advS, advSp, advSpa, advSpac, h5, hw2, hw3, hw4, hw5, hwc,
            emit_bad 'S' _ (.inr rfl)] at h
        subst h5
        exact step _ cs (.sym .space) rfl (by simp [Token.text, Sym.text]) (lex_word_space cs)
      · cases hct : charToken c with
        | ok t =>
          obtain ⟨h1, h2⟩ := lexTok_char hct
          exact step t cs h1 (by rw [h2]; rfl) (by rw [h2]; simp) (lex_char c t cs hct)
        | error e =>
          simp [lexLoop, adv0, hC, hS, hwc, emitChars, hct] at h

/-- Token texts are read back. -/
theorem lex_token (t : Token) (ht : LexTok t) (r : List Char) :
    lexLoop .start [] (t.text ++ r) = cons? t (lexLoop .start [] r) := by
  cases ht with
  | ctrl => exact lex_word_ctrl r
  | dash => exact lex_char '-' .dash r rfl
  | sym s =>
    cases s with
    | space => exact lex_word_space r
    | punct c h =>
      refine lex_char c _ r ?_
      simp only [List.mem_cons, List.not_mem_nil, or_false] at h
      rcases h with rfl | rfl | rfl | rfl | rfl | rfl | rfl <;> rfl
    | digit c h =>
      refine lex_char c _ r ?_
      unfold charToken
      rw [if_neg (by rintro rfl; exact absurd h (by decide)), if_pos h]
      rw [if_neg (by rintro (rfl | rfl | rfl | rfl | rfl | rfl | rfl) <;> exact absurd h (by decide))]
      rfl
    | letter c h =>
      refine lex_char c _ r ?_
      unfold charToken
      rw [if_neg (by rintro rfl; exact absurd h (by decide)),
        if_neg (by rintro (rfl | rfl | rfl | rfl | rfl | rfl | rfl) <;> exact absurd h (by decide)),
        if_neg (by omega), if_pos h]
      rfl

theorem lex_tokens (ts : List Token) (hts : ∀ t ∈ ts, LexTok t) (r : List Char) (rs : List Token)
    (hr : lexLoop .start [] r = .ok rs) : lexLoop .start [] (ts.flatMap Token.text ++ r) = .ok (ts ++ rs) := by
  induction ts with
  | nil => simpa using hr
  | cons t ts ih =>
    rw [List.flatMap_cons, List.append_assoc, lex_token t (hts t (by simp)),
      ih (fun t' h => hts t' (List.mem_cons_of_mem _ h))]
    rfl

/-- Cut off words are silently dropped. -/
theorem lex_tail (tail : List Char) (h : tail = [] ∨ tail ∈ wordPrefixes) : lexLoop .start [] tail = .ok [] := by
  rcases h with rfl | h
  · rfl
  · simp only [wordPrefixes, List.mem_cons, List.not_mem_nil, or_false] at h
    rcases h with rfl | rfl | rfl | rfl | rfl | rfl | rfl <;> decide

end Shpool.Keys
