import Verif.Env.Source
/-!
# C101: which values survive being sourced, exactly

`Verif/Env/Source.lean` describes what a shell does with lines of characters that mean nothing to it.  Here the whole text is read the
way POSIX XCU 2.2, 2.3, 2.9.1 and 2.10.2 rule 7 have it: quotes and backslashes, which may span lines, blanks, comments, `;`, and operators.
Not described (the result is `none`): what depends on the state of the shell, that is `$`, `` ` `` and `~`, and a backslash at the very end
of the file, about which POSIX says nothing.
-/

namespace Shpool.Env

open Shpool.Str

/-! Specification: reading a text as a shell does. -/

/-- What a text does when it is sourced: it sets a variable, or something else (it runs a command, or is not a command at all). -/
inductive Eff where
  | sets (name value : Str)
  | other
  deriving DecidableEq

/-- A word: its characters after the removal of quotes, and whether each was quoted. -/
abbrev Word := List (Char × Bool)

/-- Where the reader is: outside of quotes, in `'…'`, in `"…"`, after a backslash, after a backslash in `"…"`, in a comment. -/
inductive Mode where
  | plain | single | double | esc | doubleEsc | comment

def isBlank (c : Char) : Bool := c == ' ' || c == '\t'
/-- Characters that are operators or begin one, besides `;`. -/
def isOp (c : Char) : Bool := c == '&' || c == '|' || c == '<' || c == '>' || c == '(' || c == ')'
def isQuote (c : Char) : Bool := c == '\'' || c == '"' || c == '\\'
/-- What these mean depends on more than the text. -/
def depends (c : Char) : Bool := c == '$' || c == '`' || c == '~'

/-- The characters of a word before its first `=` make a name. -/
def nameOk : Str → Bool
  | [] => false
  | c :: r => (c.isAlpha || c == '_') && r.all fun d => d.isAlphanum || d == '_'

/-- Is the word an assignment: a name and a `=`, none of it quoted? -/
def assignment (w : Word) : Option (Str × Str) :=
  match w.dropWhile (fun p => p.1 != '=') with
  | ('=', false) :: v =>
    let n := w.takeWhile (fun p => p.1 != '=')
    if n.all (fun p => !p.2) && nameOk (n.map (·.1)) then some (n.map (·.1), v.map (·.1)) else none
  | _ => none

/-- A command consisting of assignments sets the variables; any other does something else. -/
def command (ws : List Word) : List Eff :=
  match ws.mapM assignment with
  | some as => as.map fun a => .sets a.1 a.2
  | none => [.other]

/-- The words so far and the one that ends here. -/
def ended (ws : List Word) : Option Word → List Word
  | none => ws
  | some w => ws ++ [w]

/-- One more character of the word. -/
def more (w : Option Word) (c : Char) (quoted : Bool) : Option Word := some ((w.getD []) ++ [(c, quoted)])

/-- Read a text, with the words of the command so far and the word so far, and tell what it does. -/
def sourced (m : Mode) (ws : List Word) (w : Option Word) : Str → Option (List Eff)
  | [] =>
    match m with
    | .plain | .comment => some (command (ended ws w))
    | .esc => none
    | _ => some [.other]
  | c :: t =>
    match m with
    | .comment => if c = '\n' then (command (ended ws w) ++ ·) <$> sourced .plain [] none t else sourced .comment ws w t
    | .single => if c = '\'' then sourced .plain ws w t else sourced .single ws (more w c true) t
    | .esc => if c = '\n' then sourced .plain ws w t else sourced .plain ws (more w c true) t
    | .double =>
      if c = '"' then sourced .plain ws w t
      else if c = '\\' then sourced .doubleEsc ws w t
      else if c = '$' ∨ c = '`' then none
      else sourced .double ws (more w c true) t
    | .doubleEsc =>
      if c = '\n' then sourced .double ws w t
      else if c = '"' ∨ c = '\\' ∨ c = '$' ∨ c = '`' then sourced .double ws (more w c true) t
      else sourced .double ws (more (more w '\\' true) c true) t
    | .plain =>
      if c = '\n' then (command (ended ws w) ++ ·) <$> sourced .plain [] none t
      else if c = ';' then
        if ended ws w = [] then some [.other] else (command (ended ws w) ++ ·) <$> sourced .plain [] none t
      else if isBlank c then sourced .plain (ended ws w) none t
      else if isOp c then some (command (ended ws w) ++ [.other])
      else if depends c then none
      else if c = '\'' then sourced .single ws (some (w.getD [])) t
      else if c = '"' then sourced .double ws (some (w.getD [])) t
      else if c = '\\' then sourced .esc ws w t
      else if c = '#' ∧ w = none then sourced .comment ws w t
      else sourced .plain ws (more w c false) t

/-- What sourcing a text does. -/
def source (t : Str) : Option (List Eff) := sourced .plain [] none t

/-- The reader at work. -/
example : source "A=x B='y z'; C=\"a'b\"\\ c # D=1\nE=\nF=1 ls".toList =
    some [.sets ['A'] ['x'], .sets ['B'] "y z".toList, .sets ['C'] "a'b c".toList, .sets ['E'] [], .other] := by decide +kernel

example : source "A='x\nB=y'\nC=x;;".toList = some [.sets ['A'] "x\nB=y".toList, .sets ['C'] ['x'], .other] := by decide +kernel

/-- Characters that mean something to the shell outside of quotes. -/
def isSpecial (c : Char) : Bool := c == '\n' || c == ';' || isBlank c || isOp c || isQuote c || depends c

/-! Counting: what the reader makes of a text is no longer than the text. -/

def Eff.len : Eff → Nat
  | .sets n v => n.length + 1 + v.length
  | .other => 0

def total (ds : List Eff) : Nat := (ds.map Eff.len).sum
def wlen (ws : List Word) : Nat := (ws.map List.length).sum
def olen : Option Word → Nat
  | none => 0
  | some w => w.length

theorem total_append (a b : List Eff) : total (a ++ b) = total a + total b := by simp [total]

theorem assignment_len {w : Word} {n v : Str} (h : assignment w = some (n, v)) : n.length + 1 + v.length = w.length := by
  have hw := congrArg List.length (List.takeWhile_append_dropWhile (p := fun p : Char × Bool => p.1 != '=') (l := w))
  unfold assignment at h
  split at h
  · rename_i v' hd
    dsimp only at h
    split at h
    · cases h
      rw [List.length_append, hd] at hw
      simp at hw ⊢
      omega
    · cases h
  · cases h

theorem mapM_cons_some {α β} {f : α → Option β} {a : α} {l : List α} {r : List β} (h : (a :: l).mapM f = some r) :
    ∃ b bs, f a = some b ∧ l.mapM f = some bs ∧ r = b :: bs := by
  simp only [List.mapM_cons, Option.pure_def, Option.bind_eq_bind] at h
  cases hf : f a with
  | none => rw [hf] at h; cases h
  | some b =>
    cases hl : l.mapM f with
    | none => rw [hf, hl] at h; cases h
    | some bs => rw [hf, hl] at h; cases h; exact ⟨b, bs, rfl, rfl, rfl⟩

/-- A command that only sets variables sets one for each word, of the same length. -/
theorem command_len {ws : List Word} (h : .other ∉ command ws) : total (command ws) = wlen ws ∧ (command ws).length = ws.length := by
  unfold command at h ⊢
  split
  · rename_i as ha
    clear h
    induction ws generalizing as with
    | nil => simp at ha; subst ha; simp [total, wlen]
    | cons w ws ih =>
      obtain ⟨⟨n, v⟩, bs, hb, hbs, rfl⟩ := mapM_cons_some ha
      obtain ⟨h1, h2⟩ := ih bs hbs
      have h3 := assignment_len hb
      simp only [total, wlen, List.map_cons, List.sum_cons, Eff.len, List.length_cons, List.length_map] at h1 h2 ⊢
      omega
  · rename_i hn
    rw [hn] at h
    simp at h

theorem wlen_ended (ws : List Word) (w : Option Word) : wlen (ended ws w) = wlen ws + olen w := by
  cases w <;> simp [ended, wlen, olen]

theorem len_ended (ws : List Word) (w : Option Word) : (ended ws w).length = ws.length + (if w.isSome then 1 else 0) := by
  cases w <;> simp [ended]

theorem olen_more (w : Option Word) (c : Char) (q : Bool) : olen (more w c q) = olen w + 1 := by
  cases w <;> simp [more, olen]

theorem isSome_more (w : Option Word) (c : Char) (q : Bool) : (more w c q).isSome = true := rfl

theorem olen_getD (w : Option Word) : olen (some (w.getD [])) = olen w := by cases w <;> simp [olen]

/-- A text without a quote, 0; with one, 1: the first one is removed. -/
def quo (m : Mode) (t : Str) : Nat :=
  match m with
  | .plain => if t.any isQuote then 1 else 0
  | _ => 0

theorem quo_cons {c : Char} {t : Str} (h : isQuote c = false) : quo .plain (c :: t) = quo .plain t := by
  simp [quo, h]

theorem quo_le (m : Mode) (t : Str) : quo m t ≤ 1 := by
  unfold quo
  split
  · split <;> omega
  · omega

/-- A backslash in `"…"` may still turn out to stand for itself. -/
def pend : Mode → Nat
  | .doubleEsc => 1
  | _ => 0

/-- Every variable set but the last costs a separator, and a quote is never part of what is set. -/
theorem sourced_len (t : Str) : ∀ (m : Mode) (ws : List Word) (w : Option Word) (ds : List Eff), sourced m ws w t = some ds → .other ∉ ds →
    (match m with | .single | .double | .doubleEsc => w.isSome = true | _ => True) →
    total ds + ds.length + quo m t ≤ t.length + 1 + wlen ws + ws.length + olen w + pend m := by
  have p0 : pend .plain = 0 ∧ pend .single = 0 ∧ pend .double = 0 ∧ pend .esc = 0 ∧ pend .comment = 0 ∧ pend .doubleEsc = 1 :=
    ⟨rfl, rfl, rfl, rfl, rfl, rfl⟩
  induction t with
  | nil =>
    intro m ws w ds h ho hm
    have key : ds = command (ended ws w) → total ds + ds.length ≤ 1 + wlen ws + ws.length + olen w := by
      rintro rfl
      have ⟨h1, h2⟩ := command_len ho
      rw [h1, h2, wlen_ended, len_ended]
      split <;> omega
    cases m <;> simp only [sourced, Option.some.injEq, reduceCtorEq] at h
    · have := key h.symm; simp [quo]; omega
    · subst h; simp at ho
    · subst h; simp at ho
    · subst h; simp at ho
    · have := key h.symm; simp [quo]; omega
  | cons c t ih =>
    intro m ws w ds h ho hm
    have nl : (command (ended ws w) ++ ·) <$> sourced .plain [] none t = some ds →
        total ds + ds.length + quo .plain t ≤ (c :: t).length + 1 + wlen ws + ws.length + olen w := by
      intro h
      cases hr : sourced .plain [] none t with
      | none => rw [hr] at h; cases h
      | some r =>
        rw [hr] at h
        cases h
        have h1 : .other ∉ command (ended ws w) := fun e => ho (List.mem_append_left _ e)
        have h2 : .other ∉ r := fun e => ho (List.mem_append_right _ e)
        have h3 := ih .plain [] none r hr h2 trivial
        have ⟨h4, h5⟩ := command_len h1
        have h6 : wlen [] = 0 := rfl
        have h7 : olen none = 0 := rfl
        have h8 : ([] : List Word).length = 0 := rfl
        rw [h6, h7, h8] at h3
        simp only [total_append, List.length_append, List.length_cons, h4, h5, wlen_ended, len_ended]
        split <;> omega
    have hq := quo_le .plain t
    have hl : (c :: t).length = t.length + 1 := rfl
    have nq : isQuote c = false → quo .plain (c :: t) = quo .plain t := quo_cons
    have q1 := quo_le .plain (c :: t)
    cases m with
    | plain =>
      simp only [sourced] at h
      split at h
      · rename_i e; subst e
        rw [nq (by decide)]
        have := nl h; omega
      · split at h
        · rename_i e; subst e
          rw [nq (by decide)]
          split at h
          · cases h; simp at ho
          · have := nl h; omega
        · split at h
          · rename_i e
            rw [nq (by simp only [isBlank, Bool.or_eq_true, beq_iff_eq] at e; rcases e with rfl | rfl <;> decide)]
            have := ih .plain _ none ds h ho trivial
            rw [wlen_ended, len_ended] at this
            have h7 : olen none = 0 := rfl
            rw [h7] at this
            split at this <;> omega
          · split at h
            · cases h; simp at ho
            · split at h
              · cases h
              · split at h
                · have := ih .single ws _ ds h ho rfl
                  rw [olen_getD] at this
                  omega
                · split at h
                  · have := ih .double ws _ ds h ho rfl
                    rw [olen_getD] at this
                    omega
                  · split at h
                    · have := ih .esc ws _ ds h ho trivial
                      omega
                    · split at h
                      · have := ih .comment ws _ ds h ho trivial
                        omega
                      · rename_i e1 e2 e3 e4
                        have := ih .plain ws _ ds h ho trivial
                        rw [olen_more] at this
                        rw [nq (by simp [isQuote, *])]
                        omega
    | single =>
      simp only [sourced] at h
      simp only [quo]
      split at h
      · have := ih .plain ws w ds h ho trivial; omega
      · have := ih .single ws _ ds h ho rfl; rw [olen_more] at this; omega
    | double =>
      simp only [sourced] at h
      simp only [quo]
      split at h
      · have := ih .plain ws w ds h ho trivial; omega
      · split at h
        · have := ih .doubleEsc ws w ds h ho hm; omega
        · split at h
          · cases h
          · have := ih .double ws _ ds h ho rfl; rw [olen_more] at this; omega
    | esc =>
      simp only [sourced] at h
      simp only [quo]
      split at h
      · have := ih .plain ws w ds h ho trivial; omega
      · have := ih .plain ws _ ds h ho trivial; rw [olen_more] at this; omega
    | doubleEsc =>
      simp only [sourced] at h
      simp only [quo]
      split at h
      · have := ih .double ws w ds h ho hm; omega
      · split at h
        · have := ih .double ws _ ds h ho rfl; rw [olen_more] at this; omega
        · have := ih .double ws _ ds h ho rfl; rw [olen_more, olen_more] at this; omega
    | comment =>
      simp only [sourced] at h
      simp only [quo]
      split at h
      · have := nl h; omega
      · have := ih .comment ws w ds h ho trivial; omega

/-- Without quotes, no special character is part of what is set. -/
theorem sourced_special (t : Str) : ∀ (m : Mode) (ws : List Word) (w : Option Word) (ds : List Eff), m = .plain ∨ m = .comment →
    (∀ c ∈ t, isQuote c = false) → sourced m ws w t = some ds → .other ∉ ds →
    total ds + t.countP isSpecial ≤ t.length + wlen ws + olen w := by
  induction t with
  | nil =>
    intro m ws w ds hm _ h ho
    have h : some (command (ended ws w)) = some ds := by rcases hm with rfl | rfl <;> exact h
    cases h
    rw [(command_len ho).1, wlen_ended]
    simp
  | cons c t ih =>
    intro m ws w ds hm hq h ho
    have hq' : ∀ d ∈ t, isQuote d = false := fun d hd => hq d (List.mem_cons_of_mem _ hd)
    have hc := hq c List.mem_cons_self
    have ih := fun m ws w ds hm => ih m ws w ds hm hq'
    have cnt : (c :: t).countP isSpecial ≤ t.countP isSpecial + 1 := by rw [List.countP_cons]; split <;> omega
    have hl : (c :: t).length = t.length + 1 := rfl
    have h7 : olen none = 0 := rfl
    have nl : (command (ended ws w) ++ ·) <$> sourced .plain [] none t = some ds →
        total ds + (c :: t).countP isSpecial ≤ (c :: t).length + wlen ws + olen w := by
      intro h
      cases hr : sourced .plain [] none t with
      | none => rw [hr] at h; cases h
      | some r =>
        rw [hr] at h
        cases h
        have h1 : .other ∉ command (ended ws w) := fun e => ho (List.mem_append_left _ e)
        have h2 : .other ∉ r := fun e => ho (List.mem_append_right _ e)
        have h3 := ih .plain [] none r (.inl rfl) hr h2
        have h6 : wlen [] = 0 := rfl
        rw [h6, h7] at h3
        rw [total_append, (command_len h1).1, wlen_ended]
        omega
    rcases hm with rfl | rfl
    · simp only [sourced] at h
      split at h
      · exact nl h
      · split at h
        · split at h
          · cases h; simp at ho
          · exact nl h
        · split at h
          · have := ih .plain _ none ds (.inl rfl) h ho
            rw [wlen_ended, h7] at this
            omega
          · split at h
            · cases h; simp at ho
            · split at h
              · cases h
              · split at h
                · rename_i e; subst e; exact absurd hc (by decide)
                · split at h
                  · rename_i e; subst e; exact absurd hc (by decide)
                  · split at h
                    · rename_i e; subst e; exact absurd hc (by decide)
                    · split at h
                      · have := ih .comment ws _ ds (.inr rfl) h ho
                        omega
                      · have := ih .plain ws _ ds (.inl rfl) h ho
                        rw [olen_more] at this
                        have hs : isSpecial c = false := by simp_all [isSpecial]
                        rw [List.countP_cons, hs]
                        simp only [Bool.false_eq_true, if_false]
                        omega
    · simp only [sourced] at h
      split at h
      · exact nl h
      · have := ih .comment ws w ds (.inr rfl) h ho; omega

/-! Reading characters that are not special. -/

theorem plain_char {c : Char} (hc : isSpecial c = false) {w : Option Word} (hw : c = '#' → w ≠ none) (ws : List Word) (t : Str) :
    sourced .plain ws w (c :: t) = sourced .plain ws (more w c false) t := by
  simp only [isSpecial, Bool.or_eq_false_iff, beq_eq_false_iff_ne, isQuote] at hc
  obtain ⟨⟨⟨⟨⟨h1, h2⟩, h3⟩, h4⟩, ⟨h5, h6⟩, h7⟩, h8⟩ := hc
  conv => lhs; unfold sourced
  simp only [h1, h2, h3, h4, h5, h6, h7, h8, if_false, Bool.false_eq_true]
  rw [if_neg]
  rintro ⟨e1, e2⟩
  exact hw e1 e2

theorem plain_chars (v : Str) (hv : ∀ c ∈ v, isSpecial c = false) (ws : List Word) (w : Word) (t : Str) :
    sourced .plain ws (some w) (v ++ t) = sourced .plain ws (some (w ++ v.map fun c => (c, false))) t := by
  induction v generalizing w with
  | nil => simp
  | cons c v ih =>
    rw [List.cons_append, plain_char (hv c List.mem_cons_self) (by simp)]
    show sourced .plain ws (some (w ++ [(c, false)])) (v ++ t) = _
    rw [ih (fun d hd => hv d (List.mem_cons_of_mem _ hd))]
    simp

theorem ident_facts {n : Str} (h : Ident n) : nameOk n = true ∧ (∀ c ∈ n, isSpecial c = false ∧ c ≠ '=') ∧ ∃ c r, n = c :: r ∧ c ≠ '#' := by
  have key : ∀ d : Char, (d.isAlphanum = true ∨ d = '_') → isSpecial d = false ∧ d ≠ '=' ∧ d ≠ '#' := by
    intro d hd
    have hno : ∀ e : Char, e.isAlphanum = false → e ≠ '_' → d ≠ e := by
      rintro e h1 h2 rfl
      rcases hd with h | h
      · rw [h1] at h; cases h
      · exact h2 h
    refine ⟨?_, hno _ (by decide) (by decide), hno _ (by decide) (by decide)⟩
    simp only [isSpecial, isBlank, isOp, isQuote, depends, Bool.or_eq_false_iff, beq_eq_false_iff_ne]
    refine ⟨⟨⟨⟨⟨?_, ?_⟩, ?_, ?_⟩, ⟨⟨⟨⟨?_, ?_⟩, ?_⟩, ?_⟩, ?_⟩, ?_⟩, ⟨?_, ?_⟩, ?_⟩, ⟨?_, ?_⟩, ?_⟩ <;> exact hno _ (by decide) (by decide)
  obtain ⟨c, r, rfl, hc, hr⟩ := h
  have hc' : c.isAlphanum = true ∨ c = '_' := hc.imp (fun e => by simp [Char.isAlphanum, e]) id
  refine ⟨?_, ?_, c, r, rfl, (key c hc').2.2⟩
  · simp only [nameOk, Bool.and_eq_true, Bool.or_eq_true, beq_iff_eq, List.all_eq_true]
    exact ⟨hc, hr⟩
  · intro d hd
    rcases List.mem_cons.mp hd with rfl | hd
    · exact ⟨(key _ hc').1, (key _ hc').2.1⟩
    · exact ⟨(key _ (hr _ hd)).1, (key _ (hr _ hd)).2.1⟩

theorem assignment_plain {n v : Str} (hn : nameOk n = true) (he : '=' ∉ n) :
    assignment ((n ++ '=' :: v).map fun c => (c, false)) = some (n, v) := by
  have hp : ∀ x ∈ n.map (fun c => (c, false)), (x.1 != '=') = true := by
    intro x hx
    obtain ⟨c, hc, rfl⟩ := List.mem_map.mp hx
    simp only [bne_iff_ne, ne_eq]
    rintro rfl
    exact he hc
  have hd : ((n ++ '=' :: v).map fun c => (c, false)).dropWhile (fun p => p.1 != '=') = ('=', false) :: v.map fun c => (c, false) := by
    rw [List.map_append, List.dropWhile_append_of_pos hp]
    simp
  have ht : ((n ++ '=' :: v).map fun c => (c, false)).takeWhile (fun p => p.1 != '=') = n.map fun c => (c, false) := by
    rw [List.map_append, List.takeWhile_append_of_pos hp]
    simp
  unfold assignment
  rw [hd]
  dsimp only
  rw [ht]
  simp [hn, Function.comp_def]

theorem line_read {n v : Str} (hn : Ident n) (hv : ∀ c ∈ v, isSpecial c = false) (t : Str) :
    sourced .plain [] none (n ++ '=' :: v ++ t) = sourced .plain [] (some ((n ++ '=' :: v).map fun c => (c, false))) t := by
  obtain ⟨h1, h2, c, r, rfl, h3⟩ := ident_facts hn
  show sourced .plain [] none (c :: ((r ++ '=' :: v) ++ t)) = _
  rw [plain_char (h2 c List.mem_cons_self).1 (fun e => absurd e h3)]
  show sourced .plain [] (some [(c, false)]) ((r ++ '=' :: v) ++ t) = _
  rw [plain_chars]
  · rfl
  · intro d hd
    rcases List.mem_append.mp hd with hd | hd
    · exact (h2 d (List.mem_cons_of_mem _ hd)).1
    · rcases List.mem_cons.mp hd with rfl | hd
      · decide
      · exact hv d hd

theorem source_plain (l : Pairs) (hk : ∀ p ∈ l, Ident p.1) (hv : ∀ p ∈ l, ∀ c ∈ p.2, isSpecial c = false) :
    source (forwardEnvText l) = some (l.map fun p => .sets p.1 p.2) := by
  unfold source forwardEnvText
  induction l with
  | nil => rfl
  | cons p l ih =>
    have hf := ident_facts (hk p List.mem_cons_self)
    have hcmd : command [(p.1 ++ '=' :: p.2).map fun c => (c, false)] = [.sets p.1 p.2] := by
      unfold command
      have : [(p.1 ++ '=' :: p.2).map fun c => (c, false)].mapM assignment = some [(p.1, p.2)] := by
        rw [List.mapM_cons, assignment_plain hf.1 (fun h => (hf.2.1 _ h).2 rfl)]
        rfl
      rw [this]
      rfl
    have hl := fun t => line_read (hk p List.mem_cons_self) (hv p List.mem_cons_self) t
    cases l with
    | nil =>
      have := hl []
      rw [List.append_nil] at this
      show sourced .plain [] none (p.1 ++ '=' :: p.2) = _
      rw [this]
      show some (command [_]) = _
      rw [hcmd]
      rfl
    | cons q l =>
      show sourced .plain [] none ((p.1 ++ '=' :: p.2) ++ '\n' :: joinLines ((q :: l).map fun p => p.1 ++ '=' :: p.2)) = _
      rw [hl]
      conv => lhs; unfold sourced
      simp only [if_true]
      rw [ih (fun p hp => hk p (List.mem_cons_of_mem _ hp)) (fun p hp => hv p (List.mem_cons_of_mem _ hp))]
      show some (command [_] ++ _) = _
      rw [hcmd]
      rfl

/-! The text of the file, counted. -/

theorem text_len (l : Pairs) : (forwardEnvText l).length + 1 = total (l.map fun p => .sets p.1 p.2) + l.length + (if l = [] then 1 else 0) := by
  unfold forwardEnvText
  induction l with
  | nil => rfl
  | cons p l ih =>
    cases l with
    | nil => simp [joinLines, total, Eff.len]; omega
    | cons q l =>
      simp only [List.map_cons, joinLines, total, Eff.len, List.sum_cons, List.length_append, List.length_cons, reduceCtorEq,
        if_false] at ih ⊢
      omega

theorem text_special (l : Pairs) (hne : l ≠ []) :
    l.length + (l.map fun p => p.2.countP isSpecial).sum ≤ (forwardEnvText l).countP isSpecial + 1 := by
  unfold forwardEnvText
  induction l with
  | nil => exact absurd rfl hne
  | cons p l ih =>
    cases l with
    | nil =>
      simp only [List.map_cons, List.map_nil, joinLines, List.length_cons, List.length_nil, List.sum_cons, List.sum_nil, List.countP_append,
        List.countP_cons]
      omega
    | cons q l =>
      have := ih (by simp)
      have hn : isSpecial '\n' = true := by decide
      simp only [List.map_cons, joinLines, List.sum_cons, List.length_cons, List.countP_append, List.countP_cons, hn, if_true] at this ⊢
      omega

theorem mem_text {l : Pairs} {p : Str × Str} (hp : p ∈ l) {c : Char} (hc : c ∈ p.2) : c ∈ forwardEnvText l := by
  unfold forwardEnvText
  induction l with
  | nil => cases hp
  | cons q l ih =>
    have : c ∈ q.1 ++ '=' :: q.2 ∨ c ∈ joinLines (l.map fun p => p.1 ++ '=' :: p.2) := by
      rcases List.mem_cons.mp hp with rfl | hp
      · exact .inl (List.mem_append_right _ (List.mem_cons_of_mem _ hc))
      · exact .inr (ih hp)
    cases l with
    | nil =>
      rcases this with h | h
      · exact h
      · cases h
    | cons r l =>
      show c ∈ (q.1 ++ '=' :: q.2) ++ '\n' :: _
      rcases this with h | h
      · exact List.mem_append_left _ h
      · exact List.mem_append_right _ (List.mem_cons_of_mem _ h)

/-- **C101 (exactly)**: sourcing `forward.env` sets the forwarded variables to their values and does nothing else exactly if no value has a
blank, a tab, a newline, a quote, a backslash, a semicolon, one of `& | < > ( )` or one of the characters `` $ ` ~ `` whose meaning depends on
the shell: however such characters in one value may work together with those in others, the outcome is not the right one. -/
theorem C101_exact (l : Pairs) (hk : ∀ p ∈ l, Ident p.1) :
    source (forwardEnvText l) = some (l.map fun p => .sets p.1 p.2) ↔
      ∀ p ∈ l, ∀ c ∈ p.2, c ∉ [' ', '\t', '\n', '\'', '"', '\\', ';', '&', '|', '<', '>', '(', ')', '$', '`', '~'] := by
  have hchar : ∀ c, isSpecial c = false ↔ c ∉ [' ', '\t', '\n', '\'', '"', '\\', ';', '&', '|', '<', '>', '(', ')', '$', '`', '~'] := by
    intro c
    simp only [isSpecial, isBlank, isOp, isQuote, depends, Bool.or_eq_false_iff, beq_eq_false_iff_ne, List.mem_cons, List.not_mem_nil, or_false,
      not_or, ne_eq]
    constructor <;> (intro h; simp only [h, not_false_eq_true, and_self])
  simp only [← hchar]
  constructor
  · intro h p hp c hc
    have ho : Eff.other ∉ l.map fun p => Eff.sets p.1 p.2 := by simp
    have hne : l ≠ [] := by rintro rfl; cases hp
    have h1 := sourced_len _ _ _ _ _ h ho trivial
    have h2 := text_len l
    have e1 : wlen [] = 0 := rfl
    have e2 : olen none = 0 := rfl
    have e3 : ([] : List Word).length = 0 := rfl
    have e4 : pend .plain = 0 := rfl
    rw [if_neg hne] at h2
    rw [List.length_map, e1, e2, e3, e4] at h1
    have hq : ∀ c ∈ forwardEnvText l, isQuote c = false := by
      have h3 : quo .plain (forwardEnvText l) = 0 := by omega
      simp only [quo] at h3
      split at h3
      · cases h3
      · rename_i h4
        simpa using h4
    have h5 := sourced_special _ _ _ _ _ (.inl rfl) hq h ho
    have h6 := text_special l hne
    rw [e1, e2] at h5
    have h7 : (l.map fun p => p.2.countP isSpecial).sum = 0 := by omega
    have h8 : p.2.countP isSpecial = 0 := by
      have := List.sum_eq_zero_iff_forall_eq_nat.mp h7 _ (List.mem_map_of_mem (f := fun p : Str × Str => p.2.countP isSpecial) hp)
      exact this
    have := (List.countP_eq_zero.mp h8) c hc
    simpa using this
  · exact source_plain l hk

/-- So a value with a blank, or one that ends a quote another has begun, is lost, and one with neither is kept. -/
example : source (forwardEnvText [(['A'], "b reboot".toList)]) = some [.other] ∧
    source (forwardEnvText [(['A'], "it's".toList), (['B'], "isn't".toList)]) = some [.sets ['A'] "its\nB=isnt".toList] ∧
    source (forwardEnvText [(['A'], "/tmp/x:0".toList), (['B'], [])]) = some [.sets ['A'] "/tmp/x:0".toList, .sets ['B'] []] := by
  decide +kernel

/-! The repair: write each value in single quotes, a single quote in it as `'\''`. -/

def quoted : Str → Str
  | [] => ['\'']
  | c :: v => if c = '\'' then '\'' :: '\\' :: '\'' :: '\'' :: quoted v else c :: quoted v

def quotedText (l : Pairs) : Str := joinLines (l.map fun p => p.1 ++ '=' :: '\'' :: quoted p.2)

theorem quoted_read (v : Str) (ws : List Word) (w : Word) (t : Str) :
    sourced .single ws (some w) (quoted v ++ t) = sourced .plain ws (some (w ++ v.map fun c => (c, true))) t := by
  induction v generalizing w with
  | nil => simp [quoted, sourced]
  | cons c v ih =>
    unfold quoted
    split
    · rename_i e
      subst e
      have h : sourced .single ws (some w) ('\'' :: '\\' :: '\'' :: '\'' :: quoted v ++ t) =
          sourced .single ws (some (w ++ [('\'', true)])) (quoted v ++ t) := by
        simp only [List.cons_append, sourced]
        simp only [reduceCtorEq, if_true, if_false, Char.reduceEq, isBlank, isOp, depends, Char.reduceBEq, Bool.or_self, Bool.false_eq_true, more,
          Option.getD_some]
      rw [h, ih]
      simp
    · rename_i e
      have h : sourced .single ws (some w) (c :: quoted v ++ t) = sourced .single ws (some (w ++ [(c, true)])) (quoted v ++ t) := by
        simp only [List.cons_append, sourced, if_neg e, more, Option.getD_some]
      rw [h, ih]
      simp

theorem assignment_quoted {n v : Str} (hn : nameOk n = true) (he : '=' ∉ n) :
    assignment ((n ++ ['=']).map (fun c => (c, false)) ++ v.map fun c => (c, true)) = some (n, v) := by
  have hp : ∀ x ∈ n.map (fun c => (c, false)), (x.1 != '=') = true := by
    intro x hx
    obtain ⟨c, hc, rfl⟩ := List.mem_map.mp hx
    simp only [bne_iff_ne, ne_eq]
    rintro rfl
    exact he hc
  have hd : ((n ++ ['=']).map (fun c => (c, false)) ++ v.map fun c => (c, true)).dropWhile (fun p => p.1 != '=') =
      ('=', false) :: v.map fun c => (c, true) := by
    rw [List.map_append, List.append_assoc, List.dropWhile_append_of_pos hp]
    simp
  have ht : ((n ++ ['=']).map (fun c => (c, false)) ++ v.map fun c => (c, true)).takeWhile (fun p => p.1 != '=') =
      n.map fun c => (c, false) := by
    rw [List.map_append, List.append_assoc, List.takeWhile_append_of_pos hp]
    simp
  unfold assignment
  rw [hd]
  dsimp only
  rw [ht]
  simp [hn, Function.comp_def]

/-- **C101 (repaired)**: with the values in single quotes every value is kept, whatever is in it. -/
theorem C101_repaired (l : Pairs) (hk : ∀ p ∈ l, Ident p.1) : source (quotedText l) = some (l.map fun p => .sets p.1 p.2) := by
  unfold source quotedText
  induction l with
  | nil => rfl
  | cons p l ih =>
    have hf := ident_facts (hk p List.mem_cons_self)
    have hcmd : command [(p.1 ++ ['=']).map (fun c => (c, false)) ++ p.2.map fun c => (c, true)] = [.sets p.1 p.2] := by
      unfold command
      have : [(p.1 ++ ['=']).map (fun c => (c, false)) ++ p.2.map fun c => (c, true)].mapM assignment = some [(p.1, p.2)] := by
        rw [List.mapM_cons, assignment_quoted hf.1 (fun h => (hf.2.1 _ h).2 rfl)]
        rfl
      rw [this]
      rfl
    have hl : ∀ t, sourced .plain [] none (p.1 ++ '=' :: '\'' :: quoted p.2 ++ t) =
        sourced .plain [] (some ((p.1 ++ ['=']).map (fun c => (c, false)) ++ p.2.map fun c => (c, true))) t := by
      intro t
      have e : p.1 ++ '=' :: '\'' :: quoted p.2 ++ t = p.1 ++ '=' :: [] ++ ('\'' :: (quoted p.2 ++ t)) := by simp
      rw [e, line_read (hk p List.mem_cons_self) (by simp)]
      have h : ∀ w t, sourced .plain [] (some w) ('\'' :: t) = sourced .single [] (some w) t := by
        intro w t
        simp only [sourced]
        simp only [reduceCtorEq, if_true, if_false, Char.reduceEq, isBlank, isOp, depends, Char.reduceBEq, Bool.or_self, Bool.false_eq_true,
          Option.getD_some]
      rw [h, quoted_read]
    cases l with
    | nil =>
      have := hl []
      rw [List.append_nil] at this
      show sourced .plain [] none (p.1 ++ '=' :: '\'' :: quoted p.2) = _
      rw [this]
      show some (command [_]) = _
      rw [hcmd]
      rfl
    | cons q l =>
      show sourced .plain [] none ((p.1 ++ '=' :: '\'' :: quoted p.2) ++ '\n' :: joinLines ((q :: l).map fun p => p.1 ++ '=' :: '\'' :: quoted p.2)) = _
      rw [hl]
      conv => lhs; unfold sourced
      simp only [if_true]
      rw [ih (fun p hp => hk p (List.mem_cons_of_mem _ hp))]
      show some (command [_] ++ _) = _
      rw [hcmd]
      rfl

example : String.ofList (quotedText [(['A'], "it's $x".toList), (['B'], "y\nz".toList)]) = "A='it'\\''s $x'\nB='y\nz'" := by decide +kernel

end Shpool.Env
