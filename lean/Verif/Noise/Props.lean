import Verif.Noise.Model
import Verif.Inject.Props
import Verif.Env.Props
import Verif.Sentinel.Props
/-!
# C150: setting up the prompt is not seen
-/

namespace Shpool.Noise

open Inject (script sentinelCmd expandPrefix promptScript sniff defaultPrefix flagVar commandWords isMeta Known)
open Sentinel (shownOf promptSentinel startupSentinel startupSeen Scanner)

/-- The marker that ends the hiding, and the one that tells that the shell is there. -/
def marker : Str := "SHPOOL_PROMPT_SETUP_SENTINEL".toList
def startMarker : Str := "SHPOOL_STARTUP_SENTINEL".toList

/-! ## What the marker commands print -/

/-- C150: `shpool daemon` prints a marker, and does nothing else, exactly if it was asked to; other commands never do. -/
theorem C150_prologue (daemon : Bool) (flag : Option Str) (t : Str) : prologue daemon flag = some t ↔
    daemon = true ∧ (flag = some "prompt".toList ∧ t = marker ++ ['\n'] ∨ flag = some "startup".toList ∧ t = startMarker ++ ['\n']) := by
  have e1 : "SHPOOL_PROMPT_SETUP_SENTINEL\n".toList = marker ++ ['\n'] := by decide +kernel
  have e2 : "SHPOOL_STARTUP_SENTINEL\n".toList = startMarker ++ ['\n'] := by decide +kernel
  have e3 : "startup".toList ≠ "prompt".toList := by decide +kernel
  unfold prologue
  rw [e1, e2]
  generalize marker ++ ['\n'] = m1
  generalize startMarker ++ ['\n'] = m2
  revert e3
  generalize "prompt".toList = p
  generalize "startup".toList = q
  intro e3
  cases daemon with
  | false => simp
  | true =>
    cases flag with
    | none => simp
    | some v =>
      by_cases h1 : v = p
      · subst h1; simp [Ne.symm e3]; exact eq_comm
      · by_cases h2 : v = q
        · subst h2; simp [e3]; exact eq_comm
        · simp [h1, h2]

example : prologue true (some "prompt".toList) = some (marker ++ ['\n']) := by decide +kernel
example : prologue true (some "1".toList) = none ∧ prologue false (some "prompt".toList) = none := by decide +kernel

/-- What a command line prints that has the words `VARIABLE=value`, the daemon's binary and `daemon`. -/
def lineSays (exe line : Str) : Option Str := match commandWords line with
  | some [a, e, d] =>
    if e = exe ∧ d = "daemon".toList then
      (if flagVar ++ ['='] <+: a then prologue true (some (a.drop (flagVar.length + 1))) else none)
    else none
  | _ => none

/-- C150: for a binary whose path has no blanks or characters special to a shell, the command typed last prints the marker that is waited
for. -/
theorem C150_says_partial (exe : Str) (hne : exe ≠ []) (h : ∀ c ∈ exe, c ≠ ' ' ∧ c ≠ '\n' ∧ isMeta c = false) :
    lineSays exe (sentinelCmd "prompt".toList exe) = some (marker ++ ['\n']) := by
  unfold lineSays
  rw [Inject.C82_words_partial exe hne h]
  have e : "SHPOOL__INTERNAL__PRINT_SENTINEL=prompt".toList = (flagVar ++ ['=']) ++ "prompt".toList := by decide +kernel
  have e4 : ("SHPOOL__INTERNAL__PRINT_SENTINEL=prompt".toList).drop (flagVar.length + 1) = "prompt".toList := by decide +kernel
  simp only [true_and]
  rw [if_pos trivial, if_pos (by rw [e]; exact List.prefix_append _ _), e4]
  decide +kernel

/-! ## Texts without the marker -/

/-- A character that is not in a text cuts it. -/
theorem infix_sep {α : Type} (m x y : List α) (b : α) (hb : b ∉ m) (h : m <:+: x ++ b :: y) : m <:+: x ∨ m <:+: y := by
  obtain ⟨s, t, h⟩ := h
  rw [List.append_assoc] at h
  rcases List.append_eq_append_iff.1 h with ⟨w, hw1, hw2⟩ | ⟨w, hw1, hw2⟩
  · -- `x = s ++ w`, `m ++ t = w ++ b :: y`
    rcases List.append_eq_append_iff.1 hw2 with ⟨v, hv1, hv2⟩ | ⟨v, hv1, hv2⟩
    · exact .inl ⟨s, v, by rw [hw1, hv1]; simp⟩
    · cases v with
      | nil => exact .inl ⟨s, [], by rw [hw1, hv1]; simp⟩
      | cons d v =>
        rw [List.cons_append, List.cons.injEq] at hv2
        rw [hv1] at hb
        exact absurd (by simp [hv2.1]) hb
  · -- `s = x ++ w`, `b :: y = w ++ (m ++ t)`
    cases w with
    | nil =>
      cases m with
      | nil => exact .inl (List.nil_infix)
      | cons d m =>
        simp only [List.nil_append, List.cons_append, List.cons.injEq] at hw2
        exact absurd (by simp [hw2.1]) hb
    | cons d w =>
      rw [List.cons_append, List.cons.injEq] at hw2
      exact .inr ⟨w, t, by rw [hw2.2]; simp⟩

/-- Nothing of the marker is in `x`, and it cannot be part of a marker with what comes next. -/
def Quiet {α : Type} (m x : List α) : Prop := ¬ m <:+: x ∧ (x = [] ∨ ∃ a b, x = a ++ [b] ∧ b ∉ m)

theorem quiet_nil {α : Type} (m : List α) (hm : m ≠ []) : Quiet m [] := ⟨fun h => hm (List.infix_nil.1 h), .inl rfl⟩

theorem quiet_then {α : Type} (m x y : List α) (hx : Quiet m x) (hy : ¬ m <:+: y) : ¬ m <:+: x ++ y := by
  rcases hx.2 with rfl | ⟨a, b, rfl, hb⟩
  · exact hy
  · intro h
    rw [List.append_assoc] at h
    rcases infix_sep m a y b hb h with h | h
    · exact hx.1 (h.trans (List.prefix_append _ _).isInfix)
    · exact hy h

theorem then_sep {α : Type} (m x y : List α) (b : α) (hb : b ∉ m) (hx : ¬ m <:+: x) (hy : ¬ m <:+: b :: y) : ¬ m <:+: x ++ b :: y := by
  intro h
  rcases infix_sep m x y b hb h with h | h
  · exact hx h
  · exact hy (h.trans (List.suffix_cons _ _).isInfix)

theorem quiet_append {α : Type} (m x y : List α) (hx : Quiet m x) (hy : Quiet m y) : Quiet m (x ++ y) := by
  refine ⟨quiet_then m x y hx hy.1, ?_⟩
  rcases hy.2 with rfl | ⟨a, b, rfl, hb⟩
  · rw [List.append_nil]; exact hx.2
  · exact .inr ⟨x ++ a, b, by simp, hb⟩

/-! ## The echo of a text -/

theorem high (c : Char) (h : 128 ≤ c.toNat) : ∀ b ∈ String.utf8EncodeChar c, 128 ≤ b.toNat := by
  intro b hb
  unfold String.utf8EncodeChar at hb
  have hc : c.toNat = c.val.toNat := rfl
  have hv : c.val.toNat < 1114112 := by
    have := c.valid
    rcases this with h | h <;> omega
  rw [← hc] at hb hv
  have big : ∀ n, 128 ≤ n → n < 256 → 128 ≤ (UInt8.ofNat n).toNat := by
    intro n h1 h2
    rw [UInt8.toNat_ofNat_of_lt' h2]; exact h1
  simp only at hb
  rw [if_neg (by omega)] at hb
  split at hb
  · simp only [List.mem_cons, List.not_mem_nil, or_false] at hb
    rcases hb with rfl | rfl <;> exact big _ (by omega) (by omega)
  · split at hb
    · simp only [List.mem_cons, List.not_mem_nil, or_false] at hb
      rcases hb with rfl | rfl | rfl <;> exact big _ (by omega) (by omega)
    · simp only [List.mem_cons, List.not_mem_nil, or_false] at hb
      rcases hb with rfl | rfl | rfl | rfl <;> exact big _ (by omega) (by omega)

theorem low (c : Char) (h : c.toNat < 128) : String.utf8EncodeChar c = [UInt8.ofNat c.toNat] := by
  unfold String.utf8EncodeChar
  have hc : c.toNat = c.val.toNat := rfl
  simp only [← hc]
  rw [if_pos (by omega)]

/-- The byte of an ASCII character. -/
def byte (c : Char) : UInt8 := UInt8.ofNat c.toNat

theorem byte_toNat (c : Char) (h : c.toNat < 128) : (byte c).toNat = c.toNat :=
  UInt8.toNat_ofNat_of_lt' (by show c.toNat < 256; omega)

theorem byte_inj (c d : Char) (hc : c.toNat < 128) (hd : d.toNat < 128) (h : byte c = byte d) : c = d := by
  have := congrArg UInt8.toNat h
  rw [byte_toNat c hc, byte_toNat d hd] at this
  exact Char.toNat_inj.1 this

/-- `f` gives each character of `s` its own byte, or bytes that are not in the marker. -/
def Faithful (m : Str) (f : Char → List UInt8) (s : Str) : Prop :=
  ∀ c ∈ s, (c.toNat < 128 ∧ f c = [byte c]) ∨ (∀ b ∈ f c, b ∉ m.map byte)

theorem prefix_back (m : Str) (f : Char → List UInt8) (hm : ∀ c ∈ m, c.toNat < 128) : ∀ (m' s : Str), (∀ c ∈ m', c ∈ m) → Faithful m f s →
    m'.map byte <+: s.flatMap f → (∀ c ∈ s, f c ≠ []) → m' <+: s := by
  intro m'
  induction m' with
  | nil => intros; exact List.nil_prefix
  | cons d m' ih =>
    intro s hsub hf h hne
    cases s with
    | nil => simp at h
    | cons c s =>
      rw [List.map_cons, List.flatMap_cons] at h
      rcases hf c List.mem_cons_self with ⟨hlt, hc⟩ | hc
      · rw [hc, List.singleton_append, List.cons_prefix_cons] at h
        have := byte_inj d c (hm d (hsub d List.mem_cons_self)) hlt h.1
        subst this
        exact List.cons_prefix_cons.2 ⟨rfl, ih s (fun x hx => hsub x (List.mem_cons_of_mem _ hx)) (fun x hx => hf x (List.mem_cons_of_mem _ hx)) h.2
          (fun x hx => hne x (List.mem_cons_of_mem _ hx))⟩
      · cases hb : f c with
        | nil => exact absurd hb (hne c List.mem_cons_self)
        | cons b bs =>
          rw [hb, List.cons_append, List.cons_prefix_cons] at h
          exact absurd (h.1 ▸ List.mem_map_of_mem (hsub d List.mem_cons_self)) (hc b (by rw [hb]; exact List.mem_cons_self))

theorem infix_drop_out (mb x y : List UInt8) (hmb : mb ≠ []) (hx : ∀ b ∈ x, b ∉ mb) (h : mb <:+: x ++ y) : mb <:+: y := by
  induction x with
  | nil => exact h
  | cons b x ih =>
    rw [List.cons_append, List.infix_cons_iff] at h
    rcases h with h | h
    · cases mb with
      | nil => exact absurd rfl hmb
      | cons d mb =>
        rw [List.cons_prefix_cons] at h
        exact absurd (by rw [← h.1]; exact List.mem_cons_self) (hx b List.mem_cons_self)
    · exact ih (fun b hb => hx b (List.mem_cons_of_mem _ hb)) h

theorem infix_back (m : Str) (f : Char → List UInt8) (hm : ∀ c ∈ m, c.toNat < 128) (hne : m ≠ []) : ∀ (s : Str), Faithful m f s →
    (∀ c ∈ s, f c ≠ []) → m.map byte <:+: s.flatMap f → m <:+: s := by
  intro s
  induction s with
  | nil => intro _ _ h; simp at h; exact absurd h hne
  | cons c s ih =>
    intro hf hfn h
    have ih' := ih (fun x hx => hf x (List.mem_cons_of_mem _ hx)) (fun x hx => hfn x (List.mem_cons_of_mem _ hx))
    by_cases hp : m.map byte <+: (c :: s).flatMap f
    · exact (prefix_back m f hm m _ (fun _ h => h) hf hp hfn).isInfix
    · rw [List.flatMap_cons] at h hp
      suffices h' : m.map byte <:+: s.flatMap f from (ih' h').trans (List.suffix_cons _ _).isInfix
      rcases hf c List.mem_cons_self with ⟨_, hc⟩ | hc
      · rw [hc, List.singleton_append] at h hp
        rw [List.infix_cons_iff] at h
        exact h.resolve_left hp
      · exact infix_drop_out _ _ _ (by simpa using hne) hc h

/-- A text the terminal echoes as it is: no control characters but line ends. -/
def Plain (s : Str) : Prop := ∀ c ∈ s, c = '\n' ∨ 32 ≤ c.toNat ∧ c.toNat ≠ 127

theorem plain_append (a b : Str) : Plain (a ++ b) ↔ Plain a ∧ Plain b := by
  simp only [Plain, List.mem_append]
  exact ⟨fun h => ⟨fun c hc => h c (.inl hc), fun c hc => h c (.inr hc)⟩, fun ⟨h1, h2⟩ c hc => hc.elim (h1 c) (h2 c)⟩

theorem echo_faithful (m s : Str) (hm : ∀ c ∈ m, 32 ≤ c.toNat ∧ c.toNat < 128) (hs : Plain s) : Faithful m echoChar s := by
  have hin : ∀ b ∈ m.map byte, 32 ≤ b.toNat ∧ b.toNat < 128 := by
    intro b hb
    obtain ⟨c, hc, rfl⟩ := List.mem_map.1 hb
    have := hm c hc
    rw [byte_toNat c this.2]
    exact this
  intro c hc
  unfold echoChar
  by_cases h1 : c = '\n'
  · rw [if_pos h1]
    right
    intro b hb hbm
    have := hin b hbm
    simp only [List.mem_cons, List.not_mem_nil, or_false] at hb
    rcases hb with rfl | rfl
    · exact absurd this.1 (by decide)
    · exact absurd this.1 (by decide)
  · have h2 := (hs c hc).resolve_left h1
    have h3 : c ≠ '\t' := by intro h; subst h; exact absurd h2.1 (by decide)
    rw [if_neg h1, if_neg h3, if_neg (by omega), if_neg h2.2]
    by_cases h4 : c.toNat < 128
    · exact .inl ⟨h4, low c h4⟩
    · right
      intro b hb hbm
      have h5 := high c (by omega) b hb
      have h6 := hin b hbm
      omega

theorem echoChar_ne (c : Char) : echoChar c ≠ [] := by
  unfold echoChar
  split
  · nofun
  · split
    · nofun
    · split
      · nofun
      · split
        · nofun
        · unfold String.utf8EncodeChar; simp only; split
          · nofun
          · split
            · nofun
            · split <;> nofun

theorem echo_no (m s : Str) (hm : ∀ c ∈ m, 32 ≤ c.toNat ∧ c.toNat < 128) (hne : m ≠ []) (hs : Plain s) (h : ¬ m <:+: s) :
    ¬ m.map byte <:+: echo s :=
  fun hi => h (infix_back m echoChar (fun c hc => (hm c hc).2) hne s (echo_faithful m s hm hs) (fun c _ => echoChar_ne c) hi)

/-! ## What is typed does not have the marker -/

/-- Letters and underscores: all that the markers are made of. -/
def sepOk (m : Str) : Prop := ∀ c ∈ m, c = '_' ∨ 'A' ≤ c ∧ c ≤ 'Z'

theorem marker_chars : ∀ c ∈ marker, 32 ≤ c.toNat ∧ c.toNat < 128 := by decide +kernel
theorem startMarker_chars : ∀ c ∈ startMarker, 32 ≤ c.toNat ∧ c.toNat < 128 := by decide +kernel

/-- A text put between two others of which the first ends, and the second begins, with characters that are not in the marker. -/
theorem between (m a x b : Str) (ha : Quiet m a) (hx : ¬ m <:+: x) (hb : ¬ m <:+: b) (hb' : ∃ d t, b = d :: t ∧ d ∉ m) : ¬ m <:+: a ++ x ++ b := by
  obtain ⟨d, t, rfl, hd⟩ := hb'
  exact then_sep m _ t d hd (quiet_then m a x ha hx) hb

theorem quiet_of (m a : Str) (h : ¬ m <:+: a) (c : Char) (hl : a.getLast? = some c) (hc : c ∉ m) : Quiet m a := by
  refine ⟨h, .inr ?_⟩
  obtain ⟨t, ht⟩ := List.getLast?_eq_some_iff.1 hl
  exact ⟨t, c, ht, hc⟩

/-- Looking for a text in another one, with numbers for characters (quick to evaluate). -/
def starts : List Nat → List Nat → Bool
  | [], _ => true
  | _ :: _, [] => false
  | a :: m, b :: x => Nat.beq a b && starts m x

def occurs (m : List Nat) : List Nat → Bool
  | [] => starts m []
  | b :: x => starts m (b :: x) || occurs m x

theorem starts_of : ∀ (m x : List Nat), m <+: x → starts m x = true := by
  intro m
  induction m with
  | nil => intro x _; cases x <;> rfl
  | cons a m ih =>
    intro x h
    cases x with
    | nil => simp at h
    | cons b x =>
      rw [List.cons_prefix_cons] at h
      simp only [starts, h.1, Bool.and_eq_true]
      exact ⟨Nat.beq_refl b, ih x h.2⟩

theorem occurs_of (m : List Nat) : ∀ (x : List Nat), m <:+: x → occurs m x = true := by
  intro x
  induction x with
  | nil => intro h; rw [List.infix_nil.1 h]; rfl
  | cons b x ih =>
    intro h
    rw [List.infix_cons_iff] at h
    simp only [occurs, Bool.or_eq_true]
    exact h.imp (starts_of m _) ih

theorem no_of (m x : Str) (h : occurs (m.map Char.toNat) (x.map Char.toNat) = false) : ¬ m <:+: x := by
  rintro ⟨a, b, rfl⟩
  rw [occurs_of] at h
  · nomatch h
  · exact ⟨a.map Char.toNat, b.map Char.toNat, by simp⟩

theorem cmd_no (m which exe : Str) (hw : ¬ m <:+: '\n' :: ' ' :: flagVar ++ '=' :: which ++ [' ']) (hd : ¬ m <:+: " daemon\n".toList) (hs : ' ' ∉ m)
    (h : ¬ m <:+: exe) : ¬ m <:+: sentinelCmd which exe := by
  have e : sentinelCmd which exe = ('\n' :: ' ' :: flagVar ++ '=' :: which ++ [' ']) ++ exe ++ " daemon\n".toList := by
    unfold sentinelCmd
    generalize " daemon\n".toList = d
    simp
  rw [e]
  refine between m _ exe _ ⟨hw, .inr ⟨_, ' ', rfl, hs⟩⟩ h hd ?_
  exact ⟨' ', "daemon\n".toList, by decide +kernel, hs⟩

theorem quiet_mid (m a x b : Str) (ha : Quiet m a) (hx : ¬ m <:+: x) (hb : Quiet m b) (hb' : ∃ d, b.head? = some d ∧ d ∉ m) :
    Quiet m (a ++ x ++ b) := by
  obtain ⟨d, h1, h2⟩ := hb'
  have hne : b ≠ [] := by intro h; rw [h] at h1; simp at h1
  refine ⟨between m a x b ha hx hb.1 ⟨d, b.tail, ?_, h2⟩, ?_⟩
  · cases b with
    | nil => exact absurd rfl hne
    | cons c t => simp at h1; rw [h1]; rfl
  · obtain ⟨t, c, rfl, hc⟩ := hb.2.resolve_left hne
    exact .inr ⟨a ++ x ++ t, c, by simp, hc⟩

theorem sp_marker : ' ' ∉ marker := by decide +kernel
theorem dq_marker : '"' ∉ marker := by decide +kernel
theorem dl_marker : '$' ∉ marker := by decide +kernel

/-- The characters of a literal. -/
theorem literal (P : Str → Prop) (l : Str) (h : P l) : P (String.ofList l).toList := by rw [String.toList_ofList]; exact h

/-- A literal without the marker, with its first and its last character. -/
def checked (f l : Char) (x : Str) : Bool := !occurs (marker.map Char.toNat) (x.map Char.toNat) && x.head? == some f && x.getLast? == some l

theorem quiet_checked (f l : Char) (x : Str) (h : checked f l x = true) (hl : l ∉ marker) : Quiet marker x ∧ x.head? = some f := by
  simp only [checked, Bool.and_eq_true, Bool.not_eq_true', beq_iff_eq] at h
  exact ⟨quiet_of _ _ (no_of _ _ h.1.1) l h.2 hl, h.1.2⟩

set_option maxRecDepth 100000
theorem bash1_quiet : Quiet marker Inject.bash1 ∧ Inject.bash1.head? = some '\n' :=
  quiet_checked '\n' '"' Inject.bash1 (literal (fun x => checked '\n' '"' x = true) _ (by decide +kernel)) dq_marker
theorem bash2_quiet : Quiet marker Inject.bash2 ∧ Inject.bash2.head? = some '$' :=
  quiet_checked '$' '"' Inject.bash2 (literal (fun x => checked '$' '"' ('$' :: x) = true) _ (by decide +kernel)) dq_marker
theorem bash3_quiet : Quiet marker Inject.bash3 ∧ Inject.bash3.head? = some '$' :=
  quiet_checked '$' ' ' Inject.bash3 (literal (fun x => checked '$' ' ' x = true) _ (by decide +kernel)) sp_marker
theorem zsh1_quiet : Quiet marker Inject.zsh1 ∧ Inject.zsh1.head? = some '\n' :=
  quiet_checked '\n' '"' Inject.zsh1 (literal (fun x => checked '\n' '"' x = true) _ (by decide +kernel)) dq_marker
theorem zsh2_quiet : Quiet marker Inject.zsh2 ∧ Inject.zsh2.head? = some '$' :=
  quiet_checked '$' ' ' Inject.zsh2 (literal (fun x => checked '$' ' ' x = true) _ (by decide +kernel)) sp_marker
theorem fish1_quiet : Quiet marker Inject.fish1 ∧ Inject.fish1.head? = some '\n' :=
  quiet_checked '\n' '"' Inject.fish1 (literal (fun x => checked '\n' '"' x = true) _ (by decide +kernel)) dq_marker
theorem fish2_quiet : Quiet marker Inject.fish2 ∧ Inject.fish2.head? = some '"' :=
  quiet_checked '"' ' ' Inject.fish2 (literal (fun x => checked '"' ' ' x = true) _ (by decide +kernel)) sp_marker

theorem prompt_quiet (shell : Option Known) (p : Str) (h : ¬ marker <:+: p) : Quiet marker (promptScript shell p) := by
  cases shell with
  | none => exact quiet_nil _ (by decide +kernel)
  | some k =>
    cases k with
    | bash =>
      exact quiet_mid _ _ _ _ (quiet_mid _ _ _ _ bash1_quiet.1 h bash2_quiet.1 ⟨'$', bash2_quiet.2, dl_marker⟩) h bash3_quiet.1
        ⟨'$', bash3_quiet.2, dl_marker⟩
    | zsh => exact quiet_mid _ _ _ _ zsh1_quiet.1 h zsh2_quiet.1 ⟨'$', zsh2_quiet.2, dl_marker⟩
    | fish => exact quiet_mid _ _ _ _ fish1_quiet.1 h fish2_quiet.1 ⟨'"', fish2_quiet.2, dq_marker⟩

/-- C150: the marker is not in what is typed, if it is not in what the user put there: the prefix with the name in it, the start command, the
path of the binary. -/
theorem C150_typed_partial (procName pfx startCmd name exe : Str) (hp : ¬ marker <:+: expandPrefix pfx name) (hc : ¬ marker <:+: startCmd)
    (he : ¬ marker <:+: exe) : ¬ marker <:+: script procName pfx startCmd name exe := by
  have hcmd : ¬ marker <:+: sentinelCmd "prompt".toList exe := cmd_no _ _ _ (no_of _ _ (by decide +kernel)) (no_of _ _ (by decide +kernel)) (by decide +kernel) he
  have hq := prompt_quiet (sniff procName) _ hp
  have nl : '\n' ∉ marker := by decide +kernel
  by_cases hs : startCmd = []
  · subst hs
    rw [Inject.C67_no_start_cmd]
    exact quiet_then _ _ _ hq hcmd
  · rw [Inject.C67_start_cmd _ _ _ _ _ hs]
    clear hp he hs
    revert hcmd hc
    revert hq
    generalize promptScript (sniff procName) (expandPrefix pfx name) = a
    generalize sentinelCmd "prompt".toList exe = b
    intro hq hc hcmd
    rw [List.append_assoc]
    refine quiet_then _ _ _ hq ?_
    intro h
    rw [List.cons_append] at h
    rcases infix_sep _ [] _ '\n' nl h with h | h
    · exact absurd (List.infix_nil.1 h) (by decide +kernel)
    · rcases infix_sep _ _ _ '\n' nl h with h | h
      · exact hc h
      · exact hcmd h

/-- C150: so it is for the command that is typed to find out whether the shell is there: its echo is not taken for its output. -/
theorem C150_startup_partial (exe : Str) (hpl : Plain exe) (he : ¬ startMarker <:+: exe) :
    startupSeen (Scanner.new startupSentinel) (echo (sentinelCmd "startup".toList exe)) = false := by
  have h : ¬ startMarker <:+: sentinelCmd "startup".toList exe := cmd_no _ _ _ (no_of _ _ (by decide +kernel)) (no_of _ _ (by decide +kernel)) (by decide +kernel) he
  have hp : Plain (sentinelCmd "startup".toList exe) := by
    have e : sentinelCmd "startup".toList exe = ('\n' :: ' ' :: flagVar ++ '=' :: "startup".toList ++ [' ']) ++ exe ++ " daemon\n".toList := by
      unfold sentinelCmd
      generalize " daemon\n".toList = d
      generalize "startup".toList = q
      simp
    have a : Plain ('\n' :: ' ' :: flagVar ++ '=' :: "startup".toList ++ [' ']) := by unfold Plain; decide +kernel
    have b : Plain " daemon\n".toList := by unfold Plain; decide +kernel
    rw [e, plain_append, plain_append]
    exact ⟨⟨a, hpl⟩, b⟩
  have hb := echo_no startMarker _ startMarker_chars (by decide +kernel) hp h
  have e : startMarker.map byte = startupSentinel := by decide +kernel
  rw [e] at hb
  cases hs : startupSeen (Scanner.new startupSentinel) (echo (sentinelCmd "startup".toList exe)) with
  | false => rfl
  | true => exact absurd (Sentinel.C20_startup_sound _ hs) hb

/-! ## What is shown -/

theorem plain_script (procName pfx startCmd name exe : Str) (hp : Plain (expandPrefix pfx name)) (hc : Plain startCmd) (he : Plain exe) :
    Plain (script procName pfx startCmd name exe) := by
  have hb1 : Plain Inject.bash1 := literal Plain _ (by unfold Plain; decide +kernel)
  have hb2 : Plain Inject.bash2 := literal (fun x => Plain ('$' :: x)) _ (by unfold Plain; decide +kernel)
  have hb3 : Plain Inject.bash3 := literal Plain _ (by unfold Plain; decide +kernel)
  have hz1 : Plain Inject.zsh1 := literal Plain _ (by unfold Plain; decide +kernel)
  have hz2 : Plain Inject.zsh2 := literal Plain _ (by unfold Plain; decide +kernel)
  have hf1 : Plain Inject.fish1 := literal Plain _ (by unfold Plain; decide +kernel)
  have hf2 : Plain Inject.fish2 := literal Plain _ (by unfold Plain; decide +kernel)
  have hps : Plain (promptScript (sniff procName) (expandPrefix pfx name)) := by
    cases sniff procName with
    | none => exact nofun
    | some k =>
      cases k with
      | bash => exact (plain_append _ _).2 ⟨(plain_append _ _).2 ⟨(plain_append _ _).2 ⟨(plain_append _ _).2 ⟨hb1, hp⟩, hb2⟩, hp⟩, hb3⟩
      | zsh => exact (plain_append _ _).2 ⟨(plain_append _ _).2 ⟨hz1, hp⟩, hz2⟩
      | fish => exact (plain_append _ _).2 ⟨(plain_append _ _).2 ⟨hf1, hp⟩, hf2⟩
  have hcm : Plain (sentinelCmd "prompt".toList exe) := by
    have a : Plain ('\n' :: ' ' :: flagVar ++ '=' :: "prompt".toList) := by unfold Plain; decide +kernel
    have b : Plain " daemon\n".toList := by unfold Plain; decide +kernel
    have c : Plain (' ' :: exe) := (plain_append [' '] exe).2 ⟨by unfold Plain; decide +kernel, he⟩
    exact (plain_append _ _).2 ⟨(plain_append _ _).2 ⟨a, c⟩, b⟩
  have nl : Plain ['\n'] := by unfold Plain; decide +kernel
  by_cases hs : startCmd = []
  · subst hs
    rw [Inject.C67_no_start_cmd]
    exact (plain_append _ _).2 ⟨hps, hcm⟩
  · rw [Inject.C67_start_cmd _ _ _ _ _ hs]
    exact (plain_append _ _).2 ⟨(plain_append _ _).2 ⟨hps, (plain_append ['\n'] startCmd).2 ⟨nl, hc⟩⟩, (plain_append ['\n'] _).2 ⟨nl, hcm⟩⟩

/-- What is seen on the terminal while some lines are typed: each is echoed, and then the shell says something (its output, its next
prompt). -/
def transcript (ls : List (Str × List UInt8)) : List UInt8 := ls.flatMap fun l => echo l.1 ++ l.2

/-- The bytes of the marker. -/
def markerBytes : List UInt8 := marker.map byte

/-- The typed lines are those of `typed`, each with its line end, and what the shell says does not have the marker in it and is a text that
does not end in a character of the marker. -/
def Said (typed : Str) (ls : List (Str × List UInt8)) : Prop :=
  (ls.map (·.1)).flatten = typed ∧ ∀ l ∈ ls, (∃ t, l.1 = t ++ ['\n']) ∧ Quiet markerBytes l.2

/-- C150, full statement: whatever is set up in a shell, the user sees nothing until the last of the commands typed for it has printed its
line, and everything from there on. -/
def C150_statement : Prop :=
  ∀ (procName pfx startCmd name exe : Str) (before post : List UInt8) (ls : List (Str × List UInt8)) (reads : List (List UInt8)),
    Env.GoodName name → Plain (expandPrefix pfx name) → Plain startCmd → Plain exe → Quiet markerBytes before → Said (script procName pfx startCmd name exe) ls →
    reads.flatten = before ++ transcript ls ++ printedOn (marker ++ ['\n']) ++ post → shownOf true reads = [13, 10] ++ post

theorem markerBytes_eq : markerBytes = promptSentinel := by decide +kernel

theorem printed_eq : printedOn (marker ++ ['\n']) = promptSentinel ++ [13, 10] := by decide +kernel

theorem nl_not : (10 : UInt8) ∉ markerBytes := by decide +kernel

/-- C150 (part): so it is if the marker is not in the prefix with the name in it, in the start command or in the path of the binary. -/
theorem C150_hidden_partial (procName pfx startCmd name exe : Str) (before post : List UInt8) (ls : List (Str × List UInt8))
    (reads : List (List UInt8)) (hp : Plain (expandPrefix pfx name)) (hc : Plain startCmd) (he : Plain exe)
    (hp' : ¬ marker <:+: expandPrefix pfx name) (hc' : ¬ marker <:+: startCmd) (he' : ¬ marker <:+: exe) (hb : Quiet markerBytes before)
    (hs : Said (script procName pfx startCmd name exe) ls)
    (hr : reads.flatten = before ++ transcript ls ++ printedOn (marker ++ ['\n']) ++ post) : shownOf true reads = [13, 10] ++ post := by
  have hno := C150_typed_partial procName pfx startCmd name exe hp' hc' he'
  have hpl := plain_script procName pfx startCmd name exe hp hc he
  have hne : script procName pfx startCmd name exe ≠ [] := by
    obtain ⟨t, ht⟩ := Inject.C67_ends_with_sentinel procName pfx startCmd name exe
    rw [← ht]
    unfold sentinelCmd
    simp
  revert hno hpl hne hs
  generalize script procName pfx startCmd name exe = typed
  intro hs hno hpl hne
  -- each echoed line is quiet
  have hq : ∀ l ∈ ls, Quiet markerBytes (echo l.1 ++ l.2) ∧ echo l.1 ++ l.2 ≠ [] := by
    intro l hl
    obtain ⟨⟨t, ht⟩, h2⟩ := hs.2 l hl
    have hin : l.1 <:+: typed := by
      rw [← hs.1]
      obtain ⟨a, b, rfl⟩ := List.append_of_mem hl
      exact ⟨(a.map (·.1)).flatten, (b.map (·.1)).flatten, by simp⟩
    have hplain : Plain l.1 := fun c hc => hpl c (hin.subset hc)
    have e : echo l.1 = echo t ++ [13] ++ [10] := by
      rw [ht]; unfold echo
      rw [List.flatMap_append, List.append_assoc]
      rfl
    have h1 : Quiet markerBytes (echo l.1) :=
      ⟨echo_no marker l.1 marker_chars (by decide +kernel) hplain (fun h => hno (h.trans hin)), .inr ⟨echo t ++ [13], 10, e, nl_not⟩⟩
    refine ⟨quiet_append _ _ _ h1 h2, ?_⟩
    rw [e]; simp
  have hall : ∀ (ls : List (Str × List UInt8)), (∀ l ∈ ls, Quiet markerBytes (echo l.1 ++ l.2)) → Quiet markerBytes (transcript ls) := by
    intro ls
    induction ls with
    | nil => intro _; exact quiet_nil _ (by decide +kernel)
    | cons l ls ih =>
      intro h
      exact quiet_append _ _ _ (h l List.mem_cons_self) (ih (fun l hl => h l (List.mem_cons_of_mem _ hl)))
  have htr := hall ls (fun l hl => (hq l hl).1)
  have hpre := quiet_append _ _ _ hb htr
  have hnil : before ++ transcript ls ≠ [] := by
    intro h
    have h2 := (List.append_eq_nil_iff.1 h).2
    cases ls with
    | nil => exact hne hs.1.symm
    | cons l ls =>
      unfold transcript at h2
      rw [List.flatMap_cons] at h2
      exact (hq l List.mem_cons_self).2 (List.append_eq_nil_iff.1 h2).1
  obtain ⟨a, b, hab, hbm⟩ := hpre.2.resolve_left hnil
  rw [markerBytes_eq] at hbm
  refine Sentinel.C20_after_line_end_partial reads a ([13, 10] ++ post) b ?_ hbm ?_
  · rw [hr, hab, printed_eq]; simp
  · rw [← hab, ← markerBytes_eq]; exact hpre.1

theorem default_expand (name : Str) : expandPrefix defaultPrefix name = "shpool:".toList ++ name ++ " ".toList := by
  have e : defaultPrefix = "shpool:".toList ++ Inject.nameVar ++ " ".toList := by decide +kernel
  have h1 : Inject.replaceAll Inject.nameVar name defaultPrefix = "shpool:".toList ++ name ++ " ".toList := by
    rw [e]
    have a : ∀ t, Inject.replaceAll Inject.nameVar name ("shpool:".toList ++ t) = "shpool:".toList ++ Inject.replaceAll Inject.nameVar name t := by
      intro t
      have l : "shpool:".toList = ['s', 'h', 'p', 'o', 'o', 'l', ':'] := by decide +kernel
      have n : Inject.nameVar = '$' :: Inject.nameVar.tail := by decide +kernel
      rw [l, n]
      simp [Inject.replaceAll, Inject.replaceFrom, List.isPrefixOf]
    rw [List.append_assoc, a, List.append_assoc]
    congr 1
  exact h1

/-- C150 (part): with the prefix that is used if none is configured, it is so for every session whose name does not have the marker in it. -/
theorem C150_default_partial (procName startCmd name exe : Str) (before post : List UInt8) (ls : List (Str × List UInt8))
    (reads : List (List UInt8)) (hn : Plain name) (hc : Plain startCmd) (he : Plain exe)
    (hn' : ¬ marker <:+: name) (hc' : ¬ marker <:+: startCmd) (he' : ¬ marker <:+: exe) (hb : Quiet markerBytes before)
    (hs : Said (script procName "shpool:$SHPOOL_SESSION_NAME ".toList startCmd name exe) ls)
    (hr : reads.flatten = before ++ transcript ls ++ printedOn (marker ++ ['\n']) ++ post) : shownOf true reads = [13, 10] ++ post := by
  have a : Plain "shpool:".toList := by unfold Plain; decide +kernel
  have b : Plain " ".toList := by unfold Plain; decide +kernel
  refine C150_hidden_partial procName defaultPrefix startCmd name exe before post ls reads ?_ hc he ?_ hc' he' hb hs hr
  · rw [default_expand]
    exact (plain_append _ _).2 ⟨(plain_append _ _).2 ⟨a, hn⟩, b⟩
  · rw [default_expand]
    exact between _ _ _ _ (quiet_of _ _ (no_of _ _ (by decide +kernel)) ':' (by decide +kernel) (by decide +kernel)) hn' (no_of _ _ (by decide +kernel))
      ⟨' ', [], by decide +kernel, sp_marker⟩

/-- In a shell that is not known, with a prompt `$ ` after each line but the last. -/
def demo : List (Str × List UInt8) :=
  [(['\n'], [36, 32]), ("echo hi\n".toList, [104, 105, 13, 10, 36, 32]), (['\n'], [36, 32]),
    (" SHPOOL__INTERNAL__PRINT_SENTINEL=prompt /usr/bin/shpool daemon\n".toList, [])]
example : Said (script "dash".toList "p".toList "echo hi".toList "main".toList "/usr/bin/shpool".toList) demo := by
  refine ⟨by decide +kernel, ?_⟩
  have q1 : Quiet markerBytes [36, 32] := ⟨by decide +kernel, .inr ⟨[36], 32, rfl, by decide +kernel⟩⟩
  have q2 : Quiet markerBytes [104, 105, 13, 10, 36, 32] := ⟨by decide +kernel, .inr ⟨[104, 105, 13, 10, 36], 32, rfl, by decide +kernel⟩⟩
  intro l hl
  simp only [demo, List.mem_cons, List.not_mem_nil, or_false] at hl
  rcases hl with rfl | rfl | rfl | rfl
  · exact ⟨⟨[], rfl⟩, q1⟩
  · exact ⟨⟨"echo hi".toList, by decide +kernel⟩, q2⟩
  · exact ⟨⟨[], rfl⟩, q1⟩
  · exact ⟨⟨" SHPOOL__INTERNAL__PRINT_SENTINEL=prompt /usr/bin/shpool daemon".toList, by decide +kernel⟩, quiet_nil _ (by decide +kernel)⟩
example : Plain (expandPrefix "p".toList "main".toList) ∧ Plain "echo hi".toList ∧ Plain "/usr/bin/shpool".toList := by
  unfold Plain; decide +kernel
example : ¬ marker <:+: expandPrefix "p".toList "main".toList ∧ ¬ marker <:+: "echo hi".toList ∧ ¬ marker <:+: "/usr/bin/shpool".toList :=
  ⟨no_of _ _ (by decide +kernel), no_of _ _ (by decide +kernel), no_of _ _ (by decide +kernel)⟩
example : Plain "/usr/bin/shpool".toList ∧ ¬ startMarker <:+: "/usr/bin/shpool".toList := ⟨by unfold Plain; decide +kernel, no_of _ _ (by decide +kernel)⟩

/-- C150 is false: the name of a session is typed too, as part of the prefix, and the marker is a name that is accepted; in a session that has
it the hiding ends at the echo of the prefix, and the user sees the rest of what is typed. -/
theorem C150_false : ¬ C150_statement := by
  intro h
  have hfish : sniff "fish".toList = some .fish := by decide +kernel
  have hpm : Plain marker := by unfold Plain; decide +kernel
  have a : Plain "shpool:".toList := by unfold Plain; decide +kernel
  have b : Plain " ".toList := by unfold Plain; decide +kernel
  have hex : Plain "/usr/bin/shpool".toList := by unfold Plain; decide +kernel
  have hpx : Plain (expandPrefix defaultPrefix marker) := by
    rw [default_expand]; exact (plain_append _ _).2 ⟨(plain_append _ _).2 ⟨a, hpm⟩, b⟩
  have hgood : Env.GoodName marker := (Env.daemonAccepts_iff marker).1 (by decide +kernel)
  have hend : ∃ t, script "fish".toList defaultPrefix [] marker "/usr/bin/shpool".toList = t ++ ['\n'] := by
    obtain ⟨t, ht⟩ := Inject.C67_ends_with_sentinel "fish".toList defaultPrefix [] marker "/usr/bin/shpool".toList
    rw [← ht, Inject.C67_sentinel_own_line]
    exact ⟨_, (List.append_assoc _ _ _).symm⟩
  have hshown := h "fish".toList defaultPrefix [] marker "/usr/bin/shpool".toList [] [] [(_, [])]
    [echo (script "fish".toList defaultPrefix [] marker "/usr/bin/shpool".toList) ++ printedOn (marker ++ ['\n'])]
    hgood hpx nofun hex (quiet_nil _ (by decide +kernel))
    ⟨by rw [List.map_cons, List.map_nil, List.flatten_singleton], by
      intro l hl
      rw [List.mem_singleton] at hl
      subst hl
      exact ⟨hend, quiet_nil _ (by decide +kernel)⟩⟩
    (by simp [transcript])
  have e : script "fish".toList defaultPrefix [] marker "/usr/bin/shpool".toList =
      (Inject.fish1 ++ "shpool:".toList) ++ marker ++ (' ' :: (Inject.fish2 ++ sentinelCmd "prompt".toList "/usr/bin/shpool".toList)) := by
    rw [Inject.C67_no_start_cmd, hfish, default_expand]
    have sp : " ".toList = [' '] := by decide +kernel
    rw [sp]
    simp only [promptScript, List.append_assoc, List.cons_append, List.nil_append]
  have hq : Quiet marker (Inject.fish1 ++ "shpool:".toList) :=
    quiet_append _ _ _ fish1_quiet.1 (quiet_of _ _ (no_of _ _ (by decide +kernel)) ':' (by decide +kernel) (by decide +kernel))
  have hpl : Plain (Inject.fish1 ++ "shpool:".toList) :=
    (plain_append _ _).2 ⟨literal Plain _ (by unfold Plain; decide +kernel), a⟩
  have hno := echo_no marker _ marker_chars (by decide +kernel) hpl hq.1
  have hm : echo marker = promptSentinel := by decide +kernel
  have hsplit : echo (Inject.fish1 ++ "shpool:".toList) = echo (Inject.fish1 ++ "shpool".toList) ++ [58] := by
    have : "shpool:".toList = "shpool".toList ++ [':'] := by decide +kernel
    rw [this, ← List.append_assoc]
    unfold echo
    rw [List.flatMap_append]
    rfl
  have hreal := Sentinel.C20_after_line_end_partial
    [echo (script "fish".toList defaultPrefix [] marker "/usr/bin/shpool".toList) ++ printedOn (marker ++ ['\n'])]
    (echo (Inject.fish1 ++ "shpool".toList))
    (32 :: (echo (Inject.fish2 ++ sentinelCmd "prompt".toList "/usr/bin/shpool".toList) ++ printedOn (marker ++ ['\n']))) 58
    (by
      rw [e, List.flatten_singleton, ← hsplit, ← hm]
      have : ∀ x, echo (' ' :: x) = 32 :: echo x := fun x => rfl
      have hap : ∀ x y, echo (x ++ y) = echo x ++ echo y := fun x y => by unfold echo; rw [List.flatMap_append]
      rw [hap, hap (_ ++ _) marker, this]
      simp only [List.append_assoc, List.cons_append])
    (by decide +kernel)
    (by rw [← hsplit, ← markerBytes_eq]; exact hno)
  rw [hreal] at hshown
  simp at hshown

end Shpool.Noise
