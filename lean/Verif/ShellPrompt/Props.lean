import Verif.ShellPrompt.Model
import Verif.Inject.Props
/-!
# C147: the prompt is the prefix followed by the prompt the user would have seen anyway
-/

namespace Shpool.ShellPrompt

open Inject (Str)

/-! ## The programs are the texts -/

/-- Reading a character of a text: the lines that were read and the beginning of the next one. -/
def feed (r : List Str × Str) (c : Char) : List Str × Str :=
  if c = '\n' then (if r.2.isEmpty then r else (r.1 ++ [r.2], []))
  else if c = ' ' && r.2.isEmpty then r
  else (r.1, r.2 ++ [c])

/-- The lines of a text, without the blanks at their start; empty lines are left out. -/
def linesOf (s : Str) : List Str :=
  let r := s.foldl feed ([], [])
  if r.2.isEmpty then r.1 else r.1 ++ [r.2]

private theorem feed_text (p : Str) (hp : '\n' ∉ p) (ls : List Str) (l : Str) (hl : l ≠ []) :
    p.foldl feed (ls, l) = (ls, l ++ p) := by
  induction p generalizing l with
  | nil => simp
  | cons c p ih =>
    have hc : c ≠ '\n' := fun h => hp (h ▸ List.mem_cons_self)
    have hl' : l.isEmpty = false := by cases l <;> simp_all
    rw [List.foldl_cons, feed, if_neg hc, hl', if_neg (by simp), ih (fun h => hp (List.mem_cons_of_mem _ h)) _ (by simp)]
    simp

private theorem feed_before (a : Str) (ls : List Str) (l : Str) :
    a.foldl feed (ls, l) = (ls ++ (a.foldl feed ([], l)).1, (a.foldl feed ([], l)).2) := by
  induction a generalizing ls l with
  | nil => simp
  | cons c a ih =>
    have key : feed (ls, l) c = (ls ++ (feed ([], l) c).1, (feed ([], l) c).2) := by
      unfold feed
      by_cases h1 : c = '\n' <;> by_cases h2 : l.isEmpty <;> by_cases h3 : c = ' ' <;> simp [h1, h2, h3]
    rw [List.foldl_cons, List.foldl_cons, key, ih, ih (ls := (feed ([], l) c).1)]
    simp

private theorem feed_line (a b : Str) (ha : '\n' ∉ a) (ls : List Str) (l : Str) (hl : l ≠ []) :
    (a ++ '\n' :: b).foldl feed (ls, l) =
      (ls ++ [l ++ a] ++ (b.foldl feed ([], [])).1, (b.foldl feed ([], [])).2) := by
  have hne : (l ++ a).isEmpty = false := by cases l <;> simp_all
  rw [List.foldl_append, feed_text a ha ls l hl, List.foldl_cons, feed, if_pos rfl, hne, if_neg (by simp), feed_before]

/-- The text written to bash is the program `bashScript`. -/
theorem C147_script_bash (p : Str) (hp : '\n' ∉ p) :
    linesOf (Inject.promptScript (some .bash) p) = (bashScript p).lines := by
  have h1 : Inject.bash1.foldl feed ([], []) = (["if [[ -z \"${PROMPT_COMMAND+x}\" ]]; then".toList], "PS1=\"".toList) := by decide +kernel
  have h2 : ∃ b, Inject.bash2 = "${PS1}\"".toList ++ '\n' :: b ∧ b.foldl feed ([], []) =
      (["else".toList, "SHPOOL__OLD_PROMPT_COMMAND=(\"${PROMPT_COMMAND[@]}\")".toList, "SHPOOL__OLD_PS1=\"${PS1}\"".toList,
        "function __shpool__prompt_command() {".toList, "PS1=\"${SHPOOL__OLD_PS1}\"".toList,
        "for prompt_hook in \"${SHPOOL__OLD_PROMPT_COMMAND[@]}\"".toList, "do".toList, "eval \"${prompt_hook}\"".toList,
        "done".toList], "PS1=\"".toList) := ⟨Inject.bash2.drop 8, by decide +kernel, by decide +kernel⟩
  have h3 : ∃ b, Inject.bash3 = "${PS1}\"".toList ++ '\n' :: b ∧ b.foldl feed ([], []) =
      (["}".toList, "PROMPT_COMMAND=__shpool__prompt_command".toList, "fi".toList], []) :=
    ⟨Inject.bash3.drop 8, by decide +kernel, by decide +kernel⟩
  obtain ⟨b2, e2, f2⟩ := h2
  obtain ⟨b3, e3, f3⟩ := h3
  have hn : '\n' ∉ "${PS1}\"".toList := by decide +kernel
  have hq : "PS1=\"".toList ≠ [] := by decide +kernel
  rw [linesOf, Inject.promptScript, List.foldl_append, List.foldl_append, List.foldl_append, List.foldl_append, h1,
    feed_text p hp _ _ hq, e2, feed_line _ _ hn _ _ (by simp), f2, feed_text p hp _ _ hq, e3, feed_line _ _ hn _ _ (by simp), f3]
  simp [bashScript, Script.lines, Cmd.lines, Simple.lines, Word.text]

/-- The text written to zsh is the program `zshScript`. -/
theorem C147_script_zsh (p : Str) (hp : '\n' ∉ p) :
    linesOf (Inject.promptScript (some .zsh) p) = (zshScript p).lines := by
  have h1 : Inject.zsh1.foldl feed ([], []) = (["typeset -a precmd_functions".toList, "SHPOOL__OLD_PROMPT=\"${PROMPT}\"".toList,
      "function __shpool__reset_rprompt() {".toList, "PROMPT=\"${SHPOOL__OLD_PROMPT}\"".toList, "}".toList,
      "precmd_functions[1,0]=(__shpool__reset_rprompt)".toList, "function __shpool__prompt_command() {".toList],
      "PROMPT=\"".toList) := by decide +kernel
  have h2 : ∃ b, Inject.zsh2 = "${PROMPT}\"".toList ++ '\n' :: b ∧ b.foldl feed ([], []) =
      (["}".toList, "precmd_functions+=(__shpool__prompt_command)".toList], []) :=
    ⟨Inject.zsh2.drop 11, by decide +kernel, by decide +kernel⟩
  have hn : '\n' ∉ "${PROMPT}\"".toList := by decide +kernel
  have hq : "PROMPT=\"".toList ≠ [] := by decide +kernel
  obtain ⟨b2, e2, f2⟩ := h2
  rw [linesOf, Inject.promptScript, List.foldl_append, List.foldl_append, h1,
    feed_text p hp _ _ hq, e2, feed_line _ _ hn _ _ (by simp), f2]
  simp [zshScript, Script.lines, Cmd.lines, Simple.lines, Word.text]

private theorem join_text (a q p b c d r : Str) (h1 : a = q) (h2 : b ++ c ++ d = r) : a ++ p ++ b ++ c ++ d = q ++ p ++ r := by
  subst h1 h2
  simp

/-- The text written to fish is the program `fishScript`. -/
theorem C147_script_fish (p : Str) (hp : '\n' ∉ p) :
    linesOf (Inject.promptScript (some .fish) p) = (fishScript p).map FishCmd.line := by
  have h1 : Inject.fish1.foldl feed ([], []) = (["functions --copy fish_prompt shpool__old_prompt".toList],
      "function fish_prompt; echo -n \"".toList) := by decide +kernel
  have h2 : ∃ b, Inject.fish2 = "\"; shpool__old_prompt; end".toList ++ '\n' :: b ∧ b.foldl feed ([], []) = ([], []) :=
    ⟨Inject.fish2.drop 27, by decide +kernel, by decide +kernel⟩
  have hn : '\n' ∉ "\"; shpool__old_prompt; end".toList := by decide +kernel
  have hq : "function fish_prompt; echo -n \"".toList ≠ [] := by decide +kernel
  obtain ⟨b2, e2, f2⟩ := h2
  rw [linesOf, Inject.promptScript, List.foldl_append, List.foldl_append, h1,
    feed_text p hp _ _ hq, e2, feed_line _ _ hn _ _ (by simp), f2]
  have hf : (fishScript p).map FishCmd.line = ["functions --copy fish_prompt shpool__old_prompt".toList,
      "function fish_prompt; echo -n \"".toList ++ p ++ "\"; shpool__old_prompt; end".toList] := by
    have e1 : "functions --copy ".toList ++ "fish_prompt".toList ++ " ".toList ++ "shpool__old_prompt".toList =
      "functions --copy fish_prompt shpool__old_prompt".toList := by decide +kernel
    have e2 : "function ".toList ++ "fish_prompt".toList ++ "; echo -n \"".toList = "function fish_prompt; echo -n \"".toList := by
      decide +kernel
    have e3 : "\"; ".toList ++ "shpool__old_prompt".toList ++ "; end".toList = "\"; shpool__old_prompt; end".toList := by decide +kernel
    exact congr (congrArg List.cons e1) (congrArg (fun x => [x]) (join_text _ _ p _ _ _ _ e2 e3))
  rw [hf]
  rfl

example : '\n' ∉ "shpool:main ".toList := by decide +kernel

/-! ## Specification -/

variable {U : Type}

/-- A shell in which the script has not been run: no function of the script, and the last command went well. -/
def Fresh (s : Sh U) : Prop := s.status = 0 ∧ ∀ f, s.funs f = none

/-- In bash, with the script run in `s`, every prompt is the prefix followed by the prompt there would be without the script. -/
def BashSame (ext : Ext U) (p : Str) (s : Sh U) (typed : List Str) : Prop :=
  shows (bashPrompt ext) ext ((bashScript p).exec ext s) typed = (shows (bashPrompt ext) ext s typed).map (p ++ ·)

def ZshSame (ext : Ext U) (p : Str) (s : Sh U) (typed : List Str) : Prop :=
  shows (zshPrompt ext) ext ((zshScript p).exec ext s) typed = (shows (zshPrompt ext) ext s typed).map (p ++ ·)

def FishSame (ext : Str → Fish U → Fish U) (p : Str) (s : Fish U) (typed : List Str) : Prop :=
  shows fishPrompt ext (fishSetup p s) typed = (shows fishPrompt ext s typed).map (p ++ ·)

/-- The whole claim: whatever the user's hooks and commands are. -/
def C147_statement : Prop :=
  (∀ (U : Type) (ext : Ext U) (p : Str) (s : Sh U) (typed : List Str), Fresh s → BashSame ext p s typed) ∧
  (∀ (U : Type) (ext : Ext U) (p : Str) (s : Sh U) (typed : List Str), Fresh s → ZshSame ext p s typed) ∧
  (∀ (U : Type) (ext : Str → Fish U → Fish U) (p : Str) (s : Fish U) (typed : List Str) (f : Nat → U → Str × U),
    s.status = 0 → s.funs "fish_prompt" = some (.own f) → FishSame ext p s typed)

/-- What a hook does that may draw the prompt `x`, told the status and the rest of the shell: what it leaves behind, and the
prompt it sets (`none`: it never sets one). -/
structure Effect (U : Type) where
  user : Nat → U → U
  status : Nat → U → Nat
  prompt : Option (Nat → U → Str)

def Effect.apply (e : Effect U) (x : String) (s : Sh U) : Sh U :=
  { (match e.prompt with
    | none => s
    | some f => s.assign x (f s.status s.user)) with
    user := e.user s.status s.user, status := e.status s.status s.user }

/-- The hook does not look at the status. -/
def Effect.Blind (e : Effect U) : Prop :=
  (∀ a b, e.user a = e.user b) ∧ (∀ f, e.prompt = some f → ∀ a b, f a = f b)

/-- A command that has nothing to do with the prompt. -/
def Plain (ext : Ext U) (t : Str) : Prop :=
  ∃ g : Nat → U → Nat × U, ∀ s, ext t s = { s with status := (g s.status s.user).1, user := (g s.status s.user).2 }

/-! ## Two shells side by side -/

theorem shows_sim {S T : Type} {pr : S → S × Str} {pr' : T → T × Str} {ext : Str → S → S} {ext' : Str → T → T} (p : Str)
    (R : S → T → Prop) (typed : List Str)
    (hp : ∀ s s', R s s' → R (pr s).1 (pr' s').1 ∧ (pr' s').2 = p ++ (pr s).2)
    (ht : ∀ t ∈ typed, ∀ s s', R s s' → R (ext t s) (ext' t s')) :
    ∀ s s', R s s' → shows pr' ext' s' typed = (shows pr ext s typed).map (p ++ ·) := by
  induction typed with
  | nil => intro s s' h; simp [shows, (hp s s' h).2]
  | cons t ts ih =>
    intro s s' h
    have h1 := hp s s' h
    simp only [shows, List.map_cons, h1.2]
    congr 1
    exact ih (fun t h => ht t (List.mem_cons_of_mem _ h)) _ _ (ht t List.mem_cons_self _ _ h1.1)

/-! ## bash -/

/-- Without `PROMPT_COMMAND` the prefix is put before the prompt once and stays there, as long as no command sets the prompt. -/
theorem C147_bash_no_hooks_partial (ext : Ext U) (p : Str) (s : Sh U) (typed : List Str) (hs : Fresh s)
    (hn : s.list "PROMPT_COMMAND" = []) (ht : ∀ t ∈ typed, Plain ext t) : BashSame ext p s typed := by
  have hset : s.isSet "PROMPT_COMMAND" = false := by simp [Sh.isSet, hn]
  refine shows_sim p (fun a b => a.user = b.user ∧ a.status = b.status ∧ a.list "PROMPT_COMMAND" = [] ∧
    b.list "PROMPT_COMMAND" = [] ∧ b.get "PS1" = p ++ a.get "PS1") typed ?_ ?_ _ _ ?_
  · rintro a b ⟨h1, h2, h3, h4, h5⟩
    simp [bashPrompt, bashHooks, h1, h2, h3, h4, h5]
  · rintro t hm a b ⟨h1, h2, h3, h4, h5⟩
    obtain ⟨g, hg⟩ := ht t hm
    rw [hg, hg]
    refine ⟨?_, ?_, h3, h4, h5⟩ <;> simp [h1, h2]
  · rw [bashScript, Script.exec, hset]
    simp only [Sh.list] at hn
    simp [Cmd.exec, Simple.exec, Sh.assign, Sh.put, Sh.get, Sh.list, Word.value, hs.1, hn]

/-- With one hook that sets the prompt always or never, and does not look at the status, the same is true. -/
theorem C147_bash_hook_partial (ext : Ext U) (p : Str) (s : Sh U) (typed : List Str) (h : Str) (e : Effect U) (hs : Fresh s)
    (hc : s.list "PROMPT_COMMAND" = [h]) (he : ∀ s, ext h s = e.apply "PS1" s) (hb : e.Blind)
    (ht : ∀ t ∈ typed, Plain ext t) : BashSame ext p s typed := by
  have hset : s.isSet "PROMPT_COMMAND" = true := by simp [Sh.isSet, hc]
  refine shows_sim p (fun a b => a.user = b.user ∧ a.status = b.status ∧ (∀ f, a.funs f = none) ∧ a.list "PROMPT_COMMAND" = [h] ∧
    b.list "PROMPT_COMMAND" = ["__shpool__prompt_command".toList] ∧ b.list "SHPOOL__OLD_PROMPT_COMMAND" = [h] ∧
    b.get "SHPOOL__OLD_PS1" = s.get "PS1" ∧ (e.prompt = none → a.get "PS1" = s.get "PS1") ∧
    b.funs "__shpool__prompt_command" = some [.set "PS1" [.var "SHPOOL__OLD_PS1"],
        .evalAll "prompt_hook" "SHPOOL__OLD_PROMPT_COMMAND", .set "PS1" [.lit p, .var "PS1"]]) typed ?_ ?_ _ _ ?_
  · rintro a b ⟨h1, h2, h3, h4, h5, h6, h7, h8, h9⟩
    have ha : bashPrompt ext a = ({ e.apply "PS1" a with status := a.status }, (e.apply "PS1" a).get "PS1") := by
      simp [bashPrompt, bashHooks, h4, hook, h3, he, Sh.get]
    have hbp : bashPrompt ext b = (hook ext b "__shpool__prompt_command".toList,
        (hook ext b "__shpool__prompt_command".toList).get "PS1") := by
      rw [bashPrompt, bashHooks, h5]; rfl
    rw [ha, hbp, hook, String.ofList_toList, h9]
    generalize "__shpool__prompt_command".toList = fn at *
    simp only [Sh.get, Sh.list, List.headD_eq_head?_getD] at h4 h5 h6 h7 h8
    obtain ⟨hu, hp⟩ := hb
    cases hep : e.prompt with
    | none =>
      simp [h9, Sh.list, h5, Simple.exec, Sh.assign, Sh.put, Sh.get, Word.value, h6, h7, he,
        Effect.apply, hep, h1, h2, h3, h4, h8 hep, hu 0 b.status]
    | some f =>
      simp [h9, Sh.list, h5, Simple.exec, Sh.assign, Sh.put, Sh.get, Word.value, h6, h7, he,
        Effect.apply, hep, h1, h2, h3, h4, hu 0 b.status, hp f hep 0 b.status]
  · rintro t hm a b ⟨h1, h2, h3, h4⟩
    obtain ⟨g, hg⟩ := ht t hm
    rw [hg, hg]
    refine ⟨?_, ?_, h3, h4⟩ <;> simp [h1, h2]
  · rw [bashScript, Script.exec, hset]
    have hc' := hc
    simp only [Sh.list] at hc'
    simp [Cmd.exec, Simple.exec, Sh.assign, Sh.put, Sh.get, Sh.list, Word.value, hs.1, hs.2, hc']

/-! ## zsh -/

theorem apply_user (e : Effect U) (x : String) (s : Sh U) : (e.apply x s).user = e.user s.status s.user := rfl

theorem apply_funs (e : Effect U) (x : String) (s : Sh U) : (e.apply x s).funs = s.funs := by
  unfold Effect.apply; cases e.prompt <;> rfl

theorem apply_vars (e : Effect U) {x y : String} (s : Sh U) (h : y ≠ x) : (e.apply x s).vars y = s.vars y := by
  unfold Effect.apply; cases e.prompt <;> simp [Sh.assign, Sh.put, h]

theorem apply_get_none (e : Effect U) (x : String) (s : Sh U) (h : e.prompt = none) : (e.apply x s).get x = s.get x := by
  unfold Effect.apply; rw [h]; rfl

theorem apply_get_some (e : Effect U) (x : String) (s : Sh U) {f} (h : e.prompt = some f) :
    (e.apply x s).get x = f s.status s.user := by
  unfold Effect.apply; rw [h]; simp [Sh.get, Sh.assign, Sh.put]

/-- A hook of the user's. -/
theorem hook_own (ext : Ext U) (s : Sh U) (h : Str) (e : Effect U) (x : String) (hf : s.funs (String.ofList h) = none)
    (he : ext h s = e.apply x s) : hook ext s h = { e.apply x s with status := s.status } := by
  rw [hook, hf, ← he]

/-- The same hooks run in two shells. -/
private theorem hooks_sim (ext : Ext U) (x : String) (eff : Str → Effect U) : ∀ (hs : List Str) (a b : Sh U),
    (∀ h ∈ hs, ∀ s, ext h s = (eff h).apply x s) → (∀ h ∈ hs, a.funs (String.ofList h) = none) →
    (∀ h ∈ hs, b.funs (String.ofList h) = none) → a.user = b.user → a.status = b.status →
    (a.get x = b.get x ∨ ∃ h ∈ hs, (eff h).prompt.isSome) →
    let a' := hs.foldl (hook ext) a
    let b' := hs.foldl (hook ext) b
    a'.user = b'.user ∧ a'.status = a.status ∧ b'.status = b.status ∧ a'.get x = b'.get x ∧ a'.funs = a.funs ∧ b'.funs = b.funs ∧
      (∀ y, y ≠ x → a'.vars y = a.vars y) ∧ (∀ y, y ≠ x → b'.vars y = b.vars y) ∧
      ((∀ h ∈ hs, (eff h).prompt = none) → a'.get x = a.get x) := by
  intro hs
  induction hs with
  | nil => intro a b _ _ _ hu _ hg; simpa [hu] using hg
  | cons h hs ih =>
    intro a b he hfa hfb hu hst hg
    have hea := hook_own ext a h (eff h) x (hfa h List.mem_cons_self) (he h List.mem_cons_self a)
    have heb := hook_own ext b h (eff h) x (hfb h List.mem_cons_self) (he h List.mem_cons_self b)
    have hva : ∀ y, y ≠ x → (hook ext a h).vars y = a.vars y := fun y hy => by rw [hea]; exact apply_vars _ _ hy
    have hvb : ∀ y, y ≠ x → (hook ext b h).vars y = b.vars y := fun y hy => by rw [heb]; exact apply_vars _ _ hy
    have hFa : (hook ext a h).funs = a.funs := by rw [hea]; exact apply_funs _ _ _
    have hFb : (hook ext b h).funs = b.funs := by rw [heb]; exact apply_funs _ _ _
    have hsa : (hook ext a h).status = a.status := by rw [hea]
    have hsb : (hook ext b h).status = b.status := by rw [heb]
    have hU : (hook ext a h).user = (hook ext b h).user := by rw [hea, heb]; simp [apply_user, hu, hst]
    have hG : (hook ext a h).get x = (hook ext b h).get x ∨ ∃ h ∈ hs, (eff h).prompt.isSome := by
      rw [hea, heb]
      cases hp : (eff h).prompt with
      | none =>
        rcases hg with hg | ⟨k, hk, hks⟩
        · exact .inl ((apply_get_none _ _ a hp).trans (hg.trans (apply_get_none _ _ b hp).symm))
        · rcases List.mem_cons.1 hk with rfl | hk
          · rw [hp] at hks; cases hks
          · exact .inr ⟨k, hk, hks⟩
      | some f =>
        refine .inl ((apply_get_some _ _ a hp).trans (Eq.trans ?_ (apply_get_some _ _ b hp).symm))
        rw [hst, hu]
    have := ih (hook ext a h) (hook ext b h) (fun k hk => he k (List.mem_cons_of_mem _ hk))
      (fun k hk => by rw [hFa]; exact hfa k (List.mem_cons_of_mem _ hk))
      (fun k hk => by rw [hFb]; exact hfb k (List.mem_cons_of_mem _ hk)) hU (hsa.trans (hst.trans hsb.symm)) hG
    obtain ⟨i1, i2, i3, i4, i5, i6, i7, i8, i9⟩ := this
    refine ⟨i1, i2.trans hsa, i3.trans hsb, i4, i5.trans hFa, i6.trans hFb, fun y hy => (i7 y hy).trans (hva y hy),
      fun y hy => (i8 y hy).trans (hvb y hy), fun hn => (i9 fun k hk => hn k (List.mem_cons_of_mem _ hk)).trans ?_⟩
    rw [hea]
    exact apply_get_none _ _ a (hn h List.mem_cons_self)

/-- In zsh any number of hooks in `precmd_functions` may set the prompt (each of them always or never), and look at the status; a
function `precmd` must not set it. -/
theorem C147_zsh_partial (ext : Ext U) (p : Str) (s : Sh U) (typed : List Str) (eff : Str → Effect U) (hs : Fresh s)
    (hh : ∀ h ∈ zshHooks s, (∀ s, ext h s = (eff h).apply "PROMPT" s) ∧ h ≠ "__shpool__reset_rprompt".toList ∧
      h ≠ "__shpool__prompt_command".toList)
    (hp : (eff "precmd".toList).prompt = none) (ht : ∀ t ∈ typed, Plain ext t) : ZshSame ext p s typed := by
  refine shows_sim p (fun a b => a.user = b.user ∧ a.status = b.status ∧ (∀ f, a.funs f = none) ∧
    a.list "precmd_functions" = s.list "precmd_functions" ∧
    b.list "precmd_functions" = "__shpool__reset_rprompt".toList :: (s.list "precmd_functions" ++ ["__shpool__prompt_command".toList]) ∧
    b.get "SHPOOL__OLD_PROMPT" = s.get "PROMPT" ∧
    b.funs "__shpool__reset_rprompt" = some [.set "PROMPT" [.var "SHPOOL__OLD_PROMPT"]] ∧
    b.funs "__shpool__prompt_command" = some [.set "PROMPT" [.lit p, .var "PROMPT"]] ∧
    (∀ f, f ≠ "__shpool__reset_rprompt" → f ≠ "__shpool__prompt_command" → b.funs f = none) ∧
    ((∀ h ∈ s.list "precmd_functions", (eff h).prompt = none) → a.get "PROMPT" = s.get "PROMPT")) typed ?_ ?_ _ _ ?_
  · rintro a b ⟨h1, h2, h3, h4, h5, h6, h7, h8, h9, h10⟩
    have hne : ∀ h ∈ zshHooks s, ∀ b : Sh U, (∀ f, f ≠ "__shpool__reset_rprompt" → f ≠ "__shpool__prompt_command" → b.funs f = none) →
        b.funs (String.ofList h) = none := by
      intro h hm b hb
      refine hb _ (fun e => (hh h hm).2.1 ?_) (fun e => (hh h hm).2.2 ?_)
      · rw [← e, String.toList_ofList]
      · rw [← e, String.toList_ofList]
    have hpm : "precmd".toList ∈ zshHooks s := List.mem_cons_self
    -- the function `precmd`
    have ea := hook_own ext a "precmd".toList _ "PROMPT" (h3 _) ((hh _ hpm).1 a)
    have eb := hook_own ext b "precmd".toList _ "PROMPT" (hne _ hpm b h9) ((hh _ hpm).1 b)
    have b1f : (hook ext b "precmd".toList).funs = b.funs := by rw [eb]; exact apply_funs _ _ _
    have b1g : (hook ext b "precmd".toList).get "SHPOOL__OLD_PROMPT" = s.get "PROMPT" := by
      rw [← h6, eb]; unfold Sh.get; rw [show ({ (eff "precmd".toList).apply "PROMPT" b with status := b.status } : Sh U).vars = ((eff "precmd".toList).apply "PROMPT" b).vars from rfl, apply_vars _ _ (by decide)]
    have b1s : (hook ext b "precmd".toList).status = b.status := by rw [eb]
    have b1v : ∀ y, y ≠ "PROMPT" → (hook ext b "precmd".toList).vars y = b.vars y := fun y hy => by rw [eb]; exact apply_vars _ _ hy
    have a1v : ∀ y, y ≠ "PROMPT" → (hook ext a "precmd".toList).vars y = a.vars y := fun y hy => by rw [ea]; exact apply_vars _ _ hy
    have a1f : (hook ext a "precmd".toList).funs = a.funs := by rw [ea]; exact apply_funs _ _ _
    have a1s : (hook ext a "precmd".toList).status = a.status := by rw [ea]
    have a1g : (hook ext a "precmd".toList).get "PROMPT" = a.get "PROMPT" := by rw [ea]; exact apply_get_none _ _ a hp
    have u1 : (hook ext a "precmd".toList).user = (hook ext b "precmd".toList).user := by rw [ea, eb]; simp [apply_user, h1, h2]
    -- the reset
    have er : hook ext (hook ext b "precmd".toList) "__shpool__reset_rprompt".toList =
        (hook ext b "precmd".toList).assign "PROMPT" (s.get "PROMPT") := by
      rw [hook, String.ofList_toList, b1f, h7]
      generalize hook ext b "precmd".toList = B at *
      simp [Simple.exec, Word.value, b1g, Sh.assign, Sh.put]
    have ha : zshPrompt ext a = ((s.list "precmd_functions").foldl (hook ext) (hook ext a "precmd".toList),
        ((s.list "precmd_functions").foldl (hook ext) (hook ext a "precmd".toList)).get "PROMPT") := by
      rw [zshPrompt, zshHooks, h4]; rfl
    have hb : zshPrompt ext b = (hook ext ((s.list "precmd_functions").foldl (hook ext)
        (hook ext (hook ext b "precmd".toList) "__shpool__reset_rprompt".toList)) "__shpool__prompt_command".toList,
        (hook ext ((s.list "precmd_functions").foldl (hook ext)
        (hook ext (hook ext b "precmd".toList) "__shpool__reset_rprompt".toList)) "__shpool__prompt_command".toList).get "PROMPT") := by
      rw [zshPrompt, zshHooks, h5, List.foldl_cons, List.foldl_cons, List.foldl_append]; rfl
    rw [ha, hb, er]
    generalize hA : hook ext a "precmd".toList = A at *
    generalize hB : hook ext b "precmd".toList = B at *
    have sim := hooks_sim ext "PROMPT" eff (s.list "precmd_functions") A (B.assign "PROMPT" (s.get "PROMPT"))
      (fun h hm => (hh h (List.mem_cons_of_mem _ hm)).1) (fun h _ => by rw [a1f]; exact h3 _)
      (fun h hm => hne h (List.mem_cons_of_mem _ hm) _ (by show ∀ f, _ → _ → B.funs f = none; rw [b1f]; exact h9))
      u1 (a1s.trans (h2.trans b1s.symm)) (by
        by_cases hn : ∀ h ∈ s.list "precmd_functions", (eff h).prompt = none
        · left; rw [a1g, h10 hn]; simp [Sh.get, Sh.assign, Sh.put]
        · right
          simp only [Classical.not_forall] at hn
          obtain ⟨h, hm, hn⟩ := hn
          exact ⟨h, hm, by cases hq : (eff h).prompt <;> simp_all⟩)
    obtain ⟨i1, i2, i3, i4, i5, i6, i7, i8, i9⟩ := sim
    generalize (s.list "precmd_functions").foldl (hook ext) A = A' at *
    generalize (s.list "precmd_functions").foldl (hook ext) (B.assign "PROMPT" (s.get "PROMPT")) = B' at *
    have B'f : B'.funs = b.funs := i6.trans b1f
    have ec : hook ext B' "__shpool__prompt_command".toList = B'.assign "PROMPT" (p ++ B'.get "PROMPT") := by
      rw [hook, String.ofList_toList, B'f, h8]
      simp [Simple.exec, Word.value, Sh.assign, Sh.put]
    rw [ec]
    have B'v : ∀ y, y ≠ "PROMPT" → (B'.assign "PROMPT" (p ++ B'.get "PROMPT")).vars y = b.vars y := by
      intro y hy
      refine Eq.trans ?_ ((i8 y hy).trans (Eq.trans ?_ (b1v y hy)))
      · simp [Sh.assign, Sh.put, hy]
      · simp [Sh.assign, Sh.put, hy]
    refine ⟨⟨i1, ?_, ?_, ?_, ?_, ?_, ?_, ?_, ?_, ?_⟩, ?_⟩
    · exact i2.trans (a1s.trans (h2.trans (b1s.symm.trans i3.symm)))
    · intro f; rw [i5, a1f]; exact h3 f
    · rw [← h4]; unfold Sh.list; rw [i7 _ (by decide), a1v _ (by decide)]
    · rw [← h5]; unfold Sh.list; rw [B'v _ (by decide)]
    · rw [← h6]; unfold Sh.get; exact congrArg (fun l => (Option.getD l []).headD []) (B'v _ (by decide))
    · show B'.funs _ = _; rw [B'f, h7]
    · show B'.funs _ = _; rw [B'f, h8]
    · show ∀ f, _ → _ → B'.funs f = _; rw [B'f]; exact h9
    · intro hn; rw [i9 hn, a1g, h10 hn]
    · rw [i4]; simp [Sh.get, Sh.assign, Sh.put]
  · rintro t hm a b ⟨h1, h2, h3⟩
    obtain ⟨g, hg⟩ := ht t hm
    rw [hg, hg]
    refine ⟨?_, ?_, h3⟩ <;> simp [h1, h2]
  · have h1 := hs.1
    have h2 := hs.2
    simp only [zshScript, Script.exec, List.foldl_cons, List.foldl_nil, Cmd.exec, Simple.exec]
    generalize "__shpool__reset_rprompt".toList = r
    generalize "__shpool__prompt_command".toList = c
    refine ⟨rfl, h1, h2, trivial, ?_, ?_, ?_, ?_, ?_, fun _ => trivial⟩
    · simp [Sh.assign, Sh.put, Sh.list]
    · simp [Sh.assign, Sh.put, Sh.get, Sh.list, Word.value]
    · simp [Sh.put, Sh.assign]
    · simp [Sh.put, Sh.assign]
    · intro f hf1 hf2; simp [Sh.put, Sh.assign, hf1, hf2, h2]

/-- A command or hook that leaves the machinery of the script in place; it may do anything else, and set the prompt. -/
def Keeps (ext : Ext U) (t : Str) : Prop :=
  ∀ s, (ext t s).list "precmd_functions" = s.list "precmd_functions" ∧ (ext t s).funs = s.funs

/-- In zsh the prompt begins with the prefix, whatever prompt is set by hooks and commands. -/
theorem C147_zsh_prefix_partial (ext : Ext U) (p : Str) (s : Sh U) (typed : List Str) (hs : Fresh s)
    (hh : ∀ h ∈ zshHooks s, Keeps ext h) (ht : ∀ t ∈ typed, Keeps ext t) :
    ∀ q ∈ shows (zshPrompt ext) ext ((zshScript p).exec ext s) typed, p <+: q := by
  let I : Sh U → Prop := fun b =>
    b.list "precmd_functions" = "__shpool__reset_rprompt".toList :: (s.list "precmd_functions" ++ ["__shpool__prompt_command".toList]) ∧
    b.funs "__shpool__reset_rprompt" = some [.set "PROMPT" [.var "SHPOOL__OLD_PROMPT"]] ∧
    b.funs "__shpool__prompt_command" = some [.set "PROMPT" [.lit p, .var "PROMPT"]] ∧
    (∀ f, f ≠ "__shpool__reset_rprompt" → f ≠ "__shpool__prompt_command" → b.funs f = none)
  have hset : ∀ (b : Sh U) w, I b → I ({ (Simple.set "PROMPT" w).exec ext b with status := b.status }) := by
    rintro b w ⟨h1, h2⟩
    refine ⟨?_, h2⟩
    rw [← h1]
    simp [Simple.exec, Sh.assign, Sh.put, Sh.list]
  have hhook : ∀ b h, I b → (h = "__shpool__reset_rprompt".toList ∨ h = "__shpool__prompt_command".toList ∨ Keeps ext h) →
      I (hook ext b h) := by
    intro b h hb hk
    have hb' := hb
    obtain ⟨h1, h2, h3, h4⟩ := hb'
    by_cases e1 : String.ofList h = "__shpool__reset_rprompt"
    · rw [hook, e1, h2]
      exact hset b _ hb
    · by_cases e2 : String.ofList h = "__shpool__prompt_command"
      · rw [hook, e2, h3]
        exact hset b _ hb
      · rw [hook, h4 _ e1 e2]
        have hk : Keeps ext h := by
          rcases hk with hk | hk | hk
          · rw [hk, String.ofList_toList] at e1; exact absurd rfl e1
          · rw [hk, String.ofList_toList] at e2; exact absurd rfl e2
          · exact hk
        obtain ⟨k1, k2⟩ := hk b
        exact ⟨k1.trans h1, by show (ext h b).funs _ = _; rw [k2, h2], by show (ext h b).funs _ = _; rw [k2, h3],
          by show ∀ f, _ → _ → (ext h b).funs f = _; rw [k2]; exact h4⟩
  have hfold : ∀ (l : List Str) b, I b →
      (∀ h ∈ l, h = "__shpool__reset_rprompt".toList ∨ h = "__shpool__prompt_command".toList ∨ Keeps ext h) →
      I (l.foldl (hook ext) b) := by
    intro l
    induction l with
    | nil => intro b hb _; exact hb
    | cons h l ih =>
      intro b hb hl
      exact ih _ (hhook b h hb (hl h List.mem_cons_self)) (fun k hk => hl k (List.mem_cons_of_mem _ hk))
  have hprompt : ∀ b, I b → I (zshPrompt ext b).1 ∧ p <+: (zshPrompt ext b).2 := by
    intro b hb
    have e : zshHooks b = ("precmd".toList :: "__shpool__reset_rprompt".toList :: s.list "precmd_functions") ++
        ["__shpool__prompt_command".toList] := by rw [zshHooks, hb.1]; rfl
    have hI := hfold ("precmd".toList :: "__shpool__reset_rprompt".toList :: s.list "precmd_functions") b hb (by
      intro h hm
      rcases List.mem_cons.1 hm with rfl | hm
      · exact .inr (.inr (hh _ List.mem_cons_self))
      · rcases List.mem_cons.1 hm with rfl | hm
        · exact .inl rfl
        · exact .inr (.inr (hh _ (List.mem_cons_of_mem _ hm))))
    rw [zshPrompt, e, List.foldl_append]
    generalize List.foldl (hook ext) b ("precmd".toList :: "__shpool__reset_rprompt".toList :: s.list "precmd_functions") = c at *
    refine ⟨hhook c _ hI (.inr (.inl rfl)), ?_⟩
    simp only [List.foldl_cons, List.foldl_nil]
    rw [hook, String.ofList_toList, hI.2.2.1]
    simp [Simple.exec, Word.value, Sh.get, Sh.assign, Sh.put]
  have hall : ∀ typed b, (∀ t ∈ typed, Keeps ext t) → I b → ∀ q ∈ shows (zshPrompt ext) ext b typed, p <+: q := by
    intro typed
    induction typed with
    | nil =>
      intro b _ hb q hq
      rw [shows, List.mem_singleton] at hq
      rw [hq]
      exact (hprompt b hb).2
    | cons t ts ih =>
      intro b ht hb q hq
      rw [shows] at hq
      rcases List.mem_cons.1 hq with rfl | hq
      · exact (hprompt b hb).2
      · refine ih _ (fun t h => ht t (List.mem_cons_of_mem _ h)) ?_ q hq
        obtain ⟨h1, h2, h3, h4⟩ := (hprompt b hb).1
        obtain ⟨k1, k2⟩ := ht t List.mem_cons_self (zshPrompt ext b).1
        exact ⟨k1.trans h1, by rw [k2, h2], by rw [k2, h3], by rw [k2]; exact h4⟩
  refine hall typed _ ht ?_
  have h2 := hs.2
  simp only [zshScript, Script.exec, List.foldl_cons, List.foldl_nil, Cmd.exec, Simple.exec]
  show _ ∧ _
  generalize "__shpool__reset_rprompt".toList = r
  generalize "__shpool__prompt_command".toList = c
  refine ⟨?_, ?_, ?_, ?_⟩
  · simp [Sh.assign, Sh.put, Sh.list]
  · simp [Sh.put, Sh.assign]
  · simp [Sh.put, Sh.assign]
  · intro f hf1 hf2; simp [Sh.put, Sh.assign, hf1, hf2, h2]

/-! ## fish -/

/-- In fish, when the user's prompt does not show the status, and is not replaced later. -/
theorem C147_fish_partial (ext : Str → Fish U → Fish U) (p : Str) (s : Fish U) (typed : List Str) (f : Nat → U → Str × U)
    (h0 : s.status = 0) (hf : s.funs "fish_prompt" = some (.own f)) (hb : ∀ a b, f a = f b)
    (ht : ∀ t ∈ typed, ∃ g : Nat → U → Nat × U, ∀ s, ext t s =
      { s with status := (g s.status s.user).1, user := (g s.status s.user).2 }) : FishSame ext p s typed := by
  refine shows_sim p (fun a b => a.user = b.user ∧ a.status = b.status ∧ a.funs "fish_prompt" = some (.own f) ∧
    b.funs "fish_prompt" = some (.echoThen p "shpool__old_prompt") ∧ b.funs "shpool__old_prompt" = some (.own f)) typed ?_ ?_ _ _ ?_
  · rintro a b ⟨h1, h2, h3, h4, h5⟩
    simp [fishPrompt, h3, h4, h5, h1, h2, hb b.status 0]
  · rintro t hm a b ⟨h1, h2, h3⟩
    obtain ⟨g, hg⟩ := ht t hm
    rw [hg, hg]
    refine ⟨?_, ?_, h3⟩ <;> simp [h1, h2]
  · simp [fishSetup, fishScript, FishCmd.exec, hf, h0]

/-! ## Where the whole claim fails -/

/-- A shell with the given variables. -/
def shell (l : List (String × List Str)) : Sh Unit := { vars := fun x => l.lookup x, funs := fun _ => none, status := 0, user := () }

private theorem fresh_shell (l) : Fresh (shell l) := ⟨rfl, fun _ => rfl⟩

/-- The hook `status` shows how the last command ended; `false` is a command that fails. -/
def extStatus : Ext Unit := fun t s =>
  if t = "status".toList then s.assign "PS1" (if s.status = 0 then "ok$ ".toList else "failed$ ".toList)
  else if t = "false".toList then { s with status := 1 }
  else s

/-- In bash a hook that shows how the last command ended is told that all went well, always. -/
theorem C147_false_bash_status :
    shows (bashPrompt extStatus) extStatus (shell [("PROMPT_COMMAND", ["status".toList])]) ["false".toList] =
      ["ok$ ".toList, "failed$ ".toList] ∧
    shows (bashPrompt extStatus) extStatus ((bashScript "main ".toList).exec extStatus (shell [("PROMPT_COMMAND", ["status".toList])]))
      ["false".toList] = ["main ok$ ".toList, "main ok$ ".toList] := by decide +kernel

/-- Two hooks: the second one sets the prompt. -/
def extTwo : Ext Unit := fun t s => if t = "second".toList then s.assign "PS1" "mine$ ".toList else s

/-- In bash, when `PROMPT_COMMAND` is a list of two, the second one is run again after the prefix was put there: no prefix. -/
theorem C147_false_bash_list :
    shows (bashPrompt extTwo) extTwo ((bashScript "main ".toList).exec extTwo
      (shell [("PROMPT_COMMAND", ["first".toList, "second".toList])])) [] = ["mine$ ".toList] := by decide +kernel

/-- `venv` puts its mark before the prompt. -/
def extVenv : Ext Unit := fun t s =>
  if t = "venv".toList then { s with vars := (s.assign "PS1" ("(venv) ".toList ++ s.get "PS1")).vars } else s

/-- In bash with some hook, a prompt set by a command is gone at the next prompt. -/
theorem C147_false_bash_set :
    shows (bashPrompt extVenv) extVenv (shell [("PS1", ["$ ".toList]), ("PROMPT_COMMAND", ["true".toList])]) ["venv".toList] =
      ["$ ".toList, "(venv) $ ".toList] ∧
    shows (bashPrompt extVenv) extVenv ((bashScript "main ".toList).exec extVenv
      (shell [("PS1", ["$ ".toList]), ("PROMPT_COMMAND", ["true".toList])])) ["venv".toList] =
      ["main $ ".toList, "main $ ".toList] := by decide +kernel

/-- In zsh `precmd` sets the prompt. -/
def extPrecmd : Ext Unit := fun t s => if t = "precmd".toList then s.assign "PROMPT" "mine% ".toList else s

/-- In zsh a prompt that is set by the function `precmd` is replaced by the one there was before. -/
theorem C147_false_zsh_precmd :
    shows (zshPrompt extPrecmd) extPrecmd (shell [("PROMPT", ["% ".toList])]) [] = ["mine% ".toList] ∧
    shows (zshPrompt extPrecmd) extPrecmd ((zshScript "main ".toList).exec extPrecmd (shell [("PROMPT", ["% ".toList])])) [] =
      ["main % ".toList] := by decide +kernel

/-- `venv` in zsh. -/
def extVenvZsh : Ext Unit := fun t s => if t = "venv".toList then s.assign "PROMPT" ("(venv) ".toList ++ s.get "PROMPT") else s

/-- In zsh a prompt set by a command is gone at the next prompt, hooks or not. -/
theorem C147_false_zsh_set :
    shows (zshPrompt extVenvZsh) extVenvZsh (shell [("PROMPT", ["% ".toList])]) ["venv".toList] = ["% ".toList, "(venv) % ".toList] ∧
    shows (zshPrompt extVenvZsh) extVenvZsh ((zshScript "main ".toList).exec extVenvZsh (shell [("PROMPT", ["% ".toList])]))
      ["venv".toList] = ["main % ".toList, "main % ".toList] := by decide +kernel

/-- A prompt of fish that shows how the last command ended. -/
def fishOwn : Nat → Unit → Str × Unit := fun st _ => (if st = 0 then "> ".toList else "! ".toList, ())
def fishShell : Fish Unit := { funs := fun f => if f = "fish_prompt" then some (.own fishOwn) else none, status := 0, user := () }
def extFish : Str → Fish Unit → Fish Unit := fun t s => if t = "false".toList then { s with status := 1 } else s

/-- In fish a prompt that shows how the last command ended shows that all went well, always. -/
theorem C147_false_fish_status :
    shows fishPrompt extFish fishShell ["false".toList] = ["> ".toList, "! ".toList] ∧
    shows fishPrompt extFish (fishSetup "main ".toList fishShell) ["false".toList] = ["main > ".toList, "main > ".toList] := by
  decide +kernel

theorem C147_false : ¬ C147_statement := by
  intro h
  have := h.1 Unit extStatus "main ".toList (shell [("PROMPT_COMMAND", ["status".toList])]) ["false".toList] (fresh_shell _)
  rw [BashSame, C147_false_bash_status.1, C147_false_bash_status.2] at this
  revert this
  decide +kernel

/-! ## Cases that meet the hypotheses -/

/-- A hook that sets the prompt from what it finds. -/
def extCount : Ext Nat := fun t s =>
  if t = "count".toList then { s.assign "PS1" (List.replicate s.user '#') with user := s.user + 1, status := 0 }
  else { s with status := 3 }

/-- A shell with that hook. -/
def shCount : Sh Nat where
  vars x := if x = "PROMPT_COMMAND" then some ["count".toList] else none
  funs _ := none
  status := 0
  user := 1

example : BashSame extCount "main ".toList shCount ["ls".toList, "pwd".toList] := by
  refine C147_bash_hook_partial _ _ _ _ "count".toList
    { user := fun _ u => u + 1, status := fun _ _ => 0, prompt := some fun _ u => List.replicate u '#' } ⟨rfl, fun _ => rfl⟩ rfl ?_ ?_ ?_
  · intro s; simp [extCount, Effect.apply, Sh.assign, Sh.put]
  · exact ⟨fun _ _ => rfl, fun f hf => by cases hf; intros; rfl⟩
  · intro t ht
    refine ⟨fun _ u => (3, u), fun s => ?_⟩
    rcases List.mem_cons.1 ht with rfl | ht
    · exact if_neg (by decide +kernel)
    · rw [List.mem_singleton.1 ht]; exact if_neg (by decide +kernel)

/-- Two hooks of zsh, the first of which shows the status. -/
def extZsh : Ext Unit := fun t s =>
  if t = "draw".toList then s.assign "PROMPT" (List.replicate s.status '#')
  else if t = "ls".toList then { s with status := 2 }
  else s

def effZsh (h : Str) : Effect Unit where
  user _ u := u
  status st _ := st
  prompt := if h = "draw".toList then some (fun st _ => List.replicate st '#') else none

example : ZshSame extZsh "main ".toList (shell [("PROMPT", ["% ".toList]), ("precmd_functions", ["draw".toList, "other".toList])])
    ["ls".toList] := by
  refine C147_zsh_partial _ _ _ _ effZsh (fresh_shell _) ?_ ?_ ?_
  · intro h hm
    have hm' : h ∈ ["precmd".toList, "draw".toList, "other".toList] := hm
    simp only [List.mem_cons, List.not_mem_nil, or_false] at hm'
    rcases hm' with rfl | rfl | rfl
    · refine ⟨fun s => ?_, by decide +kernel, by decide +kernel⟩
      have h1 : "precmd".toList ≠ "draw".toList := by decide +kernel
      have h2 : "precmd".toList ≠ "ls".toList := by decide +kernel
      rw [extZsh, if_neg h1, if_neg h2, Effect.apply]
      simp only [effZsh, if_neg h1]
    · refine ⟨fun s => ?_, by decide +kernel, by decide +kernel⟩
      rw [extZsh, if_pos rfl, Effect.apply]
      simp only [effZsh, if_pos]
      rfl
    · refine ⟨fun s => ?_, by decide +kernel, by decide +kernel⟩
      have h1 : "other".toList ≠ "draw".toList := by decide +kernel
      have h2 : "other".toList ≠ "ls".toList := by decide +kernel
      rw [extZsh, if_neg h1, if_neg h2, Effect.apply]
      simp only [effZsh, if_neg h1]
  · have h1 : "precmd".toList ≠ "draw".toList := by decide +kernel
    rw [effZsh, if_neg h1]
  · intro t ht
    refine ⟨fun _ u => (2, u), fun s => ?_⟩
    rw [List.mem_singleton.1 ht, extZsh, if_neg (by decide +kernel), if_pos rfl]

example : ∀ h ∈ zshHooks (shell [("PROMPT", ["% ".toList]), ("precmd_functions", ["draw".toList])]), Keeps extZsh h := by
  intro h _ s
  unfold extZsh
  split
  · exact ⟨by simp [Sh.list, Sh.assign, Sh.put], rfl⟩
  · split <;> exact ⟨rfl, rfl⟩

example : BashSame extZsh "main ".toList (shell [("PS1", ["$ ".toList])]) ["ls".toList, "ls".toList] := by
  refine C147_bash_no_hooks_partial _ _ _ _ (fresh_shell _) rfl fun t ht => ⟨fun _ u => (2, u), fun s => ?_⟩
  have : t = "ls".toList := by simpa using ht
  rw [this, extZsh, if_neg (by decide +kernel), if_pos rfl]

/-- A prompt of fish that does not show the status. -/
def fishCalm : Nat → Unit → Str × Unit := fun _ _ => ("> ".toList, ())

example : FishSame extFish "main ".toList { fishShell with funs := fun f => if f = "fish_prompt" then some (.own fishCalm) else none }
    ["false".toList] := by
  refine C147_fish_partial _ _ _ _ fishCalm rfl rfl (fun _ _ => rfl) fun t ht => ⟨fun _ u => (1, u), fun s => ?_⟩
  rw [List.mem_singleton.1 ht, extFish, if_pos rfl]

end Shpool.ShellPrompt
