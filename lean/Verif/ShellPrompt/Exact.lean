import Verif.ShellPrompt.Props
/-!
# C147: exactly which prompts bash shows when there are hooks
-/

namespace Shpool.ShellPrompt
open Inject (Str)

variable {U : Type}

/-! ## What is shown -/

/-- The prompt after a hook: what it sets, or as before. -/
def Effect.draws (e : Effect U) (st : Nat) (u : U) (q : Str) : Str := match e.prompt with
  | none => q
  | some f => f st u

/-- A hook run by the function of the daemon: it is told the status the one before it left.  The status, the rest of the shell, the prompt. -/
def looped (eff : Str → Effect U) (r : Nat × U × Str) (h : Str) : Nat × U × Str :=
  ((eff h).status r.1 r.2.1, (eff h).user r.1 r.2.1, (eff h).draws r.1 r.2.1 r.2.2)

/-- A hook run by bash: it is told the status of the last command. -/
def direct (eff : Str → Effect U) (st : Nat) (r : U × Str) (h : Str) : U × Str :=
  ((eff h).user st r.1, (eff h).draws st r.1 r.2)

/-- A prompt with the script run: all hooks of the user's are run, the first being told that all went well, and starting with the prompt there
was when the script was run; the prefix is put there; then all hooks but the first are run again. -/
def twice (p ps1 : Str) (eff : Str → Effect U) (h : Str) (rest : List Str) (s : Nat × U) : (Nat × U) × Str :=
  let r := (h :: rest).foldl (looped eff) (0, s.2, ps1)
  let q := rest.foldl (direct eff s.1) (r.2.1, p ++ r.2.2)
  ((s.1, q.1), q.2)

/-! ## Helpers -/

/-- What the hooks of the user's leave alone. -/
structure Kept (p : Str) (ps1 : Str) (h : Str) (rest : List Str) (s : Sh U) : Prop where
  pc : s.list "PROMPT_COMMAND" = "__shpool__prompt_command".toList :: rest
  old : s.list "SHPOOL__OLD_PROMPT_COMMAND" = h :: rest
  ps : s.get "SHPOOL__OLD_PS1" = ps1
  fn : s.funs "__shpool__prompt_command" = some [.set "PS1" [.var "SHPOOL__OLD_PS1"],
        .evalAll "prompt_hook" "SHPOOL__OLD_PROMPT_COMMAND", .set "PS1" [.lit p, .var "PS1"]]
  others : ∀ f, f ≠ "__shpool__prompt_command" → s.funs f = none

theorem Kept.of_vars {p ps1 h : Str} {rest : List Str} {s s' : Sh U} (hk : Kept p ps1 h rest s)
    (hv : ∀ y, y ≠ "PS1" → y ≠ "prompt_hook" → s'.vars y = s.vars y) (hf : s'.funs = s.funs) : Kept p ps1 h rest s' where
  pc := by rw [← hk.pc]; unfold Sh.list; rw [hv _ (by decide) (by decide)]
  old := by rw [← hk.old]; unfold Sh.list; rw [hv _ (by decide) (by decide)]
  ps := by rw [← hk.ps]; unfold Sh.get; rw [hv _ (by decide) (by decide)]
  fn := by rw [hf]; exact hk.fn
  others := by rw [hf]; exact hk.others

theorem apply_get (e : Effect U) (s : Sh U) : (e.apply "PS1" s).get "PS1" = e.draws s.status s.user (s.get "PS1") := by
  unfold Effect.draws
  cases hp : e.prompt with
  | none => exact apply_get_none e _ s hp
  | some f => exact apply_get_some e _ s hp

theorem looped_run (ext : Ext U) (eff : Str → Effect U) : ∀ (hs : List Str) (s : Sh U),
    (∀ h ∈ hs, ∀ s, ext h s = (eff h).apply "PS1" s) →
    let s' := hs.foldl (fun s h => ext h (s.assign "prompt_hook" h)) s
    (s'.status, s'.user, s'.get "PS1") = hs.foldl (looped eff) (s.status, s.user, s.get "PS1") ∧
      (∀ y, y ≠ "PS1" → y ≠ "prompt_hook" → s'.vars y = s.vars y) ∧ s'.funs = s.funs := by
  intro hs
  induction hs with
  | nil => intro s _; exact ⟨rfl, fun _ _ _ => rfl, rfl⟩
  | cons h hs ih =>
    intro s he
    have e1 := he h List.mem_cons_self (s.assign "prompt_hook" h)
    have hg : (s.assign "prompt_hook" h).get "PS1" = s.get "PS1" := by simp [Sh.get, Sh.assign, Sh.put]
    have h2 := ih (ext h (s.assign "prompt_hook" h)) (fun k hk => he k (List.mem_cons_of_mem _ hk))
    obtain ⟨i1, i2, i3⟩ := h2
    simp only [List.foldl_cons]
    refine ⟨i1.trans ?_, fun y hy hy' => (i2 y hy hy').trans ?_, i3.trans ?_⟩
    · rw [e1, apply_get, hg]
      rfl
    · rw [e1, apply_vars _ _ hy]; simp [Sh.assign, Sh.put, hy']
    · rw [e1, apply_funs]; rfl

theorem direct_run (ext : Ext U) (eff : Str → Effect U) : ∀ (hs : List Str) (s : Sh U),
    (∀ h ∈ hs, ∀ s, ext h s = (eff h).apply "PS1" s) → (∀ h ∈ hs, s.funs (String.ofList h) = none) →
    let s' := hs.foldl (hook ext) s
    (s'.user, s'.get "PS1") = hs.foldl (direct eff s.status) (s.user, s.get "PS1") ∧ s'.status = s.status ∧
      (∀ y, y ≠ "PS1" → s'.vars y = s.vars y) ∧ s'.funs = s.funs := by
  intro hs
  induction hs with
  | nil => intro s _ _; exact ⟨rfl, rfl, fun _ _ => rfl, rfl⟩
  | cons h hs ih =>
    intro s he hf
    have e1 := hook_own ext s h (eff h) "PS1" (hf h List.mem_cons_self) (he h List.mem_cons_self s)
    have hF : (hook ext s h).funs = s.funs := by rw [e1]; exact apply_funs _ _ _
    have hS : (hook ext s h).status = s.status := by rw [e1]
    obtain ⟨i1, i2, i3, i4⟩ := ih (hook ext s h) (fun k hk => he k (List.mem_cons_of_mem _ hk))
      (fun k hk => by rw [hF]; exact hf k (List.mem_cons_of_mem _ hk))
    simp only [List.foldl_cons]
    refine ⟨i1.trans ?_, i2.trans hS, fun y hy => (i3 y hy).trans ?_, i4.trans hF⟩
    · rw [hS]
      congr 1
      rw [e1]
      exact Prod.ext rfl (apply_get (eff h) s)
    · rw [e1]; exact apply_vars _ _ hy

/-- The function of the daemon. -/
theorem function_run (ext : Ext U) (eff : Str → Effect U) {p ps1 h : Str} {rest : List Str} {s : Sh U} (hk : Kept p ps1 h rest s)
    (he : ∀ k ∈ h :: rest, ∀ s, ext k s = (eff k).apply "PS1" s) :
    let s' := hook ext s "__shpool__prompt_command".toList
    let r := (h :: rest).foldl (looped eff) (0, s.user, ps1)
    s'.user = r.2.1 ∧ s'.get "PS1" = p ++ r.2.2 ∧ s'.status = s.status ∧
      (∀ y, y ≠ "PS1" → y ≠ "prompt_hook" → s'.vars y = s.vars y) ∧ s'.funs = s.funs := by
  intro s' r
  have e : s' = { (Simple.set "PS1" [.lit p, .var "PS1"]).exec ext ((Simple.evalAll "prompt_hook" "SHPOOL__OLD_PROMPT_COMMAND").exec ext
      ((Simple.set "PS1" [.var "SHPOOL__OLD_PS1"]).exec ext s)) with status := s.status } := by
    show hook ext s _ = _
    rw [hook, String.ofList_toList, hk.fn]
    rfl
  obtain ⟨s1, h1⟩ : ∃ s1, (Simple.set "PS1" [.var "SHPOOL__OLD_PS1"]).exec ext s = s1 := ⟨_, rfl⟩
  rw [h1] at e
  have g1 : s1.get "PS1" = ps1 := by rw [← h1, ← hk.ps]; simp [Simple.exec, Sh.get, Sh.assign, Sh.put, Word.value]
  have v1 : ∀ y, y ≠ "PS1" → s1.vars y = s.vars y := fun y hy => by rw [← h1]; simp [Simple.exec, Sh.assign, Sh.put, hy]
  have u1 : s1.user = s.user := by rw [← h1]; rfl
  have f1 : s1.funs = s.funs := by rw [← h1]; rfl
  have l1 : s1.list "SHPOOL__OLD_PROMPT_COMMAND" = h :: rest := by
    rw [← hk.old]; unfold Sh.list; rw [v1 _ (by decide)]
  obtain ⟨s2, h2⟩ : ∃ s2, (Simple.evalAll "prompt_hook" "SHPOOL__OLD_PROMPT_COMMAND").exec ext s1 = s2 := ⟨_, rfl⟩
  rw [h2] at e
  have hl := looped_run ext eff (h :: rest) { s1 with status := 0 } he
  have e2 : (h :: rest).foldl (fun s h => ext h (s.assign "prompt_hook" h)) { s1 with status := 0 } = s2 := by
    rw [← h2, Simple.exec, l1]
  simp only [e2] at hl
  obtain ⟨i1, i2, i3⟩ := hl
  have hg : ({ s1 with status := 0 } : Sh U).get "PS1" = ps1 := g1
  rw [hg, u1] at i1
  have i4 : s2.user = r.2.1 := congrArg (fun z => z.2.1) i1
  have i5 : s2.get "PS1" = r.2.2 := congrArg (fun z => z.2.2) i1
  refine ⟨by rw [e]; exact i4, ?_, by rw [e], fun y hy hy' => ?_, ?_⟩
  · rw [e, ← i5]; simp [Simple.exec, Sh.get, Sh.assign, Sh.put, Word.value]
  · rw [e]
    have : ((Simple.set "PS1" [.lit p, .var "PS1"]).exec ext s2).vars y = s2.vars y := by simp [Simple.exec, Sh.assign, Sh.put, hy]
    exact this.trans ((i2 y hy hy').trans (v1 y hy))
  · rw [e]; exact i3.trans f1

/-- **C147** (bash with hooks), exactly: whatever the hooks do (each sets the prompt always or never; they may look at the status), as long
as commands leave the prompt alone, the prompts are those of `twice`. -/
theorem C147_bash_exact (ext : Ext U) (p : Str) (s : Sh U) (typed : List Str) (eff : Str → Effect U) (h : Str) (rest : List Str)
    (hs : Fresh s) (hc : s.list "PROMPT_COMMAND" = h :: rest)
    (he : ∀ k ∈ h :: rest, (∀ s, ext k s = (eff k).apply "PS1" s) ∧ k ≠ "__shpool__prompt_command".toList)
    (run : Str → Nat × U → Nat × U)
    (ht : ∀ t ∈ typed, ∀ s, ext t s = { s with status := (run t (s.status, s.user)).1, user := (run t (s.status, s.user)).2 }) :
    shows (bashPrompt ext) ext ((bashScript p).exec ext s) typed = shows (twice p (s.get "PS1") eff h rest) run (0, s.user) typed := by
  have hset : s.isSet "PROMPT_COMMAND" = true := by simp [Sh.isSet, hc]
  have key := shows_sim (pr := twice p (s.get "PS1") eff h rest) (pr' := bashPrompt ext) (ext := run) (ext' := ext) []
    (fun a b => Kept p (s.get "PS1") h rest b ∧ b.status = a.1 ∧ b.user = a.2) typed ?_ ?_ (0, s.user) ((bashScript p).exec ext s) ?_
  · rw [key]; simp
  · rintro ⟨st, u⟩ b ⟨hk, h1, h2⟩
    dsimp only at h1 h2
    subst h1 h2
    obtain ⟨i1, i2, i3, i4, i5⟩ := function_run ext eff hk (fun k hm => (he k hm).1)
    have hbp : bashPrompt ext b = (rest.foldl (hook ext) (hook ext b "__shpool__prompt_command".toList),
        (rest.foldl (hook ext) (hook ext b "__shpool__prompt_command".toList)).get "PS1") := by
      rw [bashPrompt, bashHooks, hk.pc]; rfl
    obtain ⟨b1, hb1⟩ : ∃ b1, hook ext b "__shpool__prompt_command".toList = b1 := ⟨_, rfl⟩
    rw [hbp]
    simp only [hb1] at i1 i2 i3 i4 i5 ⊢
    have hf : ∀ k ∈ rest, b1.funs (String.ofList k) = none := fun k hm => by
      rw [i5]
      refine hk.others _ fun e => (he k (List.mem_cons_of_mem _ hm)).2 ?_
      rw [← e, String.toList_ofList]
    obtain ⟨j1, j2, j3, j4⟩ := direct_run ext eff rest b1 (fun k hm => (he k (List.mem_cons_of_mem _ hm)).1) hf
    simp only [i1, i2, i3] at j1 j2
    refine ⟨⟨(hk.of_vars i4 i5).of_vars (fun y hy _ => j3 y hy) j4, j2, ?_⟩, ?_⟩
    · exact congrArg Prod.fst j1
    · exact congrArg Prod.snd j1
  · rintro t hm ⟨st, u⟩ b ⟨hk, h1, h2⟩
    dsimp only at h1 h2
    subst h1 h2
    rw [ht t hm]
    exact ⟨hk.of_vars (fun _ _ _ => rfl) rfl, rfl, rfl⟩
  · rw [bashScript, Script.exec, hset]
    have hc' := hc
    simp only [Sh.list] at hc'
    refine ⟨⟨?_, ?_, ?_, ?_, ?_⟩, ?_, ?_⟩ <;>
      simp [Cmd.exec, Simple.exec, Sh.assign, Sh.put, Sh.get, Sh.list, Word.value, hs.2, hc']

/-- Three hooks, of which the second sets the prompt and the others count: `count` is run once, the third twice. -/
def extThree : Ext (Nat × Nat) := fun t s =>
  if t = "count".toList then { s with user := (s.user.1 + 1, s.user.2) }
  else if t = "draw".toList then s.assign "PS1" (List.replicate s.status '#')
  else if t = "last".toList then { s with user := (s.user.1, s.user.2 + 1) }
  else s

def effThree (t : Str) : Effect (Nat × Nat) where
  user _ u := if t = "count".toList then (u.1 + 1, u.2) else if t = "draw".toList then u else if t = "last".toList then (u.1, u.2 + 1) else u
  status st _ := st
  prompt := if t = "count".toList then none else if t = "draw".toList then some (fun st _ => List.replicate st '#') else none

example : (twice "main ".toList "$ ".toList effThree "count".toList ["draw".toList, "last".toList] (3, (0, 0))) =
    ((3, (1, 2)), "###".toList) := by decide +kernel

example (s : Sh (Nat × Nat)) (k : Str) : extThree k s = (effThree k).apply "PS1" s := by
  unfold extThree Effect.apply effThree
  dsimp only
  split
  · rfl
  · split
    · rfl
    · split <;> rfl

end Shpool.ShellPrompt
