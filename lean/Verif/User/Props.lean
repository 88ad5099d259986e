import Verif.User.Model
import Verif.Spawn.Props

/-!
# Property C106: a new shell is the user's
-/

namespace Shpool.User

open Shpool.Env (Str)

/-- What is known of the system: decoding an empty string, the lossy decoding of what can be decoded, and that an entry takes at least the
bytes of its strings and the zero bytes after them. -/
structure Sys.Sane (s : Sys) : Prop where
  empty : s.utf8 [] = some []
  lossy : ∀ b t, s.utf8 b = some t → s.lossy b = t
  need : ∀ e, e.name.length + e.passwd.length + e.gecos.length + e.dir.length + e.shell.length + 5 ≤ s.need e

/-- C106.  A user whose entry fits the buffer, with text that can be decoded, gets the shell, the home directory and the name of
their entry. -/
theorem C106_exact_partial (s : Sys) (hs : s.Sane) (uid : Nat) (e : Entry) (he : s.db uid = some e) (hfit : s.need e ≤ 4096)
    (h0 : ∀ b ∈ e.shell ++ e.dir ++ e.name, b ≠ 0) (shell dir name : Str) (h1 : s.utf8 e.shell = some shell)
    (h2 : s.utf8 e.dir = some dir) (h3 : s.utf8 e.name = some name) : info s uid = .ok ⟨shell, dir, name⟩ := by
  have c (b : Bytes) (h : ∀ x ∈ b, x ≠ 0) : cstr b = b := by
    unfold cstr
    induction b with
    | nil => rfl
    | cons y b ih =>
      have := h y (by simp)
      simp [this, ih fun x hx => h x (by simp [hx])]
  have c1 := c e.shell fun x hx => h0 x (by simp [hx])
  have c2 := c e.dir fun x hx => h0 x (by simp [hx])
  have c3 := c e.name fun x hx => h0 x (by simp [hx])
  simp [info, getpwuid, he, bufLen, hfit, c1, c2, c3, hs.lossy _ _ h1, hs.lossy _ _ h2, hs.lossy _ _ h3]

/-- C106.  Such a user, if their shell has a name (`b`), gets it as a login shell, in their home directory unless another directory is
asked for. -/
theorem C106_login_partial (s : Sys) (hs : s.Sane) (uid : Nat) (e : Entry) (he : s.db uid = some e) (hfit : s.need e ≤ 4096)
    (h0 : ∀ b ∈ e.shell ++ e.dir ++ e.name, b ≠ 0) (shell dir name b : Str) (h1 : s.utf8 e.shell = some shell)
    (h2 : s.utf8 e.dir = some dir) (h3 : s.utf8 e.name = some name) (hb : Spawn.LastPart shell b)
    (words : Str → Option (List Str)) (rest : Spawn.Input) (hc : rest.cmd = none) (hn : rest.configShell = none) :
    ∃ x, execFor s uid words rest = some x ∧ x.program = shell ∧ x.arg0 = '-' :: b ∧ x.dir = rest.dir.getD dir := by
  have hi := C106_exact_partial s hs uid e he hfit h0 shell dir name h1 h2 h3
  obtain ⟨x, hx, hp, h0, hd, _⟩ := Spawn.C95_login words { rest with defaultShell := shell, home := dir } hc b (by simpa [hn] using hb)
  exact ⟨x, by simp [execFor, hi, hx], by simpa [hn] using hp, h0, hd⟩

/-- C106.  Nobody gets the shell or home directory of another user, or one made up: what is found comes from the user's own entry. -/
theorem C106_own_entry (s : Sys) (uid : Nat) (i : Info) (h : info s uid = .ok i) :
    ∃ e, s.db uid = some e ∧ i.defaultShell = s.lossy (e.shell.takeWhile (· != 0)) ∧ i.home = s.lossy (e.dir.takeWhile (· != 0)) ∧
      i.user = s.lossy (e.name.takeWhile (· != 0)) := by
  unfold info getpwuid at h
  cases he : s.db uid with
  | none => simp [he] at h
  | some e =>
    simp only [he] at h
    by_cases hf : s.need e ≤ bufLen
    · simp only [hf, if_true] at h
      cases h
      exact ⟨e, rfl, rfl, rfl, rfl⟩
    · simp [hf] at h

/-- The command a user with this entry expects: the shell of the entry (`/bin/sh` if there is none, passwd(5)), as a login shell, in the home
directory of the entry. -/
def C106_statement : Prop :=
  ∀ (s : Sys) (uid : Nat) (e : Entry) (words : Str → Option (List Str)) (rest : Spawn.Input), s.Sane → s.db uid = some e →
    rest.configShell = none → rest.cmd = none → rest.dir = none → (∀ b ∈ e.shell ++ e.dir ++ e.name, b ≠ 0) →
    ∃ x, execFor s uid words rest = some x ∧
      (∀ p, s.utf8 e.shell = some p → x.program = if e.shell = [] then "/bin/sh".toList else p) ∧
      ∀ d, s.utf8 e.dir = some d → x.dir = d

/-- C106 is false: a user whose entry takes more than 4096 bytes (a long list of names in the comment field, say) cannot start a
session, whatever is asked for. -/
theorem C106_false_large_entry (s : Sys) (hs : s.Sane) (uid : Nat) (e : Entry) (he : s.db uid = some e) (hl : 4092 ≤ e.gecos.length)
    (words : Str → Option (List Str)) (rest : Spawn.Input) : execFor s uid words rest = none := by
  have := hs.need e
  have hf : ¬ s.need e ≤ bufLen := by simp only [bufLen]; omega
  simp [execFor, info, getpwuid, he, hf]

/-- C106: when the lookup fails, the message tells whether there is no such user or the entry could not be read. -/
theorem C106_error (s : Sys) (uid : Nat) : (info s uid = .error .notFound ↔ s.db uid = none) ∧
    (info s uid = .error .errno ↔ ∃ e, s.db uid = some e ∧ 4096 < s.need e) := by
  unfold info getpwuid
  cases he : s.db uid with
  | none => simp
  | some e =>
    by_cases hn : s.need e ≤ bufLen
    · have : ¬ 4096 < s.need e := by simp only [bufLen] at hn; omega
      simp [hn, this]
    · have : 4096 < s.need e := by simp only [bufLen] at hn; omega
      simp [hn, this]

/-- C106 is false: a user without a shell in their entry, who has `/bin/sh` (passwd(5)), cannot start one. -/
theorem C106_false_no_shell (s : Sys) (hs : s.Sane) (uid : Nat) (e : Entry) (he : s.db uid = some e) (hsh : e.shell = [])
    (words : Str → Option (List Str)) (rest : Spawn.Input) (h1 : rest.configShell = none) (h2 : rest.cmd = none) :
    execFor s uid words rest = none := by
  unfold execFor
  cases hi : info s uid with
  | error _ => rfl
  | ok i =>
    obtain ⟨e', he', h, _⟩ := C106_own_entry s uid i hi
    rw [he] at he'
    cases he'
    have : i.defaultShell = [] := by rw [h, hsh]; exact hs.lossy _ _ hs.empty
    exact Spawn.C95_no_name words _ h2 (.inr (by simp [h1, this]))

/-- C106 is false for names that are not UTF-8: no shell is ever started in such a home directory (`back` is encoding as UTF-8), since the
request carries decoded text. -/
theorem C106_false_not_utf8 (s : Sys) (uid : Nat) (e : Entry) (back : Str → Bytes) (hback : ∀ t, s.utf8 (back t) = some t)
    (hu : s.utf8 e.dir = none) (words : Str → Option (List Str)) (rest : Spawn.Input) (x : Spawn.Exec)
    (_ : execFor s uid words rest = some x) : back x.dir ≠ e.dir := by
  intro hb
  have := hback x.dir
  rw [hb, hu] at this
  cases this

/-- Decoding for the examples: ASCII. -/
def ascii (b : Bytes) : Option Str := if b.all (· < 128) then some (b.map fun x => Char.ofNat x.toNat) else none

/-- A system with one user, number 1000. -/
def sys (e : Entry) : Sys where
  db uid := if uid = 1000 then some e else none
  need e := e.name.length + e.passwd.length + e.gecos.length + e.dir.length + e.shell.length + 5
  utf8 := ascii
  lossy b := b.map fun x => if x < 128 then Char.ofNat x.toNat else Char.ofNat 0xFFFD

theorem sys_sane (e : Entry) : (sys e).Sane where
  empty := rfl
  lossy b t h := by
    simp only [sys, ascii] at h ⊢
    split at h
    · next hb =>
      cases h
      rw [List.all_eq_true] at hb
      apply List.map_congr_left
      intro x hx
      have := hb x hx
      simp only [decide_eq_true_eq] at this
      simp [this]
    · cases h
  need _ := Nat.le_refl _

/-- ` u:x::/h: `: no shell. -/
def noShell : Entry := ⟨[117], [120], [], [47, 104], []⟩

def plain : Spawn.Input := ⟨none, [], none, none, none, [], [], [], none⟩

theorem C106_false : ¬ C106_statement := by
  intro h
  obtain ⟨x, hx, _⟩ := h (sys noShell) 1000 noShell (fun _ => none) plain (sys_sane _) rfl rfl rfl rfl (by decide)
  rw [C106_false_no_shell (sys noShell) (sys_sane _) 1000 noShell rfl rfl (fun _ => none) plain rfl rfl] at hx
  cases hx

/-- `C106_exact_partial`: `u:x::/h:/s`. -/
example : (sys ⟨[117], [120], [], [47, 104], [47, 115]⟩).db 1000 = some ⟨[117], [120], [], [47, 104], [47, 115]⟩ ∧
    (sys noShell).need ⟨[117], [120], [], [47, 104], [47, 115]⟩ ≤ 4096 ∧ ascii [47, 115] = some ['/', 's'] := by decide

/-- `C106_false_not_utf8`: there are such names. -/
example : ascii [47, 0xFF] = none := by decide

/-- `C106_false_large_entry`: a long comment field. -/
example : 4092 ≤ (List.replicate 4092 (97 : UInt8)).length := by rw [List.length_replicate]; exact Nat.le_refl _

end Shpool.User
