import Verif.Symlink.Model
/-!
# C118: a change of the configuration is noticed; C119: the daemon starts whatever the files are links to
-/

namespace Shpool.Symlink

/-! ## Looking up paths -/

theorem walk_mono {fs : Fs} {n : Nat} {done rest q : Path} (h : walk fs n done rest = some q) (k : Nat) : walk fs (n + k) done rest = some q := by
  induction n generalizing done rest with
  | zero => cases rest with
    | nil => cases k <;> exact h
    | cons => cases h
  | succ n ih =>
    cases rest with
    | nil => rw [show n + 1 + k = (n + k) + 1 by omega]; exact h
    | cons c rest =>
      rw [show n + 1 + k = (n + k) + 1 by omega]
      unfold walk at h ⊢
      cases hn : node fs (done ++ [c]) with
      | none => rw [hn] at h; cases h
      | some x =>
        rw [hn] at h
        cases x with
        | dir => exact ih h
        | file => exact h
        | link t => exact ih h

/-- All of the way to `d` are directories. -/
def RealDir (fs : Fs) (d : Path) : Prop := ∀ k, node fs (d.take k) = some .dir

theorem realDir_root (fs : Fs) : RealDir fs [] := by intro k; simp [node]

theorem realDir_snoc {fs : Fs} {d : Path} {c : Nat} (h : RealDir fs d) (hc : node fs (d ++ [c]) = some .dir) : RealDir fs (d ++ [c]) := by
  intro k
  rw [List.take_append]
  by_cases hk : k ≤ d.length
  · rw [show k - d.length = 0 by omega]; simpa using h k
  · rw [List.take_of_length_le (by omega), List.take_of_length_le (by simp; omega)]; exact hc

theorem walk_real {fs : Fs} (ds : Path) {n : Nat} {done rest : Path} (h : RealDir fs (done ++ ds)) :
    walk fs (n + ds.length) done (ds ++ rest) = walk fs n (done ++ ds) rest := by
  induction ds generalizing done with
  | nil => simp
  | cons c ds ih =>
    have hc : node fs (done ++ [c]) = some .dir := by
      have := h (done.length + 1)
      rw [List.take_append, List.take_of_length_le (by omega)] at this
      simpa using this
    rw [List.cons_append, List.length_cons, show n + (ds.length + 1) = (n + ds.length) + 1 by omega, walk, hc]
    have := ih (done := done ++ [c]) (by simpa using h)
    simpa using this

/-- What a lookup gives: a directory all of whose ancestors are directories, or a file in such a directory; at most as long as the number of
steps. -/
theorem walk_spec {fs : Fs} {n : Nat} {done rest q : Path} (hd : RealDir fs done) (h : walk fs n done rest = some q) :
    (RealDir fs q ∨ ∃ d c x, q = d ++ [c] ∧ RealDir fs d ∧ node fs q = some (.file x)) ∧ q.length ≤ done.length + n := by
  induction n generalizing done rest with
  | zero => cases rest with
    | nil => cases h; exact ⟨.inl hd, by omega⟩
    | cons => cases h
  | succ n ih =>
    cases rest with
    | nil => cases h; exact ⟨.inl hd, by omega⟩
    | cons c rest =>
      unfold walk at h
      cases hn : node fs (done ++ [c]) with
      | none => rw [hn] at h; cases h
      | some x =>
        rw [hn] at h
        cases x with
        | dir =>
          have := ih (realDir_snoc hd hn) h
          refine ⟨this.1, ?_⟩
          have := this.2
          simp at this; omega
        | file x =>
          simp only at h
          split at h
          · cases h; exact ⟨.inr ⟨done, c, x, rfl, hd, hn⟩, by simp⟩
          · cases h
        | link t =>
          have := ih (realDir_root fs) h
          refine ⟨this.1, ?_⟩
          have := this.2
          simp at this; omega

/-- The path found has no links: looking it up gives itself. -/
theorem resolve_idem {fs : Fs} {p q : Path} (h : resolve fs p = some q) : resolve fs q = some q := by
  obtain ⟨h1, h2⟩ := walk_spec (realDir_root fs) h
  simp at h2
  unfold resolve
  rcases h1 with h1 | ⟨d, c, x, rfl, hd, hx⟩
  · have := walk_real (n := steps - q.length) q (done := []) (rest := []) (by simpa using h1)
    rw [show steps - q.length + q.length = steps by omega] at this
    rw [List.append_nil] at this
    rw [this]
    cases steps - q.length <;> rfl
  · have := walk_real (n := steps - d.length) d (done := []) (rest := [c]) (by simpa using hd)
    simp at h2
    rw [show steps - d.length + d.length = steps by omega] at this
    rw [this, show steps - d.length = (steps - d.length - 1) + 1 by omega]
    show (match node fs ([] ++ d ++ [c]) with
      | some .dir => walk fs (steps - d.length - 1) ([] ++ d ++ [c]) []
      | some (.file _) => if ([] : Path) = [] then some ([] ++ d ++ [c]) else none
      | some (.link t) => walk fs (steps - d.length - 1) [] (t ++ [])
      | none => none) = some (d ++ [c])
    simp [hx]

/-! ## C118 -/

/-- A change at one path of a file system. -/
structure Change where
  at_ : Path
  to : Option Node

/-- C118: whenever a single change of the file system changes what is read from the configuration file, the watcher notices. -/
def C118_statement : Prop := ∀ (fs : Fs) (p : Path) (c : Change), read fs p ≠ read (change fs c.at_ c.to) p →
  noticed (watchAndAdd fs (canonicalizePath fs p)) c.at_ = true

/-- `/1` is `~/.config/shpool`, `/2` a directory with the real files. -/
def dotfiles : Fs := [([1], .dir), ([2], .dir), ([2, 1], .file 10), ([2, 2], .file 20), ([1, 9], .link [2, 1])]

/-- C118 is false: the file is a link that is made to lead to another file, as managers of dot files do. -/
theorem C118_false : ¬ C118_statement := by
  intro h
  have := h dotfiles [1, 9] ⟨[1, 9], some (.link [2, 2])⟩ (by decide)
  revert this; decide

/-- … the directory is a link that is made to lead to another directory … -/
theorem C118_false_directory : ∃ (fs : Fs) (p : Path) (c : Change), read fs p = some 10 ∧ read (change fs c.at_ c.to) p = some 20 ∧
    noticed (watchAndAdd fs (canonicalizePath fs p)) c.at_ = false :=
  ⟨[([2], .dir), ([3], .dir), ([2, 9], .file 10), ([3, 9], .file 20), ([1], .link [2])], [1, 9], ⟨[1], some (.link [3])⟩, by decide⟩

/-- … or the file is a link to a file that is created only later. -/
theorem C118_false_dangling : ∃ (fs : Fs) (p : Path) (c : Change), read fs p = none ∧ read (change fs c.at_ c.to) p = some 20 ∧
    noticed (watchAndAdd fs (canonicalizePath fs p)) c.at_ = false :=
  ⟨[([1], .dir), ([2], .dir), ([1, 9], .link [2, 9])], [1, 9], ⟨[2, 9], some (.file 20)⟩, by decide⟩

theorem bestEffort_full {fs : Fs} {t w : Path} (h : resolve fs t = some w) (hne : t ≠ []) : watchAndAdd fs t = ⟨t, w, w⟩ := by
  unfold watchAndAdd
  cases ht : t.length with
  | zero => exact absurd (List.length_eq_zero_iff.mp ht) hne
  | succ k =>
    rw [bestEffort, List.take_of_length_le (by omega), h, List.drop_eq_nil_of_le (by omega)]
    simp

/-- C118: the watcher looks at the file that is read: as far as it exists, through any links, it is read again when its content changes. -/
theorem C118_edit_partial {fs : Fs} {p : Path} {c : Nat} (h : read fs p = some c) :
    ∃ q, resolve fs p = some q ∧ node fs q = some (.file c) ∧ reloads (watchAndAdd fs (canonicalizePath fs p)) q = true := by
  unfold read at h
  cases hq : resolve fs p with
  | none => rw [hq] at h; cases h
  | some q =>
    rw [hq] at h
    have hf : node fs q = some (.file c) := by
      simp only at h
      split at h
      · rename_i c' hc; cases h; exact hc
      · cases h
    have hne : q ≠ [] := by rintro rfl; simp [node] at hf
    refine ⟨q, rfl, hf, ?_⟩
    have : canonicalizePath fs p = q := by simp [canonicalizePath, hq]
    rw [this, bestEffort_full (resolve_idem hq) hne]
    simp [reloads, rewatches, reported]

example : read dotfiles [1, 9] = some 10 ∧ resolve dotfiles [1, 9] = some [2, 1] := by decide

/-- The paths looked at on the way. -/
def visited (fs : Fs) : Nat → Path → Path → List Path
  | _, _, [] => []
  | 0, _, _ :: _ => []
  | n + 1, done, c :: rest => (done ++ [c]) :: match node fs (done ++ [c]) with
    | some .dir => visited fs n (done ++ [c]) rest
    | some (.file _) => []
    | some (.link t) => visited fs n [] (t ++ rest)
    | none => []

theorem walk_agree {fs fs' : Fs} {n : Nat} {done rest q : Path} (h : walk fs n done rest = some q) {x x' : Nat} (hq : node fs q = some (.file x))
    (hq' : node fs' q = some (.file x')) (ha : ∀ v ∈ visited fs n done rest, v ≠ q → node fs' v = node fs v) :
    walk fs' n done rest = some q := by
  induction n generalizing done rest with
  | zero => cases rest with
    | nil => exact h
    | cons => cases h
  | succ n ih =>
    cases rest with
    | nil => exact h
    | cons c rest =>
      unfold walk at h ⊢
      unfold visited at ha
      by_cases hv : done ++ [c] = q
      · rw [hv] at h ⊢
        rw [hq] at h; rw [hq']
        exact h
      · rw [ha _ (by simp) hv]
        cases hn : node fs (done ++ [c]) with
        | none => rw [hn] at h; cases h
        | some y =>
          rw [hn] at h
          simp only [hn] at ha
          cases y with
          | dir => exact ih h (fun v hv => ha v (by simp [hv]))
          | file => exact h
          | link t => exact ih h (fun v hv => ha v (by simp [hv]))

/-- C118: as long as none of the directories and links on the way to the file changes, the file that is watched stays the one that is read,
whatever is done to the file itself and to all the rest. -/
theorem C118_stays_partial {fs fs' : Fs} {p q : Path} {x x' : Nat} (h : resolve fs p = some q) (hq : node fs q = some (.file x))
    (hq' : node fs' q = some (.file x')) (ha : ∀ v ∈ visited fs steps [] p, v ≠ q → node fs' v = node fs v) :
    canonicalizePath fs p = q ∧ read fs' p = some x' := by
  refine ⟨by simp [canonicalizePath, h], ?_⟩
  have : resolve fs' p = some q := walk_agree h hq hq' ha
  simp [read, this, hq']

example : visited dotfiles steps [] [1, 9] = [[1], [1, 9], [2], [2, 1]] := by decide

theorem node_change_ne {fs : Fs} {p q : Path} {n : Option Node} (h : q ≠ p) : node (change fs p n) q = node fs q := by
  unfold node
  split
  · rfl
  · congr 1
    have : ∀ l : Fs, (l.filter (fun e => e.1 ≠ p)).find? (fun e => e.1 = q) = l.find? (fun e => e.1 = q) := by
      intro l
      rw [List.find?_filter]
      congr 1
      funext e
      by_cases he : e.1 = q
      · simp [he, h]
      · simp [he]
    unfold change
    cases n with
    | none => exact this fs
    | some n => rw [List.find?_cons_of_neg (by simpa using fun e => h e.symm)]; exact this fs

theorem node_change_eq {fs : Fs} {p : Path} {n : Node} (h : p ≠ []) : node (change fs p (some n)) p = some n := by
  simp [node, change, h]

/-- Looking up something in a directory: first the directory, then the rest from there, with the steps that are left. -/
theorem walk_append {fs : Fs} {n : Nat} {done d d' rest : Path} (h : walk fs n done d = some d') (hr : node fs d' = some .dir) (hdone : RealDir fs done) :
    ∃ m, m ≤ n ∧ ∀ k, walk fs (n + k) done (d ++ rest) = walk fs (m + k) d' rest := by
  induction n generalizing done d with
  | zero => cases d with
    | nil => cases h; exact ⟨0, Nat.le_refl _, fun k => by simp⟩
    | cons => cases h
  | succ n ih =>
    cases d with
    | nil => cases h; exact ⟨n + 1, Nat.le_refl _, fun k => by simp⟩
    | cons c d =>
      unfold walk at h
      cases hn : node fs (done ++ [c]) with
      | none => rw [hn] at h; cases h
      | some x =>
        rw [hn] at h
        cases x with
        | dir =>
          obtain ⟨m, hm, hk⟩ := ih h (realDir_snoc hdone hn)
          refine ⟨m, by omega, fun k => ?_⟩
          rw [show n + 1 + k = (n + k) + 1 by omega, List.cons_append, walk, hn]
          exact hk k
        | file x =>
          simp only at h
          split at h
          · cases h; rw [hn] at hr; cases hr
          · cases h
        | link t =>
          obtain ⟨m, hm, hk⟩ := ih h (realDir_root fs)
          refine ⟨m, by omega, fun k => ?_⟩
          rw [show n + 1 + k = (n + k) + 1 by omega, List.cons_append, walk, hn]
          have := hk k
          rw [List.append_assoc] at this
          exact this

theorem walk_more {fs fs' : Fs} {n : Nat} {done rest q : Path} (h : walk fs n done rest = some q)
    (ha : ∀ v, node fs v ≠ none → node fs' v = node fs v) : walk fs' n done rest = some q := by
  induction n generalizing done rest with
  | zero => cases rest with
    | nil => exact h
    | cons => cases h
  | succ n ih =>
    cases rest with
    | nil => exact h
    | cons c rest =>
      unfold walk at h ⊢
      cases hn : node fs (done ++ [c]) with
      | none => rw [hn] at h; cases h
      | some y =>
        rw [ha _ (by rw [hn]; nofun), hn]
        rw [hn] at h
        cases y with
        | dir => exact ih h
        | file => exact h
        | link t => exact ih h

/-- C118: a file that does not exist yet, in a directory that does (through any links), and without a dangling link in its place: the
watcher looks at the directory, and reads the file and watches it when it is created there; which is what is then read.  (One step is needed to look up the
file in the directory.) -/
theorem C118_created_partial {fs : Fs} {d d' : Path} {name : Nat} (hd : walk fs (steps - 1) [] d = some d') (hdir : node fs d' = some .dir)
    (hnone : node fs (d' ++ [name]) = none) :
    read fs (d ++ [name]) = none ∧ (∀ c, read (change fs (d' ++ [name]) (some (.file c))) (d ++ [name]) = some c) ∧
    canonicalizePath fs (d ++ [name]) = d' ++ [name] ∧
    reloads (watchAndAdd fs (canonicalizePath fs (d ++ [name]))) (d' ++ [name]) = true ∧
    rewatches (watchAndAdd fs (canonicalizePath fs (d ++ [name]))) (d' ++ [name]) = true := by
  have hd1 := hd
  replace hd : resolve fs d = some d' := walk_mono hd1 1
  have h1 : ∀ q, resolve fs (d ++ [name]) ≠ some q := by
    intro q hq
    obtain ⟨m, hm, hk⟩ := walk_append (rest := [name]) hd hdir (realDir_root fs)
    have := walk_mono hq 1
    unfold resolve at hq
    rw [hk 1, walk, hnone] at this
    cases this
  have hnr : resolve fs (d ++ [name]) = none := by
    cases h : resolve fs (d ++ [name]) with
    | none => rfl
    | some q => exact absurd h (h1 q)
  have hcanon : canonicalizePath fs (d ++ [name]) = d' ++ [name] := by
    unfold canonicalizePath
    rw [hnr]
    simp only [List.length_append, List.length_cons, List.length_nil, Nat.zero_add, Nat.add_sub_cancel]
    cases hl : d.length with
    | zero =>
      have : d = [] := List.length_eq_zero_iff.mp hl
      subst this
      cases hd; rfl
    | succ k =>
      rw [ancestors, ← hl, List.take_left, hd, List.drop_left]
  have hread : ∀ c, read (change fs (d' ++ [name]) (some (.file c))) (d ++ [name]) = some c := by
    intro c
    have hne : d' ++ [name] ≠ [] := by simp
    have ha : ∀ v, node fs v ≠ none → node (change fs (d' ++ [name]) (some (.file c))) v = node fs v := fun v hv =>
      node_change_ne (by rintro rfl; exact hv hnone)
    have hw := walk_more hd1 ha
    obtain ⟨m, hm, hk⟩ := walk_append (rest := [name]) hw (by rw [ha _ (by rw [hdir]; nofun)]; exact hdir) (realDir_root _)
    have hr : resolve (change fs (d' ++ [name]) (some (.file c))) (d ++ [name]) = some (d' ++ [name]) := by
      unfold resolve
      rw [show steps = steps - 1 + 1 by decide, hk 1, walk, node_change_eq hne]
      rfl
    simp [read, hr, node_change_eq hne]
  refine ⟨by simp [read, hnr], hread, hcanon, ?_⟩
  rw [hcanon]
  have hidem := resolve_idem hd
  have hnr' : resolve fs (d' ++ [name]) = none := by
    cases h : resolve fs (d' ++ [name]) with
    | none => rfl
    | some q =>
      obtain ⟨m, hm, hk⟩ := walk_append (rest := [name]) hidem hdir (realDir_root fs)
      have := walk_mono h 1
      rw [hk 1, walk, hnone] at this
      cases this
  have hw : watchAndAdd fs (d' ++ [name]) = ⟨d' ++ [name], d', d' ++ [name]⟩ := by
    unfold watchAndAdd
    rw [List.length_append, List.length_singleton, bestEffort, List.take_of_length_le (by simp), hnr']
    simp only
    cases hl : d'.length with
    | zero =>
      have : d' = [] := List.length_eq_zero_iff.mp hl
      subst this
      rfl
    | succ k => rw [bestEffort, ← hl, List.take_left, hidem, List.drop_left]; rfl
  rw [hw]
  simp [reloads, rewatches, reported]

example : walk [([2], .dir), ([1], .link [2])] (steps - 1) [] [1] = some [2] ∧ node [([2], .dir), ([1], .link [2])] [2] = some .dir ∧
    node [([2], .dir), ([1], .link [2])] ([2] ++ [9]) = none := by decide

/-- C118: what is watched is the longest part of the path that is there; when that goes away, or when the next piece of the path comes
into being, the watcher sets its watches anew. -/
theorem C118_next_partial (fs : Fs) (t : Path) : ∃ k w, k ≤ t.length ∧ resolve fs (t.take k) = some w ∧
    (∀ j, k < j → j ≤ t.length → resolve fs (t.take j) = none) ∧ rewatches (watchAndAdd fs t) w = true ∧
    rewatches (watchAndAdd fs t) (w ++ (t.drop k).take 1) = true := by
  have key : ∀ n, n ≤ t.length → (∀ j, n < j → j ≤ t.length → resolve fs (t.take j) = none) →
      ∃ k w, k ≤ t.length ∧ resolve fs (t.take k) = some w ∧
        (∀ j, k < j → j ≤ t.length → resolve fs (t.take j) = none) ∧ rewatches (bestEffort fs t n) w = true ∧
        rewatches (bestEffort fs t n) (w ++ (t.drop k).take 1) = true := by
    intro n hn hj
    induction n with
    | zero =>
      refine ⟨0, [], Nat.zero_le _, rfl, hj, by simp [rewatches, reported, bestEffort], ?_⟩
      cases t with
      | nil => rfl
      | cons x t => simp [rewatches, reported, bestEffort]
    | succ n ih =>
      rw [bestEffort]
      cases hr : resolve fs (t.take (n + 1)) with
      | none =>
        refine ih (by omega) (fun j h1 h2 => ?_)
        rcases Nat.lt_or_ge (n + 1) j with h | h
        · exact hj j h h2
        · have : j = n + 1 := by omega
          rw [this]; exact hr
      | some w =>
        refine ⟨n + 1, w, hn, hr, hj, by simp [rewatches, reported], ?_⟩
        cases hd : t.drop (n + 1) with
        | nil => simp [rewatches, reported]
        | cons x r => simp [rewatches, reported]
  exact key t.length (Nat.le_refl _) (fun j h1 h2 => by omega)

example : watchAndAdd [([1], .dir)] [1, 2, 9] = ⟨[1, 2, 9], [1], [1, 2]⟩ := by decide

/-! ## C119 -/

/-- C119: the daemon sets up its watches whatever the configuration files are. -/
def C119_statement : Prop := ∀ (fs : Fs) (etc user : Path), ∃ table, startWatching fs [] [etc, user] = some table

/-- C119 is false: the user's configuration is a link to the system's, or the other way round.  The daemon does not start. -/
theorem C119_false : ¬ C119_statement := by
  intro h
  obtain ⟨t, ht⟩ := h [([1], .dir), ([1, 9], .file 10), ([2], .dir), ([2, 9], .link [1, 9])] [1, 9] [2, 9]
  have : startWatching [([1], .dir), ([1, 9], .file 10), ([2], .dir), ([2, 9], .link [1, 9])] [] [[1, 9], [2, 9]] = none := by decide
  rw [this] at ht; cases ht

/-- C119: it starts exactly if the two paths are not the same after following links. -/
theorem C119_exact_partial (fs : Fs) (etc user : Path) :
    (∃ table, startWatching fs [] [etc, user] = some table) ↔ canonicalizePath fs etc ≠ canonicalizePath fs user := by
  have ht : ∀ t k, (bestEffort fs t k).target = t := by
    intro t k
    induction k with
    | zero => rfl
    | succ k ih => unfold bestEffort; split; · rfl
                   · exact ih
  simp only [startWatching, addWatch, List.any_nil, Bool.false_eq_true, if_false, List.any_cons, Bool.or_false, decide_eq_true_eq,
    show (watchAndAdd fs (canonicalizePath fs etc)).target = canonicalizePath fs etc from ht _ _]
  split
  · rename_i h
    split at h
    · rename_i he; simp [he]
    · cases h
  · rename_i h
    split at h
    · cases h
    · rename_i he; simp [he]

/-- C119: in particular if both exist and neither is read through a link to the other's place, or one does not exist. -/
theorem C119_separate {fs : Fs} {etc user qe qu : Path} (he : resolve fs etc = some qe) (hu : resolve fs user = some qu) (hne : qe ≠ qu) :
    ∃ table, startWatching fs [] [etc, user] = some table :=
  (C119_exact_partial fs etc user).mpr (by simp [canonicalizePath, he, hu, hne])

/-- C119: with one file there is no such problem. -/
theorem C119_single (fs : Fs) (p : Path) : startWatching fs [] [p] = some [watchAndAdd fs (canonicalizePath fs p)] := rfl

example : ∃ table, startWatching dotfiles [] [[3, 9], [1, 9]] = some table := ⟨_, rfl⟩

end Shpool.Symlink
