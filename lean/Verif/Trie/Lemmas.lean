import Verif.Trie.Model

namespace Shpool.Trie
variable {Sym V : Type}

/-- Following the edges from the root. -/
def find (t : Trie Sym V) : Nat → List Sym → Option Nat
  | i, [] => some i
  | i, s :: ss => match (t.node i).tab s with
    | none => none
    | some j => t.find j ss

theorem find_append (t : Trie Sym V) (i : Nat) (a b : List Sym) :
    t.find i (a ++ b) = (t.find i a).bind (fun j => t.find j b) := by
  induction a generalizing i with
  | nil => rfl
  | cons s ss ih =>
    simp only [List.cons_append, find]
    split
    · rfl
    · exact ih _

theorem find_snoc (t : Trie Sym V) (i : Nat) (a : List Sym) (x : Sym) :
    t.find i (a ++ [x]) = (t.find i a).bind (fun j => (t.node j).tab x) := by
  rw [find_append]
  congr 1; funext j
  simp only [find]
  cases (t.node j).tab x <;> rfl

/-- Structural invariant of tries. -/
structure Inv (t : Trie Sym V) : Prop where
  bound : ∀ p i, t.find 0 p = some i → i < t.nodes.length
  inj : ∀ p q i, t.find 0 p = some i → t.find 0 q = some i → p = q

theorem node_oob (t : Trie Sym V) (i : Nat) (h : t.nodes.length ≤ i) : t.node i = .empty := by
  simp [node, List.getElem?_eq_none h]

theorem inv_new : Inv (new : Trie Sym V) := by
  have hf : ∀ p i, (new : Trie Sym V).find 0 p = some i → p = [] ∧ i = 0 := by
    intro p i h
    cases p with
    | nil => simp only [find, Option.some.injEq] at h; exact ⟨rfl, h.symm⟩
    | cons s ss => simp [find, node, new, TrieNode.empty] at h
  refine ⟨fun p i h => ?_, fun p q i hp hq => ?_⟩
  · rw [(hf p i h).2]; simp [new]
  · rw [(hf p i hp).1, (hf q i hq).1]

variable [DecidableEq Sym]

theorem addChild_length (t : Trie Sym V) (cur : Nat) (s : Sym) :
    (t.addChild cur s).nodes.length = t.nodes.length + 1 := by
  simp [addChild]

theorem node_addChild (t : Trie Sym V) (cur : Nat) (s : Sym) (hc : cur < t.nodes.length) (i : Nat) :
    (t.addChild cur s).node i =
      if i = cur then { t.node i with tab := fun x => if x = s then some t.nodes.length else (t.node i).tab x }
      else t.node i := by
  simp only [addChild, node, List.getElem?_modify]
  by_cases h : i = cur
  · subst h
    simp [List.getElem?_append_left hc, List.getElem?_eq_getElem hc]
  · have h' : ¬ cur = i := fun e => h e.symm
    simp only [h, h', if_false]
    by_cases hi : i < t.nodes.length
    · simp [List.getElem?_append_left hi]
    · by_cases he : i = t.nodes.length
      · subst he; simp
      · rw [List.getElem?_eq_none (by simp; omega), List.getElem?_eq_none (by omega)]
        rfl

theorem tab_addChild (t : Trie Sym V) (cur : Nat) (s : Sym) (hc : cur < t.nodes.length) (i : Nat) (x : Sym) :
    ((t.addChild cur s).node i).tab x = if i = cur ∧ x = s then some t.nodes.length else (t.node i).tab x := by
  rw [node_addChild t cur s hc i]
  by_cases h : i = cur
  · subst h; by_cases hx : x = s <;> simp [hx]
  · simp [h]

theorem value_addChild (t : Trie Sym V) (cur : Nat) (s : Sym) (hc : cur < t.nodes.length) (i : Nat) :
    ((t.addChild cur s).node i).value = (t.node i).value := by
  rw [node_addChild t cur s hc i]
  split <;> rfl

omit [DecidableEq Sym] in
theorem node_setValue (t : Trie Sym V) (cur : Nat) (v : V) (hc : cur < t.nodes.length) (i : Nat) :
    (t.setValue cur v).node i = if i = cur then { t.node i with value := some v } else t.node i := by
  simp only [setValue, node, List.getElem?_modify]
  by_cases h : i = cur
  · subst h; simp [List.getElem?_eq_getElem hc]
  · have h' : ¬ cur = i := fun e => h e.symm
    simp [h, h']

omit [DecidableEq Sym] in
theorem find_setValue (t : Trie Sym V) (cur : Nat) (v : V) (hc : cur < t.nodes.length) (i : Nat) (p : List Sym) :
    (t.setValue cur v).find i p = t.find i p := by
  induction p generalizing i with
  | nil => rfl
  | cons s ss ih =>
    simp only [find]
    have : ((t.setValue cur v).node i).tab s = (t.node i).tab s := by
      rw [node_setValue t cur v hc]; split <;> rfl
    rw [this]
    cases (t.node i).tab s with
    | none => rfl
    | some j => exact ih j

/-- The effect of adding a child on paths. -/
theorem find_addChild (t : Trie Sym V) (h : Inv t) (c : List Sym) (cur : Nat) (s : Sym) (hcur : t.find 0 c = some cur)
    (hs : (t.node cur).tab s = none) (p : List Sym) :
    (t.addChild cur s).find 0 p = if p = c ++ [s] then some t.nodes.length else t.find 0 p := by
  have hc := h.bound c cur hcur
  have hcs : t.find 0 (c ++ [s]) = none := by rw [find_snoc, hcur]; exact hs
  rcases List.eq_nil_or_concat p with rfl | ⟨p, x, rfl⟩
  · simp [find]
  rw [List.concat_eq_append]
  -- induction on the length of the prefix
  induction hn : p.length generalizing p x with
  | zero =>
    have : p = [] := List.length_eq_zero_iff.mp hn
    subst this
    simp only [List.nil_append, find]
    rw [tab_addChild t cur s hc]
    by_cases hh : 0 = cur ∧ x = s
    · obtain ⟨rfl, rfl⟩ := hh
      have : c = [] := h.inj c [] 0 hcur rfl
      subst this
      simp [find]
    · rw [if_neg hh]
      by_cases he : [x] = c ++ [s]
      · have : c = [] := by
          cases c with
          | nil => rfl
          | cons a b => simp at he
        subst this
        simp only [List.nil_append, List.cons.injEq, and_true] at he
        simp only [find, Option.some.injEq] at hcur
        exact absurd ⟨hcur, he⟩ hh
      · rw [if_neg he]
  | succ n ih =>
    rcases List.eq_nil_or_concat p with rfl | ⟨q, y, rfl⟩
    · simp at hn
    rw [List.concat_eq_append] at hn ⊢
    have hq : q.length = n := by simp at hn; exact hn
    have ihq := ih q y hq
    rw [find_snoc, ihq]
    by_cases he : q ++ [y] = c ++ [s]
    · rw [if_pos he]
      simp only [Option.bind_some]
      rw [tab_addChild t cur s hc, if_neg (by rintro ⟨h1, -⟩; omega)]
      rw [node_oob t _ (Nat.le_refl _)]
      rw [if_neg (by rw [he]; intro hh; have := congrArg List.length hh; simp at this), he, find_snoc, hcs]
      rfl
    · rw [if_neg he, find_snoc t 0 (q ++ [y]) x]
      cases hfq : t.find 0 (q ++ [y]) with
      | none =>
        simp only [Option.bind_none]
        rw [if_neg]
        intro hh
        have : q ++ [y] = c := (List.append_inj' hh rfl).1
        rw [this, hcur] at hfq; cases hfq
      | some i =>
        simp only [Option.bind_some]
        rw [tab_addChild t cur s hc]
        by_cases hh : i = cur ∧ x = s
        · obtain ⟨rfl, rfl⟩ := hh
          have := h.inj _ _ _ hfq hcur
          rw [this]; simp
        · rw [if_neg hh, if_neg]
          intro he2
          have h1 : q ++ [y] = c := (List.append_inj' he2 rfl).1
          have h2 : x = s := by simpa using (List.append_inj' he2 rfl).2
          rw [h1, hcur] at hfq
          exact hh ⟨by cases hfq; rfl, h2⟩

theorem inv_addChild (t : Trie Sym V) (h : Inv t) (c : List Sym) (cur : Nat) (s : Sym) (hcur : t.find 0 c = some cur)
    (hs : (t.node cur).tab s = none) : Inv (t.addChild cur s) := by
  refine ⟨fun p i hp => ?_, fun p q i hp hq => ?_⟩
  · rw [find_addChild t h c cur s hcur hs] at hp
    rw [addChild_length]
    split at hp
    · cases hp; omega
    · have := h.bound p i hp; omega
  · rw [find_addChild t h c cur s hcur hs] at hp hq
    split at hp <;> split at hq
    · simp_all
    · cases hp; have := h.bound q _ hq; omega
    · cases hq; have := h.bound p _ hp; omega
    · exact h.inj p q i hp hq

/-- Everything about one insertion, from an inner node reached by `c`. -/
theorem insertFrom_spec (t : Trie Sym V) (h : Inv t) (c k : List Sym) (cur : Nat) (v : V)
    (hcur : t.find 0 c = some cur) :
    Inv (t.insertFrom cur k v) ∧
    (∀ p, ((t.insertFrom cur k v).find 0 p).isSome ↔ (t.find 0 p).isSome ∨ p <+: c ++ k) ∧
    (∀ p, ((t.insertFrom cur k v).find 0 p).bind (fun i => ((t.insertFrom cur k v).node i).value) =
      if p = c ++ k then some v else (t.find 0 p).bind (fun i => (t.node i).value)) := by
  induction k generalizing t c cur with
  | nil =>
    have hc := h.bound c cur hcur
    simp only [insertFrom, List.append_nil]
    refine ⟨⟨fun p i hp => ?_, fun p q i hp hq => ?_⟩, fun p => ?_, fun p => ?_⟩
    · rw [find_setValue t cur v hc] at hp
      simpa [setValue] using h.bound p i hp
    · rw [find_setValue t cur v hc] at hp hq; exact h.inj p q i hp hq
    · rw [find_setValue t cur v hc]
      constructor
      · exact Or.inl
      · rintro (hp | ⟨q, hq⟩)
        · exact hp
        · rw [← hq, find_append] at hcur
          cases hfp : t.find 0 p with
          | none => rw [hfp] at hcur; cases hcur
          | some i => rfl
    · rw [find_setValue t cur v hc]
      by_cases hp : p = c
      · subst hp; rw [hcur, if_pos rfl]; simp [node_setValue t cur v hc]
      · rw [if_neg hp]
        cases hfp : t.find 0 p with
        | none => rfl
        | some i =>
          simp only [Option.bind_some]
          rw [node_setValue t cur v hc, if_neg]
          intro hi
          subst hi
          exact hp (h.inj _ _ _ hfp hcur)
  | cons s ss ih =>
    simp only [insertFrom]
    cases hs : (t.node cur).tab s with
    | some nxt =>
      have hnx : t.find 0 (c ++ [s]) = some nxt := by rw [find_snoc, hcur]; exact hs
      have := ih t h (c ++ [s]) nxt hnx
      simpa using this
    | none =>
      have hc := h.bound c cur hcur
      have h' := inv_addChild t h c cur s hcur hs
      have hnx : (t.addChild cur s).find 0 (c ++ [s]) = some t.nodes.length := by
        rw [find_addChild t h c cur s hcur hs, if_pos rfl]
      obtain ⟨i1, i2, i3⟩ := ih (t.addChild cur s) h' (c ++ [s]) t.nodes.length hnx
      refine ⟨i1, fun p => ?_, fun p => ?_⟩
      · dsimp only
        rw [i2 p, find_addChild t h c cur s hcur hs]
        simp only [List.append_assoc, List.cons_append, List.nil_append]
        by_cases hp : p = c ++ [s]
        · subst hp
          simp
        · rw [if_neg hp]
      · dsimp only
        rw [i3 p, find_addChild t h c cur s hcur hs]
        simp only [List.append_assoc, List.cons_append, List.nil_append]
        by_cases hp : p = c ++ s :: ss
        · rw [if_pos hp, if_pos hp]
        · rw [if_neg hp, if_neg hp]
          by_cases hp2 : p = c ++ [s]
          · rw [if_pos hp2]
            simp only [Option.bind_some]
            rw [value_addChild t cur s hc, node_oob t _ (Nat.le_refl _), hp2, find_snoc, hcur]
            simp [hs, TrieNode.empty]
          · rw [if_neg hp2]
            cases t.find 0 p with
            | none => rfl
            | some i => simp only [Option.bind_some]; rw [value_addChild t cur s hc]

/-- Invariants of a trie built by a history of insertions. -/
theorem build_spec (kvs : List (List Sym × V)) :
    Inv (build kvs) ∧
    (∀ p, ((build kvs).find 0 p).isSome ↔ p = [] ∨ ∃ kv ∈ kvs, p <+: kv.1) ∧
    (∀ p, ((build kvs).find 0 p).bind (fun i => ((build kvs).node i).value) =
      (kvs.reverse.find? (fun kv => kv.1 = p)).map (·.2)) := by
  suffices H : ∀ (kvs : List (List Sym × V)) (t : Trie Sym V) (h : Inv t),
      Inv (kvs.foldl (fun t kv => t.insert kv.1 kv.2) t) ∧
      (∀ p, ((kvs.foldl (fun t kv => t.insert kv.1 kv.2) t).find 0 p).isSome ↔
        (t.find 0 p).isSome ∨ ∃ kv ∈ kvs, p <+: kv.1) ∧
      (∀ p, ((kvs.foldl (fun t kv => t.insert kv.1 kv.2) t).find 0 p).bind
          (fun i => ((kvs.foldl (fun t kv => t.insert kv.1 kv.2) t).node i).value) =
        ((kvs.reverse.find? (fun kv => kv.1 = p)).map (·.2)).or ((t.find 0 p).bind (fun i => (t.node i).value))) by
    obtain ⟨a, b, c⟩ := H kvs new inv_new
    have hf : ∀ p, ((new : Trie Sym V).find 0 p).isSome ↔ p = [] := by
      intro p
      cases p with
      | nil => simp [find]
      | cons s ss => simp [find, node, new, TrieNode.empty]
    have hv : ∀ p, (((new : Trie Sym V).find 0 p).bind fun i => ((new : Trie Sym V).node i).value) = none := by
      intro p
      cases p with
      | nil => simp [find, node, new, TrieNode.empty]
      | cons s ss => simp [find, node, new, TrieNode.empty]
    refine ⟨a, fun p => ?_, fun p => ?_⟩
    · have := b p; rw [hf p] at this; exact this
    · have := c p; rw [hv p] at this; simpa [build] using this
  intro kvs
  induction kvs with
  | nil => intro t h; exact ⟨h, by simp, by simp⟩
  | cons kv kvs ih =>
    intro t h
    obtain ⟨s1, s2, s3⟩ := insertFrom_spec t h [] kv.1 0 kv.2 rfl
    simp only [List.nil_append] at s2 s3
    obtain ⟨a, b, c⟩ := ih (t.insert kv.1 kv.2) s1
    refine ⟨a, fun p => ?_, fun p => ?_⟩
    · have e := b p
      simp only [List.foldl_cons]
      rw [e, show (t.insert kv.1 kv.2) = t.insertFrom 0 kv.1 kv.2 from rfl, s2 p]
      constructor
      · rintro ((h | h) | ⟨x, hx, h⟩)
        · exact .inl h
        · exact .inr ⟨kv, List.mem_cons_self, h⟩
        · exact .inr ⟨x, List.mem_cons_of_mem _ hx, h⟩
      · rintro (h | ⟨x, hx, h⟩)
        · exact .inl (.inl h)
        · rcases List.mem_cons.mp hx with rfl | hx
          · exact .inl (.inr h)
          · exact .inr ⟨x, hx, h⟩
    · have e := c p
      simp only [List.foldl_cons]
      rw [e, show (t.insert kv.1 kv.2) = t.insertFrom 0 kv.1 kv.2 from rfl, s3 p]
      simp only [List.reverse_cons, List.find?_append]
      cases hfd : kvs.reverse.find? (fun kv => kv.1 = p) with
      | some x => simp
      | none =>
        by_cases hp : p = kv.1
        · subst hp; simp
        · have : ¬ kv.1 = p := fun e => hp e.symm
          simp [hp, this]

omit [DecidableEq Sym] in
/-- The cursor after feeding a sequence from the start. -/
theorem feed_start (t : Trie Sym V) (p : List Sym) :
    t.feed .start p = if p = [] then .start else
      match t.find 0 p with
      | none => .noMatch
      | some i => .match i (t.node i).value.isNone := by
  rcases List.eq_nil_or_concat p with rfl | ⟨p, x, rfl⟩
  · rfl
  rw [List.concat_eq_append]
  induction hn : p.length generalizing p x with
  | zero =>
    have : p = [] := List.length_eq_zero_iff.mp hn
    subst this
    simp only [List.nil_append, feed, List.foldl_cons, List.foldl_nil, advance, find]
    rw [if_neg (by simp)]
    cases (t.node 0).tab x <;> rfl
  | succ n ih =>
    rcases List.eq_nil_or_concat p with rfl | ⟨q, y, rfl⟩
    · simp at hn
    rw [List.concat_eq_append] at hn ⊢
    have ihq := ih q y (by simp at hn; exact hn)
    rw [if_neg (by simp)] at ihq
    rw [if_neg (by simp), feed, List.foldl_append]
    simp only [List.foldl_cons, List.foldl_nil]
    have : List.foldl t.advance TrieCursor.start (q ++ [y]) = t.feed .start (q ++ [y]) := rfl
    rw [this, ihq, find_snoc t 0 (q ++ [y]) x]
    cases t.find 0 (q ++ [y]) with
    | none => rfl
    | some i =>
      simp only [Option.bind_some, advance]
      cases (t.node i).tab x <;> rfl

end Shpool.Trie
