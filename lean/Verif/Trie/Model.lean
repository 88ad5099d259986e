/-!
# Model of the trie

Source: `/repo/libshpool/src/daemon/trie.rs` 1-151 (and the `ChordAtom` table in
`/repo/libshpool/src/daemon/keybindings.rs` 101-114).

The node vector is a list; the per-node symbol table (`TrieTab`, trie.rs 115-151: a hash map or a 256 slot vector,
both a finite map from symbols to node indices) is a function `Sym → Option Nat` with `set` as function update.

Indexing `self.nodes[i]` out of bounds would panic in Rust.  The model uses `nodes[i]?` with an empty node for the
out-of-bounds case; `Trie.Lemmas` proves that the indices used are always in bounds (`C07_indices_in_bounds`), so
the default is never taken.
-/

namespace Shpool

/-- `TrieCursor`, trie.rs 9-18. -/
inductive TrieCursor where
  | start
  | «match» (idx : Nat) (isPartial : Bool)
  | noMatch
  deriving DecidableEq, Repr

/-- `TrieNode`, trie.rs 21-28. -/
structure TrieNode (Sym V : Type) where
  value : Option V
  tab : Sym → Option Nat

/-- `TrieNode::new(None)`, trie.rs 106-108. -/
def TrieNode.empty {Sym V : Type} : TrieNode Sym V := ⟨none, fun _ => none⟩

/-- `Trie`, trie.rs 4-7. -/
structure Trie (Sym V : Type) where
  nodes : List (TrieNode Sym V)

namespace Trie
variable {Sym V : Type}

/-- `Trie::new`, trie.rs 35-37: a single root node. -/
def new : Trie Sym V := ⟨[.empty]⟩

/-- `self.nodes[i]` (see the header about out-of-bounds). -/
def node (t : Trie Sym V) (i : Nat) : TrieNode Sym V := t.nodes[i]?.getD .empty

/-- `self.nodes[cur].tab.set(sym, idx)` after pushing a new node, trie.rs 46-48. -/
def addChild [DecidableEq Sym] (t : Trie Sym V) (cur : Nat) (sym : Sym) : Trie Sym V :=
  ⟨(t.nodes ++ [TrieNode.empty]).modify cur
    (fun n => { n with tab := fun s => if s = sym then some t.nodes.length else n.tab s })⟩

/-- `self.nodes[cur].value = Some(value)`, trie.rs 52. -/
def setValue (t : Trie Sym V) (cur : Nat) (v : V) : Trie Sym V :=
  ⟨t.nodes.modify cur (fun n => { n with value := some v })⟩

/-- The loop of `Trie::insert`, trie.rs 41-52, from node `cur`. -/
def insertFrom [DecidableEq Sym] (t : Trie Sym V) (cur : Nat) : List Sym → V → Trie Sym V
  | [], v => t.setValue cur v
  | s :: ss, v =>
    match (t.node cur).tab s with
    | some nxt => insertFrom t nxt ss v
    | none => insertFrom (t.addChild cur s) t.nodes.length ss v

/-- `Trie::insert`, trie.rs 40-53. -/
def insert [DecidableEq Sym] (t : Trie Sym V) (seq : List Sym) (v : V) : Trie Sym V := t.insertFrom 0 seq v

/-- `Trie::advance`, trie.rs 78-90. -/
def advance (t : Trie Sym V) (c : TrieCursor) (sym : Sym) : TrieCursor :=
  let go (i : Nat) : TrieCursor :=
    match (t.node i).tab sym with
    | some idx => .match idx (t.node idx).value.isNone
    | none => .noMatch
  match c with
  | .start => go 0
  | .match idx _ => go idx
  | .noMatch => .noMatch

/-- `Trie::get`, trie.rs 93-99. -/
def get (t : Trie Sym V) (c : TrieCursor) : Option V :=
  match c with
  | .match idx _ => (t.node idx).value
  | _ => none

/-- The loop of `Trie::contains`, trie.rs 58-64: `none` is the early `return false`. -/
def containsLoop (t : Trie Sym V) : TrieCursor → List Sym → Option TrieCursor
  | c, [] => some c
  | c, s :: ss =>
    match t.advance c s with
    | .noMatch => none
    | c' => containsLoop t c' ss

/-- `Trie::contains`, trie.rs 57-74. -/
def contains (t : Trie Sym V) (seq : List Sym) : Bool :=
  match t.containsLoop .start seq with
  | none => false
  | some .start => (t.node 0).value.isSome
  | some (.match _ p) => !p
  | some .noMatch => false

/-- A history of insertions starting from `Trie::new()`. -/
def build [DecidableEq Sym] : List (List Sym × V) → Trie Sym V :=
  List.foldl (fun t kv => t.insert kv.1 kv.2) new

/-- Feeding a sequence symbol by symbol, as the users of the trie do (keybindings.rs 166-170, 383). -/
def feed (t : Trie Sym V) (c : TrieCursor) (seq : List Sym) : TrieCursor := seq.foldl t.advance c

end Trie
end Shpool
