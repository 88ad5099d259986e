import Verif.Util.Str
/-!
# Model of session name templates

Source: `/repo/libshpool/src/template.rs` 31-109.  `instantiated_size_guess` (a preallocation hint, lines 37 and
81-87) is not modelled: it has no observable effect.
-/

namespace Shpool.Template
open Shpool.Str

/-- `Chunk`, template.rs 42-45. -/
inductive Piece where
  | raw (text : List Char)
  | var (name : List Char)
  deriving DecidableEq, Repr

/-- Errors of `Template::new`, template.rs 62 and 69. -/
inductive Err where
  | unclosed
  | invalidName
  deriving DecidableEq, Repr

/-- `rest.find(c)` together with the slices before and after the found character (template.rs 54-63, 73). -/
def cut (c : Char) : List Char → Option (List Char × List Char)
  | [] => none
  | x :: xs =>
    if x = c then some ([], xs)
    else match cut c xs with
      | none => none
      | some (a, b) => some (x :: a, b)

theorem cut_length {c : Char} {s a b : List Char} (h : cut c s = some (a, b)) : b.length < s.length := by
  induction s generalizing a with
  | nil => cases h
  | cons x xs ih =>
    simp only [cut] at h
    split at h
    · simp only [Option.some.injEq, Prod.mk.injEq] at h; obtain ⟨-, rfl⟩ := h; simp
    · split at h
      · cases h
      · next a' b' h' =>
        simp only [Option.some.injEq, Prod.mk.injEq] at h
        obtain ⟨-, rfl⟩ := h
        have := ih h'
        simp only [List.length_cons]; omega

/-- The identifier check, template.rs 66-67. -/
def validIdent (t : CharTables) (v : List Char) : Bool :=
  (match v with
   | [] => false
   | c :: _ => !t.numeric c) &&
  v.all (fun c => t.alphanumeric c || c == '_')

/-- The parse loop of `Template::new`, template.rs 48-79.  Raw pieces are pushed only when non empty. -/
def parse (t : CharTables) (rest : List Char) : Except Err (List Piece) :=
  match _h : cut '{' rest with
  | none => .ok (if rest = [] then [] else [.raw rest])
  | some (before, rest1) =>
    match _h1 : cut '}' rest1 with
    | none => .error .unclosed
    | some (v, rest2) =>
      if validIdent t v then
        match parse t rest2 with
        | .error e => .error e
        | .ok ps => .ok ((if before = [] then [] else [.raw before]) ++ .var v :: ps)
      else .error .invalidName
termination_by rest.length
decreasing_by
  have := cut_length _h
  have := cut_length _h1
  omega

/-- `Template`, template.rs 31-38 (without the size guess). -/
structure Template where
  src : List Char
  chunks : List Piece
  deriving DecidableEq, Repr

/-- `Template::new`, template.rs 48-90. -/
def Template.new (t : CharTables) (src : List Char) : Except Err Template :=
  match parse t src with
  | .error e => .error e
  | .ok ps => .ok ⟨src, ps⟩

/-- `Template::source`, template.rs 93-95. -/
def Template.source (tm : Template) : List Char := tm.src

/-- A variable table (`HashMap<String, String>`) is a partial function. -/
abbrev Vars := List Char → Option (List Char)

/-- The loop of `Template::apply`, template.rs 99-108. -/
def applyPieces (vars : Vars) : List Piece → List Char
  | [] => []
  | .raw text :: ps => text ++ applyPieces vars ps
  | .var v :: ps => (vars v).getD [] ++ applyPieces vars ps

/-- `Template::apply`, template.rs 99-108. -/
def Template.apply (tm : Template) (vars : Vars) : List Char := applyPieces vars tm.chunks

end Shpool.Template
