import Verif.Spec.Escape

/-!
# Specification: patterns of file names and of `LIKE`

Independent of the model: the patterns of POSIX `fnmatch` (XCU 2.14, without `FNM_NOESCAPE`) and of SQL's `LIKE` with backslash as the
escape character, on bytes.  Used by C120.
-/

namespace Lexi.Spec

/-- One item of a pattern: a byte that matches itself, one byte of any kind, or any number of bytes. -/
inductive PatItem
  | lit (b : UInt8)
  | one
  | run
  deriving DecidableEq, Repr

/-- Whether the items match the whole text. -/
def patMatch : List PatItem → List UInt8 → Prop
  | [], t => t = []
  | .lit b :: p, t => ∃ u, t = b :: u ∧ patMatch p u
  | .one :: p, t => ∃ c u, t = c :: u ∧ patMatch p u
  | .run :: p, t => ∃ x u, t = x ++ u ∧ patMatch p u

/-- The items of a file name pattern.  An open bracket with no backslash in front begins a set of bytes, which is outside this reader;
a backslash at the end is an error in one system and an ordinary byte in the next. -/
def globItems : List UInt8 → Option (List PatItem)
  | [] => some []
  | b :: t =>
    if b = 92 then
      match t with
      | [] => none
      | c :: t => (globItems t).map (.lit c :: ·)
    else if b = 91 then none
    else if b = 42 then (globItems t).map (.run :: ·)
    else if b = 63 then (globItems t).map (.one :: ·)
    else (globItems t).map (.lit b :: ·)

/-- The items of a pattern of `LIKE`.  A backslash at the end stands for itself in MySQL (`my`) and is an error in PostgreSQL. -/
def likeItems (my : Bool) : List UInt8 → Option (List PatItem)
  | [] => some []
  | b :: t =>
    if b = 92 then
      match t with
      | [] => if my then some [.lit 92] else none
      | c :: t => (likeItems my t).map (.lit c :: ·)
    else if b = 37 then (likeItems my t).map (.run :: ·)
    else if b = 95 then (likeItems my t).map (.one :: ·)
    else (likeItems my t).map (.lit b :: ·)

/-- The file name pattern `p` is well formed and matches exactly the texts in `S`. -/
def GlobMatches (p : List UInt8) (S : List UInt8 → Prop) : Prop :=
  ∃ is, globItems p = some is ∧ ∀ t, patMatch is t ↔ S t

/-- The pattern `p` of `LIKE` is well formed and matches exactly the texts in `S`. -/
def LikeMatches (my : Bool) (p : List UInt8) (S : List UInt8 → Prop) : Prop :=
  ∃ is, likeItems my p = some is ∧ ∀ t, patMatch is t ↔ S t

end Lexi.Spec
