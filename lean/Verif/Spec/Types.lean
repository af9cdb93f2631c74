/-!
# Which types the library is for: specification for C46

Types are C++ types up to the identity of user-declared classes, enumerations and functions, which are numbered.
The combinators also build types C++ forbids (pointers to references …); statements about every `Ty` are then
statements about more than C++ types.
-/

namespace Spec

/-- Fundamental types, enumerations and classes. -/
inductive Base
  | void | nullptr | bool | char | schar | uchar | wchar | char16 | char32
  | short | ushort | int | uint | long | ulong | llong | ullong
  | float | double | ldouble
  /-- An implementation's further arithmetic types (`__int128`, `_Float16` …). -/
  | ext (id : Nat)
  | enum (id : Nat)
  /-- `std::fpos<State>`, by the state type. -/
  | fpos (state : Nat)
  /-- `std::string`. -/
  | string
  /-- A class derived from `std::string`. -/
  | derived (id : Nat)
  /-- Any other class or union. -/
  | cls (id : Nat)
  deriving DecidableEq

/-- Types; `c` and `v` are the top-level `const` and `volatile`. -/
inductive Ty
  | base (c v : Bool) (b : Base)
  | ptr (c v : Bool) (t : Ty)
  | memptr (c v : Bool) (id : Nat)
  | arr (n : Option Nat) (t : Ty)
  | ref (rvalue : Bool) (t : Ty)
  | func (id : Nat)
  deriving DecidableEq

/-- The kinds of value the library converts. -/
inductive Kind | null | bool | char | int | float | enum | fpos
  deriving DecidableEq

/-- README and headers: the supported types and their kinds. -/
def Base.kind : Base → Option Kind
  | .nullptr => some .null
  | .bool => some .bool
  | .char => some .char
  | .schar | .uchar | .short | .ushort | .int | .uint | .long | .ulong | .llong | .ullong => some .int
  | .float | .double | .ldouble => some .float
  | .enum _ => some .enum
  | .fpos _ => some .fpos
  | .void | .wchar | .char16 | .char32 | .ext _ | .string | .derived _ | .cls _ => none

/-- The type of a variable, seen through a reference to it. -/
def Ty.noRef : Ty → Ty
  | .ref _ t => t
  | t => t

/-- Text-like types: `std::string` or a class derived from it; a pointer to, or array of, `char` or `const char`, possibly
seen through a reference. -/
def Ty.Text (t : Ty) : Prop :=
  (∃ c v, t = .base c v .string ∨ ∃ id, t = .base c v (.derived id)) ∨
  (∃ c c' v', t.noRef = .ptr c' v' (.base c false .char)) ∨
  (∃ c n, t.noRef = .arr n (.base c false .char))

/-- Expressions that hold text to read from: as `Ty.Text`, also through references, without volatile strings. -/
def Ty.ReadableText (t : Ty) : Prop :=
  (∃ c, t.noRef = .base c false .string ∨ ∃ id, t.noRef = .base c false (.derived id)) ∨
  (∃ c c' v', t.noRef = .ptr c' v' (.base c false .char)) ∨
  (∃ c n, t.noRef = .arr n (.base c false .char))

/-- The arithmetic types among the supported ones. -/
def Kind.Arithmetic (k : Kind) : Prop := k = .bool ∨ k = .char ∨ k = .int ∨ k = .float

/-- The types an integer literal can have. -/
def Base.OfLiteral (b : Base) : Prop :=
  b = .int ∨ b = .uint ∨ b = .long ∨ b = .ulong ∨ b = .llong ∨ b = .ullong

end Spec
