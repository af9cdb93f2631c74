import Verif.Spec.Decimal

/-!
# Specification: integer text and machine integer ranges

Independent of the model.
-/

namespace Lexi.Spec

/-- `t` is the C string stored in the byte string `s`: everything before the first NUL, or all of it. -/
def CString (s t : List UInt8) : Prop :=
  0 ∉ t ∧ (s = t ∨ ∃ r, s = t ++ 0 :: r)

/-- C white space: space, \t, \n, \v, \f, \r. -/
def IsSpace (b : UInt8) : Prop := b ∈ ([32, 9, 10, 11, 12, 13] : List UInt8)

/-- `s` starts (as a C string) with white space, an optional sign and the maximal non-empty digit run
`ds`; `neg` tells whether the sign is a minus. -/
def IntText (s : List UInt8) (neg : Bool) (ds : List UInt8) : Prop :=
  ∃ t ws sg rest, CString s t ∧ t = ws ++ sg ++ ds ++ rest ∧
    (∀ b ∈ ws, IsSpace b) ∧
    (sg = [] ∧ neg = false ∨ sg = [43] ∧ neg = false ∨ sg = [45] ∧ neg = true) ∧
    ds ≠ [] ∧ (∀ b ∈ ds, IsDigit b) ∧
    (∀ b, rest.head? = some b → ¬ IsDigit b)

/-- Number meant by the text, clamped to 2^64-1 in magnitude overflow (then the sign is ignored). -/
def textNumber (neg : Bool) (ds : List UInt8) : Int :=
  if 2 ^ 64 ≤ digitsValue ds then 2 ^ 64 - 1
  else if neg then -(digitsValue ds : Int) else digitsValue ds

/-- Reduction of an integer into a `w`-bit two's complement / unsigned type. -/
def wrapInt (signed : Bool) (w : Nat) (n : Int) : Int :=
  if signed then Int.bmod n (2 ^ w) else n % 2 ^ w

end Lexi.Spec
