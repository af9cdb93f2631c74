import Mathlib.Algebra.Order.Field.Rat
import Mathlib.Algebra.Order.Field.Power

/-!
# Specification: binary32

IEEE-754 interchange format, by field extraction on the natural number behind the bit pattern.
Independent of the model.
-/

namespace Lexi.Spec

/-- Sign bit. -/
def fNeg (u : UInt32) : Prop := 2 ^ 31 ≤ u.toNat
/-- Biased exponent field. -/
def fExp (u : UInt32) : Nat := u.toNat / 2 ^ 23 % 2 ^ 8
/-- Trailing significand field. -/
def fFrac (u : UInt32) : Nat := u.toNat % 2 ^ 23

instance (u : UInt32) : Decidable (fNeg u) := inferInstanceAs (Decidable (_ ≤ _))

def FFinite (u : UInt32) : Prop := fExp u ≠ 255
def FInfinite (u : UInt32) : Prop := fExp u = 255 ∧ fFrac u = 0
def FNaN (u : UInt32) : Prop := fExp u = 255 ∧ fFrac u ≠ 0
def FZero (u : UInt32) : Prop := fExp u = 0 ∧ fFrac u = 0

instance (u : UInt32) : Decidable (FFinite u) := inferInstanceAs (Decidable (_ ≠ _))
instance (u : UInt32) : Decidable (FInfinite u) := inferInstanceAs (Decidable (_ ∧ _))
instance (u : UInt32) : Decidable (FNaN u) := inferInstanceAs (Decidable (_ ∧ _))
instance (u : UInt32) : Decidable (FZero u) := inferInstanceAs (Decidable (_ ∧ _))

/-- Integral significand. -/
def fSig (u : UInt32) : Nat := if fExp u = 0 then fFrac u else 2 ^ 23 + fFrac u
/-- Exponent of the unit in the last place. -/
def fUlpExp (u : UInt32) : ℤ := if fExp u = 0 then -149 else (fExp u : ℤ) - 150

/-- Absolute value of a finite float. -/
def fMag (u : UInt32) : ℚ := (fSig u : ℚ) * 2 ^ fUlpExp u
/-- Exact value of a finite float. -/
def fValue (u : UInt32) : ℚ := if fNeg u then -fMag u else fMag u

/-- `u` is the float nearest to `q`; between two equally near ones, the one of even significand. -/
def FNearestEven (q : ℚ) (u : UInt32) : Prop :=
  FFinite u ∧ ∀ y, FFinite y → |fValue u - q| ≤ |fValue y - q| ∧
    (|fValue y - q| = |fValue u - q| → fValue y = fValue u ∨ fSig u % 2 = 0)

/-- No float is nearer to `q` than `u`; half-way between two floats, either of them. -/
def FNearest (q : ℚ) (u : UInt32) : Prop := FFinite u ∧ ∀ y, FFinite y → |fValue u - q| ≤ |fValue y - q|

/-- `u` is one of the (at most two) floats between which `q` lies: no float is strictly between. -/
def FFaithful (q : ℚ) (u : UInt32) : Prop :=
  FFinite u ∧ ∀ y, FFinite y →
    (q ≤ fValue y → fValue u ≤ fValue y) ∧ (fValue y ≤ q → fValue y ≤ fValue u)

/-- Half a unit in the last place above the magnitude of `a`: half-way to the next float (or to `2^128`). -/
def fHalf (a : UInt32) : ℚ := (fSig a + 1 / 2) * 2 ^ fUlpExp a

/-- `r`, which was to stand for the magnitude `q`, is half-way between a float and the next one, and the even one of
the two is on the other side of `r` than `q`. -/
def FMisplaced (q r : ℚ) : Prop :=
  ∃ a, FFinite a ∧ r = fHalf a ∧ (q < r ∧ fSig a % 2 = 1 ∨ r < q ∧ fSig a % 2 = 0)

/-- From here on (in absolute value) rounding to nearest overflows. -/
def fOverflow : ℚ := (2 ^ 25 - 1) * 2 ^ 103

/-- The largest finite float. -/
def fMax : ℚ := (2 ^ 24 - 1) * 2 ^ 104

/-- Order of the non-NaN floats, infinities beyond every number. -/
inductive FLe : UInt32 → UInt32 → Prop
  | fin {a b} : FFinite a → FFinite b → fValue a ≤ fValue b → FLe a b
  | posInf {a b} : ¬ FNaN a → FInfinite b → ¬ fNeg b → FLe a b
  | negInf {a b} : FInfinite a → fNeg a → ¬ FNaN b → FLe a b

end Lexi.Spec
