import Mathlib.Algebra.Order.Field.Rat
import Mathlib.Algebra.Order.Field.Power

/-!
# Specification: binary64

IEEE-754 interchange format, by field extraction on the natural number behind the bit pattern.
Independent of the model.
-/

namespace Lexi.Spec

/-- Sign bit. -/
def dNeg (u : UInt64) : Prop := 2 ^ 63 ≤ u.toNat
/-- Biased exponent field. -/
def dExp (u : UInt64) : Nat := u.toNat / 2 ^ 52 % 2 ^ 11
/-- Trailing significand field. -/
def dFrac (u : UInt64) : Nat := u.toNat % 2 ^ 52

instance (u : UInt64) : Decidable (dNeg u) := inferInstanceAs (Decidable (_ ≤ _))

/-- Finite: the exponent field is not all ones. -/
def DFinite (u : UInt64) : Prop := dExp u ≠ 2047
def DInfinite (u : UInt64) : Prop := dExp u = 2047 ∧ dFrac u = 0
def DNaN (u : UInt64) : Prop := dExp u = 2047 ∧ dFrac u ≠ 0
def DZero (u : UInt64) : Prop := dExp u = 0 ∧ dFrac u = 0

instance (u : UInt64) : Decidable (DFinite u) := inferInstanceAs (Decidable (_ ≠ _))
instance (u : UInt64) : Decidable (DInfinite u) := inferInstanceAs (Decidable (_ ∧ _))
instance (u : UInt64) : Decidable (DNaN u) := inferInstanceAs (Decidable (_ ∧ _))
instance (u : UInt64) : Decidable (DZero u) := inferInstanceAs (Decidable (_ ∧ _))

/-- Integral significand. -/
def dSig (u : UInt64) : Nat := if dExp u = 0 then dFrac u else 2 ^ 52 + dFrac u
/-- Exponent of the unit in the last place. -/
def dUlpExp (u : UInt64) : ℤ := if dExp u = 0 then -1074 else (dExp u : ℤ) - 1075

/-- Absolute value of a finite double. -/
def dMag (u : UInt64) : ℚ := (dSig u : ℚ) * 2 ^ dUlpExp u
/-- Exact value of a finite double. -/
def dValue (u : UInt64) : ℚ := if dNeg u then -dMag u else dMag u

end Lexi.Spec
