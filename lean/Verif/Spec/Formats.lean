import Mathlib.Algebra.Order.Field.Rat
import Mathlib.Algebra.Order.Field.Power

/-!
# Specification: correct rounding to any binary format

Precision `p`, exponent `emin` of the least positive number, overflow from `2^emax`.  Independent of the model.
-/

namespace Lexi.Spec

/-- Magnitude `a * 2^c` in the unique representation the format gives it: the significand fills the precision unless
the exponent is the least one. -/
structure Canonical (p : ℕ) (emin : ℤ) (r : ℚ) (a : ℕ) (c : ℤ) : Prop where
  value : r = a * 2 ^ c
  prec : a < 2 ^ p
  least : emin ≤ c
  full : emin < c → 2 ^ (p - 1) ≤ a

/-- `r` is the magnitude nearest to `q` in a format of unbounded range; of two equally near, the even one. -/
def NearestIn (p : ℕ) (emin : ℤ) (q r : ℚ) : Prop :=
  ∃ a c, Canonical p emin r a c ∧ ∀ y b e, Canonical p emin y b e →
    |r - q| ≤ |y - q| ∧ (|y - q| = |r - q| → y = r ∨ a % 2 = 0)

/-- Half-way between the largest number of the format and `2^emax`. -/
def overflowAt (p emax : ℕ) : ℚ := (2 ^ (p + 1) - 1) * 2 ^ ((emax : ℤ) - p - 1)

end Lexi.Spec
