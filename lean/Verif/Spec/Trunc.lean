import Mathlib.Algebra.Order.Floor.Ring
import Mathlib.Data.Rat.Floor

/-!
# Specification: truncation

The conversion of a number to an integer that C++ performs ([conv.fpint]): the fractional part is discarded.
-/

namespace Lexi.Spec

/-- Rounding towards zero. -/
def truncate (q : ℚ) : ℤ := if q < 0 then ⌈q⌉ else ⌊q⌋

end Lexi.Spec
