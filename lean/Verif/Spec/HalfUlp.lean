import Verif.Spec.Double

/-!
# Specification: the half-way test of a decimal reader

The reader has a guess, a double `b`, and the exact decimal `x`.  It keeps `b` if `x` is less than half a unit of the last
place away from it, takes a neighbour if it is more, and looks at the parity of the significand if `x` is half-way.
-/

namespace Lexi.Spec

/-- `-1`, `0` or `1`: the distance of `x` from the absolute value of the double is less than, equal to or greater than
half a unit in the last place. -/
def halfUlpSign (b : UInt64) (x : ℚ) : ℤ :=
  if |x - dMag b| < 2 ^ (dUlpExp b - 1) then -1 else if |x - dMag b| = 2 ^ (dUlpExp b - 1) then 0 else 1

end Lexi.Spec
