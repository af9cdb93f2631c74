import Verif.Spec.Double

/-!
# Specification: correct rounding to binary64

Stated over all bit patterns, with no reference to how a rounding is computed.
-/

namespace Lexi.Spec

/-- `u` is the double nearest to `q`; between two equally near ones, the one of even significand. -/
def NearestEven (q : ℚ) (u : UInt64) : Prop :=
  DFinite u ∧ ∀ y, DFinite y → |dValue u - q| ≤ |dValue y - q| ∧
    (|dValue y - q| = |dValue u - q| → dValue y = dValue u ∨ dSig u % 2 = 0)

/-- `u` is one of the (at most two) doubles between which `q` lies: no double is strictly between. -/
def Faithful (q : ℚ) (u : UInt64) : Prop :=
  DFinite u ∧ ∀ y, DFinite y →
    (q ≤ dValue y → dValue u ≤ dValue y) ∧ (dValue y ≤ q → dValue y ≤ dValue u)

/-- Half a unit in the last place above the magnitude of `a`: half-way to the next double (or to `2^1024`). -/
def dHalf (a : UInt64) : ℚ := (dSig a + 1 / 2) * 2 ^ dUlpExp a

/-- `r`, which was to stand for the magnitude `q`, is half-way between a double and the next one, and the even one of
the two is on the other side of `r` than `q`. -/
def Misplaced (q r : ℚ) : Prop :=
  ∃ a, DFinite a ∧ r = dHalf a ∧ (q < r ∧ dSig a % 2 = 1 ∨ r < q ∧ dSig a % 2 = 0)

/-- From here on (in absolute value) rounding to nearest overflows: half-way between the largest double and
`2^1024`. -/
def dOverflow : ℚ := (2 ^ 54 - 1) * 2 ^ 970

/-- The largest finite double. -/
def dMax : ℚ := (2 ^ 53 - 1) * 2 ^ 971

/-- Order of the non-NaN doubles, infinities beyond every number. -/
inductive DLe : UInt64 → UInt64 → Prop
  | fin {a b} : DFinite a → DFinite b → dValue a ≤ dValue b → DLe a b
  | posInf {a b} : ¬ DNaN a → DInfinite b → ¬ dNeg b → DLe a b
  | negInf {a b} : DInfinite a → dNeg a → ¬ DNaN b → DLe a b

end Lexi.Spec
