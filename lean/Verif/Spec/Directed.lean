import Verif.Spec.Double
import Verif.Spec.Single

/-!
# Specification: directed rounding

Independent of the model.
-/

namespace Lexi.Spec

/-- `u` is the largest double not above `v`, minus infinity if there is none. -/
def RoundedDown (v : ℚ) (u : UInt64) : Prop :=
  (DFinite u ∧ dValue u ≤ v ∧ ∀ y, DFinite y → dValue y ≤ v → dValue y ≤ dValue u) ∨
  (DInfinite u ∧ dNeg u ∧ ∀ y, DFinite y → v < dValue y)

/-- `u` is the least double not below `v`, plus infinity if there is none. -/
def RoundedUp (v : ℚ) (u : UInt64) : Prop :=
  (DFinite u ∧ v ≤ dValue u ∧ ∀ y, DFinite y → v ≤ dValue y → dValue u ≤ dValue y) ∨
  (DInfinite u ∧ ¬ dNeg u ∧ ∀ y, DFinite y → dValue y < v)

/-- `u` is the finite double of largest magnitude between 0 and `v`. -/
def RoundedZero (v : ℚ) (u : UInt64) : Prop :=
  DFinite u ∧ |dValue u| ≤ |v| ∧ (0 ≤ v → 0 ≤ dValue u) ∧ (v ≤ 0 → dValue u ≤ 0) ∧
    ∀ y, DFinite y → |dValue y| ≤ |v| → |dValue y| ≤ |dValue u|

/-- The same for floats. -/
def FRoundedDown (v : ℚ) (u : UInt32) : Prop :=
  (FFinite u ∧ fValue u ≤ v ∧ ∀ y, FFinite y → fValue y ≤ v → fValue y ≤ fValue u) ∨
  (FInfinite u ∧ fNeg u ∧ ∀ y, FFinite y → v < fValue y)

def FRoundedUp (v : ℚ) (u : UInt32) : Prop :=
  (FFinite u ∧ v ≤ fValue u ∧ ∀ y, FFinite y → v ≤ fValue y → fValue u ≤ fValue y) ∨
  (FInfinite u ∧ ¬ fNeg u ∧ ∀ y, FFinite y → fValue y < v)

def FRoundedZero (v : ℚ) (u : UInt32) : Prop :=
  FFinite u ∧ |fValue u| ≤ |v| ∧ (0 ≤ v → 0 ≤ fValue u) ∧ (v ≤ 0 → fValue u ≤ 0) ∧
    ∀ y, FFinite y → |fValue y| ≤ |v| → |fValue y| ≤ |fValue u|

end Lexi.Spec
