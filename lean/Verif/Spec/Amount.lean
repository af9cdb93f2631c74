import Verif.Spec.Decimal

/-!
# Specification: decimals with a few places, as one writes them

`12.5`, `-0.07`, `3.0`: all the places that matter and no zeros behind them, but at least one place.
-/

namespace Lexi.Spec

/-- The `j` decimal places of a fraction of `r` units of the last of them. -/
def placeDigits : Nat → Nat → List UInt8
  | 0, _ => []
  | j + 1, r => placeDigits j (r / 10) ++ [UInt8.ofNat (48 + r % 10)]

/-- Without the zeros at the end, but not empty. -/
def withoutZeros (l : List UInt8) : List UInt8 :=
  match (l.reverse.dropWhile (· == 48)).reverse with
  | [] => [48]
  | f => f

/-- The decimal `n / 10^j`. -/
def amountText (n : Int) (j : Nat) : List UInt8 :=
  (if n < 0 then [45] else []) ++ decimalText ((n.natAbs / 10 ^ j : Nat) : Int) ++ 46 :: withoutZeros (placeDigits j (n.natAbs % 10 ^ j))

example : amountText 1250 2 = ascii "12.5" ∧ amountText (-7) 2 = ascii "-0.07" ∧ amountText 3000 3 = ascii "3.0" ∧
    amountText 0 0 = ascii "0.0" := by decide +kernel

end Lexi.Spec
