import Verif.Spec.Double
import Verif.Spec.Single
import Verif.Spec.JsonNumber
import Verif.Spec.JsonString

/-!
# What a value means, apart from its C++ type

Used by C114.
-/

namespace Lexi.Spec

/-- A value without its type: a byte string, an integer, a floating-point number, ... -/
inductive Meaning where
  | null
  | bool (b : Bool)
  | text (s : List UInt8)
  | int (z : ℤ)
  | number (q : ℚ)
  | nan
  | infinity (neg : Bool)

/-- Meaning of a `double`; the two zeros mean the same. -/
def dMeaning (u : UInt64) : Meaning :=
  if DNaN u then .nan else if DInfinite u then .infinity (decide (dNeg u)) else .number (dValue u)

/-- Meaning of a `float`. -/
def fMeaning (u : UInt32) : Meaning :=
  if FNaN u then .nan else if FInfinite u then .infinity (decide (fNeg u)) else .number (fValue u)

inductive Kind where
  | null | bool | text | int | number
  deriving DecidableEq

def Meaning.kind : Meaning → Kind
  | .null => .null
  | .bool _ => .bool
  | .text _ => .text
  | .int _ => .int
  | .number _ | .nan | .infinity _ => .number

/-- The kind of value a text stands for, told from its first byte, and for numbers from whether it has only digits and signs. -/
def kindOf (t : List UInt8) : Kind :=
  if t.head? = some 34 then .text
  else if t.head? = some 110 then .null
  else if t.head? = some 116 ∨ t.head? = some 102 then .bool
  else if ∀ b ∈ t, b = 45 ∨ IsDigit b then .int
  else .number

/-- A reader that knows the literals, JSON strings and decimal numbers finds this meaning in the text; a decimal with a point or an
exponent stands for the double it is closest to. -/
def Shows : Meaning → List UInt8 → Prop
  | .null, t => t = ascii "null"
  | .bool b, t => t = ascii (if b then "true" else "false")
  | .text s, t => readString t = some (s, [])
  | .int z, t => t = decimalText z
  | .number q, t => ∃ n : JNumber, n.WF ∧ (n.frac.isSome ∨ n.exp.isSome) ∧ n.text = t ∧
      (∃ u, DFinite u ∧ dValue u = q) ∧ ∀ y, DFinite y → dValue y ≠ q → |n.value - q| < |n.value - dValue y|
  | .nan, t => t = ascii "NaN"
  | .infinity neg, t => t = ascii (if neg then "-Infinity" else "Infinity")

end Lexi.Spec
