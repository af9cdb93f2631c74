import Verif.Spec.Decimal
import Mathlib.Algebra.Order.Field.Rat

/-!
# Specification: RFC 8259 numbers

`number = [ "-" ] int [ frac ] [ exp ]`, as a parse tree with its text and its exact rational value.
Independent of the model.
-/

namespace Lexi.Spec

/-- `exp = ("e" / "E") [ "-" / "+" ] 1*DIGIT`. -/
structure JExp where
  marker : UInt8
  sign : List UInt8
  digits : List UInt8
  deriving DecidableEq

/-- `number = [ "-" ] int [ frac ] [ exp ]`. -/
structure JNumber where
  neg : Bool
  int : List UInt8
  frac : Option (List UInt8)
  exp : Option JExp
  deriving DecidableEq

def JExp.WF (e : JExp) : Prop :=
  (e.marker = 101 ∨ e.marker = 69) ∧ (e.sign = [] ∨ e.sign = [45] ∨ e.sign = [43]) ∧
    e.digits ≠ [] ∧ ∀ b ∈ e.digits, IsDigit b

def JExp.text (e : JExp) : List UInt8 := e.marker :: (e.sign ++ e.digits)

def JExp.value (e : JExp) : ℤ :=
  if e.sign = [45] then -(digitsValue e.digits : ℤ) else digitsValue e.digits

/-- The grammar: the integer part has no superfluous leading zero, a fraction has at least one digit. -/
structure JNumber.WF (n : JNumber) : Prop where
  int_ne : n.int ≠ []
  int_digits : ∀ b ∈ n.int, IsDigit b
  int_lead : n.int.length > 1 → n.int.head? ≠ some 48
  frac_ok : ∀ f, n.frac = some f → f ≠ [] ∧ ∀ b ∈ f, IsDigit b
  exp_ok : ∀ e, n.exp = some e → e.WF

def JNumber.fracDigits (n : JNumber) : List UInt8 := n.frac.getD []

def JNumber.text (n : JNumber) : List UInt8 :=
  (if n.neg then [45] else []) ++ n.int ++
    (match n.frac with | some f => 46 :: f | none => []) ++
    (match n.exp with | some e => e.text | none => [])

/-- Decimal exponent part (0 if absent). -/
def JNumber.expValue (n : JNumber) : ℤ := match n.exp with | some e => e.value | none => 0

/-- Absolute value: the digits of integer part and fraction, scaled. -/
def JNumber.mag (n : JNumber) : ℚ :=
  (digitsValue (n.int ++ n.fracDigits) : ℚ) * 10 ^ (n.expValue - n.fracDigits.length)

/-- Exact value. -/
def JNumber.value (n : JNumber) : ℚ := if n.neg then -n.mag else n.mag

/-- `t` is a JSON number text denoting `v`. -/
def IsJsonNumber (t : List UInt8) (v : ℚ) : Prop := ∃ n : JNumber, n.WF ∧ n.text = t ∧ n.value = v

end Lexi.Spec
