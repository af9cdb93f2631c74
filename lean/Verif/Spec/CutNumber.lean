import Verif.Spec.JsonNumber

/-!
# Specification: what is left of a number whose text is cut short

The number written by the complete parts of the first `k` bytes of a JSON number.  Independent of the model.
-/

namespace Lexi.Spec

/-- The exponent part of which `k` bytes are left: none before its first digit. -/
def JExp.cut (e : JExp) (k : ℕ) : Option JExp :=
  if k ≤ 1 + e.sign.length then none else some { e with digits := e.digits.take (k - (1 + e.sign.length)) }

/-- Length of the sign. -/
def JNumber.signLen (n : JNumber) : ℕ := if n.neg then 1 else 0

/-- Length of the fraction with its point. -/
def JNumber.fracLen (n : JNumber) : ℕ := match n.frac with | some f => f.length + 1 | none => 0

/-- The number of which the first `k` bytes are left: none before its first digit, and a point, a marker or a sign of
an exponent with no digit after it does not count. -/
def JNumber.cut (n : JNumber) (k : ℕ) : Option JNumber :=
  if k ≤ n.signLen then none
  else some
    { neg := n.neg
      int := n.int.take (k - n.signLen)
      frac := n.frac.bind fun f =>
        if k ≤ n.signLen + n.int.length + 1 then none else some (f.take (k - (n.signLen + n.int.length + 1)))
      exp := n.exp.bind fun e => e.cut (k - (n.signLen + n.int.length + n.fracLen)) }

/-- What may follow the complete parts: nothing, a point, or the beginning of an exponent without a digit. -/
def Loose (t : List UInt8) : Prop :=
  t = [] ∨ t = [46] ∨ t = [101] ∨ t = [69] ∨ t = [101, 45] ∨ t = [101, 43] ∨ t = [69, 45] ∨ t = [69, 43]

/-- Length of the exponent before its first digit. -/
def JNumber.headLen (n : JNumber) : ℕ := match n.exp with | some e => 1 + e.sign.length | none => 0

/-- The significand: the number without its exponent. -/
def JNumber.significand (n : JNumber) : ℚ := digitsValue (n.int ++ n.fracDigits) / 10 ^ n.fracDigits.length

/-- The bytes a number is written with. -/
def NumberByte (d : UInt8) : Prop := IsDigit d ∨ d = 45 ∨ d = 43 ∨ d = 46 ∨ d = 101 ∨ d = 69

end Lexi.Spec
