/-!
# Specification: decimal numerals

Independent of the model.  A byte string is `List UInt8`.  The canonical numeral of an integer is
Lean's own `toString`, read as ASCII bytes.
-/

namespace Lexi.Spec

/-- ASCII bytes of a Lean string literal / string. -/
def ascii (s : String) : List UInt8 := s.toList.map fun c => UInt8.ofNat c.toNat

/-- The canonical decimal numeral of an integer: `'-'` iff negative, no leading zeros. -/
def decimalText (n : Int) : List UInt8 := ascii (toString n)

/-- An ASCII decimal digit. -/
def IsDigit (b : UInt8) : Prop := 48 ≤ b ∧ b ≤ 57

instance (b : UInt8) : Decidable (IsDigit b) := inferInstanceAs (Decidable (_ ∧ _))

/-- Value of a run of ASCII digits, most significant first (Horner). -/
def digitsValue (s : List UInt8) : Nat :=
  s.foldl (fun acc b => acc * 10 + (b.toNat - 48)) 0

/-- Grammar view of a canonical integer numeral: optional minus sign, at least one digit,
first digit nonzero unless it is the only one, "-0" excluded. -/
def CanonicalNumeral (s : List UInt8) (n : Int) : Prop :=
  ∃ ds : List UInt8,
    s = (if n < 0 then 45 :: ds else ds) ∧
    ds ≠ [] ∧ (∀ b ∈ ds, IsDigit b) ∧
    (ds.length > 1 → ds.head? ≠ some 48) ∧
    digitsValue ds = n.natAbs

end Lexi.Spec
