import Verif.Spec.Meaning

/-!
# Order of values and of texts

Used by C118.
-/

namespace Lexi.Spec

/-- The number a value is, if it is one. -/
def Meaning.value : Meaning → Option ℚ
  | .int z => some z
  | .number q => some q
  | _ => none

/-- Two numbers of one kind, or an integer of at most 54 bits and a floating-point number. -/
def Comparable : Meaning → Meaning → Prop
  | .int z, .number _ | .number _, .int z => |z| < 2 ^ 54
  | _, _ => True

/-- The order of `strcmp`, of `std::string` and of sorting lines in the C locale. -/
def bytesLt : List UInt8 → List UInt8 → Prop
  | _, [] => False
  | [], _ :: _ => True
  | a :: s, b :: t => a < b ∨ a = b ∧ bytesLt s t

instance : ∀ s t, Decidable (bytesLt s t)
  | [], [] => isFalse id
  | _ :: _, [] => isFalse id
  | [], _ :: _ => isTrue trivial
  | a :: s, b :: t => by
    have := instDecidableBytesLt s t
    unfold bytesLt
    exact inferInstance

end Lexi.Spec
