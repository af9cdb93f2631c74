/-!
# Specification: backslash escaping

Independent of the model.
-/

namespace Lexi.Spec

/-- ASCII letters and digits. -/
def IsAlnum (b : UInt8) : Prop :=
  ('a'.toNat ≤ b.toNat ∧ b.toNat ≤ 'z'.toNat) ∨ ('A'.toNat ≤ b.toNat ∧ b.toNat ≤ 'Z'.toNat) ∨
  ('0'.toNat ≤ b.toNat ∧ b.toNat ≤ '9'.toNat)

instance (b : UInt8) : Decidable (IsAlnum b) := inferInstanceAs (Decidable (_ ∨ _))

/-- Bytes that get a backslash: ASCII, not a letter, not a digit, not DEL. -/
def NeedsEscape (b : UInt8) : Prop := b.toNat < 128 ∧ ¬ IsAlnum b ∧ b.toNat ≠ 127

instance (b : UInt8) : Decidable (NeedsEscape b) := inferInstanceAs (Decidable (_ ∧ _))

/-- `Escaped s t`: `t` is `s` with one backslash before exactly the bytes that need it. -/
inductive Escaped : List UInt8 → List UInt8 → Prop
  | nil : Escaped [] []
  | esc {b : UInt8} {s t : List UInt8} : NeedsEscape b → Escaped s t → Escaped (b :: s) (92 :: b :: t)
  | plain {b : UInt8} {s t : List UInt8} : ¬ NeedsEscape b → Escaped s t → Escaped (b :: s) (b :: t)

/-- Removing escapes: drop each backslash and keep the byte after it. -/
def unescape : List UInt8 → List UInt8
  | 92 :: b :: t => b :: unescape t
  | b :: t => b :: unescape t
  | [] => []

end Lexi.Spec
