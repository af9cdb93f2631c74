import Verif.Spec.Escape

/-!
# Specification: UTF-8 (RFC 3629, sections 3 and 4)

`Utf8 bs cs`: the octets `bs` encode the code points `cs`.  Independent of the model.
-/

namespace Lexi.Spec

/-- `UTF8-tail`. -/
def Tail (b : UInt8) : Prop := 0x80 ≤ b.toNat ∧ b.toNat ≤ 0xBF

instance (b : UInt8) : Decidable (Tail b) := inferInstanceAs (Decidable (_ ∧ _))

/-- `UTF8-char` and the code point it stands for. -/
inductive Utf8Char : List UInt8 → Nat → Prop
  | one {a : UInt8} : a.toNat ≤ 0x7F → Utf8Char [a] a.toNat
  | two {a b : UInt8} : 0xC2 ≤ a.toNat → a.toNat ≤ 0xDF → Tail b →
      Utf8Char [a, b] ((a.toNat - 0xC0) * 64 + (b.toNat - 0x80))
  | three {a b c : UInt8} : 0xE0 ≤ a.toNat → a.toNat ≤ 0xEF → Tail b → Tail c →
      (a.toNat = 0xE0 → 0xA0 ≤ b.toNat) → (a.toNat = 0xED → b.toNat ≤ 0x9F) →
      Utf8Char [a, b, c] (((a.toNat - 0xE0) * 64 + (b.toNat - 0x80)) * 64 + (c.toNat - 0x80))
  | four {a b c d : UInt8} : 0xF0 ≤ a.toNat → a.toNat ≤ 0xF4 → Tail b → Tail c → Tail d →
      (a.toNat = 0xF0 → 0x90 ≤ b.toNat) → (a.toNat = 0xF4 → b.toNat ≤ 0x8F) →
      Utf8Char [a, b, c, d]
        ((((a.toNat - 0xF0) * 64 + (b.toNat - 0x80)) * 64 + (c.toNat - 0x80)) * 64 + (d.toNat - 0x80))

/-- `UTF8-octets`. -/
inductive Utf8 : List UInt8 → List Nat → Prop
  | nil : Utf8 [] []
  | cons {c t : List UInt8} {n : Nat} {ns : List Nat} : Utf8Char c n → Utf8 t ns → Utf8 (c ++ t) (n :: ns)

/-- Well-formed UTF-8. -/
def ValidUtf8 (bs : List UInt8) : Prop := ∃ cs, Utf8 bs cs

/-- Backslash escaping of one code point. -/
def escapeCode (c : Nat) : List Nat :=
  if c < 128 ∧ NeedsEscape (UInt8.ofNat c) then ['\\'.toNat, c] else [c]

/-- JSON escaping of one code point. -/
def jsonCode (c : Nat) : List Nat :=
  if c = '"'.toNat ∨ c = '\\'.toNat then ['\\'.toNat, c]
  else if c = 8 then ['\\'.toNat, 'b'.toNat]
  else if c = 9 then ['\\'.toNat, 't'.toNat]
  else if c = 10 then ['\\'.toNat, 'n'.toNat]
  else if c = 12 then ['\\'.toNat, 'f'.toNat]
  else if c = 13 then ['\\'.toNat, 'r'.toNat]
  else if c < 32 then
    ['\\'.toNat, 'u'.toNat, '0'.toNat, '0'.toNat, (if c < 16 then '0' else '1').toNat,
      ("0123456789abcdef".toList.getD (c % 16) '0').toNat]
  else [c]

end Lexi.Spec
