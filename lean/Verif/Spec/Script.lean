/-!
# Specification: string literals of JavaScript

Independent of the model.  Source text and values are UTF-8 bytes.
-/

namespace Lexi.Spec

/-- Value of a hexadecimal digit. -/
def jsHex (b : UInt8) : Option Nat :=
  if 48 ≤ b.toNat ∧ b.toNat ≤ 57 then some (b.toNat - 48)
  else if 97 ≤ b.toNat ∧ b.toNat ≤ 102 then some (b.toNat - 87)
  else if 65 ≤ b.toNat ∧ b.toNat ≤ 70 then some (b.toNat - 55)
  else none

/-- A backslash and one byte: `SingleEscapeCharacter` and `NonEscapeCharacter` of ECMA-262 12.9.4.  Digits, `x`, `u`
and line ends have other rules. -/
def jsSimple (b : UInt8) : Option UInt8 :=
  if b = 98 then some 8 else if b = 116 then some 9 else if b = 110 then some 10 else if b = 118 then some 11
  else if b = 102 then some 12 else if b = 114 then some 13
  else if b = 120 ∨ b = 117 ∨ b = 10 ∨ b = 13 ∨ (48 ≤ b.toNat ∧ b.toNat ≤ 57) ∨ 128 ≤ b.toNat then none
  else some b

/-- U+2028 or U+2029 at the start of a text. -/
def atSeparator (t : List UInt8) : Prop := [226, 128, 168] <+: t ∨ [226, 128, 169] <+: t

instance (t : List UInt8) : Decidable (atSeparator t) := inferInstanceAs (Decidable (_ ∨ _))

/-- The rest of a double-quoted literal: its value and what follows the closing quote.  A `\u` escape is read if it
is below U+0080.  Line feed and carriage return end the line and make the literal an error; in editions before
ECMAScript 2019 (`old`) so do U+2028 and U+2029. -/
def jsBody (old : Bool) : List UInt8 → Option (List UInt8 × List UInt8)
  | [] => none
  | 92 :: 117 :: a :: b :: c :: d :: t =>
    match jsHex a, jsHex b, jsHex c, jsHex d with
    | some a, some b, some c, some d =>
      let v := 4096 * a + 256 * b + 16 * c + d
      if v < 128 then (jsBody old t).map (fun r => (UInt8.ofNat v :: r.1, r.2)) else none
    | _, _, _, _ => none
  | 92 :: b :: t =>
    match jsSimple b with
    | some c => (jsBody old t).map (fun r => (c :: r.1, r.2))
    | none => none
  | b :: t =>
    if b = 34 then some ([], t)
    else if b = 10 ∨ b = 13 ∨ b = 92 ∨ (old = true ∧ atSeparator (b :: t)) then none
    else (jsBody old t).map (fun r => (b :: r.1, r.2))

/-- A literal at the start of a text. -/
def jsString (old : Bool) : List UInt8 → Option (List UInt8 × List UInt8)
  | 34 :: t => jsBody old t
  | _ => none

end Lexi.Spec
