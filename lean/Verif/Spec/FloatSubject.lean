import Mathlib.Algebra.Order.Field.Rat
import Mathlib.Algebra.Order.Field.Power
import Verif.Spec.IntText

/-!
# Specification: floating text

The forms C11 7.22.1.3 accepts ("C" locale), as relations between a text and its exact value.  Independent of the model.
-/

namespace Lexi.Spec

/-- `c` is a digit of the base, of value `v`; letters stand for ten and more. -/
def DigitOf (base : ℕ) (c : UInt8) (v : ℕ) : Prop :=
  v < base ∧ (v < 10 ∧ c.toNat = 48 + v ∨ 10 ≤ v ∧ (c.toNat = 87 + v ∨ c.toNat = 55 + v))

/-- A run of digits and the number it denotes. -/
inductive Digits (base : ℕ) : List UInt8 → ℕ → Prop
  | nil : Digits base [] 0
  | snoc {ds n c v} : Digits base ds n → DigitOf base c v → Digits base (ds ++ [c]) (n * base + v)

/-- `c` is the lower-case letter `l` or its capital. -/
def IsLetter (l c : UInt8) : Prop := c = l ∨ c.toNat + 32 = l.toNat

/-- Optional exponent part: marker letter, optional sign, at least one decimal digit. -/
inductive ExpPart (marker : UInt8) : List UInt8 → ℤ → Prop
  | none : ExpPart marker [] 0
  | pos {c sg ds n} : IsLetter marker c → sg = [] ∨ sg = [43] → ds ≠ [] → Digits 10 ds n →
      ExpPart marker (c :: (sg ++ ds)) n
  | neg {c ds n} : IsLetter marker c → ds ≠ [] → Digits 10 ds n → ExpPart marker (c :: 45 :: ds) (-(n : ℤ))

/-- Digits with an optional point anywhere, at least one digit, and an optional exponent of `radix`; each digit after the
point divides by `radix ^ perDigit`. -/
def Numeral (base radix perDigit : ℕ) (marker : UInt8) (t : List UInt8) (q : ℚ) : Prop :=
  ∃ ip dot fp ex m e, t = ip ++ (dot ++ (fp ++ ex)) ∧ (dot = [] ∧ fp = [] ∨ dot = [46]) ∧ ip ++ fp ≠ [] ∧
    Digits base (ip ++ fp) m ∧ ExpPart marker ex e ∧ q = (m : ℚ) * (radix : ℚ) ^ (e - perDigit * fp.length)

inductive FloatVal where
  | nan
  | inf
  | num (q : ℚ)

/-- The word, in any mixture of cases. -/
def Word (w t : List UInt8) : Prop := List.Forall₂ IsLetter w t

/-- Letters, digits and underscore. -/
def IsNChar (c : UInt8) : Prop := 48 ≤ c ∧ c ≤ 57 ∨ 65 ≤ c ∧ c ≤ 90 ∨ 97 ≤ c ∧ c ≤ 122 ∨ c = 95

/-- Unsigned subject sequences: decimal numerals, hexadecimal numerals, infinities and NaNs. -/
inductive Subject : List UInt8 → FloatVal → Prop
  | decimal {t q} : Numeral 10 10 1 101 t q → Subject t (.num q)
  | hex {x t q} : IsLetter 120 x → Numeral 16 2 4 112 t q → Subject (48 :: x :: t) (.num q)
  | inf {t} : Word [105, 110, 102] t → Subject t .inf
  | infinity {t} : Word [105, 110, 102, 105, 110, 105, 116, 121] t → Subject t .inf
  | nan {t} : Word [110, 97, 110] t → Subject t .nan
  | nanChars {t cs} : Word [110, 97, 110] t → (∀ c ∈ cs, IsNChar c) → Subject (t ++ 40 :: (cs ++ [41])) .nan

/-- `p` is the longest beginning of `t` of an accepted form; `v` is its value. -/
def Longest (t p : List UInt8) (v : FloatVal) : Prop :=
  p <+: t ∧ Subject p v ∧ ∀ p' v', p' <+: t → Subject p' v' → p'.length ≤ p.length

/-- `s` starts (as a C string) with white space and an optional sign; `t` is what follows. -/
def FloatText (s : List UInt8) (neg : Bool) (t : List UInt8) : Prop :=
  ∃ u ws sg, CString s u ∧ u = ws ++ (sg ++ t) ∧ (∀ b ∈ ws, IsSpace b) ∧
    (sg = [] ∧ neg = false ∧ (∀ b, t.head? = some b → ¬ IsSpace b ∧ b ≠ 43 ∧ b ≠ 45) ∨
      sg = [43] ∧ neg = false ∨ sg = [45] ∧ neg = true)

end Lexi.Spec
