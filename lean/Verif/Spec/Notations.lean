import Verif.Spec.Decimal

/-!
# Specification: numbers and words in other notations

Grammars as sets of byte strings, written like the regular expressions and productions of their standards.  Independent of
the model.
-/

namespace Lexi.Spec

/-- A set of texts. -/
abbrev Lang := List UInt8 → Prop

namespace Lang

def cat (A B : Lang) : Lang := fun t => ∃ a b, t = a ++ b ∧ A a ∧ B b
def opt (A : Lang) : Lang := fun t => t = [] ∨ A t
def alt (A B : Lang) : Lang := fun t => A t ∨ B t
/-- One byte. -/
def one (C : UInt8 → Prop) : Lang := fun t => ∃ b, t = [b] ∧ C b
/-- Any number of bytes. -/
def many (C : UInt8 → Prop) : Lang := fun t => ∀ b ∈ t, C b
/-- At least one byte. -/
def some1 (C : UInt8 → Prop) : Lang := fun t => t ≠ [] ∧ ∀ b ∈ t, C b
/-- At least one text. -/
inductive plus (A : Lang) : Lang
  | one {a} : A a → plus A a
  | more {a b} : A a → plus A b → plus A (a ++ b)
/-- A fixed text. -/
def word (s : String) : Lang := fun t => t = ascii s

/-- `[-+]`. -/
def sign : Lang := one fun b => b = 43 ∨ b = 45
/-- `[eE]`. -/
def e : Lang := one fun b => b = 101 ∨ b = 69
/-- `.`. -/
def point : Lang := one fun b => b = 46
/-- `[1-9]`. -/
def nonzero : Lang := one fun b => IsDigit b ∧ b ≠ 48
/-- `[0-9_]`. -/
def DigitOr_ (b : UInt8) : Prop := IsDigit b ∨ b = 95
/-- `[0-7]`. -/
def IsOctal (b : UInt8) : Prop := 48 ≤ b ∧ b ≤ 55
/-- `0|[1-9][0-9]*`. -/
def natural : Lang := alt (one (· = 48)) (cat nonzero (many IsDigit))

end Lang

open Lang

/-! ### C (C11 6.4.4), without suffixes -/

/-- `decimal-constant`. -/
def cDecimal : Lang := cat nonzero (many IsDigit)
/-- `octal-constant`: a zero and octal digits, if any. -/
def cOctal : Lang := cat (one (· = 48)) (many IsOctal)
/-- `exponent-part`. -/
def cExponent : Lang := cat e (cat (opt sign) (some1 IsDigit))
/-- `fractional-constant`. -/
def cFraction : Lang :=
  alt (cat (opt (some1 IsDigit)) (cat point (some1 IsDigit))) (cat (some1 IsDigit) point)
/-- `decimal-floating-constant`. -/
def cFloating : Lang := alt (cat cFraction (opt cExponent)) (cat (some1 IsDigit) cExponent)
/-- An operand with a minus in front, or none. -/
def negated (A : Lang) : Lang := cat (opt (one (· = 45))) A

/-! ### YAML 1.1 (yaml.org/type) and the core schema of YAML 1.2 (10.3.2) -/

/-- Base 10 integers of YAML 1.1: `[-+]?(0|[1-9][0-9_]*)`. -/
def yaml11Decimal : Lang := cat (opt sign) (alt (one (· = 48)) (cat nonzero (many DigitOr_)))
/-- Octal: `[-+]?0[0-7_]+`. -/
def yaml11Octal : Lang := cat (opt sign) (cat (one (· = 48)) (some1 fun b => IsOctal b ∨ b = 95))
/-- Base 60: `[-+]?[1-9][0-9_]*(:[0-5]?[0-9])+`. -/
def yaml11Base60 : Lang :=
  cat (opt sign) (cat nonzero (cat (many DigitOr_)
    (plus (cat (one (· = 58)) (cat (opt (one fun b => 48 ≤ b ∧ b ≤ 53)) (one IsDigit))))))
/-- Base 2 and 16: `[-+]?0b[0-1_]+`, `[-+]?0x[0-9a-fA-F_]+`. -/
def yaml11Prefixed : Lang :=
  cat (opt sign) (cat (one (· = 48)) (cat (one fun b => b = 98 ∨ b = 120)
    (some1 fun b => DigitOr_ b ∨ 97 ≤ b ∧ b ≤ 102 ∨ 65 ≤ b ∧ b ≤ 70)))
def yaml11Int : Lang := alt yaml11Decimal (alt yaml11Octal (alt yaml11Base60 yaml11Prefixed))

/-- Base 10 floats of YAML 1.1: `[-+]?([0-9][0-9_]*)?\.[0-9.]*([eE][-+][0-9]+)?`. -/
def yaml11Float10 : Lang :=
  cat (opt sign) (cat (opt (cat (one IsDigit) (many DigitOr_))) (cat point
    (cat (many fun b => IsDigit b ∨ b = 46) (opt (cat e (cat sign (some1 IsDigit)))))))
/-- Base 60: `[-+]?[0-9][0-9_]*(:[0-5]?[0-9])+\.[0-9_]*`. -/
def yaml11Float60 : Lang :=
  cat (opt sign) (cat (one IsDigit) (cat (many DigitOr_)
    (cat (plus (cat (one (· = 58)) (cat (opt (one fun b => 48 ≤ b ∧ b ≤ 53)) (one IsDigit))))
      (cat point (many DigitOr_)))))
/-- `.inf` and `.nan` in three spellings (both versions). -/
def yamlSpecial : Lang :=
  alt (cat (opt sign) (alt (word ".inf") (alt (word ".Inf") (word ".INF"))))
    (alt (word ".nan") (alt (word ".NaN") (word ".NAN")))
def yaml11Float : Lang := alt yaml11Float10 (alt yaml11Float60 yamlSpecial)

/-- `[-+]?[0-9]+`. -/
def yaml12Int : Lang := cat (opt sign) (some1 IsDigit)
/-- `[-+]?(\.[0-9]+|[0-9]+(\.[0-9]*)?)([eE][-+]?[0-9]+)?`. -/
def yaml12Float : Lang :=
  alt (cat (opt sign) (cat (alt (cat point (some1 IsDigit)) (cat (some1 IsDigit) (opt (cat point (many IsDigit)))))
    (opt cExponent))) yamlSpecial

/-- The words for null and booleans that both versions have. -/
def yamlNull : Lang := alt (word "null") (alt (word "Null") (alt (word "NULL") (word "~")))
def yamlBool : Lang :=
  alt (word "true") (alt (word "True") (alt (word "TRUE") (alt (word "false") (alt (word "False") (word "FALSE")))))

/-! ### TOML 1.0, without underscores -/

def tomlInt : Lang := cat (opt sign) natural
def tomlFloat : Lang :=
  alt (cat (opt sign) (cat natural (alt cExponent (cat point (cat (some1 IsDigit) (opt cExponent))))))
    (cat (opt sign) (alt (word "inf") (word "nan")))

/-! ### XML Schema 1.1 part 2 -/

/-- `xs:double`. -/
def xsDouble : Lang :=
  alt (cat (opt sign) (cat (alt (cat (some1 IsDigit) (opt (cat point (many IsDigit)))) (cat point (some1 IsDigit)))
    (opt cExponent))) (alt (cat (opt sign) (word "INF")) (word "NaN"))
/-- `xs:integer`. -/
def xsInteger : Lang := cat (opt sign) (some1 IsDigit)

/-! ### JSON5, without hexadecimal numbers -/

def json5Number : Lang :=
  cat (opt sign) (alt (word "Infinity") (alt (word "NaN")
    (cat (alt (cat natural (cat point (many IsDigit))) (alt (cat point (some1 IsDigit)) natural)) (opt cExponent))))

end Lexi.Spec
