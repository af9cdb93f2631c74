import Verif.Spec.JsonString

/-!
# Specification: double-quoted string literals of some languages

Independent of the model.  Source text and values are UTF-8 bytes; that Go, Python, Rust, Java, YAML and TOML refuse or replace
ill-formed UTF-8, and Go a byte order mark, is left out.  The languages differ in what they make of a backslash and in the
bytes they take as they are, so one reader is given the rules of each.  `none` is an error, or something outside this reader: octal
and hexadecimal escapes, names of characters, expansions.  Used by C121.
-/

namespace Lexi.Spec

/-- The rules of a language. -/
structure LitRules where
  /-- A backslash and one byte. -/
  esc : UInt8 → Option (List UInt8)
  /-- `\u` and four hexadecimal digits, if this is an escape of the language. -/
  uni : Option (Nat → Option (List UInt8))
  /-- Bytes that stand for themselves. -/
  raw : UInt8 → Bool

/-- The rest of a literal: its value and what is behind the closing quote. -/
def litRest (L : LitRules) : List UInt8 → Option (List UInt8 × List UInt8)
  | [] => none
  | b :: t =>
    if b = 34 then some ([], t)
    else if b = 92 then
      match t with
      | [] => none
      | c :: r =>
        match (if c = 117 then L.uni else none), r with
        | some f, h1 :: h2 :: h3 :: h4 :: r =>
          ((hex4 h1 h2 h3 h4).bind f).bind fun v => (litRest L r).map fun p => (v ++ p.1, p.2)
        | some _, _ => none
        | none, r => (L.esc c).bind fun v => (litRest L r).map fun p => (v ++ p.1, p.2)
    else if L.raw b then (litRest L t).map fun p => (b :: p.1, p.2) else none

/-- A literal at the start of a text. -/
def litString (L : LitRules) : List UInt8 → Option (List UInt8 × List UInt8)
  | 34 :: t => litRest L t
  | _ => none

/-- A character below U+0080. -/
def asciiOnly (v : Nat) : Option (List UInt8) := if v < 128 then some [UInt8.ofNat v] else none

/-- `\b \f \n \r \t \" \\`, common to most languages. -/
def commonEsc (c : UInt8) : Option (List UInt8) :=
  if c = 98 then some [8] else if c = 102 then some [12] else if c = 110 then some [10] else if c = 114 then some [13]
  else if c = 116 then some [9] else if c = 34 then some [34] else if c = 92 then some [92] else none

/-- C17 6.4.5 and 6.4.4.4.  6.4.3: a universal character name below U+00A0 is `$`, `@` or a grave accent.  Trigraphs are off. -/
def cRules : LitRules where
  esc c := if c = 97 then some [7] else if c = 118 then some [11] else if c = 39 ∨ c = 63 then some [c] else commonEsc c
  uni := some fun v => if v = 36 ∨ v = 64 ∨ v = 96 then asciiOnly v else none
  raw c := c ≠ 10

/-- C++11 and later, [lex.string] and [lex.charset]: within a literal any character may be named. -/
def cppRules : LitRules := { cRules with uni := some asciiOnly }

/-- The Go Programming Language Specification, "String literals". -/
def goRules : LitRules where
  esc c := if c = 97 then some [7] else if c = 118 then some [11] else commonEsc c
  uni := some asciiOnly
  raw c := c ≠ 10

/-- The Rust Reference, "String literals": no `\b` and `\f`, and `\u` wants a brace. -/
def rustRules : LitRules where
  esc c := if c = 98 ∨ c = 102 then none else if c = 39 then some [39] else if c = 48 then some [0] else commonEsc c
  uni := some fun _ => none
  raw c := c ≠ 13

/-- Python 3, Language Reference 2.4.1, a `str` literal: an unknown escape is left as it is. -/
def pyRules : LitRules where
  esc c :=
    if c = 10 then some [] else if c = 97 then some [7] else if c = 118 then some [11] else if c = 39 then some [39]
    else if (48 ≤ c ∧ c ≤ 55) ∨ c = 120 ∨ c = 78 ∨ c = 85 then none
    else some ((commonEsc c).getD [92, c])
  uni := some asciiOnly
  raw c := c ≠ 10 && c ≠ 13 && c ≠ 0

/-- A `bytes` literal: `\u` is nothing special, and bytes are ASCII. -/
def pyBytesRules : LitRules where
  esc c := if c = 78 ∨ c = 85 then some [92, c] else pyRules.esc c
  uni := none
  raw c := c ≠ 10 && c ≠ 13 && c ≠ 0 && c < 128

/-- TOML 1.0, basic strings: control characters other than tab are refused, U+007F is one of them. -/
def tomlRules : LitRules where
  esc := commonEsc
  uni := some asciiOnly
  raw c := (32 ≤ c && c ≠ 127) || c = 9

/-- YAML 1.2, 5.7 and 7.3.1, on one line. -/
def yamlRules : LitRules where
  esc c :=
    if c = 48 then some [0] else if c = 97 then some [7] else if c = 9 then some [9] else if c = 118 then some [11]
    else if c = 101 then some [27] else if c = 32 ∨ c = 47 then some [c] else commonEsc c
  uni := some asciiOnly
  raw c := 32 ≤ c || c = 9

/-- POSIX shell, XCU 2.2.3: a backslash is special only before `$`, a grave accent, `"`, another one and newline; expansions are
outside this reader. -/
def shRules : LitRules where
  esc c := if c = 36 ∨ c = 96 ∨ c = 34 ∨ c = 92 then some [c] else if c = 10 then some [] else some [92, c]
  uni := none
  raw c := c ≠ 36 && c ≠ 96 && c ≠ 0

/-- Java SE, JLS 3.3: Unicode escapes are translated first, wherever they are.  The second of two backslashes begins none. -/
def javaUnicode : List UInt8 → Option (List UInt8)
  | 92 :: 92 :: t => (javaUnicode t).map fun r => 92 :: 92 :: r
  | 92 :: 117 :: a :: b :: c :: d :: t => ((hex4 a b c d).bind asciiOnly).bind fun v => (javaUnicode t).map (v ++ ·)
  | 92 :: 117 :: _ => none
  | b :: t => (javaUnicode t).map (b :: ·)
  | [] => some []

/-- JLS 3.10.5 to 3.10.7. -/
def javaRules : LitRules where
  esc c := if c = 39 then some [39] else commonEsc c
  uni := some fun _ => none
  raw c := c ≠ 10 && c ≠ 13

end Lexi.Spec
