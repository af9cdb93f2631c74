/-!
# Specification: RFC 8259 string literals at byte level

A reader for JSON string literals over bytes: unescaped bytes from 0x20 up except the quote and the
backslash stand for themselves (bytes from 0x80 up are taken verbatim, i.e. the document's UTF-8 is not
re-validated), the two-character escapes, and `\uXXXX` (UTF-8 encoded, with surrogate pairs).
Independent of the model.
-/

namespace Lexi.Spec

/-- Value of a hexadecimal digit. -/
def hexVal (c : UInt8) : Option Nat :=
  if 48 ≤ c ∧ c ≤ 57 then some (c.toNat - 48)
  else if 97 ≤ c ∧ c ≤ 102 then some (c.toNat - 87)
  else if 65 ≤ c ∧ c ≤ 70 then some (c.toNat - 55)
  else none

/-- Four hexadecimal digits. -/
def hex4 (a b c d : UInt8) : Option Nat := do
  let a ← hexVal a
  let b ← hexVal b
  let c ← hexVal c
  let d ← hexVal d
  return ((a * 16 + b) * 16 + c) * 16 + d

/-- UTF-8 encoding of a code point. -/
def utf8 (u : Nat) : List UInt8 :=
  if u < 0x80 then [UInt8.ofNat u]
  else if u < 0x800 then [UInt8.ofNat (0xC0 + u / 64), UInt8.ofNat (0x80 + u % 64)]
  else if u < 0x10000 then
    [UInt8.ofNat (0xE0 + u / 4096), UInt8.ofNat (0x80 + u / 64 % 64), UInt8.ofNat (0x80 + u % 64)]
  else
    [UInt8.ofNat (0xF0 + u / 262144), UInt8.ofNat (0x80 + u / 4096 % 64),
      UInt8.ofNat (0x80 + u / 64 % 64), UInt8.ofNat (0x80 + u % 64)]

/-- The two-character escapes of RFC 8259 section 7. -/
def simpleEscape (e : UInt8) : Option UInt8 :=
  if e = 34 then some 34          -- "
  else if e = 92 then some 92     -- \
  else if e = 47 then some 47     -- /
  else if e = 98 then some 8      -- b
  else if e = 102 then some 12    -- f
  else if e = 110 then some 10    -- n
  else if e = 114 then some 13    -- r
  else if e = 116 then some 9     -- t
  else none

/-- One JSON `char` production at the head of the input: decoded bytes and the remaining input. -/
def readChar : List UInt8 → Option (List UInt8 × List UInt8)
  | [] => none
  | c :: cs =>
    if c = 34 then none
    else if c = 92 then
      match cs with
      | [] => none
      | e :: r =>
        if e = 117 then
          match r with
          | a :: b :: c :: d :: r' =>
            match hex4 a b c d with
            | none => none
            | some u =>
              if 0xD800 ≤ u ∧ u < 0xDC00 then
                match r' with
                | 92 :: 117 :: a :: b :: c :: d :: r'' =>
                  match hex4 a b c d with
                  | none => none
                  | some v =>
                    if 0xDC00 ≤ v ∧ v < 0xE000 then
                      some (utf8 (0x10000 + (u - 0xD800) * 0x400 + (v - 0xDC00)), r'')
                    else none
                | _ => none
              else if 0xDC00 ≤ u ∧ u < 0xE000 then none
              else some (utf8 u, r')
          | _ => none
        else (simpleEscape e).map fun b => ([b], r)
    else if c < 32 then none
    else some ([c], cs)

/-- Body of a string literal up to and including the closing quote; `fuel` bounds the number of
characters (one more than the input length always suffices). -/
def readBody : Nat → List UInt8 → Option (List UInt8 × List UInt8)
  | 0, _ => none
  | _ + 1, 34 :: rest => some ([], rest)
  | fuel + 1, s =>
    match readChar s with
    | none => none
    | some (bs, rest) => (readBody fuel rest).map fun (p : List UInt8 × List UInt8) => (bs ++ p.1, p.2)

/-- A JSON reader positioned at the start of a string literal: the decoded bytes and what follows the
closing quote. -/
def readString : List UInt8 → Option (List UInt8 × List UInt8)
  | 34 :: s => readBody (s.length + 1) s
  | _ => none

end Lexi.Spec
