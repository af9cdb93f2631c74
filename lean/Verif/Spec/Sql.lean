import Verif.Spec.Escape

/-!
# Specification: SQL string literals

Independent of the model: what follows the opening quote of a character string literal, in standard SQL (ISO 9075-2, 5.3), in
MySQL (Reference Manual, 9.1.1) and in PostgreSQL's `E'...'` (documentation, 4.1.2.2), on bytes.  Each reader gives the value of the
literal and what is left after the closing quote.  Used by C119.
-/

namespace Lexi.Spec

/-- Bytes put in front of the value read. -/
def inFront (x : List UInt8) (o : Option (List UInt8 × List UInt8)) : Option (List UInt8 × List UInt8) :=
  o.map fun p => (x ++ p.1, p.2)

/-- Standard SQL: two quotes are a quote, every other byte is itself. -/
def sqlRest : List UInt8 → Option (List UInt8 × List UInt8)
  | [] => none
  | b :: t =>
    if b = 39 then
      match t with
      | [] => some ([], [])
      | c :: r => if c = 39 then inFront [39] (sqlRest r) else some ([], c :: r)
    else inFront [b] (sqlRest t)

/-- What MySQL makes of a backslash and a byte: `\%` and `\_` stay two bytes. -/
def mysqlEscape (c : UInt8) : List UInt8 :=
  if c = 48 then [0] else if c = 98 then [8] else if c = 110 then [10] else if c = 114 then [13] else if c = 116 then [9]
  else if c = 90 then [26] else if c = 37 ∨ c = 95 then [92, c] else [c]

/-- MySQL with its default SQL mode and a character set of single bytes or UTF-8. -/
def mysqlRest : List UInt8 → Option (List UInt8 × List UInt8)
  | [] => none
  | b :: t =>
    if b = 39 then
      match t with
      | [] => some ([], [])
      | c :: r => if c = 39 then inFront [39] (mysqlRest r) else some ([], c :: r)
    else if b = 92 then
      match t with
      | [] => none
      | c :: r => inFront (mysqlEscape c) (mysqlRest r)
    else inFront [b] (mysqlRest t)

/-- MySQL on a connection with character set GBK: a byte from 0x81 to 0xFE and a next one from 0x40 to 0xFE, but not 0x7F, are one
character. -/
def gbkRest : List UInt8 → Option (List UInt8 × List UInt8)
  | [] => none
  | b :: t =>
    if b = 39 then
      match t with
      | [] => some ([], [])
      | c :: r => if c = 39 then inFront [39] (gbkRest r) else some ([], c :: r)
    else
      match t with
      | [] => none
      | c :: r =>
        if 0x81 ≤ b ∧ b ≤ 0xFE ∧ 0x40 ≤ c ∧ c ≤ 0xFE ∧ c ≠ 0x7F then inFront [b, c] (gbkRest r)
        else if b = 92 then inFront (mysqlEscape c) (gbkRest r)
        else inFront [b] (gbkRest (c :: r))

/-- PostgreSQL's `E'...'`.  NUL is refused.  This reader also refuses escapes with digits: `\` before `0` to `7`, `x`, `u`, `U`. -/
def pgRest : List UInt8 → Option (List UInt8 × List UInt8)
  | [] => none
  | b :: t =>
    if b = 39 then
      match t with
      | [] => some ([], [])
      | c :: r => if c = 39 then inFront [39] (pgRest r) else some ([], c :: r)
    else if b = 92 then
      match t with
      | [] => none
      | c :: r =>
        if c = 0 ∨ (48 ≤ c ∧ c ≤ 55) ∨ c = 120 ∨ c = 117 ∨ c = 85 then none
        else if c = 98 then inFront [8] (pgRest r)
        else if c = 102 then inFront [12] (pgRest r)
        else if c = 110 then inFront [10] (pgRest r)
        else if c = 114 then inFront [13] (pgRest r)
        else if c = 116 then inFront [9] (pgRest r)
        else inFront [c] (pgRest r)
    else if b = 0 then none
    else inFront [b] (pgRest t)

end Lexi.Spec
