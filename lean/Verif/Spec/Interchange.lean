import Verif.Spec.JsonString
import Verif.Spec.Records

/-!
# Specification: CSV records and URL query strings

Independent of the model.  The CSV reader is strict: outside quoted fields there are no quotes and no line ends.
-/

namespace Lexi.Spec

/-- Where a CSV reader is: before a field, in a plain field, in a quoted field, after a quote in a quoted field. -/
inductive CsvAt where
  | start
  | plain
  | quoted
  | closed
deriving DecidableEq

/-- The rest of a CSV record (RFC 4180, section 2); `cur` is the field being read. -/
def csvRest : CsvAt → List UInt8 → List UInt8 → Option (List (List UInt8))
  | .quoted, _, [] => none
  | _, cur, [] => some [cur]
  | .quoted, cur, b :: t => if b = 34 then csvRest .closed cur t else csvRest .quoted (cur ++ [b]) t
  | .closed, cur, b :: t =>
    if b = 34 then csvRest .quoted (cur ++ [34]) t
    else if b = 44 then (csvRest .start [] t).map (cur :: ·)
    else none
  | .start, cur, b :: t =>
    if b = 34 then csvRest .quoted cur t
    else if b = 44 then (csvRest .start [] t).map (cur :: ·)
    else if b = 10 ∨ b = 13 then none
    else csvRest .plain (cur ++ [b]) t
  | .plain, cur, b :: t =>
    if b = 34 then none
    else if b = 44 then (csvRest .start [] t).map (cur :: ·)
    else if b = 10 ∨ b = 13 then none
    else csvRest .plain (cur ++ [b]) t

/-- The fields of one CSV record without its line end; none if the text is no record. -/
def csvFields (t : List UInt8) : Option (List (List UInt8)) := csvRest .start [] t

/-- The unreserved bytes of URLs (RFC 3986, section 2.3). -/
def Unreserved (b : UInt8) : Prop :=
  (97 ≤ b ∧ b ≤ 122) ∨ (65 ≤ b ∧ b ≤ 90) ∨ (48 ≤ b ∧ b ≤ 57) ∨ b = 45 ∨ b = 46 ∨ b = 95 ∨ b = 126

instance (b : UInt8) : Decidable (Unreserved b) := inferInstanceAs (Decidable (_ ∨ _))

/-- Decoding of a name or value of a query string (`application/x-www-form-urlencoded`): `+` is a blank and `%xy` the
byte with that code. -/
def formDecode : List UInt8 → Option (List UInt8)
  | [] => some []
  | b :: t =>
    if b = 37 then
      match t with
      | h :: l :: t =>
        match hexVal h, hexVal l, formDecode t with
        | some h, some l, some v => some (UInt8.ofNat (h * 16 + l) :: v)
        | _, _, _ => none
      | _ => none
    else (formDecode t).map ((if b = 43 then 32 else b) :: ·)

/-- The part before the first `=` and the part after it, which is empty if there is no `=`. -/
def cutAtEquals : List UInt8 → List UInt8 × List UInt8
  | [] => ([], [])
  | b :: t => if b = 61 then ([], t) else (b :: (cutAtEquals t).1, (cutAtEquals t).2)

/-- Name and value of one part of a query string. -/
def formPair (p : List UInt8) : Option (List UInt8 × List UInt8) :=
  match formDecode (cutAtEquals p).1, formDecode (cutAtEquals p).2 with
  | some n, some v => some (n, v)
  | _, _ => none

/-- Names and values of a query string. -/
def formPairs (t : List UInt8) : Option (List (List UInt8 × List UInt8)) := (splitPlain 38 [] t).mapM formPair

end Lexi.Spec
