/-!
# Specification: records of fields with a separator

Independent of the model.
-/

namespace Lexi.Spec

/-- The fields with `d` between them. -/
def record (d : UInt8) : List (List UInt8) → List UInt8
  | [] => []
  | [a] => a
  | a :: as => a ++ d :: record d as

/-- Splitting at `d` where a backslash protects the next byte.  Fields are kept as written; `cur` is the one being
read. -/
def splitEsc (d : UInt8) : List UInt8 → List UInt8 → List (List UInt8)
  | cur, [] => [cur]
  | cur, b :: t =>
    if b = 92 then
      match t with
      | [] => [cur ++ [92]]
      | c :: t => splitEsc d (cur ++ [92, c]) t
    else if b = d then cur :: splitEsc d [] t
    else splitEsc d (cur ++ [b]) t

/-- The fields of a record with backslash escapes. -/
def fields (d : UInt8) (t : List UInt8) : List (List UInt8) := splitEsc d [] t

/-- Splitting at every `d`. -/
def splitPlain (d : UInt8) : List UInt8 → List UInt8 → List (List UInt8)
  | cur, [] => [cur]
  | cur, b :: t => if b = d then cur :: splitPlain d [] t else splitPlain d (cur ++ [b]) t

/-- The lines of a text whose line end is `d`. -/
def lines (d : UInt8) (t : List UInt8) : List (List UInt8) := splitPlain d [] t

end Lexi.Spec
