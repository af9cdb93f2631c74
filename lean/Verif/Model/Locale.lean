import Verif.Model.FloatFmt

/-!
# Reading floating text in another locale

`std::strtold` (src/float.cpp:140) uses the decimal point of the C locale that the program has set; printing never does
(src/detail/dtoa.cpp:324-384 writes `'.'`).
-/

namespace Lexi

/-- Exchange the two decimal points. -/
def pointSwap (dp c : UInt8) : UInt8 := if c = dp then 46 else if c = 46 then dp else c

/-- `strtold(s.data(), nullptr)` in a locale whose decimal point is the one byte `dp` (C11 7.22.1.3p4, external): the forms
of the "C" locale with `dp` in the place of `'.'`, which then is an ordinary character.  A `dp` that is itself part of numbers is
outside this model, and so are additional locale-specific forms (C11 7.22.1.3p6); for a decimal point of several bytes
see `strtoldWide`. -/
def strtoldIn (dp : UInt8) (F : FpFormat) (s : Bytes) : LVal := strtold F (s.map (pointSwap dp))

/-- `lexi<double>(s)` in that locale: src/float.cpp:137-141, 154-157. -/
def lexiDoubleIn (dp : UInt8) (F : FpFormat) (s : Bytes) : UInt64 := (strtoldIn dp F s).toDouble
/-- `lexi<float>(s)` in that locale: src/float.cpp:137-141, 146-149. -/
def lexiFloatIn (dp : UInt8) (F : FpFormat) (s : Bytes) : UInt32 := (strtoldIn dp F s).toFloat

/-- Write `'.'` for every occurrence of the decimal point `dp`, from the left, and for `'.'` a byte that no number has.
The number is how many more bytes belong to the occurrence just found. -/
def respell (dp : Bytes) : Nat → Bytes → Bytes
  | _, [] => []
  | k + 1, _ :: t => respell dp k t
  | 0, c :: t =>
    if dp.isPrefixOf (c :: t) then 46 :: respell dp (dp.length - 1) t
    else (if c = 46 then dp.headD 44 else c) :: respell dp 0 t

/-- `strtold(s.data(), nullptr)` in a locale whose decimal point is the string `dp` (C11 7.11.2.1p3 `decimal_point` is a
string: U+066B, two bytes in UTF-8, in fa_IR and ps_AF). -/
def strtoldWide (dp : Bytes) (F : FpFormat) (s : Bytes) : LVal := strtold F (respell dp 0 (cstr s))

/-- `lexi<double>(s)` in that locale: src/float.cpp:137-141, 154-157. -/
def lexiDoubleWide (dp : Bytes) (F : FpFormat) (s : Bytes) : UInt64 := (strtoldWide dp F s).toDouble
/-- `lexi<float>(s)` in that locale: src/float.cpp:137-141, 146-149. -/
def lexiFloatWide (dp : Bytes) (F : FpFormat) (s : Bytes) : UInt32 := (strtoldWide dp F s).toFloat

end Lexi
