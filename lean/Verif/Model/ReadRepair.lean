import Verif.Model.Modes
import Verif.Model.ReadApi

/-!
# Repaired reading of numbers

NOT the code of the repository: `ExtractFloat` (src/float.cpp:137-165) thought to keep the text and to convert it in each conversion
operator with the function of that type, instead of converting every text to `long double` and that to the type asked for.
Props/ReadRepair.lean proves C23 in full for it, and that every number is read as the nearest one (C105).
-/

namespace Lexi

/-- `operator double`, src/float.cpp:154-157, changed to `return std::strtod(string_.data(), nullptr);`: one rounding, to binary64. -/
def lexiDoubleR (s : Bytes) : UInt64 := (strtold .binary64 s).toDouble

/-- `operator float`, src/float.cpp:146-149, changed to `return std::strtof(string_.data(), nullptr);`: one rounding, to binary32. -/
def lexiFloatR (s : Bytes) : UInt32 := (strtold .binary32 s).toFloat

/-- `Target.extract` of Model/ReadApi.lean (include/lexi/lexi.hpp:86-134) with these conversions; `long double` keeps its own. -/
def Target.extractR (L : Literals) (F : FpFormat) : Target → Bytes → Res Arg
  | .float, s => .ok (.float (lexiFloatR s))
  | .double, s => .ok (.double (lexiDoubleR s))
  | t, s => t.extract L F s

end Lexi
