import Verif.Model.Api

/-!
# The public reading function over all types

`lexi<T>(text)` (include/lexi/lexi.hpp:83-135, 144-157) for a `T` of any supported type, and the pointers that the formatter
objects hand out.
-/

namespace Lexi

/-- A type `lexi<T>` can read: those with an `Extract<T>::operator()`, include/lexi/lexi.hpp:86-134. -/
inductive Target where
  | null
  | bool
  | char
  | int (t : IntTy)
  | enum (t : EnumTy)
  | fpos
  | float
  | double
  | longDouble
  deriving DecidableEq

/-- `Extract<T>()(string)` for a `std::string`, include/lexi/lexi.hpp:86-134.  `F` is the format of `long double`. -/
def Target.extract (L : Literals) (F : FpFormat) : Target → Bytes → Res Arg
  | .null, s => do let _ ← lexiNull L s; .ok .null
  | .bool, s => do .ok (.bool (← lexiBool L s))
  | .char, s => do .ok (.char (← lexiChar s))
  | .int t, s => do .ok (.int (← lexiInt t s))
  | .enum t, s => do .ok (.enum (← lexiEnum t s))
  | .fpos, s => do .ok (.fpos (← lexiFpos s))
  | .float, s => .ok (.float (lexiFloat F s))
  | .double, s => .ok (.double (lexiDouble F s))
  | .longDouble, s => .ok (.longDouble (extractLongDouble F s))

/-- `lexi<T>(const std::string &)` and `lexi<T>(const char *)`, include/lexi/lexi.hpp:144-157: the pointer is converted to a
`std::string` when it is passed to `Extract<T>::operator()(const std::string &)`. -/
def Target.lexi (L : Literals) (F : FpFormat) (t : Target) (a : StrArg) : Res Arg := do t.extract L F (← a.toStd)

/-- The type of a value that is not a string. -/
def Arg.target : Arg → Option Target
  | .null => some .null
  | .bool _ => some .bool
  | .char _ => some .char
  | .int v => some (.int v.ty)
  | .enum e => some (.enum e.ty)
  | .fpos _ => some .fpos
  | .float _ => some .float
  | .double _ => some .double
  | .longDouble _ => some .longDouble
  | .text _ => none

/-- The memory from `Format()(t).c_str()` to the end of the array it points into (src/null.cpp:65-68, src/bool.cpp:66-69,
src/char.cpp:61-64, src/int.cpp:141-144, src/float.cpp:99-102), while the formatter object lives; for strings
`std::string::c_str()` or the pointer itself. -/
def Arg.c_str (m : Machine) : Arg → Res Bytes
  | .null => do let o ← formatNull m.literals (m.junk NULL_SIZE); .ok (o.buffer.drop o.c_str)
  | .bool b => do let o ← formatBool m.literals (m.junk BOOL_SIZE) b; .ok (o.buffer.drop o.c_str)
  | .char c => do let o ← formatChar (m.junk CHAR_SIZE) c; .ok (o.buffer.drop o.c_str)
  | .int v => do let o ← formatInt m.platform (m.junk INTEGER_SIZE) v; .ok (o.buffer.drop o.c_str)
  | .enum e => do let o ← formatEnum m.platform (m.junk INTEGER_SIZE) e; .ok (o.buffer.drop o.c_str)
  | .fpos p => do let o ← formatFpos m.platform (m.junk INTEGER_SIZE) p; .ok (o.buffer.drop o.c_str)
  | .float u => do let o ← formatFloat m.literals m.env (m.junk FLOAT_SIZE) u; .ok (o.buffer.drop o.c_str)
  | .double u => do let o ← formatDouble m.literals m.env (m.junk FLOAT_SIZE) u; .ok (o.buffer.drop o.c_str)
  | .longDouble x => do let o ← formatLd m.literals m.env (m.junk FLOAT_SIZE) x; .ok (o.buffer.drop o.c_str)
  | .text (.stdString s) => .ok (s ++ [0])
  | .text (.cstr a) => .ok a

end Lexi
