import Verif.Model.FloatFmt

/-!
# The public formatting functions over all argument types

`lexi::string`, `lexi::escape` and `lexi::jsonify` (include/lexi/lexi.hpp:180-230) on a value of any supported type.
Which formatter an argument type selects is `Verif.Model.Dispatch`.
-/

namespace Lexi

/-- What a call depends on besides its argument: the integer platform, the signedness of plain `char`, the
compile-time literals, the environment of `dtoa`, and the indeterminate content of a new buffer of a given size. -/
structure Machine where
  platform : Platform
  sgn : Bool
  literals : Literals
  env : Dtoa.Env
  junk : Nat → Bytes

/-- An argument of a supported type, include/lexi/detail/type.hpp:22-169. -/
inductive Arg where
  | null
  | bool (b : Bool)
  | char (c : UInt8)
  | int (v : IntVal)
  | enum (e : EnumVal)
  | fpos (off : Int64)
  | float (u : UInt32)
  | double (u : UInt64)
  | longDouble (x : LVal)
  | text (a : StrArg)

/-- `FormatInt(std::streamoff(t))`, include/lexi/lexi.hpp:72-77 (see `stringFpos`). -/
def formatFpos (p : Platform) (junk : Bytes) (off : Int64) : Res IntObj :=
  formatInt p junk (if p.longIs64 then .long64 off else .i64 off)

/-- `lexi::string`, include/lexi/lexi.hpp:180-194: `Format()(t).string()`, the argument itself if it is a string. -/
def Arg.string (m : Machine) : Arg → Res Bytes
  | .null => formatNull m.literals (m.junk NULL_SIZE) >>= NullObj.string
  | .bool b => formatBool m.literals (m.junk BOOL_SIZE) b >>= BoolObj.string
  | .char c => formatChar (m.junk CHAR_SIZE) c >>= CharObj.string
  | .int v => formatInt m.platform (m.junk INTEGER_SIZE) v >>= IntObj.string
  | .enum e => formatEnum m.platform (m.junk INTEGER_SIZE) e >>= IntObj.string
  | .fpos o => formatFpos m.platform (m.junk INTEGER_SIZE) o >>= IntObj.string
  | .float u => formatFloat m.literals m.env (m.junk FLOAT_SIZE) u >>= FloatObj.string
  | .double u => formatDouble m.literals m.env (m.junk FLOAT_SIZE) u >>= FloatObj.string
  | .longDouble x => formatLd m.literals m.env (m.junk FLOAT_SIZE) x >>= FloatObj.string
  | .text a => a.toStd

/-- `lexi::escape`, include/lexi/lexi.hpp:199-212. -/
def Arg.escape (m : Machine) : Arg → Res Bytes
  | .null => formatNull m.literals (m.junk NULL_SIZE) >>= NullObj.escape
  | .bool b => formatBool m.literals (m.junk BOOL_SIZE) b >>= BoolObj.escape
  | .char c => formatChar (m.junk CHAR_SIZE) c >>= CharObj.escape m.sgn
  | .int v => formatInt m.platform (m.junk INTEGER_SIZE) v >>= IntObj.escape
  | .enum e => formatEnum m.platform (m.junk INTEGER_SIZE) e >>= IntObj.escape
  | .fpos o => formatFpos m.platform (m.junk INTEGER_SIZE) o >>= IntObj.escape
  | .float u => formatFloat m.literals m.env (m.junk FLOAT_SIZE) u >>= FloatObj.escape
  | .double u => formatDouble m.literals m.env (m.junk FLOAT_SIZE) u >>= FloatObj.escape
  | .longDouble x => formatLd m.literals m.env (m.junk FLOAT_SIZE) x >>= FloatObj.escape
  | .text a => do .ok (escapeStr m.sgn (← a.toStd))

/-- `lexi::jsonify`, include/lexi/lexi.hpp:217-230. -/
def Arg.jsonify (m : Machine) : Arg → Res Bytes
  | .null => formatNull m.literals (m.junk NULL_SIZE) >>= NullObj.jsonify
  | .bool b => formatBool m.literals (m.junk BOOL_SIZE) b >>= BoolObj.jsonify
  | .char c => formatChar (m.junk CHAR_SIZE) c >>= CharObj.jsonify m.sgn
  | .int v => formatInt m.platform (m.junk INTEGER_SIZE) v >>= IntObj.jsonify
  | .enum e => formatEnum m.platform (m.junk INTEGER_SIZE) e >>= IntObj.jsonify
  | .fpos o => formatFpos m.platform (m.junk INTEGER_SIZE) o >>= IntObj.jsonify
  | .float u => formatFloat m.literals m.env (m.junk FLOAT_SIZE) u >>= FloatObj.jsonify
  | .double u => formatDouble m.literals m.env (m.junk FLOAT_SIZE) u >>= FloatObj.jsonify
  | .longDouble x => formatLd m.literals m.env (m.junk FLOAT_SIZE) x >>= FloatObj.jsonify
  | .text a => do jsonifyStr m.sgn (← a.toStd)

end Lexi
