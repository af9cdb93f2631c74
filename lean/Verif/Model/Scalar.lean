import Verif.Model.Str

/-!
# Model of src/bool.cpp, src/null.cpp, src/char.cpp, include/lexi/detail/define.hpp
-/

namespace Lexi

/-- The configurable literals, include/lexi/detail/define.hpp:30-53 (contents of the string literals
without the terminating NUL). -/
structure Literals where
  null : Bytes
  true_ : Bytes
  false_ : Bytes
  nan : Bytes
  infinity : Bytes
  negInfinity : Bytes

/-- The defaults of include/lexi/detail/define.hpp. -/
def Literals.default : Literals where
  null := [110, 117, 108, 108]                              -- null
  true_ := [116, 114, 117, 101]                             -- true
  false_ := [102, 97, 108, 115, 101]                        -- false
  nan := [78, 97, 78]                                       -- NaN
  infinity := [73, 110, 102, 105, 110, 105, 116, 121]       -- Infinity
  negInfinity := [45, 73, 110, 102, 105, 110, 105, 116, 121] -- -Infinity

/-- `strncpy(buf, LIT, sizeof(LIT))` (C11 7.24.2.4, external): copies up to the first NUL and pads with
NULs to exactly `sizeof(LIT) = lit.length + 1` bytes; undefined if that leaves the destination. -/
def strncpyLit (buf : Bytes) (lit : Bytes) : Res Bytes :=
  let n := lit.length + 1
  let src := cstr lit
  if n ≤ buf.length then .ok (src ++ List.replicate (n - src.length) 0 ++ buf.drop n) else .ub

/-! ## bool -/

/-- Members of `FormatBool`, include/lexi/bool.hpp:24-25. -/
structure BoolObj where
  buffer : Bytes
  size_ : Nat
  deriving DecidableEq, Repr

/-- `sizeof(FormatBool::buffer_)`, include/lexi/bool.hpp:24. -/
def BOOL_SIZE : Nat := 6

/-- `FormatBool::FormatBool`, src/bool.cpp:26-35; `junk` is the indeterminate buffer content. -/
def formatBool (L : Literals) (junk : Bytes) (b : Bool) : Res BoolObj :=
  if b then do .ok ⟨← strncpyLit junk L.true_, 4⟩
  else do .ok ⟨← strncpyLit junk L.false_, 5⟩

/-- src/bool.cpp:40-43. -/
def BoolObj.size (o : BoolObj) : Nat := o.size_
/-- src/bool.cpp:48-51. -/
def BoolObj.length (o : BoolObj) : Nat := o.size
/-- src/bool.cpp:66-69 (offset of the returned pointer in `buffer_`). -/
def BoolObj.c_str (_ : BoolObj) : Nat := 0
/-- src/bool.cpp:58-61. -/
def BoolObj.data (o : BoolObj) : Nat := o.c_str
/-- src/bool.cpp:74-77. -/
def BoolObj.string (o : BoolObj) : Res Bytes := readN o.buffer o.data o.size
/-- src/bool.cpp:82-85. -/
def BoolObj.escape (o : BoolObj) : Res Bytes := o.string
/-- src/bool.cpp:90-93. -/
def BoolObj.jsonify (o : BoolObj) : Res Bytes := o.string
/-- src/bool.cpp:98-101. -/
def BoolObj.toStdString (o : BoolObj) : Res Bytes := o.string

/-- `ExtractBool::ExtractBool`, src/bool.cpp:104-113 (`std::string == const char *` compares with the
literal up to its first NUL). -/
def extractBool (L : Literals) (s : Bytes) : Res Bool :=
  if s = cstr L.true_ then .ok true
  else if s = cstr L.false_ then .ok false
  else .throws

/-- `lexi::string(b)`, include/lexi/lexi.hpp:37-42,180-184. -/
def stringBool (L : Literals) (junk : Bytes) (b : Bool) : Res Bytes := do (← formatBool L junk b).string

/-- `lexi::lexi<bool>(s)`, include/lexi/lexi.hpp:93-98. -/
def lexiBool (L : Literals) (s : Bytes) : Res Bool := extractBool L s

/-! ## null -/

/-- Member of `FormatNull`, include/lexi/null.hpp:24. -/
structure NullObj where
  buffer : Bytes
  deriving DecidableEq, Repr

/-- `sizeof(FormatNull::buffer_)`, include/lexi/null.hpp:24. -/
def NULL_SIZE : Nat := 5

/-- `FormatNull::FormatNull`, src/null.cpp:25-28 and 31-34 (identical bodies). -/
def formatNull (L : Literals) (junk : Bytes) : Res NullObj := do .ok ⟨← strncpyLit junk L.null⟩

/-- src/null.cpp:39-42. -/
def NullObj.size (_ : NullObj) : Nat := 4
/-- src/null.cpp:47-50. -/
def NullObj.length (o : NullObj) : Nat := o.size
/-- src/null.cpp:65-68. -/
def NullObj.c_str (_ : NullObj) : Nat := 0
/-- src/null.cpp:57-60. -/
def NullObj.data (o : NullObj) : Nat := o.c_str
/-- src/null.cpp:73-76. -/
def NullObj.string (o : NullObj) : Res Bytes := readN o.buffer o.data o.size
/-- src/null.cpp:81-84. -/
def NullObj.escape (o : NullObj) : Res Bytes := o.string
/-- src/null.cpp:89-92. -/
def NullObj.jsonify (o : NullObj) : Res Bytes := o.string
/-- src/null.cpp:97-100. -/
def NullObj.toStdString (o : NullObj) : Res Bytes := o.string

/-- `ExtractNull::ExtractNull` followed by `null()`, src/null.cpp:103-114. -/
def extractNull (L : Literals) (s : Bytes) : Res Unit :=
  if s = cstr L.null then .ok () else .throws

/-- `lexi::string(nullptr)`. -/
def stringNull (L : Literals) (junk : Bytes) : Res Bytes := do (← formatNull L junk).string

/-- `lexi::lexi<std::nullptr_t>(s)`, include/lexi/lexi.hpp:86-91. -/
def lexiNull (L : Literals) (s : Bytes) : Res Unit := extractNull L s

/-! ## char -/

/-- Member of `FormatChar`, include/lexi/char.hpp:24. -/
structure CharObj where
  buffer : Bytes
  deriving DecidableEq, Repr

/-- `sizeof(FormatChar::buffer_)`, include/lexi/char.hpp:24. -/
def CHAR_SIZE : Nat := 2

/-- `FormatChar::FormatChar`, src/char.cpp:19-30 (the `unsigned char` overload stores the same byte). -/
def formatChar (junk : Bytes) (c : UInt8) : Res CharObj := do
  let b ← (⟨junk, 0⟩ : Cur).put c
  let b ← b.put 0
  .ok ⟨b.mem⟩

/-- src/char.cpp:35-38. -/
def CharObj.size (_ : CharObj) : Nat := 1
/-- src/char.cpp:43-46. -/
def CharObj.length (o : CharObj) : Nat := o.size
/-- src/char.cpp:61-64. -/
def CharObj.c_str (_ : CharObj) : Nat := 0
/-- src/char.cpp:53-56. -/
def CharObj.data (o : CharObj) : Nat := o.c_str
/-- src/char.cpp:69-72. -/
def CharObj.string (o : CharObj) : Res Bytes := readN o.buffer o.data o.size
/-- src/char.cpp:77-80. -/
def CharObj.escape (sgn : Bool) (o : CharObj) : Res Bytes := do .ok (Lexi.escape sgn (← o.string))
/-- src/char.cpp:85-88. -/
def CharObj.jsonify (sgn : Bool) (o : CharObj) : Res Bytes := do
  .ok ([34] ++ (← jsonifyBody sgn (← o.string)) ++ [34])
/-- src/char.cpp:93-96. -/
def CharObj.toStdString (o : CharObj) : Res Bytes := o.string

/-- `ExtractChar::ExtractChar` and its conversions, src/char.cpp:99-119. -/
def extractChar (s : Bytes) : Res UInt8 :=
  match s with
  | [] => .throws
  | c :: _ => .ok c

/-- `lexi::string(c)`. -/
def stringChar (junk : Bytes) (c : UInt8) : Res Bytes := do (← formatChar junk c).string

/-- `lexi::lexi<char>(s)`, include/lexi/lexi.hpp:100-105. -/
def lexiChar (s : Bytes) : Res UInt8 := extractChar s

end Lexi
