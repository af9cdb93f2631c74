import Verif.Model.Itoa

/-!
# Model of src/int.cpp, include/lexi/int.hpp, include/lexi/enum.hpp, include/lexi/detail/architecture.hpp
-/

namespace Lexi

/-- `INTEGER_SIZE = numeric_limits<unsigned long long>::digits10 + 3`,
include/lexi/detail/fmt.hpp:23 (`digits10` of a 64-bit unsigned type is 19). -/
def INTEGER_SIZE : Nat := 19 + 3

/-- The preprocessor facts consulted by include/lexi/detail/architecture.hpp:16-36 and
src/int.cpp:72,87: `_WIN32`, `_WIN64`, `__GNUC__`, and whether one of the 64-bit macros
(`__x86_64__ … __LP64__ …`) is defined.  `longIs64` is the width of `long` on the platform, which the
code does not consult. -/
structure Platform where
  win32 : Bool
  win64 : Bool
  gnuc : Bool
  macro64 : Bool
  longIs64 : Bool
  deriving Repr, DecidableEq

/-- `SYSTEM_ARCHITECTURE`, include/lexi/detail/architecture.hpp:18-36; an undefined macro is 0 in `#if`.
(When both blocks apply, as for MinGW, the later definition wins after a redefinition.) -/
def Platform.arch (p : Platform) : Nat :=
  if p.gnuc then (if p.macro64 then 64 else 32)
  else if p.win64 then 64
  else if p.win32 then 32
  else 0

/-- `!defined(_WIN32) && SYSTEM_ARCHITECTURE == 64`, src/int.cpp:72 and :87. -/
def Platform.long64Path (p : Platform) : Bool := !p.win32 && p.arch == 64

/-- A value of one of the ten integer types that `FormatInt` accepts (include/lexi/int.hpp:29-38).
`long`/`unsigned long` carry a 64-bit or a 32-bit value depending on the platform. -/
inductive IntVal where
  | i8 (v : Int8) | u8 (v : UInt8)
  | i16 (v : Int16) | u16 (v : UInt16)
  | i32 (v : Int32) | u32 (v : UInt32)
  | long32 (v : Int32) | ulong32 (v : UInt32)
  | long64 (v : Int64) | ulong64 (v : UInt64)
  | i64 (v : Int64) | u64 (v : UInt64)
  deriving DecidableEq

/-- The mathematical integer denoted by a C++ integer value. -/
def IntVal.toInt : IntVal → Int
  | .i8 v => v.toInt | .u8 v => v.toNat
  | .i16 v => v.toInt | .u16 v => v.toNat
  | .i32 v => v.toInt | .u32 v => v.toNat
  | .long32 v => v.toInt | .ulong32 v => v.toNat
  | .long64 v => v.toInt | .ulong64 v => v.toNat
  | .i64 v => v.toInt | .u64 v => v.toNat

/-- Members of `FormatInt`, include/lexi/int.hpp:23-26: the buffer and the pointers `first`, `last`
(here as offsets into the object's own buffer; see `Verif.Model.Objects` for copies). -/
structure IntObj where
  buffer : Bytes
  first : Nat
  last : Nat
  deriving Repr, DecidableEq

/-- Common shape of all constructors (src/int.cpp:19-113): `first = buffer_; last = XtoA(value, buffer_);
*last = '\0';`.  `junk` is the indeterminate initial content of `buffer_`. -/
def IntObj.build (junk : Bytes) (conv : Cur → Res Cur) : Res IntObj := do
  let c ← conv ⟨junk, 0⟩
  let c' ← c.put 0
  .ok ⟨c'.mem, 0, c.pos⟩

/-- `FormatInt::FormatInt` overloads, src/int.cpp:19-113.  The integral promotions/conversions of the
argument to the parameter type of `i32toa`/`u32toa`/`i64toa`/`u64toa` are explicit. -/
def formatInt (p : Platform) (junk : Bytes) : IntVal → Res IntObj
  | .i8 v => IntObj.build junk (Itoa.i32toa v.toInt32)            -- :19-24
  | .u8 v => IntObj.build junk (Itoa.u32toa v.toUInt32)           -- :27-32
  | .i16 v => IntObj.build junk (Itoa.i32toa v.toInt32)           -- :35-40
  | .u16 v => IntObj.build junk (Itoa.u32toa v.toUInt32)          -- :43-48
  | .i32 v => IntObj.build junk (Itoa.i32toa v)                   -- :51-56
  | .u32 v => IntObj.build junk (Itoa.u32toa v)                   -- :59-64
  | .long32 v =>                                            -- :67-79
      IntObj.build junk (if p.long64Path then Itoa.i64toa v.toInt64 else Itoa.i32toa v)
  | .ulong32 v =>                                           -- :82-94
      IntObj.build junk (if p.long64Path then Itoa.u64toa v.toUInt64 else Itoa.u32toa v)
  | .long64 v =>                                            -- :67-79
      IntObj.build junk (if p.long64Path then Itoa.i64toa v else Itoa.i32toa v.toInt32)
  | .ulong64 v =>                                           -- :82-94
      IntObj.build junk (if p.long64Path then Itoa.u64toa v else Itoa.u32toa v.toUInt32)
  | .i64 v => IntObj.build junk (Itoa.i64toa v)                   -- :97-102
  | .u64 v => IntObj.build junk (Itoa.u64toa v)                   -- :105-110

/-- Reading `n` chars starting at offset `off` of a char array; reading past the end is undefined. -/
def readN (mem : Bytes) (off n : Nat) : Res Bytes :=
  if off + n ≤ mem.length then .ok ((mem.drop off).take n) else .ub

/-- `FormatInt::size`, src/int.cpp:115-118 (pointer difference; both point into `buffer_`). -/
def IntObj.size (o : IntObj) : Nat := o.last - o.first
/-- `FormatInt::length`, src/int.cpp:123-126. -/
def IntObj.length (o : IntObj) : Nat := o.size
/-- `FormatInt::c_str`, src/int.cpp:141-144 (offset of the returned pointer in `buffer_`). -/
def IntObj.c_str (o : IntObj) : Nat := o.first
/-- `FormatInt::data`, src/int.cpp:133-136. -/
def IntObj.data (o : IntObj) : Nat := o.c_str
/-- `FormatInt::string`, src/int.cpp:149-152. -/
def IntObj.string (o : IntObj) : Res Bytes := readN o.buffer o.data o.size
/-- `FormatInt::escape`, src/int.cpp:157-160. -/
def IntObj.escape (o : IntObj) : Res Bytes := o.string
/-- `FormatInt::jsonify`, src/int.cpp:165-168. -/
def IntObj.jsonify (o : IntObj) : Res Bytes := o.string
/-- `FormatInt::operator std::string`, src/int.cpp:173-176. -/
def IntObj.toStdString (o : IntObj) : Res Bytes := o.string

/-- `lexi::string(x)` for an integer `x`: `Format()(t).string()`, include/lexi/lexi.hpp:51-56,180-184. -/
def stringInt (p : Platform) (junk : Bytes) (v : IntVal) : Res Bytes := do
  (← formatInt p junk v).string

/-! ## Extraction -/

/-- The C string seen through `string.data()`: the bytes before the first NUL (a `std::string` is
always NUL-terminated, so the read never leaves the string). -/
def cstr (s : Bytes) : Bytes := s.takeWhile (· != 0)

/-- C `isspace` in the "C" locale (external). -/
def isspace (c : UInt8) : Bool := c == 32 || (9 ≤ c && c ≤ 13)

/-- `isdigit` (external). -/
def isdigit (c : UInt8) : Bool := 48 ≤ c && c ≤ 57

/-- First step of `strtoull` (C11 7.22.1.4p2): skip white space. -/
def skipSpace : Bytes → Bytes
  | c :: cs => if isspace c then skipSpace cs else c :: cs
  | [] => []

/-- Optional sign of the subject sequence (C11 7.22.1.4p3). -/
def scanSign : Bytes → Bool × Bytes
  | c :: cs => if c == 45 then (true, cs) else if c == 43 then (false, cs) else (false, c :: cs)
  | [] => (false, [])

/-- Accumulate decimal digits until the first non-digit. -/
def scanDigits (acc : Nat) : Bytes → Nat
  | c :: cs => if isdigit c then scanDigits (acc * 10 + (c.toNat - 48)) cs else acc
  | [] => acc

/-- `strtoull(s, nullptr, 10)` (C11 7.22.1.4, external): saturates at `ULLONG_MAX` on overflow, whatever
the sign; otherwise a minus sign negates in the result type. -/
def strtoull (s : Bytes) : UInt64 :=
  let r := scanSign (skipSpace (cstr s))
  let m := scanDigits 0 r.2
  if 2 ^ 64 ≤ m then 0xFFFFFFFFFFFFFFFF
  else if r.1 then 0 - UInt64.ofNat m else UInt64.ofNat m

/-- `ExtractInt::ExtractInt`, src/int.cpp:179-183: the member `data_`. -/
def extractInt (s : Bytes) : UInt64 := strtoull s

/-- The integer types as targets of the conversion operators. -/
inductive IntTy where
  | i8 | u8 | i16 | u16 | i32 | u32 | long32 | ulong32 | long64 | ulong64 | i64 | u64
  deriving DecidableEq, Repr

/-- Type of a value. -/
def IntVal.ty : IntVal → IntTy
  | .i8 _ => .i8 | .u8 _ => .u8 | .i16 _ => .i16 | .u16 _ => .u16 | .i32 _ => .i32 | .u32 _ => .u32
  | .long32 _ => .long32 | .ulong32 _ => .ulong32 | .long64 _ => .long64 | .ulong64 _ => .ulong64
  | .i64 _ => .i64 | .u64 _ => .u64

/-- The ten conversion operators of `ExtractInt`, src/int.cpp:188-263.  Signed targets go through
`static_cast<long long>`; the narrowing to a smaller type is modulo 2^n. -/
def convertInt (d : UInt64) : IntTy → IntVal
  | .i8 => .i8 d.toInt64.toInt8               -- :188-191
  | .u8 => .u8 d.toUInt8                      -- :196-199
  | .i16 => .i16 d.toInt64.toInt16            -- :204-207
  | .u16 => .u16 d.toUInt16                   -- :212-215
  | .i32 => .i32 d.toInt64.toInt32            -- :220-223
  | .u32 => .u32 d.toUInt32                   -- :228-231
  | .long32 => .long32 d.toInt64.toInt32      -- :236-239
  | .ulong32 => .ulong32 d.toUInt32           -- :244-247
  | .long64 => .long64 d.toInt64              -- :236-239
  | .ulong64 => .ulong64 d                    -- :244-247
  | .i64 => .i64 d.toInt64                    -- :252-255
  | .u64 => .u64 d                            -- :260-263

/-- `lexi::lexi<T>(s)` for an integer type, include/lexi/lexi.hpp:107-112,144-148. -/
def lexiInt (t : IntTy) (s : Bytes) : Res IntVal := .ok (convertInt (extractInt s) t)

/-! ## Enumerations and stream positions -/

/-- Underlying type of an enumeration: one of the integer types, `bool`, plain `char` (`schar`/`uchar` where it is
signed/unsigned), or a wide character type: `w16` is `char16_t` and a 16-bit `wchar_t`, `w32` is `char32_t` and an unsigned
32-bit `wchar_t`, `ws32` is a signed 32-bit `wchar_t`. -/
inductive EnumTy where
  | int (t : IntTy) | bool | schar | uchar | w16 | w32 | ws32
  deriving DecidableEq, Repr

/-- A value of the underlying type. -/
inductive EnumVal where
  | int (v : IntVal) | bool (b : Bool) | schar (c : Int8) | uchar (c : UInt8)
  | w16 (c : UInt16) | w32 (c : UInt32) | ws32 (c : Int32)
  deriving DecidableEq

def EnumVal.ty : EnumVal → EnumTy
  | .int v => .int v.ty | .bool _ => .bool | .schar _ => .schar | .uchar _ => .uchar
  | .w16 _ => .w16 | .w32 _ => .w32 | .ws32 _ => .ws32

/-- Numeric value of the underlying value. -/
def EnumVal.toInt : EnumVal → Int
  | .int v => v.toInt | .bool b => if b then 1 else 0 | .schar c => c.toInt | .uchar c => c.toNat
  | .w16 c => c.toNat | .w32 c => c.toNat | .ws32 c => c.toInt

/-- `FormatEnum::FormatEnum`, include/lexi/enum.hpp:46-49: `FormatInt(static_cast<underlying>(value))`.
For `bool` and the character types overload resolution picks the constructor for the promoted type, `FormatInt(int)` or
`FormatInt(unsigned int)`; C76 derives this from the ranking of conversions. -/
def formatEnum (p : Platform) (junk : Bytes) : EnumVal → Res IntObj
  | .int v => formatInt p junk v
  | .bool b => formatInt p junk (.i32 (if b then 1 else 0))
  | .schar c => formatInt p junk (.i32 c.toInt32)
  | .uchar c => formatInt p junk (.i32 c.toUInt32.toInt32)
  | .w16 c => formatInt p junk (.i32 c.toUInt32.toInt32)
  | .w32 c => formatInt p junk (.u32 c)
  | .ws32 c => formatInt p junk (.i32 c)

/-- `static_cast<underlying_type_t<Enum>>(data_)`, include/lexi/enum.hpp:54-58: a direct conversion
from `unsigned long long` (modulo 2^n; non-zero test for `bool`). -/
def convertEnum (d : UInt64) : EnumTy → EnumVal
  | .int .i8 => .int (.i8 d.toUInt8.toInt8)
  | .int .u8 => .int (.u8 d.toUInt8)
  | .int .i16 => .int (.i16 d.toUInt16.toInt16)
  | .int .u16 => .int (.u16 d.toUInt16)
  | .int .i32 => .int (.i32 d.toUInt32.toInt32)
  | .int .u32 => .int (.u32 d.toUInt32)
  | .int .long32 => .int (.long32 d.toUInt32.toInt32)
  | .int .ulong32 => .int (.ulong32 d.toUInt32)
  | .int .long64 => .int (.long64 d.toInt64)
  | .int .ulong64 => .int (.ulong64 d)
  | .int .i64 => .int (.i64 d.toInt64)
  | .int .u64 => .int (.u64 d)
  | .bool => .bool (d != 0)
  | .schar => .schar d.toUInt8.toInt8
  | .uchar => .uchar d.toUInt8
  | .w16 => .w16 d.toUInt16
  | .w32 => .w32 d.toUInt32
  | .ws32 => .ws32 d.toUInt32.toInt32

/-- `lexi::lexi<E>(s)`, include/lexi/lexi.hpp:122-127. -/
def lexiEnum (t : EnumTy) (s : Bytes) : Res EnumVal := .ok (convertEnum (extractInt s) t)

/-- `lexi::string(e)`, include/lexi/lexi.hpp:65-70. -/
def stringEnum (p : Platform) (junk : Bytes) (v : EnumVal) : Res Bytes := do
  (← formatEnum p junk v).string

/-- `FormatInt(std::streamoff(t))`, include/lexi/lexi.hpp:72-77.  `std::streamoff` is a 64-bit signed
integer (`long` on LP64, otherwise `long long`); an `fpos` is represented by its offset (the shift state is
not printed by the code and is reset by the reverse conversion). -/
def stringFpos (p : Platform) (junk : Bytes) (off : Int64) : Res Bytes :=
  stringInt p junk (if p.longIs64 then .long64 off else .i64 off)

/-- `T(std::streamoff(ExtractInt(string)))`, include/lexi/lexi.hpp:129-134. -/
def lexiFpos (s : Bytes) : Res Int64 := .ok (extractInt s).toInt64

end Lexi
