import Verif.Model.Dtoa
import Verif.Model.Scalar

/-!
# Model of src/float.cpp, include/lexi/float.hpp

`long double` is not a bit pattern here but its value (`LVal`): the repository code never looks at its
bits, it only converts it to `double` (formatting) or stores the result of `strtold` (extraction).
-/

namespace Lexi

/-! ## `long double` and its conversions (C++ [conv.double] with IEEE-754 rounding to nearest; external) -/

/-- A value of a binary floating-point type: NaN, an infinity, or a sign and a finite magnitude. -/
inductive LVal where
  | nan
  | inf (neg : Bool)
  | fin (neg : Bool) (mag : Rat)
  deriving DecidableEq, Repr

/-- A binary floating-point format: precision, exponent of the least positive number, and the exponent
`emax` such that values rounding to `2^emax` or more overflow. -/
structure FpFormat where
  p : Nat
  emin : Int
  emax : Nat
  deriving DecidableEq, Repr

/-- IEEE-754 binary64: `double`, and `long double` of MSVC and some ARM ABIs. -/
def FpFormat.binary64 : FpFormat := ⟨53, -1074, 1024⟩
/-- x87 double extended: `long double` of x86 System V. -/
def FpFormat.x87 : FpFormat := ⟨64, -16445, 16384⟩
/-- IEEE-754 binary128: `long double` of AArch64 System V and others. -/
def FpFormat.binary128 : FpFormat := ⟨113, -16494, 16384⟩

/-- Correctly rounded (nearest, ties to even) value of the non-negative rational `q` in the format. -/
def FpFormat.round (F : FpFormat) (neg : Bool) (q : Rat) : LVal :=
  let r := Soft.roundRat F.p F.emin q
  if ((2 ^ F.emax : Nat) : Rat) ≤ r then .inf neg else .fin neg r

/-- Bits (without sign) of a non-negative finite value after rounding to a format whose trailing
significand has `w = p - 1` bits; `top` is the encoding of infinity. -/
def encodeMag (p : Nat) (emin : Int) (top : Nat) (q : Rat) : Nat :=
  if q.num = 0 then 0
  else
    let r := Soft.roundPos p emin q.num.natAbs q.den
    min top ((r.2 - emin).toNat * 2 ^ (p - 1) + r.1)

/-- Conversion to `double`.  Converting an out-of-range value is left undefined by C++; with IEEE-754
arithmetic (C11 annex F, assumed) it yields an infinity. A NaN converts to some NaN; the canonical one is
used, and no theorem depends on the payload. -/
def LVal.toDouble : LVal → UInt64
  | .nan => 0x7FF8000000000000
  | .inf neg => if neg then 0xFFF0000000000000 else 0x7FF0000000000000
  | .fin neg q =>
    UInt64.ofNat ((if neg then 2 ^ 63 else 0) + encodeMag 53 (-1074) (2047 * 2 ^ 52) q)

/-- Conversion to `float`; same remarks. -/
def LVal.toFloat : LVal → UInt32
  | .nan => 0x7FC00000
  | .inf neg => if neg then 0xFF800000 else 0x7F800000
  | .fin neg q =>
    UInt32.ofNat ((if neg then 2 ^ 31 else 0) + encodeMag 24 (-149) (255 * 2 ^ 23) q)

/-- Value of a `double` as a `long double` (widening is exact). -/
def LVal.ofDouble (u : UInt64) : LVal :=
  let e : Nat := u.toNat / 2 ^ 52 % 2 ^ 11
  let f := u.toNat % 2 ^ 52
  let neg := decide (2 ^ 63 ≤ u.toNat)
  if e = 2047 then (if f = 0 then .inf neg else .nan)
  else if e = 0 then .fin neg (Soft.scale f (-1074))
  else .fin neg (Soft.scale (2 ^ 52 + f) ((e : Int) - 1075))

/-- Value of a `float` as a `long double` (widening is exact). -/
def LVal.ofFloat (u : UInt32) : LVal :=
  let e : Nat := u.toNat / 2 ^ 23 % 2 ^ 8
  let f := u.toNat % 2 ^ 23
  let neg := decide (2 ^ 31 ≤ u.toNat)
  if e = 255 then (if f = 0 then .inf neg else .nan)
  else if e = 0 then .fin neg (Soft.scale f (-149))
  else .fin neg (Soft.scale (2 ^ 23 + f) ((e : Int) - 150))

/-! ## `FormatFloat` -/

/-- `detail::FLOAT_SIZE`, include/lexi/detail/fmt.hpp:24. -/
def FLOAT_SIZE : Nat := 30

/-- Members of `FormatFloat`, include/lexi/float.hpp:24-26; the pointers are offsets into `buffer_`. -/
structure FloatObj where
  buffer : Bytes
  first : Nat
  last : Nat
  deriving DecidableEq, Repr

/-- `FormatFloat::format`, src/float.cpp:31-50.  `value` is converted to `double` by each of the calls
`isFinite`, `isNan`, `isInfinity`, `dtoa`, whose parameters are `double`
(include/lexi/detail/ieee754.hpp:39-55, include/lexi/detail/dtoa.hpp:23). -/
def formatLd (L : Literals) (env : Dtoa.Env) (junk : Bytes) (value : LVal) : Res FloatObj :=
  if !Ieee.isFinite value.toDouble then
    if Ieee.isNan value.toDouble then do
      pure ⟨← strncpyLit junk L.nan, 0, L.nan.length⟩
    else if Ieee.isInfinity value.toDouble then do
      pure ⟨← strncpyLit junk L.infinity, 0, L.infinity.length⟩
    else do
      pure ⟨← strncpyLit junk L.negInfinity, 0, L.negInfinity.length⟩
  else do
    let c ← Dtoa.dtoa env value.toDouble ⟨junk, 0⟩
    pure ⟨c.mem, 0, c.pos⟩

/-- `FormatFloat::FormatFloat(double)`, src/float.cpp:59-62. -/
def formatDouble (L : Literals) (env : Dtoa.Env) (junk : Bytes) (u : UInt64) : Res FloatObj :=
  formatLd L env junk (.ofDouble u)

/-- `FormatFloat::FormatFloat(float)`, src/float.cpp:53-56. -/
def formatFloat (L : Literals) (env : Dtoa.Env) (junk : Bytes) (u : UInt32) : Res FloatObj :=
  formatLd L env junk (.ofFloat u)

/-- src/float.cpp:73-76. -/
def FloatObj.size (o : FloatObj) : Nat := o.last - o.first
/-- src/float.cpp:81-84. -/
def FloatObj.length (o : FloatObj) : Nat := o.size
/-- src/float.cpp:99-102. -/
def FloatObj.c_str (o : FloatObj) : Nat := o.first
/-- src/float.cpp:91-94. -/
def FloatObj.data (o : FloatObj) : Nat := o.c_str
/-- src/float.cpp:107-110. -/
def FloatObj.string (o : FloatObj) : Res Bytes := readN o.buffer o.data o.size
/-- src/float.cpp:115-118. -/
def FloatObj.escape (o : FloatObj) : Res Bytes := o.string
/-- src/float.cpp:123-126. -/
def FloatObj.jsonify (o : FloatObj) : Res Bytes := o.string
/-- src/float.cpp:131-134. -/
def FloatObj.toStdString (o : FloatObj) : Res Bytes := o.string

/-- `lexi::string(x)` for `double x`, include/lexi/lexi.hpp:58-63,180-184. -/
def stringDouble (L : Literals) (env : Dtoa.Env) (junk : Bytes) (u : UInt64) : Res Bytes := do
  (← formatDouble L env junk u).string

/-- `lexi::string(x)` for `float x`, same lines. -/
def stringFloat (L : Literals) (env : Dtoa.Env) (junk : Bytes) (u : UInt32) : Res Bytes := do
  (← formatFloat L env junk u).string

/-- `lexi::string(x)` for `long double x`, same lines and src/float.cpp:65-68. -/
def stringLongDouble (L : Literals) (env : Dtoa.Env) (junk : Bytes) (x : LVal) : Res Bytes := do
  (← formatLd L env junk x).string

/-! ## `strtold` (C11 7.22.1.3, "C" locale; external) -/

/-- Lower case of an ASCII letter. -/
def lower (c : UInt8) : UInt8 := if 65 ≤ c ∧ c ≤ 90 then c + 32 else c

/-- Does the text begin with the given lower-case word, ignoring case? -/
def startsWord (w t : Bytes) : Bool := (t.take w.length).map lower == w

/-- Value of a digit of a base up to 16, if it is one. -/
def digitVal (base : Nat) (c : UInt8) : Option Nat :=
  let l := lower c
  let v := if isdigit c then c.toNat - 48 else if 97 ≤ l ∧ l ≤ 102 then l.toNat - 87 else 99
  if v < base then some v else none

def isDig (base : Nat) (c : UInt8) : Bool := (digitVal base c).isSome

/-- Number denoted by a run of digits. -/
def digitsNat (base : Nat) (ds : Bytes) : Nat :=
  ds.foldl (fun n c => base * n + (digitVal base c).getD 0) 0

/-- Optional exponent part: marker, optional sign, at least one decimal digit; otherwise absent (0). -/
def scanExp (marker : UInt8) (t : Bytes) : Int :=
  match t with
  | c :: t =>
    if lower c = marker then
      match t with
      | 45 :: t => -(digitsNat 10 (t.takeWhile (isDig 10)) : Int)
      | 43 :: t => (digitsNat 10 (t.takeWhile (isDig 10)) : Int)
      | t => (digitsNat 10 (t.takeWhile (isDig 10)) : Int)
    else 0
  | [] => 0

/-- Optional point and fraction digits after an integer part (`hasInt`: it has a digit); a lone point is not
consumed.  Returns the fraction digits and the rest. -/
def scanFrac (base : Nat) (hasInt : Bool) : Bytes → Bytes × Bytes
  | 46 :: r =>
    if !hasInt && (r.takeWhile (isDig base)).isEmpty then ([], 46 :: r)
    else (r.takeWhile (isDig base), r.dropWhile (isDig base))
  | t => ([], t)

/-- Exact value of the longest numeral of the given base at the start of `t`: digits, optional point and
digits, optional exponent of `radix` introduced by `marker`. `none` when there is no digit. -/
def scanNumeral (base radix : Nat) (perDigit : Nat) (marker : UInt8) (t : Bytes) : Option Rat :=
  let ip := t.takeWhile (isDig base)
  let fr := scanFrac base (!ip.isEmpty) (t.dropWhile (isDig base))
  let fp := fr.1
  if ip.isEmpty && fp.isEmpty then none
  else
    let m := digitsNat base (ip ++ fp)
    let e := scanExp marker fr.2 - perDigit * fp.length
    some (((m * radix ^ e.toNat : Nat) : Rat) / ((radix ^ (-e).toNat : Nat) : Rat))

/-- What the unsigned subject of `strtold` is: nothing acceptable, a word, or a numeral of an exact value. -/
inductive Scanned where
  | none
  | inf
  | nan
  | num (q : Rat)

/-- Unsigned subject of `strtold`. -/
def scan (t : Bytes) : Scanned :=
  if startsWord [105, 110, 102] t then .inf                           -- "inf", "infinity"
  else if startsWord [110, 97, 110] t then .nan                      -- "nan", "nan(...)"
  else
    let hex := if startsWord [48, 120] t then scanNumeral 16 2 4 112 (t.drop 2) else none
    match hex with
    | some q => .num q
    | none =>
      match scanNumeral 10 10 1 101 t with
      | some q => .num q
      | none => .none

/-- Result of `strtold` for a scanned subject; `R` rounds an exact magnitude of the given sign. -/
def Scanned.value (R : Bool → Rat → LVal) (neg : Bool) : Scanned → LVal
  | .inf => .inf neg
  | .nan => .nan
  | .num q => R neg q
  | .none => .fin false 0                                             -- no conversion

/-- Unsigned subject of `strtold`; `R` as above. -/
def scanMagWith (R : Bool → Rat → LVal) (neg : Bool) (t : Bytes) : LVal := (scan t).value R neg

/-- White space, sign and subject of `strtold`; `R` as above. -/
def strtoldWith (R : Bool → Rat → LVal) (s : Bytes) : LVal :=
  match skipSpace (cstr s) with
  | 45 :: t => scanMagWith R true t
  | 43 :: t => scanMagWith R false t
  | t => scanMagWith R false t

/-- Unsigned subject of `strtold` with correct rounding into the format `F`. -/
def scanMag (F : FpFormat) (neg : Bool) (t : Bytes) : LVal := scanMagWith F.round neg t

/-- `strtold(s.data(), nullptr)`; `F` is the format of `long double`. glibc, musl, MSVC and BSD libraries
round correctly, which is assumed here (C11 only recommends it). -/
def strtold (F : FpFormat) (s : Bytes) : LVal := strtoldWith F.round s

/-- `ExtractFloat::ExtractFloat` and `operator long double`, src/float.cpp:137-141, :162-165. -/
def extractLongDouble (F : FpFormat) (s : Bytes) : LVal := strtold F s
/-- `lexi<double>(s)`: src/float.cpp:154-157, include/lexi/lexi.hpp:115-120. -/
def lexiDouble (F : FpFormat) (s : Bytes) : UInt64 := (extractLongDouble F s).toDouble
/-- `lexi<float>(s)`: src/float.cpp:146-149, include/lexi/lexi.hpp:115-120. -/
def lexiFloat (F : FpFormat) (s : Bytes) : UInt32 := (extractLongDouble F s).toFloat

end Lexi
