import Verif.Model.FloatFmt
import Verif.Model.IntFmt

/-!
# `errno` around extraction

`ExtractInt` (src/int.cpp:179-183) and `ExtractFloat` (src/float.cpp:137-141) call `strtoull` and `strtold` without touching
`errno` themselves.  What those calls store there is C11 7.22.1.3p10, 7.22.1.4p8 (external).
-/

namespace Lexi

/-- `ERANGE`; the number is the platform's, any non-zero one. -/
def ERANGE : Nat := 34

/-- What the standard leaves to the C library. -/
structure LibC where
  /-- What is stored when no conversion could be performed: POSIX allows nothing or `EINVAL` (musl). -/
  noConversion : Option Nat
  /-- Whether `ERANGE` is stored for a magnitude that underflows; asked only below the least normal number. -/
  underflow : Bool → Rat → Bool

/-- `errno` after `strtoull(s, nullptr, 10)`. -/
def strtoullErrno (c : LibC) (s : Bytes) (errno : Nat) : Nat :=
  let t := (scanSign (skipSpace (cstr s))).2
  if (t.head?.map isdigit).getD false then (if 2 ^ 64 ≤ scanDigits 0 t then ERANGE else errno)
  else c.noConversion.getD errno

/-- Least normal number of a format. -/
def FpFormat.leastNormal (F : FpFormat) : Rat := Soft.scale 1 (F.emin + F.p - 1)

/-- `errno` after `strtold` has rounded the magnitude `q`. -/
def FpFormat.roundErrno (c : LibC) (F : FpFormat) (neg : Bool) (q : Rat) (errno : Nat) : Nat :=
  match F.round neg q with
  | .inf _ => ERANGE
  | _ => if q ≠ 0 ∧ q < F.leastNormal ∧ c.underflow neg q = true then ERANGE else errno

/-- `errno` after `strtold` has scanned the unsigned subject. -/
def Scanned.errno (c : LibC) (F : FpFormat) (neg : Bool) (errno : Nat) : Scanned → Nat
  | .inf => errno
  | .nan => errno
  | .num q => F.roundErrno c neg q errno
  | .none => c.noConversion.getD errno

/-- `errno` after `strtold(s, nullptr)`. -/
def strtoldErrno (c : LibC) (F : FpFormat) (s : Bytes) (errno : Nat) : Nat :=
  let r := scanSign (skipSpace (cstr s))
  (scan r.2).errno c F r.1 errno

/-- `lexi<T>(s)` for an integer type, with `errno` before and after: src/int.cpp:179-263, include/lexi/lexi.hpp:107-112. -/
def lexiIntErrno (c : LibC) (t : IntTy) (s : Bytes) (errno : Nat) : Res IntVal × Nat :=
  (lexiInt t s, strtoullErrno c s errno)

/-- `lexi<double>(s)` with `errno` before and after: src/float.cpp:137-157, include/lexi/lexi.hpp:115-120. -/
def lexiDoubleErrno (c : LibC) (F : FpFormat) (s : Bytes) (errno : Nat) : UInt64 × Nat :=
  (lexiDouble F s, strtoldErrno c F s errno)

/-- `lexi<float>(s)` with `errno` before and after: src/float.cpp:137-149, include/lexi/lexi.hpp:115-120. -/
def lexiFloatErrno (c : LibC) (F : FpFormat) (s : Bytes) (errno : Nat) : UInt32 × Nat :=
  (lexiFloat F s, strtoldErrno c F s errno)

end Lexi
