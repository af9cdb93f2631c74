import Verif.Model.FloatFmt

/-!
# Floating-point rounding modes (`fesetround`)

Model of the FPU and the C library, not of repository code: rounding in a direction, and `src/float.cpp`,
`src/detail/dtoa.cpp:196` executed under it.  `strtold` is taken to round in the current direction (glibc, musl).
-/

namespace Lexi

/-- `FE_TONEAREST`, `FE_UPWARD`, `FE_DOWNWARD`, `FE_TOWARDZERO`. -/
inductive RMode where
  | nearest
  | upward
  | downward
  | towardZero
  deriving DecidableEq, Repr

/-- What a mode does to the magnitude of a number of the given sign. -/
inductive Dir where
  | near
  | away
  | zero
  deriving DecidableEq, Repr

def RMode.dir : RMode → Bool → Dir
  | .nearest, _ => .near
  | .upward, neg => if neg then .zero else .away
  | .downward, neg => if neg then .away else .zero
  | .towardZero, _ => .zero

namespace Soft

/-- Significand and quantum exponent of `n / d` rounded toward zero or (`up`) away from it. -/
def dirPos (up : Bool) (p : Nat) (emin : Int) (n d : Nat) : Nat × Int :=
  let e := max emin (ilog2 n d - p + 1)
  let n := n * 2 ^ (-e).toNat
  let d := d * 2 ^ e.toNat
  (if up then (n + d - 1) / d else n / d, e)

/-- Rounding of a magnitude toward zero or away from it, without overflow threshold. -/
def dirRat (up : Bool) (p : Nat) (emin : Int) (q : Rat) : Rat :=
  if q.num = 0 then 0
  else
    let r := dirPos up p emin q.num.natAbs q.den
    scale r.1 r.2

end Soft

/-- IEEE-754 binary32: `float`. -/
def FpFormat.binary32 : FpFormat := ⟨24, -149, 128⟩

/-- Largest finite number of a format. -/
def FpFormat.largest (F : FpFormat) : Rat := Soft.scale (2 ^ F.p - 1) ((F.emax : Int) - F.p)

/-- Rounding in a mode.  Too large a magnitude gives the infinity away from zero, the largest finite number toward it. -/
def FpFormat.roundIn (F : FpFormat) (m : RMode) (neg : Bool) (q : Rat) : LVal :=
  match m.dir neg with
  | .near => F.round neg q
  | .away =>
    let r := Soft.dirRat true F.p F.emin q
    if ((2 ^ F.emax : Nat) : Rat) ≤ r then .inf neg else .fin neg r
  | .zero =>
    let r := Soft.dirRat false F.p F.emin q
    if ((2 ^ F.emax : Nat) : Rat) ≤ r then .fin neg F.largest else .fin neg r

/-- Conversion to a format in a mode. -/
def LVal.convIn (m : RMode) (F : FpFormat) : LVal → LVal
  | .fin neg q => F.roundIn m neg q
  | v => v

/-- Conversion to `double` in a mode. -/
def LVal.toDoubleIn (m : RMode) (v : LVal) : UInt64 := (v.convIn m .binary64).toDouble
/-- Conversion to `float` in a mode. -/
def LVal.toFloatIn (m : RMode) (v : LVal) : UInt32 := (v.convIn m .binary32).toFloat

/-- `ExtractFloat::ExtractFloat` and `operator long double`, src/float.cpp:137-141, :162-165, in a mode. -/
def extractLongDoubleMode (m : RMode) (F : FpFormat) (s : Bytes) : LVal := strtoldWith (F.roundIn m) s
/-- `lexi<double>(s)`: src/float.cpp:154-157, include/lexi/lexi.hpp:115-120, in a mode. -/
def lexiDoubleMode (m : RMode) (F : FpFormat) (s : Bytes) : UInt64 := (extractLongDoubleMode m F s).toDoubleIn m
/-- `lexi<float>(s)`: src/float.cpp:146-149, include/lexi/lexi.hpp:115-120, in a mode. -/
def lexiFloatMode (m : RMode) (F : FpFormat) (s : Bytes) : UInt32 := (extractLongDoubleMode m F s).toFloatIn m

/-- A magnitude rounded to the precision of `double` (no overflow). -/
def Dir.eval (d : Dir) (a : Rat) : Rat :=
  match d with
  | .near => Soft.roundRat 53 (-1074) a
  | .away => Soft.dirRat true 53 (-1074) a
  | .zero => Soft.dirRat false 53 (-1074) a

/-- A signed number rounded to `double` in a mode (no overflow). -/
def RMode.eval (m : RMode) (q : Rat) : Rat :=
  if q < 0 then -(m.dir true).eval (-q) else (m.dir false).eval q

/-- `dk`, src/detail/dtoa.cpp:196, with each operation rounded to `double` in a mode; the literal was rounded to
nearest by the compiler. -/
def dkIn (m : RMode) (e : Int) : Rat := m.eval (m.eval (((-61 - e : Int) : Rat) * Dtoa.LOG10_2) + 347)

/-- `FormatFloat::format`, src/float.cpp:31-50, in a mode: the argument is converted to `double` by each call, `dk` is
evaluated in the mode, everything else is integer arithmetic. -/
def formatLdIn (m : RMode) (L : Literals) (v : Variant) (oob : Nat → Res UInt64) (junk : Bytes) (value : LVal) :
    Res FloatObj :=
  formatLd L ⟨v, dkIn m, oob⟩ junk (.ofDouble (value.toDoubleIn m))

end Lexi
