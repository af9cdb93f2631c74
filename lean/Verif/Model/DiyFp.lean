import Verif.Model.Ieee

/-!
# Model of src/detail/diyfp.cpp, include/lexi/detail/diyfp.hpp

All compiler variants are modelled; `Variant` selects them.  `int` exponents are `Int`
(they stay within ±2300 here, so no overflow is possible).
-/

namespace Lexi

/-- `struct DiyFp`, include/lexi/detail/diyfp.hpp:22-26. -/
structure DiyFp where
  f : UInt64
  e : Int
  deriving DecidableEq, Repr

/-- `x << n` on `uint64_t` with an `int` count: undefined outside `[0, 63]`. -/
def shl64 (x : UInt64) (n : Int) : Res UInt64 :=
  if 0 ≤ n ∧ n < 64 then .ok (x <<< UInt64.ofNat n.toNat) else .ub

/-- `x >> n` on `uint64_t` with an `int` count: undefined outside `[0, 63]`. -/
def shr64 (x : UInt64) (n : Int) : Res UInt64 :=
  if 0 ≤ n ∧ n < 64 then .ok (x >>> UInt64.ofNat n.toNat) else .ub

/-- `DIY_SIGNIFICAND_SIZE` … `HIDDEN_BIT`, src/detail/diyfp.cpp:26-30. -/
def DIY_SIGNIFICAND_SIZE : Int := 64
def DP_SIGNIFICAND_SIZE : Int := 52
def DP_EXPONENT_BIAS : Int := 0x3FF + DP_SIGNIFICAND_SIZE
def DP_MIN_EXPONENT : Int := -DP_EXPONENT_BIAS
def HIDDEN_BIT : UInt64 := 0x0010000000000000

/-- Which `mul` is compiled (src/detail/diyfp.cpp:37, :52, :68). -/
inductive MulImpl where | msvc | gnu128 | generic
  deriving DecidableEq, Repr
/-- Which `normalize` is compiled (src/detail/diyfp.cpp:93, :104, :113). -/
inductive NormImpl where | msvc | gnu | generic
  deriving DecidableEq, Repr
/-- Which `normalizeBoundary` is compiled (src/detail/diyfp.cpp:133, :144). -/
inductive BoundImpl where | msvc | generic
  deriving DecidableEq, Repr

structure Variant where
  mul : MulImpl
  norm : NormImpl
  bound : BoundImpl
  deriving DecidableEq, Repr

namespace DiyFp

/-- The 128-bit product used by `_umul128` and `unsigned __int128` (high word, low word). -/
def umul128 (a b : UInt64) : UInt64 × UInt64 :=
  (UInt64.ofNat (a.toNat * b.toNat / 2 ^ 64), UInt64.ofNat (a.toNat * b.toNat))

/-- `mul`, src/detail/diyfp.cpp:41-50 (MSVC) and :56-66 (GNU, `unsigned __int128`): the two variants
have the same body apart from how the 128-bit product is obtained. -/
def mulWide (l r : DiyFp) : DiyFp :=
  let p := umul128 l.f r.f
  let h := p.1
  let lo := p.2
  let h := if lo &&& ((1 : UInt64) <<< 63) ≠ 0 then h + 1 else h
  ⟨h, l.e + r.e + 64⟩

/-- `mul`, src/detail/diyfp.cpp:72-87. -/
def mulGeneric (l r : DiyFp) : DiyFp :=
  let M32 : UInt64 := 0xFFFFFFFF
  let a := l.f >>> 32
  let b := l.f &&& M32
  let c := r.f >>> 32
  let d := r.f &&& M32
  let ac := a * c
  let bc := b * c
  let ad := a * d
  let bd := b * d
  let tmp := (bd >>> 32) + (ad &&& M32) + (bc &&& M32)
  let tmp := tmp + 0x80000000
  ⟨ac + (ad >>> 32) + (bc >>> 32) + (tmp >>> 32), l.e + r.e + 64⟩

def mul (v : MulImpl) (l r : DiyFp) : DiyFp :=
  match v with
  | .msvc | .gnu128 => mulWide l r
  | .generic => mulGeneric l r

/-- `__builtin_clzll` (GCC): undefined for 0.  Also `63 - index` of `_BitScanReverse64` (MSVC), whose
output is indeterminate for 0. -/
def clz (x : UInt64) : Res Int :=
  if x = 0 then .ub else .ok (63 - (x.toNat.log2 : Int))

/-- `normalize`, src/detail/diyfp.cpp:97-102 (MSVC) and :108-112 (GNU); `normalizeBoundary`,
:137-142 (MSVC). -/
def normClz (x : DiyFp) : Res DiyFp := do
  let s ← clz x.f
  let f ← shl64 x.f s
  pure ⟨f, x.e - s⟩

/-- `while (!(res.f & bit)) { res.f <<= 1; res.e--; }`, src/detail/diyfp.cpp:120-123, :151-154.
After 64 turns `f` is 0 and the loop never ends (no forward progress: undefined behaviour), hence the fuel. -/
def shiftUp (bit : UInt64) : Nat → DiyFp → Res DiyFp
  | 0, _ => .ub
  | n + 1, x => if x.f &&& bit ≠ 0 then .ok x else shiftUp bit n ⟨x.f <<< 1, x.e - 1⟩

/-- `normalize`, src/detail/diyfp.cpp:117-127. -/
def normGeneric (x : DiyFp) : Res DiyFp := do
  let r ← shiftUp HIDDEN_BIT 65 x
  let f ← shl64 r.f (DIY_SIGNIFICAND_SIZE - DP_SIGNIFICAND_SIZE - 1)
  pure ⟨f, r.e - (DIY_SIGNIFICAND_SIZE - DP_SIGNIFICAND_SIZE - 1)⟩

/-- `normalizeBoundary`, src/detail/diyfp.cpp:148-158. -/
def boundGeneric (x : DiyFp) : Res DiyFp := do
  let r ← shiftUp (HIDDEN_BIT <<< 1) 65 x
  let f ← shl64 r.f (DIY_SIGNIFICAND_SIZE - DP_SIGNIFICAND_SIZE - 2)
  pure ⟨f, r.e - (DIY_SIGNIFICAND_SIZE - DP_SIGNIFICAND_SIZE - 2)⟩

/-- `DiyFp::normalize`, src/detail/diyfp.cpp:213-216. -/
def normalize (v : NormImpl) (x : DiyFp) : Res DiyFp :=
  match v with
  | .msvc | .gnu => normClz x
  | .generic => normGeneric x

/-- `DiyFp::normalizeBoundary`, src/detail/diyfp.cpp:219-222. -/
def normalizeBoundary (v : BoundImpl) (x : DiyFp) : Res DiyFp :=
  match v with
  | .msvc => normClz x
  | .generic => boundGeneric x

/-- `DiyFp::DiyFp(double)`, src/detail/diyfp.cpp:182-196. -/
def ofDouble (u : UInt64) : DiyFp :=
  let biased_e : Int := ((u &&& Ieee.EXPONENT_MASK) >>> 52).toNat
  let significand := u &&& Ieee.SIGNIFICAND_MASK
  if biased_e ≠ 0 then ⟨significand + HIDDEN_BIT, biased_e - DP_EXPONENT_BIAS⟩
  else ⟨significand, DP_MIN_EXPONENT + 1⟩

/-- `operator-`, src/detail/diyfp.cpp:201-204. -/
def sub (a b : DiyFp) : DiyFp := ⟨a.f - b.f, a.e⟩

/-- `DiyFp::normalizedBoundaries`, src/detail/diyfp.cpp:225-233; returns `(*minus, *plus)`. -/
def normalizedBoundaries (v : BoundImpl) (x : DiyFp) : Res (DiyFp × DiyFp) := do
  let pl ← normalizeBoundary v ⟨(x.f <<< 1) + 1, x.e - 1⟩
  let mi : DiyFp := if x.f = HIDDEN_BIT then ⟨(x.f <<< 2) - 1, x.e - 2⟩ else ⟨(x.f <<< 1) - 1, x.e - 1⟩
  let f ← shl64 mi.f (mi.e - pl.e)
  pure (⟨f, pl.e⟩, pl)

end DiyFp

end Lexi
