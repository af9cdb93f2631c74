import Verif.Model.Res

/-!
# Model of src/detail/ieee754.cpp, include/lexi/detail/ieee754.hpp

A `double` is its bit pattern; `BitwiseDouble u = {number}; u.u64` is the identity on it
(the union read is type punning, which the supported compilers define as a bit copy).
-/

namespace Lexi.Ieee

/-- include/lexi/detail/ieee754.hpp:21. -/
def EXPONENT_MASK : UInt64 := 0x7FF0000000000000
/-- include/lexi/detail/ieee754.hpp:22. -/
def SIGNIFICAND_MASK : UInt64 := 0x000FFFFFFFFFFFFF
/-- include/lexi/detail/ieee754.hpp:23. -/
def SIGN_MASK : UInt64 := 0x8000000000000000
/-- src/detail/ieee754.cpp:19. -/
def INFINITY : UInt64 := 0x7FF0000000000000
/-- src/detail/ieee754.cpp:20. -/
def NEGATIVE_INFINITY : UInt64 := 0xFFF0000000000000

/-- src/detail/ieee754.cpp:64-68. -/
def isFinite (u : UInt64) : Bool := (u &&& EXPONENT_MASK) != EXPONENT_MASK
/-- src/detail/ieee754.cpp:28-32. -/
def isNan (u : UInt64) : Bool := !isFinite u && ((u &&& SIGNIFICAND_MASK) != 0)
/-- src/detail/ieee754.cpp:37-41. -/
def isInf (u : UInt64) : Bool := !isFinite u && ((u &&& SIGNIFICAND_MASK) == 0)
/-- src/detail/ieee754.cpp:46-50. -/
def isNegativeInfinity (u : UInt64) : Bool := u == NEGATIVE_INFINITY
/-- src/detail/ieee754.cpp:55-59. -/
def isInfinity (u : UInt64) : Bool := u == INFINITY
/-- src/detail/ieee754.cpp:73-77. -/
def isZero (u : UInt64) : Bool := (u &&& (EXPONENT_MASK ||| SIGNIFICAND_MASK)) == 0
/-- src/detail/ieee754.cpp:82-86. -/
def isPositive (u : UInt64) : Bool := (u &&& SIGN_MASK) == 0

/-! FPU operations on bit patterns used by src/detail/dtoa.cpp (IEEE-754 semantics, external). -/

/-- `value == 0` for a `double` (true of both zeros, false of NaN). -/
def eqZero (u : UInt64) : Bool := (u &&& ~~~SIGN_MASK) == 0
/-- `value < 0` for a `double` that is not NaN. -/
def ltZero (u : UInt64) : Bool := (u &&& SIGN_MASK) != 0 && !eqZero u
/-- `-value` (sign bit flip). -/
def neg (u : UInt64) : UInt64 := u ^^^ SIGN_MASK

end Lexi.Ieee
