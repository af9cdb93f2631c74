import Verif.Model.FloatFmt
import Verif.Model.BigInt

/-!
# Model of src/detail/pow.cpp and src/detail/strtod.cpp

The functions are `static` (strtod.cpp) or internal (`detail::pow10`) and not called by the rest of the library.
`double` expressions are evaluated in binary64 (`FLT_EVAL_METHOD == 0`), and once more, in `fastPathIn` and `fastIn`,
in a wider format rounded to binary64 by the assignment or the return (`FLT_EVAL_METHOD == 2`; compilers which keep
the excess precision across assignments and returns are outside the model).
-/

namespace Lexi.Strtod

/-! ## Arithmetic of `double` (IEEE-754, round to nearest; external) -/

/-- `a * b`. -/
def fmul (a b : UInt64) : UInt64 :=
  match LVal.ofDouble a, LVal.ofDouble b with
  | .nan, _ => LVal.nan.toDouble
  | _, .nan => LVal.nan.toDouble
  | .inf s, .inf t => (LVal.inf (s ^^ t)).toDouble
  | .inf s, .fin t y => if y = 0 then LVal.nan.toDouble else (LVal.inf (s ^^ t)).toDouble
  | .fin s x, .inf t => if x = 0 then LVal.nan.toDouble else (LVal.inf (s ^^ t)).toDouble
  | .fin s x, .fin t y => (LVal.fin (s ^^ t) (x * y)).toDouble

/-- `a / b`. -/
def fdiv (a b : UInt64) : UInt64 :=
  match LVal.ofDouble a, LVal.ofDouble b with
  | .nan, _ => LVal.nan.toDouble
  | _, .nan => LVal.nan.toDouble
  | .inf _, .inf _ => LVal.nan.toDouble
  | .inf s, .fin t _ => (LVal.inf (s ^^ t)).toDouble
  | .fin s _, .inf t => (LVal.fin (s ^^ t) 0).toDouble
  | .fin s x, .fin t y =>
    if y = 0 then (if x = 0 then LVal.nan.toDouble else (LVal.inf (s ^^ t)).toDouble)
    else (LVal.fin (s ^^ t) (x / y)).toDouble

/-- `a <= b`. -/
def fle (a b : UInt64) : Bool :=
  match LVal.ofDouble a, LVal.ofDouble b with
  | .nan, _ => false
  | _, .nan => false
  | .inf true, _ => true
  | _, .inf false => true
  | .inf false, _ => false
  | _, .inf true => false
  | .fin s x, .fin t y => decide ((if s then -x else x) ≤ (if t then -y else y))

/-! ## pow.cpp -/

/-- `POWER10`, src/detail/pow.cpp:19-51: the literals `1e+0` … `1e+308`; a literal is the nearest `double`
([lex.fcon], correctly rounded by every compiler in use). -/
def POWER10 : List UInt64 := (List.range 309).map fun n => (LVal.fin false ((10 ^ n : Nat) : Rat)).toDouble

/-- `pow10`, src/detail/pow.cpp:59-62: no check of the index. -/
def pow10 (n : Int) : Res UInt64 :=
  if n < 0 then .ub
  else match POWER10[n.toNat]? with
    | some d => .ok d
    | none => .ub

/-! ## strtod.cpp -/

/-- `fastPath`, src/detail/strtod.cpp:26-36. -/
def fastPath (significand : UInt64) (exp : Int) : Res UInt64 :=
  if exp < -308 then .ok 0
  else if 0 ≤ exp then do
    let t ← pow10 exp
    pure (fmul significand t)
  else do
    let t ← pow10 (-exp)
    pure (fdiv significand t)

/-- `StrtodNormalPrecision`, src/detail/strtod.cpp:41-52. -/
def normalPrecision (d : UInt64) (p : Int) : Res UInt64 :=
  if p < -308 then do
    let d ← fastPath d (-308)
    fastPath d (p + 308)
  else fastPath d p

/-- `std::min(a, b)` ([alg.min.max], external): `b` if it is less than `a`, otherwise `a`. -/
def stdMin {α : Type} (lt : α → α → Bool) (a b : α) : α := if lt b a then b else a

/-- `min3`, src/detail/strtod.cpp:55-63. -/
def min3 {α : Type} (lt : α → α → Bool) (a b c : α) : α := stdMin lt a (stdMin lt b c)

/-- `withinHalfULP`, src/detail/strtod.cpp:66-127: everything but `return 0` is commented out. -/
def withinHalfULP (_b : UInt64) (_d : BigInt) (_dExp : Int) : Int := 0

/-- The literal `9007199254740991.0` (`2^53 - 1`), src/detail/strtod.cpp:146. -/
def MAX_SIG : UInt64 := 0x433FFFFFFFFFFFFF

/-- `fast`, src/detail/strtod.cpp:138-152; `none` is `return false`, `some r` is `*result = r; return true`. -/
def fast (d : UInt64) (p : Int) : Res (Option UInt64) := do
  let (d, p) ←
    if p > 22 ∧ p < 22 + 16 then do
      let t ← pow10 (p - 22)
      pure (fmul d t, (22 : Int))
    else pure (d, p)
  if p ≥ -22 ∧ p ≤ 22 ∧ fle d MAX_SIG = true then do
    let r ← fastPath d p
    pure (some r)
  else pure none

/-! ## Evaluation in a wider format (`FLT_EVAL_METHOD == 2`, 32-bit x86) -/

/-- `a * b` evaluated in the format `F`, then converted to `double`. -/
def fmulIn (F : FpFormat) (a b : UInt64) : UInt64 :=
  match LVal.ofDouble a, LVal.ofDouble b with
  | .fin s x, .fin t y => (F.round (s ^^ t) (x * y)).toDouble
  | _, _ => fmul a b

/-- `a / b` evaluated in the format `F`, then converted to `double`. -/
def fdivIn (F : FpFormat) (a b : UInt64) : UInt64 :=
  match LVal.ofDouble a, LVal.ofDouble b with
  | .fin s x, .fin t y => if y = 0 then fdiv a b else (F.round (s ^^ t) (x / y)).toDouble
  | _, _ => fdiv a b

/-- `fastPath`, src/detail/strtod.cpp:26-36, evaluated in `F`. -/
def fastPathIn (F : FpFormat) (significand : UInt64) (exp : Int) : Res UInt64 :=
  if exp < -308 then .ok 0
  else if 0 ≤ exp then do
    let t ← pow10 exp
    pure (fmulIn F significand t)
  else do
    let t ← pow10 (-exp)
    pure (fdivIn F significand t)

/-- `fast`, src/detail/strtod.cpp:138-152, evaluated in `F`. -/
def fastIn (F : FpFormat) (d : UInt64) (p : Int) : Res (Option UInt64) := do
  let (d, p) ←
    if p > 22 ∧ p < 22 + 16 then do
      let t ← pow10 (p - 22)
      pure (fmulIn F d t, (22 : Int))
    else pure (d, p)
  if p ≥ -22 ∧ p ≤ 22 ∧ fle d MAX_SIG = true then do
    let r ← fastPathIn F d p
    pure (some r)
  else pure none

end Lexi.Strtod
