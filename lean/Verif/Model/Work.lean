import Verif.Model.Dtoa

/-!
# The loops of src/detail/dtoa.cpp and src/detail/diyfp.cpp with counters

The functions below are those of `Model/Dtoa` and `Model/DiyFp` with ghost counters added: what they return besides the
counters is what the functions of the model return (`Proofs/Work`, `grisu2C_erase`).  The counters are not in the code.
-/

namespace Lexi

namespace DiyFp

/-- `shiftUp`, src/detail/diyfp.cpp:120-123, :151-154, with the number of turns. -/
def shiftUpC (bit : UInt64) : Nat → DiyFp → Res (DiyFp × Nat)
  | 0, _ => .ub
  | n + 1, x =>
    if x.f &&& bit ≠ 0 then .ok (x, 0)
    else do
      let r ← shiftUpC bit n ⟨x.f <<< 1, x.e - 1⟩
      pure (r.1, r.2 + 1)

/-- `DiyFp::normalize`, src/detail/diyfp.cpp:97-127, with the number of turns of its loop. -/
def normalizeC (v : NormImpl) (x : DiyFp) : Res (DiyFp × Nat) :=
  match v with
  | .msvc | .gnu => do pure (← normClz x, 0)
  | .generic => do
    let r ← shiftUpC HIDDEN_BIT 65 x
    let f ← shl64 r.1.f (DIY_SIGNIFICAND_SIZE - DP_SIGNIFICAND_SIZE - 1)
    pure (⟨f, r.1.e - (DIY_SIGNIFICAND_SIZE - DP_SIGNIFICAND_SIZE - 1)⟩, r.2)

/-- `DiyFp::normalizeBoundary`, src/detail/diyfp.cpp:137-158, with the number of turns of its loop. -/
def normalizeBoundaryC (v : BoundImpl) (x : DiyFp) : Res (DiyFp × Nat) :=
  match v with
  | .msvc => do pure (← normClz x, 0)
  | .generic => do
    let r ← shiftUpC (HIDDEN_BIT <<< 1) 65 x
    let f ← shl64 r.1.f (DIY_SIGNIFICAND_SIZE - DP_SIGNIFICAND_SIZE - 2)
    pure (⟨f, r.1.e - (DIY_SIGNIFICAND_SIZE - DP_SIGNIFICAND_SIZE - 2)⟩, r.2)

/-- `DiyFp::normalizedBoundaries`, src/detail/diyfp.cpp:225-233, with the number of turns of the loop in it. -/
def normalizedBoundariesC (v : BoundImpl) (x : DiyFp) : Res ((DiyFp × DiyFp) × Nat) := do
  let r ← normalizeBoundaryC v ⟨(x.f <<< 1) + 1, x.e - 1⟩
  let pl := r.1
  let mi : DiyFp := if x.f = HIDDEN_BIT then ⟨(x.f <<< 2) - 1, x.e - 2⟩ else ⟨(x.f <<< 1) - 1, x.e - 1⟩
  let f ← shl64 mi.f (mi.e - pl.e)
  pure ((⟨f, pl.e⟩, pl), r.2)

end DiyFp

namespace Dtoa

/-- `grisuRound`, src/detail/dtoa.cpp:154-167, with the number of turns of its loop. -/
def grisuRoundC (base : Nat) (delta ten_kappa wp_w : UInt64) : Nat → Cur → UInt64 → Res (Cur × Nat)
  | 0, _, _ => .ub
  | n + 1, b, rest =>
    if rest < wp_w ∧ delta - rest ≥ ten_kappa ∧
        (rest + ten_kappa < wp_w ∨ wp_w - rest > rest + ten_kappa - wp_w) then do
      let b ← decLast base b
      let r ← grisuRoundC base delta ten_kappa wp_w n b (rest + ten_kappa)
      pure (r.1, r.2 + 1)
    else .ok (b, 0)

/-- What the loops have done: `passes` turns of the two digit loops, `fixes` turns of the loop of `grisuRound`. -/
structure Tally where
  passes : Nat
  fixes : Nat
  deriving DecidableEq

/-- One more turn of a digit loop. -/
def Tally.pass (t : Tally) : Tally := ⟨t.passes + 1, t.fixes⟩

/-- The `for (;;)`, src/detail/dtoa.cpp:256-270, counted. -/
def loop2C (env : Env) (base : Nat) (sh : Int) (one_f wp_w : UInt64) (k : Int) :
    Nat → Nat → Cur → UInt64 → UInt64 → Res ((Cur × Int) × Tally)
  | 0, _, _, _, _ => .ub
  | n + 1, i, b, p2, delta => do
    let p2 := p2 * 10
    let delta := delta * 10
    let d := (← shr64 p2 sh).toUInt8
    let b ← putDigit base b d
    let p2 := p2 &&& (one_f - 1)
    let i := i + 1
    if p2 < delta then
      let w ← power10 env i
      let r ← grisuRoundC base delta one_f (wp_w * w) ROUND_FUEL b p2
      pure ((r.1, k + -(i : Int)), ⟨1, r.2⟩)
    else do
      let r ← loop2C env base sh one_f wp_w k n i b p2 delta
      pure (r.1, r.2.pass)

/-- The `while (kappa > 0)`, src/detail/dtoa.cpp:227-253, followed by the second loop, counted. -/
def loop1C (env : Env) (base : Nat) (sh : Int) (one_f wp_w p2 delta : UInt64) (k : Int) :
    Nat → Cur → UInt32 → Res ((Cur × Int) × Tally)
  | 0, b, _ => loop2C env base sh one_f wp_w k LOOP_FUEL 0 b p2 delta
  | kappa + 1, b, p1 => do
    let div ← switchDiv (kappa + 1)
    let d := p1 / div
    let p1 := p1 % div
    let b ← putDigit base b d.toUInt8
    let tmp := (← shl64 p1.toUInt64 sh) + p2
    if tmp ≤ delta then
      let w ← power10 env kappa
      let ten ← shl64 w sh
      let r ← grisuRoundC base delta ten wp_w ROUND_FUEL b tmp
      pure ((r.1, k + (kappa : Int)), ⟨1, r.2⟩)
    else do
      let r ← loop1C env base sh one_f wp_w p2 delta k kappa b p1
      pure (r.1, r.2.pass)

/-- `generateDigits`, src/detail/dtoa.cpp:213-271, counted. -/
def generateDigitsC (env : Env) (W Mp : DiyFp) (delta : UInt64) (b : Cur) (k : Int) :
    Res ((Cur × Int) × Tally) := do
  let one_f ← shl64 1 (-Mp.e)
  let wp_w := Mp.sub W
  let p1 := (← shr64 Mp.f (-Mp.e)).toUInt32
  let p2 := Mp.f &&& (one_f - 1)
  let kappa := decimalCount p1
  loop1C env b.pos (-Mp.e) one_f wp_w.f p2 delta k kappa b p1

/-- What `grisu2` has done: `bound` and `norm` turns of the two normalisation loops, and the tally of the digits. -/
structure Work where
  bound : Nat
  norm : Nat
  tally : Tally
  deriving DecidableEq

/-- `grisu2`, src/detail/dtoa.cpp:276-292, counted. -/
def grisu2C (env : Env) (value : UInt64) (b : Cur) : Res ((Cur × Int) × Work) := do
  let v := DiyFp.ofDouble value
  let ((w_m, w_p), cb) ← v.normalizedBoundariesC env.v.bound
  let (c_mk, k) ← getCachedPower env w_p.e
  let (vn, cn) ← v.normalizeC env.v.norm
  let W := DiyFp.mul env.v.mul vn c_mk
  let Wp := DiyFp.mul env.v.mul w_p c_mk
  let Wm := DiyFp.mul env.v.mul w_m c_mk
  let Wm : DiyFp := ⟨Wm.f + 1, Wm.e⟩
  let Wp : DiyFp := ⟨Wp.f - 1, Wp.e⟩
  let (r, t) ← generateDigitsC env W Wp (Wp.f - Wm.f) b k
  pure (r, ⟨cb, cn, t⟩)

end Dtoa

end Lexi
