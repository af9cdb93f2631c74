import Verif.Model.Res

/-!
# Rounding to a binary floating-point format

Model of the FPU / C library, not of repository code: round to nearest, ties to even, of a non-negative
rational `n / d`, into a format with precision `p` and least quantum exponent `emin`
(binary64: p = 53, emin = -1074; x87 extended: p = 64, emin = -16445; binary32: p = 24, emin = -149).
-/

namespace Lexi.Soft

/-- Round-half-even quotient. -/
def rneDiv (n d : Nat) : Nat :=
  let q := n / d
  let r := n % d
  if 2 * r < d then q else if d < 2 * r then q + 1 else if q % 2 = 0 then q else q + 1

/-- `⌊log2 (n / d)⌋` for positive `n`, `d`. -/
def ilog2 (n d : Nat) : Int :=
  let l : Int := (n.log2 : Int) - (d.log2 : Int)
  if d * 2 ^ l.toNat ≤ n * 2 ^ (-l).toNat then l else l - 1

/-- Significand and quantum exponent of the rounding of `n / d`; the value is `m * 2^e`. -/
def roundPos (p : Nat) (emin : Int) (n d : Nat) : Nat × Int :=
  let e := max emin (ilog2 n d - p + 1)
  (rneDiv (n * 2 ^ (-e).toNat) (d * 2 ^ e.toNat), e)

/-- `m * 2^e` as a rational. -/
def scale (m : Nat) (e : Int) : Rat :=
  ((m * 2 ^ e.toNat : Nat) : Rat) / ((2 ^ (-e).toNat : Nat) : Rat)

/-- Rounding of an arbitrary rational, without overflow threshold. -/
def roundRat (p : Nat) (emin : Int) (q : Rat) : Rat :=
  if q.num = 0 then 0
  else
    let r := roundPos p emin q.num.natAbs q.den
    if q.num < 0 then -scale r.1 r.2 else scale r.1 r.2

end Lexi.Soft
