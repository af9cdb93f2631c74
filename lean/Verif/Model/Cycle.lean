import Verif.Model.FloatFmt

/-!
# Saving and loading again and again

A number is written by `string`, read by `lexi<T>`, written again, possibly on other machines.
-/

namespace Lexi

/-- A build of the library on a machine: compiler and memory (`env`), the buffer's initial bytes, the `long double` format. -/
structure Site where
  env : Dtoa.Env
  junk : Bytes
  F : FpFormat

/-- `lexi<double>(string(u))`, include/lexi/lexi.hpp:58-63,115-120,144-148,180-184. -/
def Site.cycle (x : Site) (u : UInt64) : Res UInt64 := do
  let t ← stringDouble .default x.env x.junk u
  return lexiDouble x.F t

/-- `lexi<float>(string(u))`, same lines. -/
def Site.cycleFloat (x : Site) (u : UInt32) : Res UInt32 := do
  let t ← stringFloat .default x.env x.junk u
  return lexiFloat x.F t

/-- `lexi<long double>(string(u))`, same lines. -/
def Site.cycleLong (x : Site) (u : LVal) : Res LVal := do
  let t ← stringLongDouble .default x.env x.junk u
  return extractLongDouble x.F t

/-- `string(lexi<double>(s))`, same lines. -/
def Site.normalise (x : Site) (s : Bytes) : Res Bytes := stringDouble .default x.env x.junk (lexiDouble x.F s)

/-- One cycle at each site in turn. -/
def cycles {α : Type} (step : Site → α → Res α) : List Site → α → Res α
  | [], u => .ok u
  | x :: xs, u => do cycles step xs (← step x u)

end Lexi
