/-!
# Natural numbers in little-endian 64-bit words
-/

namespace Lexi

/-- `Σ_{i < n} w i * 2^(64 i)`. -/
def wordsValue (w : Nat → UInt64) : Nat → Nat
  | 0 => 0
  | n + 1 => wordsValue w n + (w n).toNat * 2 ^ (64 * n)

end Lexi
