/-!
# Specification of exceptions in the big integers (C100)
-/

namespace Lexi
namespace BigInt

/-- The powers `mulPow5 e` has multiplied by after each of its steps: multiples of 27, then one or two times 13 more,
then the rest. -/
def Checkpoint (e j : Nat) : Prop :=
  (27 ∣ j ∧ j ≤ e) ∨ (∃ k, j = e / 27 * 27 + 13 * k ∧ j ≤ e) ∨ j = e

/-- An operation of an accumulating caller. -/
inductive AccOp where
  | set (d : UInt64)
  | add (d : UInt64)
  | mul64 (d : UInt64)
  | mul32 (d : UInt32)

/-- The operation on a natural number. -/
def AccOp.nat (x : Nat) : AccOp → Nat
  | .set d => d.toNat
  | .add d => x + d.toNat
  | .mul64 d => x * d.toNat
  | .mul32 d => x * d.toNat

end BigInt
end Lexi
