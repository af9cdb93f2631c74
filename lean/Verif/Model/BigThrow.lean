import Verif.Model.BigInt

/-!
# The objects left behind by the big integer operations that throw

Model/BigInt.lean forgets the object when an operation throws.  Here the operations of src/detail/bigint.cpp that
change an object and can throw are written once more, keeping the object as it is at the `throw`: a caller that
catches the exception goes on with that object.  Props/BigThrow.lean (`C100_same`) proves that forgetting it again gives
the functions of Model/BigInt.lean.
The constructors leave no object when they throw; `digit` and `difference` throw before writing anything
(src/detail/bigint.cpp:226, :397).
-/

namespace Lexi
namespace BigInt

/-- Outcome of an operation on an object: finished, left by an exception with the object in the state `b`, undefined. -/
inductive Left (α : Type) where
  | done (a : α)
  | thrown (b : BigInt)
  | ub

namespace Left

def bind {α β : Type} : Left α → (α → Left β) → Left β
  | done a, f => f a
  | thrown b, _ => thrown b
  | ub, _ => ub

instance : Monad Left where
  pure := done
  bind := bind

/-- Forgetting the object. -/
def res {α : Type} : Left α → Res α
  | done a => .ok a
  | thrown _ => .throws
  | ub => .ub

/-- A memory access, which does not throw. -/
def mem {α : Type} : Res α → Left α
  | .ok a => done a
  | .throws => ub
  | .ub => ub

end Left

/-- `push_back`, src/detail/bigint.cpp:133-137: the assertion comes first. -/
def pushBackL (b : BigInt) (digit : UInt64) : Left BigInt :=
  if ¬ b.count < CAPACITY then .thrown b
  else do
    let b ← Left.mem (wr b b.count digit)
    .done ⟨b.digits, b.count + 1⟩

/-- The loop and the last carry of `operator+=`, src/detail/bigint.cpp:245-256. -/
def addLoopL : Nat → Nat → UInt64 → BigInt → Left BigInt
  | 0, _, backup, b => do
    let d ← Left.mem (rd b (b.count - 1))
    if d < backup then pushBackL b 1 else .done b
  | n + 1, i, backup, b => do
    let d ← Left.mem (rd b i)
    if d ≥ backup then .done b
    else
      let backup ← Left.mem (rd b (i + 1))
      let b ← Left.mem (wr b (i + 1) (backup + 1))
      addLoopL n (i + 1) backup b

/-- `operator+=`, src/detail/bigint.cpp:241-259. -/
def addL (b : BigInt) (digit : UInt64) : Left BigInt :=
  if b.count = 0 then .ub
  else do
    let backup ← Left.mem (rd b 0)
    let b ← Left.mem (wr b 0 (backup + digit))
    addLoopL (b.count - 1) 0 backup b

/-- `operator*=(uint64_t)`, src/detail/bigint.cpp:264-286; the loop does not throw. -/
def mul64L (v : MulImpl) (b : BigInt) (digit : UInt64) : Left BigInt :=
  if digit = 0 then .done (assignWord b 0)
  else if digit = 1 then .done b
  else if eqWord b 1 then .done (assignWord b digit)
  else do
    let r ← Left.mem (mulLoop v digit b.count 0 0 b)
    if r.2 > 0 then pushBackL r.1 r.2 else .done r.1

/-- `operator*=(uint32_t)`, src/detail/bigint.cpp:291-318. -/
def mul32L (b : BigInt) (digit : UInt32) : Left BigInt :=
  if digit = 0 then .done (assignWord b 0)
  else if digit = 1 then .done b
  else if eqWord b 1 then .done (assignWord b digit.toUInt64)
  else do
    let r ← Left.mem (mul32Loop digit.toUInt64 b.count 0 0 b)
    if r.2 > 0 then pushBackL r.1 r.2 else .done r.1

/-- `operator<<=`, src/detail/bigint.cpp:323-352: the only assertion, :331, comes before the first write. -/
def shlL (b : BigInt) (shift : Nat) : Left BigInt :=
  if b.isZero ∨ shift = 0 then .done b
  else
    let offset := shift / INT64_BYTE
    let interShift := shift % INT64_BYTE
    if ¬ b.count + offset ≤ CAPACITY then .thrown b
    else if b.count = 0 then .ub
    else if interShift = 0 then do
      let b ← Left.mem (memmove b (b.count - 1 + offset) (b.count - 1) b.count)
      Left.mem (memzero ⟨b.digits, b.count + offset⟩ offset)
    else do
      let b ← Left.mem (wr b b.count 0)
      let b ← Left.mem (shlLoop offset interShift b.count b)
      let d ← Left.mem (rd b 0)
      let b ← Left.mem (wr b offset (d <<< UInt64.ofNat interShift))
      let b : BigInt := ⟨b.digits, b.count + offset⟩
      let top ← Left.mem (rd b b.count)
      let b : BigInt := if top ≠ 0 then ⟨b.digits, b.count + 1⟩ else b
      Left.mem (memzero b offset)

/-- First loop of `mulPow5`, src/detail/bigint.cpp:378-380. -/
def pow5Loop27L (v : MulImpl) : Nat → Nat → BigInt → Left (BigInt × Nat)
  | fuel, e, b =>
    if 27 ≤ e then
      match fuel with
      | 0 => .ub
      | fuel + 1 => do
        let b ← mul64L v b 0x6765C793FA10079D
        pow5Loop27L v fuel (e - 27) b
    else .done (b, e)

/-- Second loop of `mulPow5`, src/detail/bigint.cpp:381-383. -/
def pow5Loop13L : Nat → Nat → BigInt → Left (BigInt × Nat)
  | fuel, e, b =>
    if 13 ≤ e then
      match fuel with
      | 0 => .ub
      | fuel + 1 => do
        let b ← mul32L b 1220703125
        pow5Loop13L fuel (e - 13) b
    else .done (b, e)

/-- `mulPow5`, src/detail/bigint.cpp:373-388. -/
def mulPow5L (v : MulImpl) (b : BigInt) (exponent : Nat) : Left BigInt :=
  if exponent = 0 then .done b
  else do
    let r ← pow5Loop27L v exponent exponent b
    let r ← pow5Loop13L r.2 r.2 r.1
    if r.2 > 0 then
      match POWER5[r.2 - 1]? with
      | some d => mul32L r.1 d
      | none => .ub
    else .done r.1

end BigInt
end Lexi
