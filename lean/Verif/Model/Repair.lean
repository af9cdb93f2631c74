import Verif.Model.BigInt

/-!
# Repaired big integer functions

NOT the code of the repository: `operator<<=`, `difference` and the functions that call the shift, with the lines changed that
C37, C39, C41, C42 and C43 found wrong.  Props/Repair.lean proves the full statements of those properties for them (C102), which
shows that the defects are in these lines only.  Each definition says what is changed.
-/

namespace Lexi
namespace BigInt

/-- `operator<<=`, src/detail/bigint.cpp:323-352, changed:
* the word pushed out at the top is computed first,
  `uint64_t top = interShift ? digits_[count_ - 1] >> (INT64_BYTE - interShift) : 0;`
* the assertion at :331 counts it, `count_ + offset + (top != 0) <= capacity`;
* :334 is `memmove(&digits_[offset], digits_, count_ * sizeof(uint64_t));`
* :338 is gone, and the loop at :339 starts from `count_ - 1`;
* :344-346 are `if (top) digits_[count_++] = top;`. -/
def shlR (b : BigInt) (shift : Nat) : Res BigInt :=
  if b.isZero ∨ shift = 0 then .ok b
  else if b.count = 0 then .ub
  else do
    let offset := shift / INT64_BYTE
    let interShift := shift % INT64_BYTE
    let last ← rd b (b.count - 1)
    let top : UInt64 := if interShift = 0 then 0 else last >>> UInt64.ofNat (INT64_BYTE - interShift)
    if ¬ b.count + offset + (if top ≠ 0 then 1 else 0) ≤ CAPACITY then .throws
    else if interShift = 0 then do
      let b ← memmove b offset 0 b.count
      memzero ⟨b.digits, b.count + offset⟩ offset
    else do
      let b ← shlLoop offset interShift (b.count - 1) b
      let d ← rd b 0
      let b ← wr b offset (d <<< UInt64.ofNat interShift)
      let b : BigInt := ⟨b.digits, b.count + offset⟩
      let b ← if top ≠ 0 then pushBack b top else .ok b
      memzero b offset

/-- `add(first, last)`, src/detail/bigint.cpp:118-128, with the repaired shift. -/
def addDecimalR (v : MulImpl) (b : BigInt) (s : Bytes) : Res BigInt := do
  let d ← parse s
  if b.isZero then .ok (assignWord b d)
  else
    let b ← mulPow5 v b s.length
    let b ← shlR b s.length
    add b d

/-- The loop of the decimal constructor, src/detail/bigint.cpp:200-210, with the repaired shift. -/
def decimalLoopR (v : MulImpl) : Nat → Bytes → BigInt → Res BigInt
  | fuel, s, b =>
    if DIGITS_ITERATION ≤ s.length then
      match fuel with
      | 0 => .ub
      | fuel + 1 => do
        let b ← addDecimalR v b (s.take DIGITS_ITERATION)
        decimalLoopR v fuel (s.drop DIGITS_ITERATION) b
    else if 0 < s.length then addDecimalR v b s
    else .ok b

/-- `BigInteger(const char *, size_t)`, src/detail/bigint.cpp:196-211, with the repaired shift. -/
def ofDecimalR (v : MulImpl) (junk : Nat → UInt64) (s : Bytes) : Res BigInt :=
  decimalLoopR v s.length s ⟨upd junk 0 0, 1⟩

/-- `i < nb ? b->digits_[i] : 0`. -/
def wordOr0 (b : BigInt) (nb i : Nat) : Res UInt64 := if i < nb then rd b i else .ok 0

/-- The loop of `difference`, src/detail/bigint.cpp:409-420, changed: the two counts are read before the loop (`n` is
`a->count_ - i`, `nb` is `b->count_`), both words are read before the store, and the next borrow is
`ai < bi || (ai == bi && borrow)`. -/
def diffLoopR (a b out nb : Nat) : Nat → Nat → UInt64 → Store → Res Store
  | 0, _, _, st => .ok st
  | n + 1, i, borrow, st => do
    let ai ← rd (st a) i
    let bi ← wordOr0 (st b) nb i
    let d := ai - bi - borrow
    let borrow : UInt64 := if ai < bi ∨ (ai = bi ∧ borrow ≠ 0) then 1 else 0
    let o ← wr (st out) i d
    let o : BigInt := if d ≠ 0 then ⟨o.digits, i + 1⟩ else o
    diffLoopR a b out nb n (i + 1) borrow (st.set out o)

/-- `difference`, src/detail/bigint.cpp:393-423, with the repaired loop. -/
def differenceR (this other out : Nat) (st : Store) : Res (Bool × Store) := do
  let cmp ← compare (st this) (st other)
  if cmp = 0 then .throws
  else
    let (a, b, ret) := if cmp < 0 then (other, this, true) else (this, other, false)
    let st ← diffLoopR a b out (st b).count (st a).count 0 0 st
    .ok (ret, st)

end BigInt
end Lexi
