import Verif.Model.DiyFp

/-!
# Model of src/detail/bigint.cpp, include/lexi/detail/bigint.hpp

A `BigInteger` is its word array and its word count.  The array is a function from indices; every access goes
through `rd` / `wr` (or the `mem…` functions), which are undefined outside `[0, capacity)`.  Words at and above
`count_` keep whatever an earlier operation or an earlier owner of the memory left there.
`size_t` values are `Nat`: none of them comes near `2^64` here (an index is at most `416 + 2^58`), except for
`count_ - 1` with `count_ = 0`, which no constructor produces and which is made `ub`.
An operation that throws may leave the object half-updated; this model keeps no object after a throw, Model/BigThrow.lean
does.
-/

namespace Lexi

/-- `BigInteger::bits`, `BigInteger::capacity`, include/lexi/detail/bigint.hpp:30-31:
`3328 / sizeof(uint64_t)` (bytes, not bits: 416 words). -/
def BIG_BITS : Nat := 3328
def CAPACITY : Nat := BIG_BITS / 8

/-- `DIGITS_ITERATION`, `INT64_BYTE`, src/detail/bigint.cpp:28-29. -/
def DIGITS_ITERATION : Nat := 19
def INT64_BYTE : Nat := 8 * 8

/-- `POWER5`, src/detail/bigint.cpp:30-43 (the products are computed in `int` and fit). -/
def POWER5 : List UInt32 :=
  [5, 5*5, 5*5*5, 5*5*5*5, 5*5*5*5*5, 5*5*5*5*5*5, 5*5*5*5*5*5*5, 5*5*5*5*5*5*5*5, 5*5*5*5*5*5*5*5*5,
   5*5*5*5*5*5*5*5*5*5, 5*5*5*5*5*5*5*5*5*5*5, 5*5*5*5*5*5*5*5*5*5*5*5]

/-- `class BigInteger`, include/lexi/detail/bigint.hpp:27-34: `digits_` and `count_`. -/
structure BigInt where
  digits : Nat → UInt64
  count : Nat

namespace BigInt

/-- Memory with one word replaced. -/
def upd (m : Nat → UInt64) (i : Nat) (v : UInt64) : Nat → UInt64 := fun j => if j = i then v else m j

/-- `digits_[i]` as a value. -/
def rd (b : BigInt) (i : Nat) : Res UInt64 := if i < CAPACITY then .ok (b.digits i) else .ub

/-- `digits_[i] = v`. -/
def wr (b : BigInt) (i : Nat) (v : UInt64) : Res BigInt :=
  if i < CAPACITY then .ok ⟨upd b.digits i v, b.count⟩ else .ub

/-- `memmove(&digits_[dst], &digits_[src], n * 8)`. -/
def memmove (b : BigInt) (dst src n : Nat) : Res BigInt :=
  if dst + n ≤ CAPACITY ∧ src + n ≤ CAPACITY then
    .ok ⟨fun j => if dst ≤ j ∧ j < dst + n then b.digits (j - dst + src) else b.digits j, b.count⟩
  else .ub

/-- `memset(digits_, 0, n * 8)`. -/
def memzero (b : BigInt) (n : Nat) : Res BigInt :=
  if n ≤ CAPACITY then .ok ⟨fun j => if j < n then 0 else b.digits j, b.count⟩ else .ub

/-- `mulAdd`, src/detail/bigint.cpp:55-64 (MSVC, `_umul128`): (low word, high word). -/
def mulAddMsvc (a b k : UInt64) : UInt64 × UInt64 :=
  let p := DiyFp.umul128 a b
  let low := p.2 + k
  (low, if low < k then p.1 + 1 else p.1)

/-- `mulAdd`, src/detail/bigint.cpp:70-80 (GNU, `unsigned __int128`); 128-bit arithmetic is modulo `2^128`. -/
def mulAddGnu (a b k : UInt64) : UInt64 × UInt64 :=
  let p := a.toNat * b.toNat % 2 ^ 128
  let p := (p + k.toNat) % 2 ^ 128
  (UInt64.ofNat p, UInt64.ofNat (p / 2 ^ 64))

/-- `mulAdd`, src/detail/bigint.cpp:86-107 (other compilers). -/
def mulAddGeneric (a b k : UInt64) : UInt64 × UInt64 :=
  let a0 := a &&& 0xFFFFFFFF
  let a1 := a >>> 32
  let b0 := b &&& 0xFFFFFFFF
  let b1 := b >>> 32
  let x0 := a0 * b0
  let x1 := a0 * b1
  let x2 := a1 * b0
  let x3 := a1 * b1
  let x1 := x1 + (x0 >>> 32)
  let x1 := x1 + x2
  let x3 := if x1 < x2 then x3 + ((1 : UInt64) <<< 32) else x3
  let lo := (x1 <<< 32) + (x0 &&& 0xFFFFFFFF)
  let hi := x3 + (x1 >>> 32)
  let lo := lo + k
  (lo, if lo < k then hi + 1 else hi)

/-- The `mulAdd` selected by the preprocessor, src/detail/bigint.cpp:51, :66, :82. -/
def mulAdd : MulImpl → UInt64 → UInt64 → UInt64 → UInt64 × UInt64
  | .msvc => mulAddMsvc
  | .gnu128 => mulAddGnu
  | .generic => mulAddGeneric

/-- `push_back`, src/detail/bigint.cpp:133-137. -/
def pushBack (b : BigInt) (digit : UInt64) : Res BigInt :=
  if ¬ b.count < CAPACITY then .throws
  else do
    let b ← wr b b.count digit
    .ok ⟨b.digits, b.count + 1⟩

/-- `parse`, src/detail/bigint.cpp:142-151: one loop step per byte. -/
def parseFrom (r : UInt64) : Bytes → Res UInt64
  | [] => .ok r
  | c :: cs => if 0x30 ≤ c ∧ c ≤ 0x39 then parseFrom (r * 10 + (c - 0x30).toUInt64) cs else .throws

def parse (s : Bytes) : Res UInt64 := parseFrom 0 s

/-- `BigInteger(uint64_t)`, src/detail/bigint.cpp:177-181; `junk` is the memory the object is created in. -/
def ofWord (junk : Nat → UInt64) (digit : UInt64) : BigInt := ⟨upd junk 0 digit, 1⟩

/-- `operator=(uint64_t)`, src/detail/bigint.cpp:186-191. -/
def assignWord (b : BigInt) (digit : UInt64) : BigInt := ⟨upd b.digits 0 digit, 1⟩

/-- Copy constructor, src/detail/bigint.cpp:156-160 (`memcpy` of `count_` words into fresh memory `junk`). -/
def copy (junk : Nat → UInt64) (other : BigInt) : Res BigInt :=
  if other.count ≤ CAPACITY then
    .ok ⟨fun j => if j < other.count then other.digits j else junk j, other.count⟩
  else .ub

/-- `operator=(const BigInteger &)`, src/detail/bigint.cpp:165-172, for two different objects
(self-assignment returns at once). -/
def assign (b other : BigInt) : Res BigInt := copy b.digits other

/-- `count`, src/detail/bigint.cpp:216-219. -/
def getCount (b : BigInt) : Nat := b.count

/-- `digit`, src/detail/bigint.cpp:224-228. -/
def digit (b : BigInt) (index : Nat) : Res UInt64 :=
  if ¬ index < b.count then .throws else rd b index

/-- `isZero`, src/detail/bigint.cpp:233-236. -/
def isZero (b : BigInt) : Bool := b.count == 1 && b.digits 0 == 0

/-- `operator==(uint64_t)`, src/detail/bigint.cpp:365-368. -/
def eqWord (b : BigInt) (other : UInt64) : Bool := b.count == 1 && b.digits 0 == other

/-- `operator==(const BigInteger &)`, src/detail/bigint.cpp:357-360: `memcmp` over `count_` words. -/
def eq (b other : BigInt) : Res Bool :=
  if b.count ≠ other.count then .ok false
  else if b.count ≤ CAPACITY then .ok ((List.range b.count).all fun i => b.digits i == other.digits i)
  else .ub

/-- The loop and the last carry of `operator+=`, src/detail/bigint.cpp:245-256; `n` is `count_ - 1 - i`. -/
def addLoop : Nat → Nat → UInt64 → BigInt → Res BigInt
  | 0, _, backup, b => do
    let d ← rd b (b.count - 1)
    if d < backup then pushBack b 1 else .ok b
  | n + 1, i, backup, b => do
    let d ← rd b i
    if d ≥ backup then .ok b
    else
      let backup ← rd b (i + 1)
      let b ← wr b (i + 1) (backup + 1)
      addLoop n (i + 1) backup b

/-- `operator+=`, src/detail/bigint.cpp:241-259. -/
def add (b : BigInt) (digit : UInt64) : Res BigInt :=
  if b.count = 0 then .ub
  else do
    let backup ← rd b 0
    let b ← wr b 0 (backup + digit)
    addLoop (b.count - 1) 0 backup b

/-- The loop of `operator*=(uint64_t)`, src/detail/bigint.cpp:274-279; `n` is `count_ - i`. -/
def mulLoop (v : MulImpl) (digit : UInt64) : Nat → Nat → UInt64 → BigInt → Res (BigInt × UInt64)
  | 0, _, k, b => .ok (b, k)
  | n + 1, i, k, b => do
    let d ← rd b i
    let r := mulAdd v d digit k
    let b ← wr b i r.1
    mulLoop v digit n (i + 1) r.2 b

/-- `operator*=(uint64_t)`, src/detail/bigint.cpp:264-286. -/
def mul64 (v : MulImpl) (b : BigInt) (digit : UInt64) : Res BigInt :=
  if digit = 0 then .ok (assignWord b 0)
  else if digit = 1 then .ok b
  else if eqWord b 1 then .ok (assignWord b digit)
  else do
    let r ← mulLoop v digit b.count 0 0 b
    if r.2 > 0 then pushBack r.1 r.2 else .ok r.1

/-- The loop of `operator*=(uint32_t)`, src/detail/bigint.cpp:301-311. -/
def mul32Loop (digit : UInt64) : Nat → Nat → UInt64 → BigInt → Res (BigInt × UInt64)
  | 0, _, k, b => .ok (b, k)
  | n + 1, i, k, b => do
    let w ← rd b i
    let c := w >>> 32
    let d := w &&& (0xFFFFFFFF : UInt64)
    let uc := digit * c
    let ud := digit * d
    let p0 := ud + k
    let p1 := uc + (p0 >>> 32)
    let b ← wr b i ((p0 &&& (0xFFFFFFFF : UInt64)) ||| (p1 <<< 32))
    mul32Loop digit n (i + 1) (p1 >>> 32) b

/-- `operator*=(uint32_t)`, src/detail/bigint.cpp:291-318 (`digit * c` is a 64-bit product). -/
def mul32 (b : BigInt) (digit : UInt32) : Res BigInt :=
  if digit = 0 then .ok (assignWord b 0)
  else if digit = 1 then .ok b
  else if eqWord b 1 then .ok (assignWord b digit.toUInt64)
  else do
    let r ← mul32Loop digit.toUInt64 b.count 0 0 b
    if r.2 > 0 then pushBack r.1 r.2 else .ok r.1

/-- The descending loop of `operator<<=`, src/detail/bigint.cpp:339-341, for `i = n, …, 1`.
The shift counts are in `[1, 63]`. -/
def shlLoop (offset interShift : Nat) : Nat → BigInt → Res BigInt
  | 0, b => .ok b
  | n + 1, b => do
    let hi ← rd b (n + 1)
    let lo ← rd b n
    let b ← wr b (n + 1 + offset)
      ((hi <<< UInt64.ofNat interShift) ||| (lo >>> UInt64.ofNat (INT64_BYTE - interShift)))
    shlLoop offset interShift n b

/-- `operator<<=`, src/detail/bigint.cpp:323-352. -/
def shl (b : BigInt) (shift : Nat) : Res BigInt :=
  if b.isZero ∨ shift = 0 then .ok b
  else
    let offset := shift / INT64_BYTE
    let interShift := shift % INT64_BYTE
    if ¬ b.count + offset ≤ CAPACITY then .throws
    else if b.count = 0 then .ub
    else if interShift = 0 then do
      let b ← memmove b (b.count - 1 + offset) (b.count - 1) b.count
      memzero ⟨b.digits, b.count + offset⟩ offset
    else do
      let b ← wr b b.count 0
      let b ← shlLoop offset interShift b.count b
      let d ← rd b 0
      let b ← wr b offset (d <<< UInt64.ofNat interShift)
      let b : BigInt := ⟨b.digits, b.count + offset⟩
      let top ← rd b b.count
      let b : BigInt := if top ≠ 0 then ⟨b.digits, b.count + 1⟩ else b
      memzero b offset

/-- First loop of `mulPow5`, src/detail/bigint.cpp:378-380 (fuel: the exponent itself). -/
def pow5Loop27 (v : MulImpl) : Nat → Nat → BigInt → Res (BigInt × Nat)
  | fuel, e, b =>
    if 27 ≤ e then
      match fuel with
      | 0 => .ub
      | fuel + 1 => do
        let b ← mul64 v b 0x6765C793FA10079D
        pow5Loop27 v fuel (e - 27) b
    else .ok (b, e)

/-- Second loop of `mulPow5`, src/detail/bigint.cpp:381-383. -/
def pow5Loop13 : Nat → Nat → BigInt → Res (BigInt × Nat)
  | fuel, e, b =>
    if 13 ≤ e then
      match fuel with
      | 0 => .ub
      | fuel + 1 => do
        let b ← mul32 b 1220703125
        pow5Loop13 fuel (e - 13) b
    else .ok (b, e)

/-- `mulPow5`, src/detail/bigint.cpp:373-388. -/
def mulPow5 (v : MulImpl) (b : BigInt) (exponent : Nat) : Res BigInt :=
  if exponent = 0 then .ok b
  else do
    let r ← pow5Loop27 v exponent exponent b
    let r ← pow5Loop13 r.2 r.2 r.1
    if r.2 > 0 then
      match POWER5[r.2 - 1]? with
      | some d => mul32 r.1 d
      | none => .ub
    else .ok r.1

/-- `add(first, last)`, src/detail/bigint.cpp:118-128. -/
def addDecimal (v : MulImpl) (b : BigInt) (s : Bytes) : Res BigInt := do
  let d ← parse s
  if b.isZero then .ok (assignWord b d)
  else
    let b ← mulPow5 v b s.length
    let b ← shl b s.length
    add b d

/-- The loop and the rest of `BigInteger(const char *, size_t)`, src/detail/bigint.cpp:200-210.
The fuel is the number of bytes. -/
def decimalLoop (v : MulImpl) : Nat → Bytes → BigInt → Res BigInt
  | fuel, s, b =>
    if DIGITS_ITERATION ≤ s.length then
      match fuel with
      | 0 => .ub
      | fuel + 1 => do
        let b ← addDecimal v b (s.take DIGITS_ITERATION)
        decimalLoop v fuel (s.drop DIGITS_ITERATION) b
    else if 0 < s.length then addDecimal v b s
    else .ok b

/-- `BigInteger(const char *decimals, size_t length)`, src/detail/bigint.cpp:196-211, where the `length` bytes
at `decimals` are `s`. -/
def ofDecimal (v : MulImpl) (junk : Nat → UInt64) (s : Bytes) : Res BigInt :=
  decimalLoop v s.length s ⟨upd junk 0 0, 1⟩

/-- The descending loop of `compare`, src/detail/bigint.cpp:434-437, for `i = n-1, …, 0`. -/
def compareLoop (a b : BigInt) : Nat → Res Int
  | 0 => .ok 0
  | n + 1 => do
    let x ← rd a n
    let y ← rd b n
    if x ≠ y then .ok (if x < y then -1 else 1) else compareLoop a b n

/-- `compare`, src/detail/bigint.cpp:428-440. -/
def compare (a b : BigInt) : Res Int :=
  if a.count ≠ b.count then .ok (if a.count < b.count then -1 else 1) else compareLoop a b a.count

/-- Objects by address: `difference` works through three pointers that may coincide. -/
abbrev Store := Nat → BigInt

def Store.set (st : Store) (p : Nat) (b : BigInt) : Store := fun q => if q = p then b else st q

/-- `if (i < b->count_) d -= b->digits_[i];`, src/detail/bigint.cpp:412-414. -/
def subDigit (b : BigInt) (i : Nat) (d : UInt64) : Res UInt64 :=
  if i < b.count then do
    let w ← rd b i
    .ok (d - w)
  else .ok d

/-- The loop of `difference`, src/detail/bigint.cpp:410-420, from index `i`; `a`, `b`, `out` are pointers.
Fuel is the capacity; the loop bound `a->count_` is re-read in every iteration. -/
def diffLoop (a b out : Nat) : Nat → Nat → UInt64 → Store → Res Store
  | fuel, i, borrow, st =>
    if i < (st a).count then
      match fuel with
      | 0 => .ub
      | fuel + 1 => do
        let ai ← rd (st a) i
        let d := ai - borrow
        let d ← subDigit (st b) i d
        let ai ← rd (st a) i
        let borrow : UInt64 := if d > ai then 1 else 0
        let o ← wr (st out) i d
        let o : BigInt := if d ≠ 0 then ⟨o.digits, i + 1⟩ else o
        diffLoop a b out fuel (i + 1) borrow (st.set out o)
    else .ok st

/-- `this->difference(other, out)`, src/detail/bigint.cpp:393-423. -/
def difference (this other out : Nat) (st : Store) : Res (Bool × Store) := do
  let cmp ← compare (st this) (st other)
  if cmp = 0 then .throws
  else
    let (a, b, ret) := if cmp < 0 then (other, this, true) else (this, other, false)
    let st ← diffLoop a b out (CAPACITY + 1) 0 0 st
    .ok (ret, st)

end BigInt
end Lexi
