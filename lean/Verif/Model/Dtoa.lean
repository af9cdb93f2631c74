import Verif.Model.DiyFp
import Verif.Model.Soft

/-!
# Floating point to text: src/detail/dtoa.cpp

The buffer is a byte array with explicit bounds; `base` is the offset the `char *buffer` argument points
to, and the cursor position is `base + *len`.
-/

namespace Lexi.Dtoa

/-- `DIGITS[200]`, src/detail/dtoa.cpp:21-32. -/
def DIGITS : Bytes := [
  48,48, 48,49, 48,50, 48,51, 48,52, 48,53, 48,54, 48,55, 48,56, 48,57,
  49,48, 49,49, 49,50, 49,51, 49,52, 49,53, 49,54, 49,55, 49,56, 49,57,
  50,48, 50,49, 50,50, 50,51, 50,52, 50,53, 50,54, 50,55, 50,56, 50,57,
  51,48, 51,49, 51,50, 51,51, 51,52, 51,53, 51,54, 51,55, 51,56, 51,57,
  52,48, 52,49, 52,50, 52,51, 52,52, 52,53, 52,54, 52,55, 52,56, 52,57,
  53,48, 53,49, 53,50, 53,51, 53,52, 53,53, 53,54, 53,55, 53,56, 53,57,
  54,48, 54,49, 54,50, 54,51, 54,52, 54,53, 54,54, 54,55, 54,56, 54,57,
  55,48, 55,49, 55,50, 55,51, 55,52, 55,53, 55,54, 55,55, 55,56, 55,57,
  56,48, 56,49, 56,50, 56,51, 56,52, 56,53, 56,54, 56,55, 56,56, 56,57,
  57,48, 57,49, 57,50, 57,51, 57,52, 57,53, 57,54, 57,55, 57,56, 57,57]

/-- `POWER10`, src/detail/dtoa.cpp:34 (ten entries). -/
def POWER10 : List UInt32 :=
  [1, 10, 100, 1000, 10000, 100000, 1000000, 10000000, 100000000, 1000000000]

/-- `CACHED_POWERS_F`, src/detail/dtoa.cpp:35-123. -/
def CACHED_POWERS_F : List UInt64 := [
  0xFA8FD5A0081C0288, 0xBAAEE17FA23EBF76, 0x8B16FB203055AC76, 0xCF42894A5DCE35EA,
  0x9A6BB0AA55653B2D, 0xE61ACF033D1A45DF, 0xAB70FE17C79AC6CA, 0xFF77B1FCBEBCDC4F,
  0xBE5691EF416BD60C, 0x8DD01FAD907FFC3C, 0xD3515C2831559A83, 0x9D71AC8FADA6C9B5,
  0xEA9C227723EE8BCB, 0xAECC49914078536D, 0x823C12795DB6CE57, 0xC21094364DFB5637,
  0x9096EA6F3848984F, 0xD77485CB25823AC7, 0xA086CFCD97BF97F4, 0xEF340A98172AACE5,
  0xB23867FB2A35B28E, 0x84C8D4DFD2C63F3B, 0xC5DD44271AD3CDBA, 0x936B9FCEBB25C996,
  0xDBAC6C247D62A584, 0xA3AB66580D5FDAF6, 0xF3E2F893DEC3F126, 0xB5B5ADA8AAFF80B8,
  0x87625F056C7C4A8B, 0xC9BCFF6034C13053, 0x964E858C91BA2655, 0xDFF9772470297EBD,
  0xA6DFBD9FB8E5B88F, 0xF8A95FCF88747D94, 0xB94470938FA89BCF, 0x8A08F0F8BF0F156B,
  0xCDB02555653131B6, 0x993FE2C6D07B7FAC, 0xE45C10C42A2B3B06, 0xAA242499697392D3,
  0xFD87B5F28300CA0E, 0xBCE5086492111AEB, 0x8CBCCC096F5088CC, 0xD1B71758E219652C,
  0x9C40000000000000, 0xE8D4A51000000000, 0xAD78EBC5AC620000, 0x813F3978F8940984,
  0xC097CE7BC90715B3, 0x8F7E32CE7BEA5C70, 0xD5D238A4ABE98068, 0x9F4F2726179A2245,
  0xED63A231D4C4FB27, 0xB0DE65388CC8ADA8, 0x83C7088E1AAB65DB, 0xC45D1DF942711D9A,
  0x924D692CA61BE758, 0xDA01EE641A708DEA, 0xA26DA3999AEF774A, 0xF209787BB47D6B85,
  0xB454E4A179DD1877, 0x865B86925B9BC5C2, 0xC83553C5C8965D3D, 0x952AB45CFA97A0B3,
  0xDE469FBD99A05FE3, 0xA59BC234DB398C25, 0xF6C69A72A3989F5C, 0xB7DCBF5354E9BECE,
  0x88FCF317F22241E2, 0xCC20CE9BD35C78A5, 0x98165AF37B2153DF, 0xE2A0B5DC971F303A,
  0xA8D9D1535CE3B396, 0xFB9B7CD9A4A7443C, 0xBB764C4CA7A44410, 0x8BAB8EEFB6409C1A,
  0xD01FEF10A657842C, 0x9B10A4E5E9913129, 0xE7109BFBA19C0C9D, 0xAC2820D9623BF429,
  0x80444B5E7AA7CF85, 0xBF21E44003ACDD2D, 0x8E679C2F5E44FF8F, 0xD433179D9C8CB841,
  0x9E19DB92B4E31BA9, 0xEB96BF6EBADF77D9, 0xAF87023B9BF0EE6B]

/-- `CACHED_POWERS_E`, src/detail/dtoa.cpp:125-135. -/
def CACHED_POWERS_E : List Int := [
  -1220, -1193, -1166, -1140, -1113, -1087, -1060, -1034, -1007, -980,
  -954, -927, -901, -874, -847, -821, -794, -768, -741, -715,
  -688, -661, -635, -608, -582, -555, -529, -502, -475, -449,
  -422, -396, -369, -343, -316, -289, -263, -236, -210, -183,
  -157, -130, -103, -77, -50, -24, 3, 30, 56, 83,
  109, 136, 162, 189, 216, 242, 269, 295, 322, 348,
  375, 402, 428, 455, 481, 508, 534, 561, 588, 614,
  641, 667, 694, 720, 747, 774, 800, 827, 853, 880,
  907, 933, 960, 986, 1013, 1039, 1066]

/-- What the C++ text leaves to the platform.
* `v`: compiler variants of diyfp.cpp;
* `dk`: value of the expression `(-61 - e) * 0.30102999566398114 + 347` (src/detail/dtoa.cpp:196), which
  depends on the evaluation precision;
* `oob`: what an out-of-range read `POWER10[i]`, `i ≥ 10`, produces.  Under the C++ standard it is
  undefined (`strict`); a machine returns whatever 32-bit word lies behind the table (`.ok w`).  The model
  allows any 64-bit word, since the code widens it before use (:247, :266): theorems about every `env`
  cover the 32-bit words, and also a longer table of 64-bit words (`fullTable`, C103). -/
structure Env where
  v : Variant
  dk : Int → Rat
  oob : Nat → Res UInt64

/-- The C++ abstract machine's answer to an out-of-range read. -/
def strict : Nat → Res UInt64 := fun _ => .ub

/-- The literal `0.30102999566398114` as a double. -/
def LOG10_2 : Rat := Soft.roundRat 53 (-1074) (30102999566398114 / 10 ^ 17)

/-- `dk` with binary64 evaluation (each operation rounded to nearest even), e.g. SSE2. -/
def dkDouble (e : Int) : Rat :=
  let p := Soft.roundRat 53 (-1074) (((-61 - e : Int) : Rat) * LOG10_2)
  Soft.roundRat 53 (-1074) (p + 347)

/-- `dk` with a fused multiply-add. -/
def dkFma (e : Int) : Rat := Soft.roundRat 53 (-1074) (((-61 - e : Int) : Rat) * LOG10_2 + 347)

/-- `POWER10[i]`, widened to 64 bits. -/
def power10 (env : Env) (i : Nat) : Res UInt64 :=
  match POWER10[i]? with
  | some w => .ok w.toUInt64
  | none => env.oob i

/-- `buffer[len - 1]--`, src/detail/dtoa.cpp:164 (`len = pos - base`). -/
def decLast (base : Nat) (b : Cur) : Res Cur :=
  if base < b.pos then
    match b.mem[b.pos - 1]? with
    | some c => .ok ⟨b.mem.set (b.pos - 1) (c - 1), b.pos⟩
    | none => .ub
  else .ub

/-- `grisuRound`, src/detail/dtoa.cpp:154-167.  The fuel stands for the `while`; running out of it is
reported as `ub`, so a theorem concluding `ok` also shows that the loop ends. -/
def grisuRound (base : Nat) (delta ten_kappa wp_w : UInt64) : Nat → Cur → UInt64 → Res Cur
  | 0, _, _ => .ub
  | n + 1, b, rest =>
    if rest < wp_w ∧ delta - rest ≥ ten_kappa ∧
        (rest + ten_kappa < wp_w ∨ wp_w - rest > rest + ten_kappa - wp_w) then do
      let b ← decLast base b
      grisuRound base delta ten_kappa wp_w n b (rest + ten_kappa)
    else .ok b

/-- Fuel given to `grisuRound`. -/
def ROUND_FUEL : Nat := 256

/-- `decimalCount`, src/detail/dtoa.cpp:175-187. -/
def decimalCount (n : UInt32) : Nat :=
  if n < 10 then 1
  else if n < 100 then 2
  else if n < 1000 then 3
  else if n < 10000 then 4
  else if n < 100000 then 5
  else if n < 1000000 then 6
  else if n < 10000000 then 7
  else if n < 100000000 then 8
  else if n < 1000000000 then 9
  else 10

/-- `static_cast<int>(dk)` for a `dk` in `int` range: truncation. -/
def truncInt (q : Rat) : Int := if 0 ≤ q then q.floor else -((-q).floor)

/-- Table read with an `unsigned` index obtained from an `int`: undefined outside the table. -/
def tableAt {α : Type} (l : List α) (i : Int) : Res α :=
  if i < 0 then .ub
  else match l[i.toNat]? with
    | some a => .ok a
    | none => .ub

/-- `getCachedPower`, src/detail/dtoa.cpp:192-208; returns the power and `*k`. -/
def getCachedPower (env : Env) (e : Int) : Res (DiyFp × Int) := do
  let dk := env.dk e
  let kk := truncInt dk
  let kk := if (kk : Rat) ≠ dk then kk + 1 else kk
  let index := kk / 8 + 1                                  -- `(kk >> 3) + 1`, arithmetic shift
  let k := -(-348 + index * 8)
  let f ← tableAt CACHED_POWERS_F index
  let ce ← tableAt CACHED_POWERS_E index
  pure (⟨f, ce⟩, k)

/-- `if (d || *len) { buffer[(*len)++] = '0' + static_cast<char>(d); }`, src/detail/dtoa.cpp:243-245,
:260-262. -/
def putDigit (base : Nat) (b : Cur) (d : UInt8) : Res Cur :=
  if d ≠ 0 ∨ b.pos - base ≠ 0 then b.put (48 + d) else .ok b

/-- The `switch`, src/detail/dtoa.cpp:229-242: the divisor used for each `kappa`; the `default` is
`LEXI_UNREACHABLE`. -/
def switchDiv (kappa : Nat) : Res UInt32 :=
  match kappa with
  | 10 => .ok 1000000000
  | 9 => .ok 100000000
  | 8 => .ok 10000000
  | 7 => .ok 1000000
  | 6 => .ok 100000
  | 5 => .ok 10000
  | 4 => .ok 1000
  | 3 => .ok 100
  | 2 => .ok 10
  | 1 => .ok 1
  | _ => .ub

/-- The `for (;;)`, src/detail/dtoa.cpp:256-270, at `kappa = -i`; `sh = -one.e`. Returns the cursor and the
final `*k`.  Fuel as in `grisuRound`. -/
def loop2 (env : Env) (base : Nat) (sh : Int) (one_f wp_w : UInt64) (k : Int) :
    Nat → Nat → Cur → UInt64 → UInt64 → Res (Cur × Int)
  | 0, _, _, _, _ => .ub
  | n + 1, i, b, p2, delta => do
    let p2 := p2 * 10
    let delta := delta * 10
    let d := (← shr64 p2 sh).toUInt8
    let b ← putDigit base b d
    let p2 := p2 &&& (one_f - 1)
    let i := i + 1
    if p2 < delta then
      let w ← power10 env i
      let b ← grisuRound base delta one_f (wp_w * w) ROUND_FUEL b p2
      pure (b, k + -(i : Int))
    else loop2 env base sh one_f wp_w k n i b p2 delta

/-- Fuel given to `loop2`. -/
def LOOP_FUEL : Nat := 64

/-- The `while (kappa > 0)`, src/detail/dtoa.cpp:227-253, followed by the second loop. -/
def loop1 (env : Env) (base : Nat) (sh : Int) (one_f wp_w p2 delta : UInt64) (k : Int) :
    Nat → Cur → UInt32 → Res (Cur × Int)
  | 0, b, _ => loop2 env base sh one_f wp_w k LOOP_FUEL 0 b p2 delta
  | kappa + 1, b, p1 => do
    let div ← switchDiv (kappa + 1)
    let d := p1 / div
    let p1 := p1 % div
    let b ← putDigit base b d.toUInt8
    let tmp := (← shl64 p1.toUInt64 sh) + p2
    if tmp ≤ delta then
      let w ← power10 env kappa
      let ten ← shl64 w sh
      let b ← grisuRound base delta ten wp_w ROUND_FUEL b tmp
      pure (b, k + (kappa : Int))
    else loop1 env base sh one_f wp_w p2 delta k kappa b p1

/-- `generateDigits`, src/detail/dtoa.cpp:213-271. `*len` is 0 on entry of the loops, i.e. `b.pos = base`. -/
def generateDigits (env : Env) (W Mp : DiyFp) (delta : UInt64) (b : Cur) (k : Int) : Res (Cur × Int) := do
  let one_f ← shl64 1 (-Mp.e)
  let wp_w := Mp.sub W
  let p1 := (← shr64 Mp.f (-Mp.e)).toUInt32
  let p2 := Mp.f &&& (one_f - 1)
  let kappa := decimalCount p1
  loop1 env b.pos (-Mp.e) one_f wp_w.f p2 delta k kappa b p1

/-- `grisu2`, src/detail/dtoa.cpp:276-292; returns the cursor behind the digits and `*k`. -/
def grisu2 (env : Env) (value : UInt64) (b : Cur) : Res (Cur × Int) := do
  let v := DiyFp.ofDouble value
  let (w_m, w_p) ← v.normalizedBoundaries env.v.bound
  let (c_mk, k) ← getCachedPower env w_p.e
  let W := DiyFp.mul env.v.mul (← v.normalize env.v.norm) c_mk
  let Wp := DiyFp.mul env.v.mul w_p c_mk
  let Wm := DiyFp.mul env.v.mul w_m c_mk
  let Wm : DiyFp := ⟨Wm.f + 1, Wm.e⟩
  let Wp : DiyFp := ⟨Wp.f - 1, Wp.e⟩
  generateDigits env W Wp (Wp.f - Wm.f) b k

/-- `buffer[i] = c`, with `buffer` at offset `base`. -/
def wr (m : Bytes) (base : Nat) (i : Int) (c : UInt8) : Res Bytes :=
  if 0 ≤ base + i ∧ base + i < m.length then .ok (m.set (base + i).toNat c) else .ub

/-- `memmove(&buffer[dst], &buffer[src], n)` (C11 7.24.2.2, external); `n` is an `int` converted to
`size_t`, so a negative `n` is far outside the object. -/
def memmove (m : Bytes) (base : Nat) (dst src n : Int) : Res Bytes :=
  if 0 ≤ n ∧ 0 ≤ base + dst ∧ 0 ≤ base + src ∧ base + dst + n ≤ m.length ∧ base + src + n ≤ m.length then
    let d := (base + dst).toNat
    let s := (base + src).toNat
    let n := n.toNat
    .ok (m.take d ++ (m.drop s).take n ++ m.drop (d + n))
  else .ub

/-- `for (int i = a; i < a + n; i++) buffer[i] = '0';`, src/detail/dtoa.cpp:334-336, :354-356. -/
def fillZero (m : Bytes) (base : Nat) (a : Int) : Nat → Res Bytes
  | 0 => .ok m
  | n + 1 => do fillZero (← wr m base a 48) base (a + 1) n

/-- `DIGITS_PTR[i]`, src/detail/dtoa.cpp:33. -/
def digitAt (i : Int) : Res UInt8 := tableAt DIGITS i

/-- `writeExponent`, src/detail/dtoa.cpp:297-321.  The result points at the NUL. -/
def writeExponent (k : Int) (b : Cur) : Res Cur := do
  let (k, b) ← if k < 0 then do pure (-k, ← b.put 45) else pure (k, b)
  let b ← if k ≥ 100 then do
      let b ← b.put (48 + UInt8.ofNat (k.toNat / 100))
      let k := k % 100
      let b ← b.put (← digitAt (k * 2))
      b.put (← digitAt (k * 2 + 1))
    else if k ≥ 10 then do
      let b ← b.put (← digitAt (k * 2))
      b.put (← digitAt (k * 2 + 1))
    else b.put (48 + UInt8.ofNat k.toNat)
  let e ← b.put 0
  pure ⟨e.mem, b.pos⟩

/-- `prettify`, src/detail/dtoa.cpp:326-370. `buffer` is at offset `base`; returns the memory and the
offset of the returned pointer. -/
def prettify (m : Bytes) (base : Nat) (length k : Int) : Res Cur := do
  let kk := length + k
  if length ≤ kk ∧ kk ≤ 21 then
    let m ← fillZero m base length (kk - length).toNat
    let m ← wr m base kk 46
    let m ← wr m base (kk + 1) 48
    let m ← wr m base (kk + 2) 0
    pure ⟨m, (base + (kk + 2)).toNat⟩
  else if 0 < kk ∧ kk ≤ 21 then
    let m ← memmove m base (kk + 1) kk (length - kk)
    let m ← wr m base kk 46
    let m ← wr m base (length + 1) 0
    pure ⟨m, (base + (length + 1)).toNat⟩
  else if -6 < kk ∧ kk ≤ 0 then
    let offset := 2 - kk
    let m ← memmove m base offset 0 length
    let m ← wr m base 0 48
    let m ← wr m base 1 46
    let m ← fillZero m base 2 (offset - 2).toNat
    let m ← wr m base (length + offset) 0
    pure ⟨m, (base + (length + offset)).toNat⟩
  else if length = 1 then
    let m ← wr m base 1 101
    writeExponent (kk - 1) ⟨m, base + 2⟩
  else
    let m ← memmove m base 2 1 (length - 1)
    let m ← wr m base 1 46
    let m ← wr m base (length + 1) 101
    writeExponent (kk - 1) ⟨m, (base + (0 + length + 2)).toNat⟩

/-- `dtoa`, src/detail/dtoa.cpp:375-394; returns the memory and the offset of the returned pointer. -/
def dtoa (env : Env) (value : UInt64) (b : Cur) : Res Cur := do
  if Ieee.eqZero value then
    let b ← b.put 48
    let b ← b.put 46
    let b ← b.put 48
    let e ← b.put 0
    pure ⟨e.mem, b.pos⟩
  else
    let (value, b) ← if Ieee.ltZero value then do pure (Ieee.neg value, ← b.put 45) else pure (value, b)
    let (g, k) ← grisu2 env value b
    prettify g.mem b.pos ((g.pos - b.pos : Nat) : Int) k

end Lexi.Dtoa
