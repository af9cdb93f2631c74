import Verif.Model.Res

/-!
# Integer to text: src/detail/itoa.cpp

Function by function, with the same branches and the same table look-ups.
-/

namespace Lexi.Itoa

/-- `DIGITS[200]`, src/detail/itoa.cpp:19-30 (rows of ten two-character numerals). -/
def DIGITS : Bytes := [
  48,48, 48,49, 48,50, 48,51, 48,52, 48,53, 48,54, 48,55, 48,56, 48,57,
  49,48, 49,49, 49,50, 49,51, 49,52, 49,53, 49,54, 49,55, 49,56, 49,57,
  50,48, 50,49, 50,50, 50,51, 50,52, 50,53, 50,54, 50,55, 50,56, 50,57,
  51,48, 51,49, 51,50, 51,51, 51,52, 51,53, 51,54, 51,55, 51,56, 51,57,
  52,48, 52,49, 52,50, 52,51, 52,52, 52,53, 52,54, 52,55, 52,56, 52,57,
  53,48, 53,49, 53,50, 53,51, 53,52, 53,53, 53,54, 53,55, 53,56, 53,57,
  54,48, 54,49, 54,50, 54,51, 54,52, 54,53, 54,54, 54,55, 54,56, 54,57,
  55,48, 55,49, 55,50, 55,51, 55,52, 55,53, 55,54, 55,55, 55,56, 55,57,
  56,48, 56,49, 56,50, 56,51, 56,52, 56,53, 56,54, 56,55, 56,56, 56,57,
  57,48, 57,49, 57,50, 57,51, 57,52, 57,53, 57,54, 57,55, 57,56, 57,57]

/-- `DIGITS_PTR[i]` (src/detail/itoa.cpp:31): undefined behaviour outside the 200 bytes. -/
def digitAt (i : UInt32) : Res UInt8 :=
  match DIGITS[i.toNat]? with
  | some c => .ok c
  | none => .ub

/-- `*buffer++ = DIGITS_PTR[i];` -/
def putD (b : Cur) (i : UInt32) : Res Cur := do
  let c ← digitAt i
  b.put c

/-- `if (cond) { *buffer++ = DIGITS_PTR[i]; }` -/
def putDIf (cond : Bool) (b : Cur) (i : UInt32) : Res Cur :=
  if cond then putD b i else pure b

/-- `*buffer++ = static_cast<char>('0' + static_cast<char>(a));` (src/detail/itoa.cpp:104, 238, 244).
The narrowing to `char` is modulo 256. -/
def putChar (b : Cur) (a : UInt32) : Res Cur :=
  b.put (48 + a.toUInt8)

/-- `TEN8` … `TEN16`, src/detail/itoa.cpp:33-41. -/
def TEN8 : UInt64 := 100000000
def TEN9 : UInt64 := TEN8 * 10
def TEN10 : UInt64 := TEN8 * 100
def TEN11 : UInt64 := TEN8 * 1000
def TEN12 : UInt64 := TEN8 * 10000
def TEN13 : UInt64 := TEN8 * 100000
def TEN14 : UInt64 := TEN8 * 1000000
def TEN15 : UInt64 := TEN8 * 10000000
def TEN16 : UInt64 := TEN8 * TEN8

/-- `u32toa`, src/detail/itoa.cpp:49-126. -/
def u32toa (value : UInt32) (b : Cur) : Res Cur :=
  if value < 10000 then do                       -- :52
    let d1 := (value / 100) <<< 1
    let d2 := (value % 100) <<< 1
    let b ← putDIf (value ≥ 1000) b d1
    let b ← putDIf (value ≥ 100) b (d1 + 1)
    let b ← putDIf (value ≥ 10) b d2
    putD b (d2 + 1)
  else if value < 100000000 then do              -- :67
    let bb := value / 10000
    let c := value % 10000
    let d1 := (bb / 100) <<< 1
    let d2 := (bb % 100) <<< 1
    let d3 := (c / 100) <<< 1
    let d4 := (c % 100) <<< 1
    let b ← putDIf (value ≥ 10000000) b d1
    let b ← putDIf (value ≥ 1000000) b (d1 + 1)
    let b ← putDIf (value ≥ 100000) b d2
    let b ← putD b (d2 + 1)
    let b ← putD b d3
    let b ← putD b (d3 + 1)
    let b ← putD b d4
    putD b (d4 + 1)
  else do                                        -- :93
    let a := value / 100000000
    let value := value % 100000000
    let b ← (if a ≥ 10 then do
        let i := a <<< 1
        let b ← putD b i
        putD b (i + 1)
      else putChar b a)
    let bb := value / 10000
    let c := value % 10000
    let d1 := (bb / 100) <<< 1
    let d2 := (bb % 100) <<< 1
    let d3 := (c / 100) <<< 1
    let d4 := (c % 100) <<< 1
    let b ← putD b d1
    let b ← putD b (d1 + 1)
    let b ← putD b d2
    let b ← putD b (d2 + 1)
    let b ← putD b d3
    let b ← putD b (d3 + 1)
    let b ← putD b d4
    putD b (d4 + 1)

/-- `i32toa`, src/detail/itoa.cpp:131-140. -/
def i32toa (value : Int32) (b : Cur) : Res Cur := do
  let u := value.toUInt32
  if value < 0 then
    let b ← b.put 45
    u32toa (~~~u + 1) b
  else
    u32toa u b

/-- `u64toa`, src/detail/itoa.cpp:145-298. -/
def u64toa (value : UInt64) (b : Cur) : Res Cur :=
  if value < TEN8 then                           -- :148
    let v := value.toUInt32
    if v < 10000 then do                         -- :150
      let d1 := (v / 100) <<< 1
      let d2 := (v % 100) <<< 1
      let b ← putDIf (v ≥ 1000) b d1
      let b ← putDIf (v ≥ 100) b (d1 + 1)
      let b ← putDIf (v ≥ 10) b d2
      putD b (d2 + 1)
    else do                                      -- :162
      let bb := v / 10000
      let c := v % 10000
      let d1 := (bb / 100) <<< 1
      let d2 := (bb % 100) <<< 1
      let d3 := (c / 100) <<< 1
      let d4 := (c % 100) <<< 1
      let b ← putDIf (value ≥ 10000000) b d1
      let b ← putDIf (value ≥ 1000000) b (d1 + 1)
      let b ← putDIf (value ≥ 100000) b d2
      let b ← putD b (d2 + 1)
      let b ← putD b d3
      let b ← putD b (d3 + 1)
      let b ← putD b d4
      putD b (d4 + 1)
  else if value < TEN16 then do                  -- :186
    let v0 := (value / TEN8).toUInt32
    let v1 := (value % TEN8).toUInt32
    let b0 := v0 / 10000
    let c0 := v0 % 10000
    let d1 := (b0 / 100) <<< 1
    let d2 := (b0 % 100) <<< 1
    let d3 := (c0 / 100) <<< 1
    let d4 := (c0 % 100) <<< 1
    let b1 := v1 / 10000
    let c1 := v1 % 10000
    let d5 := (b1 / 100) <<< 1
    let d6 := (b1 % 100) <<< 1
    let d7 := (c1 / 100) <<< 1
    let d8 := (c1 % 100) <<< 1
    let b ← putDIf (value ≥ TEN15) b d1
    let b ← putDIf (value ≥ TEN14) b (d1 + 1)
    let b ← putDIf (value ≥ TEN13) b d2
    let b ← putDIf (value ≥ TEN12) b (d2 + 1)
    let b ← putDIf (value ≥ TEN11) b d3
    let b ← putDIf (value ≥ TEN10) b (d3 + 1)
    let b ← putDIf (value ≥ TEN9) b d4
    let b ← putDIf (value ≥ TEN8) b (d4 + 1)
    let b ← putD b d5
    let b ← putD b (d5 + 1)
    let b ← putD b d6
    let b ← putD b (d6 + 1)
    let b ← putD b d7
    let b ← putD b (d7 + 1)
    let b ← putD b d8
    putD b (d8 + 1)
  else do                                        -- :233
    let a := (value / TEN16).toUInt32
    let value := value % TEN16
    let b ← (if a < 10 then putChar b a
      else if a < 100 then do
        let i := a <<< 1
        let b ← putD b i
        putD b (i + 1)
      else if a < 1000 then do
        let b ← putChar b (a / 100)
        let i := (a % 100) <<< 1
        let b ← putD b i
        putD b (i + 1)
      else do
        let i := (a / 100) <<< 1
        let j := (a % 100) <<< 1
        let b ← putD b i
        let b ← putD b (i + 1)
        let b ← putD b j
        putD b (j + 1))
    let v0 := (value / TEN8).toUInt32
    let v1 := (value % TEN8).toUInt32
    let b0 := v0 / 10000
    let c0 := v0 % 10000
    let d1 := (b0 / 100) <<< 1
    let d2 := (b0 % 100) <<< 1
    let d3 := (c0 / 100) <<< 1
    let d4 := (c0 % 100) <<< 1
    let b1 := v1 / 10000
    let c1 := v1 % 10000
    let d5 := (b1 / 100) <<< 1
    let d6 := (b1 % 100) <<< 1
    let d7 := (c1 / 100) <<< 1
    let d8 := (c1 % 100) <<< 1
    let b ← putD b d1
    let b ← putD b (d1 + 1)
    let b ← putD b d2
    let b ← putD b (d2 + 1)
    let b ← putD b d3
    let b ← putD b (d3 + 1)
    let b ← putD b d4
    let b ← putD b (d4 + 1)
    let b ← putD b d5
    let b ← putD b (d5 + 1)
    let b ← putD b d6
    let b ← putD b (d6 + 1)
    let b ← putD b d7
    let b ← putD b (d7 + 1)
    let b ← putD b d8
    putD b (d8 + 1)

/-- `i64toa`, src/detail/itoa.cpp:303-313. -/
def i64toa (value : Int64) (b : Cur) : Res Cur := do
  let u := value.toUInt64
  if value < 0 then
    let b ← b.put 45
    u64toa (~~~u + 1) b
  else
    u64toa u b

end Lexi.Itoa
