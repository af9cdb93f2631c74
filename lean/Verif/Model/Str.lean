import Verif.Model.IntFmt

/-!
# Model of src/detail/string.cpp and the string overloads of include/lexi/lexi.hpp

Plain `char` is signed or unsigned depending on the platform (`sgn`); a char promoted to `int` has the
value `charVal sgn c`.
-/

namespace Lexi

/-- Value of a plain `char` after integral promotion. -/
def charVal (sgn : Bool) (c : UInt8) : Int := if sgn then c.toInt8.toInt else c.toNat

/-- The condition of src/detail/string.cpp:35-38. -/
def escapeTest (sgn : Bool) (c : UInt8) : Bool :=
  let c := charVal sgn c
  (c ≥ 0 && c ≤ 47) || (c ≥ 58 && c ≤ 64) || (c ≥ 91 && c ≤ 96) || (c ≥ 123 && c ≤ 126)

/-- The loop body of `escape`, src/detail/string.cpp:34-42. -/
def escapeStep (sgn : Bool) (dst : Bytes) (c : UInt8) : Bytes :=
  (if escapeTest sgn c then dst ++ [92] else dst) ++ [c]

/-- `detail::escape`, src/detail/string.cpp:29-46 (`reserve`/`shrink_to_fit` have no observable effect). -/
def escape (sgn : Bool) (src : Bytes) : Bytes := src.foldl (escapeStep sgn) []

/-- `HEX`, src/detail/string.cpp:18 (17 chars with the terminator). -/
def HEX : Bytes := [48, 49, 50, 51, 52, 53, 54, 55, 56, 57, 97, 98, 99, 100, 101, 102, 0]

/-- `HEX[i]` for an `int` index; out of range is undefined. -/
def hexAt (i : Int) : Res UInt8 :=
  if i < 0 then .ub else
  match HEX[i.toNat]? with
  | some c => .ok c
  | none => .ub

/-- The `switch` of `jsonify`, src/detail/string.cpp:57-96.  Case labels are `char` literals below 128, so
comparing bytes is comparing promoted values.  `c >> 4`, `c & 0x0f` are on the promoted (non-negative
here) `int`. -/
def jsonifyStep (sgn : Bool) (dst : Bytes) (c : UInt8) : Res Bytes :=
  if c == 8 then .ok (dst ++ [92, 98])                 -- '\b'
  else if c == 12 then .ok (dst ++ [92, 102])          -- '\f'
  else if c == 10 then .ok (dst ++ [92, 110])          -- '\n'
  else if c == 13 then .ok (dst ++ [92, 114])          -- '\r'
  else if c == 9 then .ok (dst ++ [92, 116])           -- '\t'
  else if c == 92 then .ok (dst ++ [92, 92])           -- '\\'
  else if c == 34 then .ok (dst ++ [92, 34])           -- '"'
  else if charVal sgn c ≥ 0 && charVal sgn c ≤ 0x1f then do
    let dst := dst ++ [92, 117, 48, 48]                -- "\\u00"
    let h ← hexAt (charVal sgn c >>> 4)
    let l ← hexAt (charVal sgn c % 16)                 -- `& 0x0f` of a non-negative int
    .ok (dst ++ [h] ++ [l])
  else .ok (dst ++ [c])

/-- The loop of `jsonify`. -/
def jsonifyLoop (sgn : Bool) (dst : Bytes) : Bytes → Res Bytes
  | [] => .ok dst
  | c :: cs => do jsonifyLoop sgn (← jsonifyStep sgn dst c) cs

/-- `detail::jsonify`, src/detail/string.cpp:53-101. -/
def jsonifyBody (sgn : Bool) (src : Bytes) : Res Bytes := jsonifyLoop sgn [] src

/-- `lexi::jsonify` for string types, include/lexi/lexi.hpp:226-230: `"\"" + detail::jsonify(s) + "\""`. -/
def jsonifyStr (sgn : Bool) (src : Bytes) : Res Bytes := do .ok ([34] ++ (← jsonifyBody sgn src) ++ [34])

/-- `lexi::escape` for string types, include/lexi/lexi.hpp:208-212. -/
def escapeStr (sgn : Bool) (src : Bytes) : Bytes := escape sgn src

/-- A value accepted by the string overloads (include/lexi/detail/type.hpp:98-108,168-169): a
`std::string` (with its length), or a pointer to NUL-terminated chars / char array (`const char *`,
`char *`, literal), represented by the array contents it points to. -/
inductive StrArg where
  | stdString (s : Bytes)
  | cstr (a : Bytes)

/-- Conversion to `std::string` performed by `return string;` (include/lexi/lexi.hpp:172-175,191-194)
and by binding to `const std::string &` in `detail::escape(string)`, `detail::jsonify(string)`:
a pointer is read up to the first NUL; with no NUL in the array the read runs off its end. -/
def StrArg.toStd : StrArg → Res Bytes
  | .stdString s => .ok s
  | .cstr a => if 0 ∈ a then .ok (Lexi.cstr a) else .ub

/-- `lexi::lexi(s)` and `lexi::string(s)` for string types, include/lexi/lexi.hpp:172-175 and 191-194. -/
def lexiStr (a : StrArg) : Res Bytes := a.toStd

end Lexi
