import Verif.Model.AllocApi
import Verif.Model.ReadApi

/-!
# Memory of the extraction functions

`lexi::lexi<T>(const std::string &)` and `lexi::lexi<T>(const char *)` with the allocations of the temporary string the second makes
and of the exceptions they throw.  The extractors are on the stack; `strtoull` and `strtold` are taken to allocate nothing, as in
glibc and musl.  The memory of the exception object itself is not modelled (the implementation keeps a reserve for it).
Props/AllocRead.lean is about these definitions (C115).
-/

namespace Lexi.Alloc

/-- How reading ends; `log` lists the requests so far. -/
inductive Read where
  | ok (a : Arg) (log : List Nat)
  /-- `std::runtime_error` with this `what()` -/
  | runtimeError (what : Bytes) (log : List Nat)
  | lengthError (log : List Nat)
  | badAlloc (log : List Nat)
  | ub

/-- `#y` for a string literal `y` without quotes or backslashes inside, [cpp.stringize]. -/
def stringize (y : Bytes) : Bytes := [34] ++ y ++ [34]

/-- The message of the exception, src/null.cpp:105, src/bool.cpp:111, src/char.cpp:101.  `LEXI_ASSERT` stringifies its message
(include/lexi/detail/define.hpp:18-22), which is a string literal already, so the quotes become part of it. -/
def message : Target → Bytes
  | .null => stringize  -- String is not null.
      [83, 116, 114, 105, 110, 103, 32, 105, 115, 32, 110, 111, 116, 32, 110, 117, 108, 108, 46]
  | .bool =>  -- String is not boolean.
      [83, 116, 114, 105, 110, 103, 32, 105, 115, 32, 110, 111, 116, 32, 98, 111, 111, 108, 101, 97, 110, 46]
  | .char => stringize  -- Cannot extract character from empty string.
      [67, 97, 110, 110, 111, 116, 32, 101, 120, 116, 114, 97, 99, 116, 32, 99, 104, 97, 114, 97, 99, 116, 101, 114, 32, 102,
      114, 111, 109, 32, 101, 109, 112, 116, 121, 32, 115, 116, 114, 105, 110, 103, 46]
  | _ => []

/-- `throw std::runtime_error(what)`; the exception copies its message, and `keeps n` is the memory it asks for to keep `n` bytes. -/
def throwError (l : Lib) (keeps : Nat → Option Nat) (what : Bytes) (log : List Nat) : Read :=
  match keeps what.length with
  | none => .runtimeError what log
  | some n => if l.grants log n then .runtimeError what (log ++ [n]) else .badAlloc (log ++ [n])

/-- `Extract<T>()(string)`, include/lexi/lexi.hpp:83-135. -/
def extract (l : Lib) (keeps : Nat → Option Nat) (L : Literals) (F : FpFormat) (T : Target) (s : Bytes) (log : List Nat) : Read :=
  match T.extract L F s with
  | .ok a => .ok a log
  | .throws => throwError l keeps (message T) log
  | .ub => .ub

/-- `lexi::lexi<T>(string)`, include/lexi/lexi.hpp:142-157: a pointer is converted to a temporary `std::string`. -/
def read (l : Lib) (keeps : Nat → Option Nat) (L : Literals) (F : FpFormat) (T : Target) (a : StrArg) (log : List Nat) : Read :=
  match a with
  | .stdString s => extract l keeps L F T s log
  | .cstr p =>
    match (do let t ← ofRes (StrArg.cstr p).toStd; construct l t : A Str) log with
    | .ok s log => extract l keeps L F T s.data log
    | .lengthError log => .lengthError log
    | .badAlloc log => .badAlloc log
    | .ub => .ub

end Lexi.Alloc
