import Verif.Model.Scalar

/-!
# Memory of `escape` and `jsonify`

The functions of src/detail/string.cpp with the capacity of the string they build, the allocations and the exceptions of
`std::string`.  The decisions the C++ standard leaves to the library and the machine are the members of `Lib`.  Model/Str.lean
has the same functions without them; Props/Alloc.lean (C109) proves that a call that returns, returns the same bytes.
-/

namespace Lexi.Alloc

/-- What the library and the machine decide. -/
structure Lib where
  /-- width of `std::size_t` -/
  bits : Nat
  /-- `std::string::max_size()` -/
  maxSize : Nat
  /-- capacity of an empty string (15 in libstdc++ and MSVC, 22 in libc++) -/
  sso : Nat
  /-- capacity chosen when a string of capacity `c` is to hold `n > c` bytes -/
  cap : Nat → Nat → Nat
  /-- whether a request for so much memory is granted, after the requests before it -/
  grants : List Nat → Nat → Bool
  /-- whether `shrink_to_fit` allocates anew, given size and capacity (it need not do anything) -/
  shrinks : Nat → Nat → Bool
  /-- whether `shrink_to_fit` lets `std::bad_alloc` out -/
  shrinkThrows : Bool

/-- How a call ends; `log` lists the capacities requested so far, in order. -/
inductive Out (α : Type) where
  | ok (a : α) (log : List Nat)
  | lengthError (log : List Nat)
  | badAlloc (log : List Nat)
  | ub
  deriving DecidableEq

/-- A call, given the requests before it. -/
def A (α : Type) : Type := List Nat → Out α

def A.pure {α : Type} (a : α) : A α := fun log => .ok a log

def A.bind {α β : Type} (x : A α) (f : α → A β) : A β := fun log =>
  match x log with
  | .ok a log => f a log
  | .lengthError log => .lengthError log
  | .badAlloc log => .badAlloc log
  | .ub => .ub

def A.lengthError {α : Type} : A α := fun log => .lengthError log

def A.ub {α : Type} : A α := fun _ => .ub

instance : Monad A where
  pure := A.pure
  bind := A.bind

/-- A step that does not allocate. -/
def ofRes {α : Type} : Res α → A α
  | .ok a => A.pure a
  | _ => A.ub

/-- A `std::string` that is being built: its bytes and its `capacity()`. -/
structure Str where
  data : Bytes
  cap : Nat
  deriving DecidableEq

/-- `operator new` for a string of that capacity. -/
def request (l : Lib) (n : Nat) : A Unit := fun log =>
  if l.grants log n then .ok () (log ++ [n]) else .badAlloc (log ++ [n])

/-- `reserve(n)`, and the first half of what appends ([string.capacity], [string.append]): nothing if the capacity suffices,
`std::length_error` beyond `max_size()`, else an allocation and a copy. -/
def reserve (l : Lib) (n : Nat) (s : Str) : A Str :=
  if n ≤ s.cap then A.pure s
  else if l.maxSize < n then A.lengthError
  else do
    request l (l.cap s.cap n)
    A.pure ⟨s.data, l.cap s.cap n⟩

/-- `s += t`. -/
def append (l : Lib) (t : Bytes) (s : Str) : A Str := do
  let s ← reserve l (s.data.length + t.length) s
  A.pure ⟨s.data ++ t, s.cap⟩

/-- `s.push_back(c)`. -/
def pushBack (l : Lib) (c : UInt8) (s : Str) : A Str := append l [c] s

/-- `s.insert(0, t)`, by which `operator+(const char *, std::string &&)` is defined. -/
def prepend (l : Lib) (t : Bytes) (s : Str) : A Str := do
  let s ← reserve l (s.data.length + t.length) s
  A.pure ⟨t ++ s.data, s.cap⟩

/-- `s.shrink_to_fit()`: keeps the bytes. -/
def shrinkToFit (l : Lib) (s : Str) : A Str := fun log =>
  if l.shrinks s.data.length s.cap then
    if l.grants log s.data.length then .ok ⟨s.data, max l.sso s.data.length⟩ (log ++ [s.data.length])
    else if l.shrinkThrows then .badAlloc (log ++ [s.data.length])
    else .ok s (log ++ [s.data.length])
  else .ok s log

/-- `src.size() * 2 + 1` in `std::size_t`, src/detail/string.cpp:32, :56. -/
def guess (l : Lib) (src : Bytes) : Nat := (src.length * 2 + 1) % 2 ^ l.bits

/-- The loop of `escape`, src/detail/string.cpp:34-42. -/
def escapeLoop (l : Lib) (sgn : Bool) (dst : Str) : Bytes → A Str
  | [] => A.pure dst
  | c :: cs => do
    let dst ← if escapeTest sgn c then pushBack l 92 dst else A.pure dst
    let dst ← pushBack l c dst
    escapeLoop l sgn dst cs

/-- `detail::escape`, src/detail/string.cpp:29-46. -/
def escape (l : Lib) (sgn : Bool) (src : Bytes) : A Str := do
  let dst ← reserve l (guess l src) ⟨[], l.sso⟩
  let dst ← escapeLoop l sgn dst src
  shrinkToFit l dst

/-- `dst.push_back('\\'); dst.push_back(e);` -/
def pushTwo (l : Lib) (e : UInt8) (dst : Str) : A Str := do
  let dst ← pushBack l 92 dst
  pushBack l e dst

/-- The `switch` of `jsonify`, src/detail/string.cpp:58-96. -/
def jsonifyStep (l : Lib) (sgn : Bool) (dst : Str) (c : UInt8) : A Str :=
  if c == 8 then pushTwo l 98 dst
  else if c == 12 then pushTwo l 102 dst
  else if c == 10 then pushTwo l 110 dst
  else if c == 13 then pushTwo l 114 dst
  else if c == 9 then pushTwo l 116 dst
  else if c == 92 then pushTwo l 92 dst
  else if c == 34 then pushTwo l 34 dst
  else if charVal sgn c ≥ 0 && charVal sgn c ≤ 0x1f then do
    let dst ← append l [92, 117, 48, 48] dst
    let h ← ofRes (hexAt (charVal sgn c >>> 4))
    let dst ← pushBack l h dst
    let lo ← ofRes (hexAt (charVal sgn c % 16))
    pushBack l lo dst
  else pushBack l c dst

/-- The loop of `jsonify`, src/detail/string.cpp:57-97. -/
def jsonifyLoop (l : Lib) (sgn : Bool) (dst : Str) : Bytes → A Str
  | [] => A.pure dst
  | c :: cs => do
    let dst ← jsonifyStep l sgn dst c
    jsonifyLoop l sgn dst cs

/-- `detail::jsonify`, src/detail/string.cpp:53-101. -/
def jsonify (l : Lib) (sgn : Bool) (src : Bytes) : A Str := do
  let dst ← reserve l (guess l src) ⟨[], l.sso⟩
  let dst ← jsonifyLoop l sgn dst src
  shrinkToFit l dst

/-- `"\"" + detail::jsonify(string) + "\""`, include/lexi/lexi.hpp:226-230 and src/char.cpp:85-88. -/
def jsonifyStr (l : Lib) (sgn : Bool) (src : Bytes) : A Str := do
  let s ← jsonify l sgn src
  let s ← prepend l [34] s
  append l [34] s

end Lexi.Alloc
