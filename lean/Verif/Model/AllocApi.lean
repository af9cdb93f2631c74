import Verif.Model.Alloc
import Verif.Model.Api

/-!
# Memory of the public formatting functions

`lexi::string`, `lexi::escape` and `lexi::jsonify` with the allocations of the strings they return and of their temporaries
(Model/Alloc.lean).  The formatter objects are on the stack and allocate nothing.  A returned temporary is moved or elided, which
allocates nothing either.  Props/AllocApi.lean is about these definitions (C113).
-/

namespace Lexi.Alloc

/-- `std::string(p, n)`, `std::string(p)` and the copy of a string ([string.cons]): the bytes are inside the object if they fit
there, otherwise in an allocation of at least their number. -/
def construct (l : Lib) (t : Bytes) : A Str :=
  if t.length ≤ l.sso then A.pure ⟨t, l.sso⟩
  else if l.maxSize < t.length then A.lengthError
  else do
    request l (l.cap 0 t.length)
    A.pure ⟨t, l.cap 0 t.length⟩

/-- `lexi::string`, include/lexi/lexi.hpp:180-194: `std::string(data(), size())` of the formatter (src/null.cpp:73-76,
bool.cpp:74-77, char.cpp:69-72, int.cpp:149-152, float.cpp:107-110), or a copy of the string. -/
def string (l : Lib) (m : Machine) (a : Arg) : A Str := do
  let t ← ofRes (a.string m)
  construct l t

/-- `lexi::escape`, include/lexi/lexi.hpp:199-212: `string()` for all formatters but `FormatChar` (src/char.cpp:77-80); a pointer is
converted to a temporary string. -/
def escapeArg (l : Lib) (m : Machine) : Arg → A Str
  | .char c => do
    let s ← string l m (.char c)
    escape l m.sgn s.data
  | .text (.stdString s) => escape l m.sgn s
  | .text (.cstr a) => do
    let s ← string l m (.text (.cstr a))
    escape l m.sgn s.data
  | a => string l m a

/-- `lexi::jsonify`, include/lexi/lexi.hpp:217-230: `string()` for all formatters but `FormatChar` (src/char.cpp:85-88). -/
def jsonifyArg (l : Lib) (m : Machine) : Arg → A Str
  | .char c => do
    let s ← string l m (.char c)
    jsonifyStr l m.sgn s.data
  | .text (.stdString s) => jsonifyStr l m.sgn s
  | .text (.cstr a) => do
    let s ← string l m (.text (.cstr a))
    jsonifyStr l m.sgn s.data
  | a => string l m a

end Lexi.Alloc
