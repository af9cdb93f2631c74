import Verif.Model.FloatFmt
import Verif.Spec.History

/-!
# Model of the formatter objects as values: construction, implicit copy, assignment, destruction

None of the classes declares a copy operation or a destructor (include/lexi/bool.hpp:21-42, null.hpp:21-42,
char.hpp:21-42, int.hpp:21-52, enum.hpp:22-26, float.hpp:21-47), so copies are memberwise. `FormatBool`,
`FormatNull` and `FormatChar` contain only values. `FormatInt`, `FormatEnum` and `FormatFloat` contain the
pointers `first` and `last`, which the constructor points into the object's own `buffer_` and a memberwise copy
leaves pointing into the source object.
-/

namespace Lexi.Objects
open Spec.History (Op)

/-- Lifetime of one object. -/
inductive Slot (α : Type) where
  | unused
  | live (o : α)
  | dead

/-- Contents of memory: the objects by name. -/
abbrev Heap (α : Type) := Nat → Slot α

def Heap.empty {α : Type} : Heap α := fun _ => .unused
def Heap.set {α : Type} (h : Heap α) (x : Nat) (s : Slot α) : Heap α := fun i => if i = x then s else h i

variable {α V : Type}

/-- One operation. `mk x junk v` is the constructor running on object `x`; the implicit copy constructor and
copy assignment copy the members. Anything else (constructing over a live object, using a destroyed one) is undefined. -/
def step (mk : Nat → Bytes → V → Res α) (h : Heap α) : Op V → Res (Heap α)
  | .construct x junk v =>
    match h x with
    | .unused => do
      let o ← mk x junk v
      pure (h.set x (.live o))
    | _ => .ub
  | .copy x y =>
    match h x, h y with
    | .unused, .live o => .ok (h.set x (.live o))
    | _, _ => .ub
  | .assign x y =>
    match h x, h y with
    | .live _, .live o => .ok (h.set x (.live o))
    | _, _ => .ub
  | .destroy x =>
    match h x with
    | .live _ => .ok (h.set x .dead)
    | _ => .ub

def run (mk : Nat → Bytes → V → Res α) (h : Heap α) : List (Op V) → Res (Heap α)
  | [] => .ok h
  | op :: ops => do
    let h ← step mk h op
    run mk h ops

/-- A member function of an object without pointers. -/
def plainRead (read : α → Res Bytes) (h : Heap α) (x : Nat) : Res Bytes :=
  match h x with
  | .live o => read o
  | _ => .ub

/-! ## Objects with pointers -/

/-- A pointer to a byte of the `buffer_` of an object. -/
structure Ptr where
  obj : Nat
  off : Nat

/-- Members of `FormatInt` (include/lexi/int.hpp:24-26) and `FormatFloat` (include/lexi/float.hpp:24-26). -/
structure PtrObj where
  buffer : Bytes
  first : Ptr
  last : Ptr

/-- `FormatInt` / `FormatEnum` constructed as object `x` (src/int.cpp:19-113: `first = buffer_`). -/
def placeInt (mk : Bytes → V → Res IntObj) (x : Nat) (junk : Bytes) (v : V) : Res PtrObj := do
  let o ← mk junk v
  pure ⟨o.buffer, ⟨x, o.first⟩, ⟨x, o.last⟩⟩

/-- `FormatFloat` constructed as object `x` (src/float.cpp:31-50: `first = buffer_`). -/
def placeFloat (mk : Bytes → V → Res FloatObj) (x : Nat) (junk : Bytes) (v : V) : Res PtrObj := do
  let o ← mk junk v
  pure ⟨o.buffer, ⟨x, o.first⟩, ⟨x, o.last⟩⟩

/-- `string()` = `std::string(data(), size())` with `data() = first`, `size() = last - first`: src/int.cpp:115-152,
src/float.cpp:73-110.  Subtracting pointers into different objects, or reading a destroyed one, is undefined. -/
def ptrRead (h : Heap PtrObj) (x : Nat) : Res Bytes :=
  match h x with
  | .live o =>
    if o.first.obj = o.last.obj then
      match h o.first.obj with
      | .live p => readN p.buffer o.first.off (o.last.off - o.first.off)
      | _ => .ub
    else .ub
  | _ => .ub

/-! ## `Format()(t).string()` -/

/-- include/lexi/lexi.hpp:30-77 and :165, :183: `Format::operator()` returns a prvalue initialised from a prvalue
by value.  C++14 (CMakeLists.txt:12, :36-38) permits but does not require eliding the copy ([class.copy]/31);
without elision the temporary (object 0) is copied to the return object (object 1) and destroyed, and `string()` is
called on the copy. -/
def formatCall (elide : Bool) (mk : Nat → Bytes → V → Res α) (read : Heap α → Nat → Res Bytes)
    (junk : Bytes) (v : V) : Res Bytes := do
  let h ← run mk .empty (if elide then [.construct 1 junk v] else [.construct 0 junk v, .copy 1 0, .destroy 0])
  read h 1

end Lexi.Objects
