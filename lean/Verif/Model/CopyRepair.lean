import Verif.Model.Objects

/-!
# Repaired copies of formatter objects

NOT the code of the repository: `FormatInt`, `FormatEnum` and `FormatFloat` with a copy constructor and a copy assignment that
point `first` and `last` into the new object.  Props/CopyRepair.lean proves the full statements of C45 and C57 for them (C104),
which shows that the memberwise copies are the only defect.
-/

namespace Lexi.Objects
open Spec.History (Op)

variable {V : Type}

/-- Both copy operations of object `x` from object `y`, the members of which are `o`, thought to be added to
include/lexi/int.hpp:21-52, enum.hpp:22-26 and float.hpp:21-47:
`memcpy(buffer_, y.buffer_, sizeof(buffer_)); first = buffer_ + (y.first - y.buffer_); last = buffer_ + (y.last - y.buffer_);`
Subtracting a pointer that is not into `y.buffer_` is undefined. -/
def copyOf (x y : Nat) (o : PtrObj) : Res PtrObj :=
  if o.first.obj = y ∧ o.last.obj = y then .ok ⟨o.buffer, ⟨x, o.first.off⟩, ⟨x, o.last.off⟩⟩ else .ub

/-- `step`, with `copyOf` for the memberwise copies. -/
def stepR (mk : Nat → Bytes → V → Res PtrObj) (h : Heap PtrObj) : Op V → Res (Heap PtrObj)
  | .copy x y =>
    match h x, h y with
    | .unused, .live o => do
      let o ← copyOf x y o
      pure (h.set x (.live o))
    | _, _ => .ub
  | .assign x y =>
    match h x, h y with
    | .live _, .live o => do
      let o ← copyOf x y o
      pure (h.set x (.live o))
    | _, _ => .ub
  | op => step mk h op

def runR (mk : Nat → Bytes → V → Res PtrObj) (h : Heap PtrObj) : List (Op V) → Res (Heap PtrObj)
  | [] => .ok h
  | op :: ops => do
    let h ← stepR mk h op
    runR mk h ops

/-- `formatCall` of Model/Objects.lean, with these copies. -/
def formatCallR (elide : Bool) (mk : Nat → Bytes → V → Res PtrObj) (junk : Bytes) (v : V) : Res Bytes := do
  let h ← runR mk .empty (if elide then [.construct 1 junk v] else [.construct 0 junk v, .copy 1 0, .destroy 0])
  ptrRead h 1

end Lexi.Objects
