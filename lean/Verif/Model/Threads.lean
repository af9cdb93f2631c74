import Verif.Model.CopyRepair
import Verif.Spec.Threads

/-!
# Model of formatter objects used by several threads

The library has no mutable data with static storage duration: every table and literal is `static const` or `constexpr`
(src/bool.cpp:19-20, src/null.cpp:19, src/float.cpp:21-23, src/detail/itoa.cpp:19-41, dtoa.cpp:21-135, string.cpp:18,
bigint.cpp:28-43, pow.cpp:19, ieee754.cpp:19-20, diyfp.cpp:26-30; the pointers `DIGITS_PTR` of itoa.cpp:31 and dtoa.cpp:33 are not const but nothing assigns them).
So the memory two threads can share is the formatter objects. A schedule is a list of actions, each with its thread.
Simplification: an action is one step of the schedule, and an access is to an object as a whole. That is the meaning of a C++
program without data races ([intro.races]); `Race` below says when there is one, and nothing in the library orders actions of
different threads.
-/

namespace Lexi.Objects
open Spec.History (Op)
open Spec.Threads

variable {α V : Type}

/-- One action: `step` is the operations (Model/Objects.lean `step`, or `stepR` of Model/CopyRepair.lean), `read` is `string()`
(`plainRead`, or `ptrRead`: src/int.cpp:115-152, src/float.cpp:73-110). The text read is the result. -/
def act (step : Heap α → Op V → Res (Heap α)) (read : Heap α → Nat → Res Bytes) (h : Heap α) :
    Act V → Res (Heap α × List Bytes)
  | .op o =>
    match step h o with
    | .ok h => .ok (h, [])
    | .throws => .throws
    | .ub => .ub
  | .read x =>
    match read h x with
    | .ok b => .ok (h, [b])
    | .throws => .throws
    | .ub => .ub

/-- One thread alone: the texts it reads, in order. -/
def alone (step : Heap α → Op V → Res (Heap α)) (read : Heap α → Nat → Res Bytes) (h : Heap α) :
    List (Act V) → Res (Heap α × List Bytes)
  | [] => .ok (h, [])
  | a :: as =>
    match act step read h a with
    | .ok (h, o) =>
      match alone step read h as with
      | .ok (h, os) => .ok (h, o ++ os)
      | .throws => .throws
      | .ub => .ub
    | .throws => .throws
    | .ub => .ub

/-- All threads, in the order of the schedule: the texts read, each with the thread that read it. -/
def together (step : Heap α → Op V → Res (Heap α)) (read : Heap α → Nat → Res Bytes) (h : Heap α) :
    List (Nat × Act V) → Res (Heap α × List (Nat × Bytes))
  | [] => .ok (h, [])
  | (t, a) :: s =>
    match act step read h a with
    | .ok (h, o) =>
      match together step read h s with
      | .ok (h, os) => .ok (h, o.map (fun b => (t, b)) ++ os)
      | .throws => .throws
      | .ub => .ub
    | .throws => .throws
    | .ub => .ub

/-- The objects into which `string()` of this object looks through a pointer: `first` (`last` is only subtracted). -/
def PtrObj.points (o : PtrObj) : List Nat := [o.first.obj]

/-- Objects an action accesses, with `true` for a write. A construction, an assignment or a destruction writes the object; copying
reads all members of the source; `string()` reads its object and what its pointer leads to. -/
def accesses (points : α → List Nat) (h : Heap α) : Act V → List (Nat × Bool)
  | .op (.construct x _ _) => [(x, true)]
  | .op (.copy x y) => [(x, true), (y, false)]
  | .op (.assign x y) => [(x, true), (y, false)]
  | .op (.destroy x) => [(x, true)]
  | .read x =>
    (x, false) :: match h x with
      | .live o => (points o).map (fun p => (p, false))
      | _ => []

/-- Two actions of different threads access the same object and at least one of them writes it ([intro.races]/2, /21). -/
def Race (step : Heap α → Op V → Res (Heap α)) (read : Heap α → Nat → Res Bytes) (points : α → List Nat) (h : Heap α)
    (s : List (Nat × Act V)) : Prop :=
  ∃ (s₁ s₂ s₃ : List (Nat × Act V)) (t u : Nat) (a b : Act V) (h₁ h₂ : Heap α) (o₁ o₂ : List (Nat × Bytes)) (x : Nat) (v w : Bool),
    s = s₁ ++ (t, a) :: (s₂ ++ (u, b) :: s₃) ∧ t ≠ u ∧
    together step read h s₁ = .ok (h₁, o₁) ∧ together step read h (s₁ ++ (t, a) :: s₂) = .ok (h₂, o₂) ∧
    (x, v) ∈ accesses points h₁ a ∧ (x, w) ∈ accesses points h₂ b ∧ (v = true ∨ w = true)

end Lexi.Objects
