/-!
# Outcomes and bounded buffers

Shared vocabulary of the model: a C++ evaluation either finishes (`ok`), throws
`std::runtime_error` (`throws`), or has undefined behaviour (`ub`).
-/

namespace Lexi

/-- Outcome of a C++ evaluation.  `throws` stands for `throw std::runtime_error(..)`
(include/lexi/detail/define.hpp:19-22, src/bool.cpp:111; the message is not modelled).
`ub` is undefined behaviour (out-of-range table/buffer access, undefined shift, …). -/
inductive Res (α : Type) where
  | ok (a : α)
  | throws
  | ub
  deriving Repr, DecidableEq

namespace Res

@[simp] def bind {α β : Type} (x : Res α) (f : α → Res β) : Res β :=
  match x with
  | ok a => f a
  | throws => throws
  | ub => ub

instance : Monad Res where
  pure := Res.ok
  bind := Res.bind

@[simp] theorem pure_eq {α : Type} (a : α) : (pure a : Res α) = ok a := rfl
@[simp] theorem ok_bind {α β : Type} (a : α) (f : α → Res β) : (ok a >>= f) = f a := rfl
@[simp] theorem throws_bind {α β : Type} (f : α → Res β) : (throws >>= f) = throws := rfl
@[simp] theorem ub_bind {α β : Type} (f : α → Res β) : (ub >>= f) = ub := rfl

theorem bind_assoc' {α β γ : Type} (x : Res α) (f : α → Res β) (g : β → Res γ) :
    (x >>= f) >>= g = x >>= fun a => f a >>= g := by
  cases x <;> rfl

@[simp] theorem map_ok {α β : Type} (f : α → β) (a : α) : f <$> (ok a) = ok (f a) := rfl
@[simp] theorem map_throws {α β : Type} (f : α → β) : f <$> (throws : Res α) = throws := rfl
@[simp] theorem map_ub {α β : Type} (f : α → β) : f <$> (ub : Res α) = ub := rfl

end Res

/-- A `std::string` / run of `char`s, as bytes. -/
abbrev Bytes := List UInt8

/-- A `char *` cursor into a fixed char array: the array contents and the current offset.
Models the idiom `*buffer++ = c` used throughout src/detail/itoa.cpp and src/detail/dtoa.cpp. -/
structure Cur where
  mem : Bytes
  pos : Nat
  deriving Repr, DecidableEq

/-- `*buffer++ = c`: undefined behaviour if the cursor is outside the array. -/
def Cur.put (b : Cur) (c : UInt8) : Res Cur :=
  if b.pos < b.mem.length then .ok ⟨b.mem.set b.pos c, b.pos + 1⟩ else .ub

end Lexi
