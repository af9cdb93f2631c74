import Verif.Spec.History

/-!
# Specification: threads that use formatter objects

What each thread does, which objects it may touch, and how the actions of several threads can follow one another. No
buffers and no pointers here.
-/

namespace Lexi.Spec.Threads
open Lexi.Spec.History

/-- One action of a thread: an operation on objects, or `string()` called on one. -/
inductive Act (V : Type) where
  | op (o : Op V)
  | read (x : Nat)

/-- The object an action changes. -/
def Act.changes {V : Type} : Act V → List Nat
  | .op (.construct x _ _) => [x]
  | .op (.copy x _) => [x]
  | .op (.assign x _) => [x]
  | .op (.destroy x) => [x]
  | .read _ => []

/-- The objects an action names as those whose value it takes. -/
def Act.uses {V : Type} : Act V → List Nat
  | .op (.copy _ y) => [y]
  | .op (.assign _ y) => [y]
  | .op _ => []
  | .read x => [x]

/-- The rule a careful programmer follows: an object belongs to one thread (`some t`), and only that thread names it, or is
shared (`none`), and nobody changes it. -/
def Act.Allowed {V : Type} (owner : Nat → Option Nat) (t : Nat) (a : Act V) : Prop :=
  (∀ x ∈ a.changes, owner x = some t) ∧ ∀ x ∈ a.uses, owner x = some t ∨ owner x = none

/-- The part of thread `t` in a list tagged with threads. A schedule `s` is an interleaving of the programs `fun t => own t s`,
and every interleaving is such a list. -/
def own {β : Type} (t : Nat) : List (Nat × β) → List β
  | [] => []
  | (u, b) :: s => if u = t then b :: own t s else own t s

/-- What one thread ought to get from its program, starting where the objects denote `σ`: the values of the objects it reads. -/
inductive Does {V : Type} (size : Nat) (ok : V → Prop) : State V → List (Act V) → List V → State V → Prop
  | nil {σ} : Does size ok σ [] [] σ
  | op {σ o σ' as vs σ''} : Step size ok σ o σ' → Does size ok σ' as vs σ'' → Does size ok σ (.op o :: as) vs σ''
  | read {σ x v p as vs σ'} : σ x = .live v p → Does size ok σ as vs σ' → Does size ok σ (.read x :: as) (v :: vs) σ'

end Lexi.Spec.Threads
