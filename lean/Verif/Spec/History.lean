/-!
# Specification: histories of formatter objects

The operations a program can apply to objects of a class with the implicitly defined copy operations, and what
each live object ought to denote afterwards. No buffers and no pointers here.
-/

namespace Lexi.Spec.History

/-- One operation. Objects are named by numbers; a name is used for one object only (`Step` requires it to be
unused), so a destroyed object is never confused with a later one. `junk` is the indeterminate initial content of the
buffer. -/
inductive Op (V : Type) where
  | construct (x : Nat) (junk : List UInt8) (v : V)
  | copy (x y : Nat)
  | assign (x y : Nat)
  | destroy (x : Nat)

/-- An object is not yet created, live with a value, or destroyed. `origin` names the object at the start of the
chain of copies and assignments through which the value came. -/
inductive Cell (V : Type) where
  | unused
  | live (v : V) (origin : Nat)
  | dead

abbrev State (V : Type) := Nat → Cell V

def State.empty {V : Type} : State V := fun _ => .unused
def State.set {V : Type} (σ : State V) (x : Nat) (c : Cell V) : State V := fun i => if i = x then c else σ i

/-- Meaningful operations: construct under a new name from an admissible value, copy from or assign between live
objects, destroy a live object. -/
inductive Step {V : Type} (size : Nat) (ok : V → Prop) : State V → Op V → State V → Prop
  | construct {σ x junk v} : σ x = .unused → junk.length = size → ok v →
      Step size ok σ (.construct x junk v) (σ.set x (.live v x))
  | copy {σ x y v o} : σ x = .unused → σ y = .live v o → Step size ok σ (.copy x y) (σ.set x (.live v o))
  | assign {σ x y w p v o} : σ x = .live w p → σ y = .live v o → Step size ok σ (.assign x y) (σ.set x (.live v o))
  | destroy {σ x v o} : σ x = .live v o → Step size ok σ (.destroy x) (σ.set x .dead)

/-- A finite history. -/
inductive Runs {V : Type} (size : Nat) (ok : V → Prop) : State V → List (Op V) → State V → Prop
  | nil {σ} : Runs size ok σ [] σ
  | cons {σ op σ' ops σ''} : Step size ok σ op σ' → Runs size ok σ' ops σ'' → Runs size ok σ (op :: ops) σ''

/-- An operation whose arguments are possible at all: the buffer has its size and the value is one of the type. -/
def Op.Possible {V : Type} (size : Nat) (ok : V → Prop) : Op V → Prop
  | .construct _ junk v => junk.length = size ∧ ok v
  | _ => True

end Lexi.Spec.History
