import Verif.Spec.Escape
import Verif.Spec.JsonString

/-!
# Specification: several layers of escaping and of JSON

Independent of the model.
-/

namespace Lexi.Spec

/-- Each byte that needs escaping gets `n` backslashes in front. -/
def backslashed (n : Nat) (s : List UInt8) : List UInt8 :=
  s.flatMap fun b => if NeedsEscape b then List.replicate n 92 ++ [b] else [b]

/-- Read a JSON string literal and nothing else `k` times, each time from what was read before. -/
def readNested : Nat → List UInt8 → Option (List UInt8)
  | 0, t => some t
  | k + 1, t =>
    match readString t with
    | some (s, []) => readNested k s
    | _ => none

/-- Number of quotes and backslashes. -/
def quotes (s : List UInt8) : Nat := s.countP fun b => b = 34 ∨ b = 92

/-- Number of control bytes. -/
def controls (s : List UInt8) : Nat := s.countP fun b => b < 32

/-- Number of the control bytes that have a two-character escape: backspace, tab, line feed, form feed, carriage return. -/
def shortControls (s : List UInt8) : Nat := s.countP fun b => b ∈ ([8, 9, 10, 12, 13] : List UInt8)

end Lexi.Spec
