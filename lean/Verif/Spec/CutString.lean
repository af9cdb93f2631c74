/-!
# Specification: the end of a text that was cut short

Independent of the model.
-/

namespace Lexi.Spec

/-- Number of backslashes at the end. -/
def trailing (s : List UInt8) : Nat := (s.reverse.takeWhile (· = 92)).length

end Lexi.Spec
