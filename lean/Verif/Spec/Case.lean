/-!
# Specification: changing the case of ASCII letters

`tolower` and `toupper` of the C locale.  Independent of the model.
-/

namespace Lexi.Spec

def lower (b : UInt8) : UInt8 := if 65 ≤ b ∧ b ≤ 90 then b + 32 else b
def upper (b : UInt8) : UInt8 := if 97 ≤ b ∧ b ≤ 122 then b - 32 else b

end Lexi.Spec
