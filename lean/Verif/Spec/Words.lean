import Verif.Spec.FloatSubject

/-!
# Specification: words C reads as NaN or an infinity

Independent of the model.
-/

namespace Lexi.Spec

/-- After white space and a sign (`neg`: it is a minus), `s` goes on with the word `w` in any mixture of cases. -/
def SignedWord (w : List UInt8) (neg : Bool) (s : List UInt8) : Prop :=
  ∃ ws sg p r, s = ws ++ (sg ++ (p ++ r)) ∧ (∀ b ∈ ws, IsSpace b) ∧
    (neg = false ∧ (sg = [] ∨ sg = [43]) ∨ neg = true ∧ sg = [45]) ∧ Word w p

/-- `[+-]nan…`. -/
def NanWord (s : List UInt8) : Prop := ∃ neg, SignedWord [110, 97, 110] neg s

/-- `[+]inf…` or `-inf…`. -/
def InfWord (neg : Bool) (s : List UInt8) : Prop := SignedWord [105, 110, 102] neg s

end Lexi.Spec
