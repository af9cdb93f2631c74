import Verif.Spec.Json

/-!
# Documents that say the same

Used by C116.
-/

namespace Lexi.Spec

mutual
/-- The same shape, the same keys in the same order, and at the leaves values related by `R`. -/
def Doc.Same {α β : Type} (R : α → β → Prop) : Doc α → Doc β → Prop
  | .leaf a, .leaf b => R a b
  | .arr es, .arr fs => es.Same R fs
  | .obj ms, .obj ns => ms.Same R ns
  | _, _ => False

def Docs.Same {α β : Type} (R : α → β → Prop) : Docs α → Docs β → Prop
  | .nil, .nil => True
  | .cons e es, .cons f fs => e.Same R f ∧ es.Same R fs
  | _, _ => False

def Members.Same {α β : Type} (R : α → β → Prop) : Members α → Members β → Prop
  | .nil, .nil => True
  | .cons k e es, .cons l f fs => k = l ∧ e.Same R f ∧ es.Same R fs
  | _, _ => False
end

end Lexi.Spec
