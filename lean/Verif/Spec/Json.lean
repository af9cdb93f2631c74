import Verif.Spec.JsonNumber
import Verif.Spec.JsonString

/-!
# Specification: reading JSON texts (RFC 8259)

Values, a reader for whole texts, and the text of a document assembled from the texts of its leaves.
Independent of the model.
-/

namespace Lexi.Spec

mutual
/-- A JSON value.  Numbers are exact rationals, strings the UTF-8 bytes they decode to. -/
inductive Json
  | null
  | bool (b : Bool)
  | num (q : ℚ)
  | str (s : List UInt8)
  | arr (es : JElems)
  | obj (ms : JMembers)

inductive JElems
  | nil
  | cons (e : Json) (es : JElems)

inductive JMembers
  | nil
  | cons (k : List UInt8) (v : Json) (ms : JMembers)
end

deriving instance DecidableEq for Json, JElems, JMembers

/-- `ws = *( %x20 / %x09 / %x0A / %x0D )`. -/
def skipWs : List UInt8 → List UInt8
  | c :: s => if c = 32 ∨ c = 9 ∨ c = 10 ∨ c = 13 then skipWs s else c :: s
  | [] => []

/-- The longest run of digits and what follows. -/
def readDigits : List UInt8 → List UInt8 × List UInt8
  | c :: s => if 48 ≤ c ∧ c ≤ 57 then let (d, r) := readDigits s; (c :: d, r) else ([], c :: s)
  | [] => ([], [])

/-- `[ minus ]`. -/
def readMinus : List UInt8 → Bool × List UInt8
  | c :: s => if c = 45 then (true, s) else (false, c :: s)
  | [] => (false, [])

/-- `[ minus ] int`: sign, digits, rest. -/
def readInt (s : List UInt8) : Option (Bool × List UInt8 × List UInt8) :=
  let (ds, r) := readDigits (readMinus s).2
  if ds = [] ∨ (ds.length > 1 ∧ ds.head? = some 48) then none else some ((readMinus s).1, ds, r)

/-- `[ frac ]`. -/
def readFrac : List UInt8 → Option (Option (List UInt8) × List UInt8)
  | 46 :: s =>
    match readDigits s with
    | ([], _) => none
    | (ds, r) => some (some ds, r)
  | s => some (none, s)

/-- The optional sign of an exponent. -/
def readSign : List UInt8 → List UInt8 × List UInt8
  | c :: s => if c = 45 ∨ c = 43 then ([c], s) else ([], c :: s)
  | [] => ([], [])

/-- `[ exp ]`. -/
def readExp : List UInt8 → Option (Option JExp × List UInt8)
  | c :: s =>
    if c = 101 ∨ c = 69 then
      let (sg, t) := readSign s
      match readDigits t with
      | ([], _) => none
      | (ds, r) => some (some ⟨c, sg, ds⟩, r)
    else some (none, c :: s)
  | [] => some (none, [])

/-- A number, read greedily. -/
def readNumber (s : List UInt8) : Option (ℚ × List UInt8) :=
  match readInt s with
  | none => none
  | some (neg, ds, r) =>
    match readFrac r with
    | none => none
    | some (fr, r) =>
      match readExp r with
      | none => none
      | some (ex, r) => some ((⟨neg, ds, fr, ex⟩ : JNumber).value, r)

/-- Literal names. -/
def readLiteral : List UInt8 → Option (Json × List UInt8)
  | 110 :: 117 :: 108 :: 108 :: r => some (.null, r)
  | 116 :: 114 :: 117 :: 101 :: r => some (.bool true, r)
  | 102 :: 97 :: 108 :: 115 :: 101 :: r => some (.bool false, r)
  | _ => none

mutual
/-- A value after optional white space, and what follows.  `fuel` bounds the nesting and the number of elements. -/
def readValue : Nat → List UInt8 → Option (Json × List UInt8)
  | 0, _ => none
  | fuel + 1, s =>
    match skipWs s with
    | 34 :: t => (readString (34 :: t)).map fun p => (.str p.1, p.2)
    | 91 :: t =>
      match skipWs t with
      | 93 :: r => some (.arr .nil, r)
      | t => (readElems fuel t).map fun p => (.arr p.1, p.2)
    | 123 :: t =>
      match skipWs t with
      | 125 :: r => some (.obj .nil, r)
      | t => (readMembers fuel t).map fun p => (.obj p.1, p.2)
    | t =>
      match readLiteral t with
      | some p => some p
      | none => (readNumber t).map fun p => (.num p.1, p.2)

/-- `value *( , value ) ]`. -/
def readElems : Nat → List UInt8 → Option (JElems × List UInt8)
  | 0, _ => none
  | fuel + 1, s =>
    match readValue fuel s with
    | none => none
    | some (v, r) =>
      match skipWs r with
      | 93 :: r => some (.cons v .nil, r)
      | 44 :: r => (readElems fuel r).map fun p => (.cons v p.1, p.2)
      | _ => none

/-- `string : value *( , string : value ) }`. -/
def readMembers : Nat → List UInt8 → Option (JMembers × List UInt8)
  | 0, _ => none
  | fuel + 1, s =>
    match readString (skipWs s) with
    | none => none
    | some (k, r) =>
      match skipWs r with
      | 58 :: r =>
        match readValue fuel r with
        | none => none
        | some (v, r) =>
          match skipWs r with
          | 125 :: r => some (.cons k v .nil, r)
          | 44 :: r => (readMembers fuel r).map fun p => (.cons k v p.1, p.2)
          | _ => none
      | _ => none
end

/-- `JSON-text = ws value ws`. -/
def readJson (s : List UInt8) : Option Json :=
  match readValue (s.length + 1) s with
  | some (v, r) => if skipWs r = [] then some v else none
  | none => none

mutual
/-- A document with leaves of type `α`. -/
inductive Doc (α : Type)
  | leaf (a : α)
  | arr (es : Docs α)
  | obj (ms : Members α)

inductive Docs (α : Type)
  | nil
  | cons (e : Doc α) (es : Docs α)

inductive Members (α : Type)
  | nil
  | cons (k : List UInt8) (v : Doc α) (ms : Members α)
end

section
variable {α : Type}

mutual
/-- `t` is the text of the document, where `T a u`: the leaf `a` has the text `u`, and `K k u`: the key `k` has
the text `u`.  No white space is added. -/
def Doc.Text (T : α → List UInt8 → Prop) (K : List UInt8 → List UInt8 → Prop) : Doc α → List UInt8 → Prop
  | .leaf a, t => T a t
  | .arr es, t => ∃ u, es.Text T K u ∧ t = 91 :: (u ++ [93])
  | .obj ms, t => ∃ u, ms.Text T K u ∧ t = 123 :: (u ++ [125])

def Docs.Text (T : α → List UInt8 → Prop) (K : List UInt8 → List UInt8 → Prop) : Docs α → List UInt8 → Prop
  | .nil, t => t = []
  | .cons e es, t => ∃ u w, e.Text T K u ∧ es.Text T K w ∧
      t = match es with | .nil => u | _ => u ++ 44 :: w

def Members.Text (T : α → List UInt8 → Prop) (K : List UInt8 → List UInt8 → Prop) : Members α → List UInt8 → Prop
  | .nil, t => t = []
  | .cons k e es, t => ∃ x u w, K k x ∧ e.Text T K u ∧ es.Text T K w ∧
      t = match es with | .nil => x ++ 58 :: u | _ => x ++ 58 :: (u ++ 44 :: w)
end

mutual
/-- The value has the shape of the document, the keys of its objects, and at the leaves values related by `M`. -/
def Doc.Means (M : α → Json → Prop) : Doc α → Json → Prop
  | .leaf a, j => M a j
  | .arr es, j => ∃ js, es.Means M js ∧ j = .arr js
  | .obj ms, j => ∃ js, ms.Means M js ∧ j = .obj js

def Docs.Means (M : α → Json → Prop) : Docs α → JElems → Prop
  | .nil, j => j = .nil
  | .cons e es, j => ∃ a b, e.Means M a ∧ es.Means M b ∧ j = .cons a b

def Members.Means (M : α → Json → Prop) : Members α → JMembers → Prop
  | .nil, j => j = .nil
  | .cons k e es, j => ∃ a b, e.Means M a ∧ es.Means M b ∧ j = .cons k a b
end

mutual
/-- Every leaf satisfies `P`. -/
def Doc.All (P : α → Prop) : Doc α → Prop
  | .leaf a => P a
  | .arr es => es.All P
  | .obj ms => ms.All P

def Docs.All (P : α → Prop) : Docs α → Prop
  | .nil => True
  | .cons e es => e.All P ∧ es.All P

def Members.All (P : α → Prop) : Members α → Prop
  | .nil => True
  | .cons _ e es => e.All P ∧ es.All P
end
end

end Lexi.Spec
