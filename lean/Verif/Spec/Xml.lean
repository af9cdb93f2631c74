/-!
# Specification: attribute values and character data of XML

Independent of the model: XML 1.0 (fifth edition) 2.2, 2.4, 2.11, 3.3.3 and 4.1, on UTF-8 bytes.  Only the five predefined entities
are known; references by number are outside this reader (`none`), and so are ill-formed UTF-8 and the code points U+FFFE and U+FFFF.
Used by C122.
-/

namespace Lexi.Spec

/-- A reference behind its `&`: the byte it stands for and what is behind its semicolon. -/
def xmlRef : List UInt8 → Option (UInt8 × List UInt8)
  | 108 :: 116 :: 59 :: t => some (60, t)                  -- lt
  | 103 :: 116 :: 59 :: t => some (62, t)                  -- gt
  | 97 :: 109 :: 112 :: 59 :: t => some (38, t)            -- amp
  | 113 :: 117 :: 111 :: 116 :: 59 :: t => some (34, t)    -- quot
  | 97 :: 112 :: 111 :: 115 :: 59 :: t => some (39, t)     -- apos
  | _ => none

/-- Attribute value behind its opening quote `q`: the normalised value and what is behind the closing quote.  Line ends and tabs
become spaces.  `n` bounds the number of steps. -/
def xmlAttrN (q : UInt8) : Nat → List UInt8 → Option (List UInt8 × List UInt8)
  | 0, _ => none
  | _, [] => none
  | n + 1, b :: t =>
    if b = q then some ([], t)
    else if b = 60 then none
    else if b = 38 then (xmlRef t).bind fun x => (xmlAttrN q n x.2).map fun p => (x.1 :: p.1, p.2)
    else if b = 13 ∧ t.head? = some 10 then (xmlAttrN q n t.tail).map fun p => (32 :: p.1, p.2)
    else if b = 9 ∨ b = 10 ∨ b = 13 then (xmlAttrN q n t).map fun p => (32 :: p.1, p.2)
    else if b < 32 then none
    else (xmlAttrN q n t).map fun p => (b :: p.1, p.2)

/-- Attribute value behind its opening quote. -/
def xmlAttr (q : UInt8) (t : List UInt8) : Option (List UInt8 × List UInt8) := xmlAttrN q t.length t

/-- Character data up to the next `<`: its value, and what follows from the `<` on.  Line ends become line feeds; `]]>` is refused. -/
def xmlTextN : Nat → List UInt8 → Option (List UInt8 × List UInt8)
  | 0, _ => none
  | _, [] => none
  | n + 1, b :: t =>
    if b = 60 then some ([], b :: t)
    else if [93, 93, 62] <+: b :: t then none
    else if b = 38 then (xmlRef t).bind fun x => (xmlTextN n x.2).map fun p => (x.1 :: p.1, p.2)
    else if b = 13 ∧ t.head? = some 10 then (xmlTextN n t.tail).map fun p => (10 :: p.1, p.2)
    else if b = 13 then (xmlTextN n t).map fun p => (10 :: p.1, p.2)
    else if b < 32 ∧ b ≠ 9 ∧ b ≠ 10 then none
    else (xmlTextN n t).map fun p => (b :: p.1, p.2)

/-- Character data. -/
def xmlText (t : List UInt8) : Option (List UInt8 × List UInt8) := xmlTextN t.length t

end Lexi.Spec
