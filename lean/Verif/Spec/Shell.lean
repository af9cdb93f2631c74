import Verif.Spec.Escape

/-!
# Specification: how other programs read a backslash

Independent of the model: the words of a POSIX shell command line (XCU 2.2, 2.3, 2.6) and the literal part of a
Perl-compatible regular expression (pcrepattern(3)), on bytes.
-/

namespace Lexi.Spec

/-- Bytes with a meaning of their own in an unquoted shell word: those of POSIX XCU 2.2, and `! ] ^ { }`, which
common shells add.  NUL is here because no word can have one. -/
def shSpecial : List UInt8 :=
  0 :: "|&;<>()$`\\\"' \t\n*?[#~=%!]^{}".toList.map (fun c => UInt8.ofNat c.toNat)

/-- The words of a command line without quotes, expansions and operators.  `cur` is the word being read.  A
backslash keeps the literal value of the next character, except that backslash and newline are removed; blanks
end a word; any other special byte is outside this reader (`none`). -/
def shWords : Option (List UInt8) → List UInt8 → Option (List (List UInt8))
  | cur, [] => some cur.toList
  | cur, b :: t =>
    if b = 92 then
      match t with
      | [] => none
      | c :: t =>
        if c = 10 then shWords cur t
        else if c = 0 then none
        else shWords (some (cur.getD [] ++ [c])) t
    else if b = 32 ∨ b = 9 then (shWords none t).map (cur.toList ++ ·)
    else if b ∈ shSpecial then none
    else shWords (some (cur.getD [] ++ [b])) t

/-- The words of a whole command line. -/
def shellWords (t : List UInt8) : Option (List (List UInt8)) := shWords none t

/-- One item of a regular expression: a byte that matches itself, or `.`. -/
inductive RxItem
  | lit (b : UInt8)
  | dot
  deriving DecidableEq

/-- What an item matches (no newline for `.`). -/
def RxItem.Matches : RxItem → UInt8 → Prop
  | .lit b, c => c = b
  | .dot, c => c ≠ 10

/-- Bytes other than backslash and `.` that are not literal outside a bracket expression. -/
def rxSpecial : List UInt8 := "^$*+?()[{|".toList.map (fun c => UInt8.ofNat c.toNat)

/-- The items of an expression made of literal bytes, escaped bytes and dots.  A backslash before a byte that is no
letter or digit makes it literal; before a letter or digit it has another meaning (`none`). -/
def rxItems : List UInt8 → Option (List RxItem)
  | [] => some []
  | b :: t =>
    if b = 92 then
      match t with
      | [] => none
      | c :: t => if IsAlnum c then none else (rxItems t).map (.lit c :: ·)
    else if b = 46 then (rxItems t).map (.dot :: ·)
    else if b ∈ rxSpecial then none
    else (rxItems t).map (.lit b :: ·)

/-- The whole text `t` is matched by the items. -/
def RxMatches : List RxItem → List UInt8 → Prop
  | [], [] => True
  | r :: rs, b :: t => r.Matches b ∧ RxMatches rs t
  | _, _ => False

end Lexi.Spec
