import Verif.Model.Dispatch
import Verif.Model.IntFmt

/-!
# Overload resolution by conversion

Which of the four functions named `lexi` (include/lexi/lexi.hpp:144-174) a call `lexi<T>(e)` selects, and which constructor
or conversion function the bodies of `Format` and `Extract` (include/lexi/lexi.hpp:28-135) use.  The rules are those of C++14
[over.match.best], [over.ics.rank], [conv.prom]; expressions of class type other than `std::string`, classes derived from it
and `std::fpos` are left out (their converting functions can be anything).
-/

namespace Lexi.Overload
open Spec Dispatch

/-- What the standard leaves to the implementation and the program: the character types, `long`, which enumerations are scoped,
and to which types unscoped ones promote ([conv.prom]/3-4). -/
structure Abi where
  charSigned : Bool
  longIs64 : Bool
  wcharSigned : Bool
  wcharIs32 : Bool
  scopedEnum : Nat → Bool
  enumPromotes : Nat → List Base

/-- Rank of an implicit conversion, best first; `boolean` is a conversion of a pointer to `bool`, which loses against other
conversions ([over.ics.rank]/4). -/
inductive Rank | exact | promotion | conversion | boolean | user
  deriving DecidableEq

/-- Position in the ranking. -/
def Rank.level : Rank → Nat
  | .exact => 0 | .promotion => 1 | .conversion => 2 | .boolean => 3 | .user => 4

/-- Least and greatest value of an `n`-bit integer type. -/
def range (signed : Bool) (n : Nat) : Int × Int := if signed then (-2 ^ (n - 1), 2 ^ (n - 1) - 1) else (0, 2 ^ n - 1)

/-- Values of the integral types. -/
def Abi.range (abi : Abi) : Base → Option (Int × Int)
  | .bool => some (Overload.range false 1)
  | .char => some (Overload.range abi.charSigned 8)
  | .schar => some (Overload.range true 8)
  | .uchar => some (Overload.range false 8)
  | .wchar => some (Overload.range abi.wcharSigned (if abi.wcharIs32 then 32 else 16))
  | .char16 => some (Overload.range false 16)
  | .char32 => some (Overload.range false 32)
  | .short => some (Overload.range true 16)
  | .ushort => some (Overload.range false 16)
  | .int => some (Overload.range true 32)
  | .uint => some (Overload.range false 32)
  | .long => some (Overload.range true (if abi.longIs64 then 64 else 32))
  | .ulong => some (Overload.range false (if abi.longIs64 then 64 else 32))
  | .llong => some (Overload.range true 64)
  | .ullong => some (Overload.range false 64)
  | _ => none

/-- All values of the integral type `a` are values of the integral type `b`. -/
def Abi.represents (abi : Abi) (b a : Base) : Bool :=
  match abi.range a, abi.range b with
  | some (l, h), some (l', h') => l' ≤ l && h ≤ h'
  | _, _ => false

/-- Integral and floating promotions, [conv.prom], [conv.fpprom]. -/
def Abi.promotesTo (abi : Abi) : Base → List Base
  | .bool => [.int]
  | .char => [if abi.represents .int .char then .int else .uint]
  | .schar => [if abi.represents .int .schar then .int else .uint]
  | .uchar => [if abi.represents .int .uchar then .int else .uint]
  | .short => [if abi.represents .int .short then .int else .uint]
  | .ushort => [if abi.represents .int .ushort then .int else .uint]
  | .wchar => ([.int, .uint, .long, .ulong, .llong, .ullong].find? (abi.represents · .wchar)).toList
  | .char16 => ([.int, .uint, .long, .ulong, .llong, .ullong].find? (abi.represents · .char16)).toList
  | .char32 => ([.int, .uint, .long, .ulong, .llong, .ullong].find? (abi.represents · .char32)).toList
  | .float => [.double]
  | .enum i => if abi.scopedEnum i then [] else abi.enumPromotes i
  | _ => []

/-- Arithmetic types. -/
def arithmetic : Base → Bool
  | .void | .nullptr | .enum _ | .fpos _ | .string | .derived _ | .cls _ => false
  | _ => true

/-- Types whose values convert implicitly to every arithmetic type. -/
def Abi.convertible (abi : Abi) : Base → Bool
  | .enum i => !abi.scopedEnum i
  | b => arithmetic b

/-- Standard conversions between fundamental types and enumerations. -/
def Abi.standard (abi : Abi) (a b : Base) : Option Rank :=
  if a = b then some .exact
  else if b ∈ abi.promotesTo a then some .promotion
  else if abi.convertible a && arithmetic b then some .conversion
  else none

/-- An argument: an integer literal `0` of a type, or any other expression of a type. -/
inductive Expr
  | zero (b : Base)
  | of (t : Ty)
  deriving DecidableEq

/-- `char *`, `const char *` and arrays of those. -/
def isCharPointer : Ty → Bool
  | .ptr _ _ (.base _ false .char) => true
  | .arr _ (.base _ false .char) => true
  | _ => false

/-- Conversion of the argument to `const std::string &`, include/lexi/lexi.hpp:145. -/
def icsString : Expr → Option Rank
  | .zero _ => some .user
  | .of t => match t.noRef with
    | .base _ v .string => if v then none else some .exact
    | .base _ v (.derived _) => if v then none else some .conversion
    | .base _ _ .nullptr => some .user
    | t => if isCharPointer t then some .user else none

/-- Conversion of the argument to `const char *`, include/lexi/lexi.hpp:154. -/
def icsPointer : Expr → Option Rank
  | .zero _ => some .conversion
  | .of t => match t.noRef with
    | .base _ _ .nullptr => some .conversion
    | t => if isCharPointer t then some .exact else none

/-- Conversion of an expression of a fundamental, enumeration or class type to `const T &` with `T` of that sort: standard
conversions; `std::fpos` from and to `std::streamoff` by its constructor and conversion function.  `const T &` does not bind
to a volatile `T` ([dcl.init.ref]/5). -/
def Abi.icsBase (abi : Abi) (v : Bool) (a b : Base) : Option Rank :=
  if a = b then (if v then none else some .exact)
  else match a, b with
    | .fpos _, b => if !v && arithmetic b then some .user else none
    | a, .fpos _ => if abi.convertible a then some .user else none
    | a, b => abi.standard a b

/-- Conversion of the argument to `const T &`, include/lexi/lexi.hpp:163; pointers of all kinds convert to `bool` only. -/
def Abi.icsValue (abi : Abi) (b : Base) : Expr → Option Rank
  | .zero a => if b = .nullptr then some .conversion else abi.icsBase false a b
  | .of t => match t.noRef with
    | .base _ v a => abi.icsBase v a b
    | .ref _ _ => none
    | _ => if b = .bool then some .boolean else none

/-- The functions named `lexi`, include/lexi/lexi.hpp:144-175. -/
inductive Fn
  /-- `T lexi(const std::string &)`, :144-148 -/
  | text
  /-- `T lexi(const char *)`, :153-157 -/
  | pointer
  /-- `std::string lexi(const T &)` through `Format`, :162-166 -/
  | value
  /-- `std::string lexi(const T &)` for string types, :171-175 -/
  | same
  deriving DecidableEq

/-- The viable functions of a call `lexi<T>(e)`, `T` an unqualified fundamental, enumeration or class type. -/
def Abi.viable (abi : Abi) (b : Base) (e : Expr) : List (Fn × Rank) :=
  if isString (.base false false b) then
    (match b with
      | .string => (icsString e).toList.map (.same, ·)
      | b => (abi.icsValue b e).toList.map (.same, ·))
  else (icsString e).toList.map (.text, ·) ++ (icsPointer e).toList.map (.pointer, ·) ++
    (abi.icsValue b e).toList.map (.value, ·)

/-- The candidates no other one beats. -/
def best {α : Type} (l : List (α × Rank)) : List α :=
  (l.filter fun c => l.all fun d => c.2.level ≤ d.2.level).map (·.1)

/-- Outcome of overload resolution. -/
inductive Result
  | calls (f : Fn) | ambiguous | noMatch
  deriving DecidableEq

/-- Overload resolution for `lexi<T>(e)`.  `ordered`: whether the implementation's partial ordering of templates prefers the
functions whose parameter does not depend on `T` ([temp.func.order]; the wording changed with CWG 1391). -/
def Abi.resolve (abi : Abi) (ordered : Bool) (b : Base) (e : Expr) : Result :=
  match best (abi.viable b e) with
  | [] => .noMatch
  | [f] => .calls f
  | fs => if ordered then (match fs.filter (· ≠ .value) with | [f] => .calls f | _ => .ambiguous) else .ambiguous

/-! ## Constructors and conversion functions -/

/-- The parameter types of the constructors of the formatter classes, include/lexi/null.hpp:28, bool.hpp:28, char.hpp:27-28,
int.hpp:29-38, float.hpp:31-33.  Copy and move constructors need a user-defined conversion and always lose. -/
def constructors : Kind → List Base
  | .null => [.nullptr]
  | .bool => [.bool]
  | .char => [.char, .uchar]
  | .float => [.float, .double, .ldouble]
  | .int | .enum | .fpos => [.schar, .uchar, .short, .ushort, .int, .uint, .long, .ulong, .llong, .ullong]

/-- The constructors that are best for an argument of type `a`. -/
def Abi.construct (abi : Abi) (k : Kind) (a : Base) : List Base :=
  best ((constructors k).filterMap fun b => (abi.standard a b).map (b, ·))

/-- The types the conversion functions of the extractor classes yield, include/lexi/bool.hpp:56, char.hpp:56-57, int.hpp:66-75,
float.hpp:61-63; `ExtractNull(string).null()` counts as a conversion. -/
def conversions : Kind → List Base
  | .null => [.nullptr]
  | .bool => [.bool]
  | .char => [.char, .uchar]
  | .float => [.float, .double, .ldouble]
  | .int | .fpos => [.schar, .uchar, .short, .ushort, .int, .uint, .long, .ulong, .llong, .ullong]
  | .enum => []

/-- The conversion functions `T(extractor)` can use: they are explicit, so only those that yield `T` itself
([over.match.conv]/1).  For enumerations `operator Enum` is a template that yields every type. -/
def convert (k : Kind) (b : Base) : List Base :=
  if k = .enum then [b] else (conversions k).filter (· = b)

end Lexi.Overload
