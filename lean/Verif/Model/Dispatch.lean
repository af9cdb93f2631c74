import Verif.Spec.Types

/-!
# Overload selection

The traits of `include/lexi/detail/type.hpp` and the overload sets of `include/lexi/lexi.hpp`.  The standard traits they
use (`remove_cv`, `decay`, `is_same`, `is_enum`, `is_base_of`) and template argument deduction for a by-value parameter are
those of C++14 ([meta.trans], [temp.deduct.call]).  Ranking between `lexi`'s overloads by conversion is in `Overload`.
-/

namespace Lexi.Dispatch
open Spec

/-- `std::remove_cv`; on an array it acts on the elements. -/
def removeCv : Ty → Ty
  | .base _ _ b => .base false false b
  | .ptr _ _ t => .ptr false false t
  | .memptr _ _ i => .memptr false false i
  | .arr n t => .arr n (removeCv t)
  | t => t

/-- `std::remove_reference`. -/
def removeRef : Ty → Ty
  | .ref _ t => t
  | t => t

/-- `std::decay`; also the deduced `T` of a parameter `const T t` given an expression of the type. -/
def decay (t : Ty) : Ty :=
  match removeRef t with
  | .arr _ e => .ptr false false e
  | .func i => .ptr false false (.func i)
  | u => removeCv u

/-- `is_null_pointer`, include/lexi/detail/type.hpp:22-24. -/
def isNullPointer (t : Ty) : Bool := removeCv t = .base false false .nullptr

/-- `is_bool`, include/lexi/detail/type.hpp:26-28. -/
def isBool (t : Ty) : Bool := removeCv t = .base false false .bool

/-- `is_char`, include/lexi/detail/type.hpp:30-32. -/
def isChar (t : Ty) : Bool := removeCv t = .base false false .char

/-- `is_integer`, include/lexi/detail/type.hpp:38-80: explicit specialisations for unqualified types only. -/
def isInteger : Ty → Bool
  | .base false false .schar => true
  | .base false false .uchar => true
  | .base false false .short => true
  | .base false false .ushort => true
  | .base false false .int => true
  | .base false false .uint => true
  | .base false false .long => true
  | .base false false .ulong => true
  | .base false false .llong => true
  | .base false false .ullong => true
  | _ => false

/-- `is_float`, include/lexi/detail/type.hpp:82-96: explicit specialisations for unqualified types only. -/
def isFloat : Ty → Bool
  | .base false false .float => true
  | .base false false .double => true
  | .base false false .ldouble => true
  | _ => false

/-- `is_enum_v`, include/lexi/detail/type.hpp:138-139: `std::is_enum`, blind to qualifiers. -/
def isEnum : Ty → Bool
  | .base _ _ (.enum _) => true
  | _ => false

/-- `is_fpos`, include/lexi/detail/type.hpp:110-116: partial specialisation for unqualified `std::fpos<T>`. -/
def isFpos : Ty → Bool
  | .base false false (.fpos _) => true
  | _ => false

/-- `is_std_string`, include/lexi/detail/type.hpp:98-100: `std::is_base_of<std::string, T>`, blind to qualifiers. -/
def isStdString : Ty → Bool
  | .base _ _ .string => true
  | .base _ _ (.derived _) => true
  | _ => false

/-- `is_string_literal`, include/lexi/detail/type.hpp:102-104. -/
def isStringLiteral (t : Ty) : Bool := removeCv (decay t) = .ptr false false (.base false false .char)

/-- `is_cstr`, include/lexi/detail/type.hpp:106-108. -/
def isCstr (t : Ty) : Bool := removeCv (decay t) = .ptr false false (.base true false .char)

/-- `is_string_v`, include/lexi/detail/type.hpp:168-169. -/
def isString (t : Ty) : Bool := isStdString t || isCstr t || isStringLiteral t

/-- The condition of each overload, include/lexi/lexi.hpp:30-77 and 86-134 (the same seven conditions in both). -/
def enabled (t : Ty) : Kind → Bool
  | .null => isNullPointer t
  | .bool => isBool t
  | .char => isChar t
  | .int => isInteger t
  | .float => isFloat t
  | .enum => isEnum t
  | .fpos => isFpos t

/-- The overloads in source order. -/
def overloads : List Kind := [.null, .bool, .char, .int, .float, .enum, .fpos]

/-- The `Format::operator()` overloads viable for an argument of the type, include/lexi/lexi.hpp:28-78. -/
def formatOverloads (t : Ty) : List Kind := overloads.filter (enabled (decay t))

/-- The `Extract<T>::operator()` overloads that exist, include/lexi/lexi.hpp:83-135. -/
def extractOverloads (t : Ty) : List Kind := overloads.filter (enabled t)

/-- `lexi`, `string`, `escape` and `jsonify` of a `const T &`: the overloads enabled, include/lexi/lexi.hpp:162-230;
`false` is the value path (through `Format`), `true` the string path. -/
def pathOverloads (t : Ty) : List Bool := [false, true].filter (fun s => isString t == s)

/-- `lexi<T>(text)`, include/lexi/lexi.hpp:144-157: the extraction overloads, absent for string types. -/
def lexiOverloads (t : Ty) : List Kind := if isString t then [] else extractOverloads t

end Lexi.Dispatch
