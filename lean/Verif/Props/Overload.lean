import Verif.Model.Overload
import Verif.Props.Dispatch
import Verif.Props.Int

/-!
# Overload resolution: C75, C76
-/

namespace Lexi
open _root_.Spec Dispatch Overload

/-! ## C75 -/

theorem kind_not_string {b : Base} {k : Kind} (h : b.kind = some k) : isString (.base false false b) = false := by
  cases b <;> first | rfl | simp [Base.kind] at h

theorem supported_no_match {abi : Abi} {a b : Base} {k : Kind} (h : b.kind = some k)
    (ha : a = .string ∨ ∃ id, a = .derived id) (v : Bool) : abi.icsBase v a b = none := by
  rcases ha with rfl | ⟨id, rfl⟩ <;> cases b <;>
    simp_all [Base.kind, Abi.icsBase, Abi.standard, Abi.promotesTo, Abi.convertible, arithmetic]

/-- C75.  Text is read: `lexi<T>(text)` of every supported `T` selects one of the two reading functions, for every way of passing
text, whatever `T` converts from and however ties would be broken. -/
theorem C75_text (abi : Abi) (ordered : Bool) (b : Base) (k : Kind) (h : b.kind = some k) (t : Ty) (ht : t.ReadableText) :
    abi.resolve ordered b (.of t) = .calls .text ∨ abi.resolve ordered b (.of t) = .calls .pointer := by
  have hs := kind_not_string h
  unfold Abi.resolve Abi.viable
  simp only [hs, Bool.false_eq_true, if_false]
  unfold icsString icsPointer Abi.icsValue
  rcases ht with ⟨c, ht | ⟨id, ht⟩⟩ | ⟨c, c', v', ht⟩ | ⟨c, n, ht⟩ <;> simp only [ht]
  · left
    rw [supported_no_match h (Or.inl rfl)]
    rfl
  · left
    rw [supported_no_match h (Or.inr ⟨id, rfl⟩)]
    rfl
  · right
    by_cases hb : b = .bool <;> simp [hb, isCharPointer, best, Rank.level]
  · right
    by_cases hb : b = .bool <;> simp [hb, isCharPointer, best, Rank.level]

/-- C75.  Values are formatted: `lexi<T>(x)` of an `x` of type `T` selects the formatting function, also for `nullptr` and
the literal zero. -/
theorem C75_value (abi : Abi) (ordered : Bool) (b : Base) (k : Kind) (h : b.kind = some k) :
    (∀ t c, t.noRef = .base c false b → abi.resolve ordered b (.of t) = .calls .value) ∧
    (k = .int → abi.resolve ordered b (.zero b) = .calls .value) := by
  have hs := kind_not_string h
  refine ⟨fun t c ht => ?_, fun hk => ?_⟩
  · unfold Abi.resolve Abi.viable
    simp only [hs, Bool.false_eq_true, if_false]
    unfold icsString icsPointer Abi.icsValue
    simp only [ht]
    cases b <;> first | (simp [Base.kind] at h; done) | (simp [isCharPointer, Abi.icsBase, best, Rank.level])
  · unfold Abi.resolve Abi.viable
    simp only [hs, Bool.false_eq_true, if_false]
    have hn : b ≠ .nullptr := by rintro rfl; rw [Base.kind] at h; cases h; cases hk
    simp [icsString, icsPointer, Abi.icsValue, hn, Abi.icsBase, best, Rank.level]

/-- C75.  A number of another arithmetic or unscoped enumeration type is converted to `T` and formatted. -/
theorem C75_converted (abi : Abi) (ordered : Bool) (b : Base) (k : Kind) (h : b.kind = some k) (hk : k.Arithmetic)
    (t : Ty) (c v : Bool) (a : Base) (ht : t.noRef = .base c v a) (hne : a ≠ b) (ha : abi.convertible a = true) :
    abi.resolve ordered b (.of t) = .calls .value := by
  have hs := kind_not_string h
  have hb : arithmetic b = true ∧ ∀ s, b ≠ .fpos s := by
    rcases hk with rfl | rfl | rfl | rfl <;> cases b <;> simp_all [Base.kind, arithmetic]
  have ha' : (∀ s, a ≠ .fpos s) ∧ a ≠ .string ∧ (∀ i, a ≠ .derived i) ∧ a ≠ .nullptr := by
    cases a <;> simp_all [Abi.convertible, arithmetic]
  have h1 : ∃ r, abi.icsBase v a b = some r := by
    have e : abi.icsBase v a b = abi.standard a b := by
      unfold Abi.icsBase
      rw [if_neg hne]
      split
      · exact absurd rfl (ha'.1 _)
      · exact absurd rfl (hb.2 _)
      · rfl
    rw [e, Abi.standard, if_neg hne]
    split
    · exact ⟨_, rfl⟩
    · rw [ha, hb.1]; exact ⟨_, rfl⟩
  obtain ⟨r, hr⟩ := h1
  have h2 : icsString (.of t) = none := by
    unfold icsString
    simp only [ht]
    cases a <;> simp_all [isCharPointer]
  have h3 : icsPointer (.of t) = none := by
    unfold icsPointer
    simp only [ht]
    cases a <;> simp_all [isCharPointer]
  unfold Abi.resolve Abi.viable
  simp only [hs, Bool.false_eq_true, if_false, h2, h3, Abi.icsValue, ht, hr]
  simp [best]

/-- C75.  `lexi<T>(nullptr)` of any other supported type selects reading from a pointer: a null pointer, from which making a
`std::string` is undefined. -/
theorem C75_nullptr (abi : Abi) (ordered : Bool) (b : Base) (k : Kind) (h : b.kind = some k) (hb : b ≠ .nullptr)
    (t : Ty) (c v : Bool) (ht : t.noRef = .base c v .nullptr) : abi.resolve ordered b (.of t) = .calls .pointer := by
  have hs := kind_not_string h
  unfold Abi.resolve Abi.viable
  simp only [hs, Bool.false_eq_true, if_false]
  unfold icsString icsPointer Abi.icsValue
  simp only [ht]
  cases b <;> first
    | (simp [Base.kind] at h; done)
    | (exact absurd rfl hb)
    | (simp [Abi.icsBase, Abi.standard, Abi.promotesTo, Abi.convertible, arithmetic, best, Rank.level])

/-- C75.  A literal zero whose type is not `T` is never formatted: for enumerations and stream positions it is read from as a
null pointer, for the other types the call is ambiguous or, where partial ordering applies, also reads from a null pointer. -/
theorem C75_zero (abi : Abi) (ordered : Bool) (b : Base) (k : Kind) (h : b.kind = some k) (a : Base) (ha : a.OfLiteral)
    (hne : a ≠ b) :
    abi.resolve ordered b (.zero a) = if k = .enum ∨ k = .fpos ∨ ordered then .calls .pointer else .ambiguous := by
  have hs := kind_not_string h
  unfold Abi.resolve Abi.viable
  simp only [hs, Bool.false_eq_true, if_false]
  rcases ha with rfl | rfl | rfl | rfl | rfl | rfl <;> cases b <;> first
    | (simp [Base.kind] at h; done)
    | (exact absurd rfl hne)
    | (rw [Base.kind] at h; cases h; cases ordered <;>
        simp [icsString, icsPointer, Abi.icsValue, Abi.icsBase, Abi.standard, Abi.promotesTo, Abi.convertible, arithmetic, best,
          Rank.level])

/-- C75.  A pointer, array or function that is not text: as `bool` it is formatted as a truth value, with every other type the
call is rejected. -/
theorem C75_pointer (abi : Abi) (ordered : Bool) (b : Base) (k : Kind) (h : b.kind = some k) (t : Ty)
    (ht : ∀ c v a, t.noRef ≠ .base c v a) (hr : ∀ r u, t.noRef ≠ .ref r u) (hn : ¬ t.ReadableText) :
    abi.resolve ordered b (.of t) = if b = .bool then .calls .value else .noMatch := by
  have hs := kind_not_string h
  have hc : isCharPointer t.noRef = false := by
    unfold isCharPointer
    split
    · rename_i c' v' c he; exact absurd (Or.inr (Or.inl ⟨c, c', v', he⟩)) hn
    · rename_i n c he; exact absurd (Or.inr (Or.inr ⟨c, n, he⟩)) hn
    · rfl
  unfold Abi.resolve Abi.viable
  simp only [hs, Bool.false_eq_true, if_false]
  have h2 : icsString (.of t) = none := by
    unfold icsString
    cases e : t.noRef with
    | base c v a => exact absurd e (ht c v a)
    | _ => rw [e] at hc; simp [e, hc]
  have h3 : icsPointer (.of t) = none := by
    unfold icsPointer
    cases e : t.noRef with
    | base c v a => exact absurd e (ht c v a)
    | _ => rw [e] at hc; simp [e, hc]
  have h4 : abi.icsValue b (.of t) = if b = .bool then some .boolean else none := by
    unfold Abi.icsValue
    cases e : t.noRef with
    | base c v a => exact absurd e (ht c v a)
    | ref r u => exact absurd e (hr r u)
    | _ => simp [e]
  rw [h2, h3, h4]
  by_cases hb : b = .bool <;> simp [hb, best]

/-- C75.  Volatile objects: a volatile `T` is not formatted and a volatile string is not read; the call is rejected. -/
theorem C75_volatile (abi : Abi) (ordered : Bool) (b : Base) (k : Kind) (h : b.kind = some k) (t : Ty) (c : Bool) :
    (b ≠ .nullptr → t.noRef = .base c true b → abi.resolve ordered b (.of t) = .noMatch) ∧
    (t.noRef = .base c true .string ∨ (∃ i, t.noRef = .base c true (.derived i)) →
      abi.resolve ordered b (.of t) = .noMatch) := by
  have hs := kind_not_string h
  unfold Abi.resolve Abi.viable
  simp only [hs, Bool.false_eq_true, if_false]
  unfold icsString icsPointer Abi.icsValue
  constructor
  · intro hb ht
    simp only [ht]
    cases b <;> first
      | (simp [Base.kind] at h; done)
      | (exact absurd rfl hb)
      | (simp [isCharPointer, Abi.icsBase, best])
  · rintro (ht | ⟨i, ht⟩)
    · simp only [ht]
      rw [supported_no_match h (Or.inl rfl)]
      simp [isCharPointer, best]
    · simp only [ht]
      rw [supported_no_match h (Or.inr ⟨i, rfl⟩)]
      simp [isCharPointer, best]

/-- C75.  With `T` = `std::string` text is passed through. -/
theorem C75_string (abi : Abi) (ordered : Bool) (t : Ty) (ht : t.ReadableText) :
    abi.resolve ordered .string (.of t) = .calls .same := by
  have hs : isString (.base false false .string) = true := rfl
  unfold Abi.resolve Abi.viable
  simp only [hs, if_true]
  unfold icsString
  rcases ht with ⟨c, ht | ⟨id, ht⟩⟩ | ⟨c, c', v', ht⟩ | ⟨c, n, ht⟩ <;> simp [ht, isCharPointer, best]

/-! ## C76 -/

/-- The enumerations do not matter for other types. -/
theorem construct_plain (abi : Abi) (k : Kind) (a : Base) (ha : ∀ i, a ≠ .enum i) :
    abi.construct k a = (⟨abi.charSigned, abi.longIs64, abi.wcharSigned, abi.wcharIs32, fun _ => true, fun _ => []⟩ :
      Abi).construct k a := by
  have h : ∀ b, abi.standard a b = (⟨abi.charSigned, abi.longIs64, abi.wcharSigned, abi.wcharIs32, fun _ => true,
      fun _ => []⟩ : Abi).standard a b := by
    intro b
    cases a <;> first | (exact absurd rfl (ha _)) | rfl
  unfold Abi.construct
  congr 2
  funext b
  rw [h]

theorem represents_plain (abi : Abi) (a b : Base) :
    abi.represents b a = (⟨abi.charSigned, abi.longIs64, abi.wcharSigned, abi.wcharIs32, fun _ => true, fun _ => []⟩ :
      Abi).represents b a := by
  have h : ∀ b, abi.range b = (⟨abi.charSigned, abi.longIs64, abi.wcharSigned, abi.wcharIs32, fun _ => true, fun _ => []⟩ :
      Abi).range b := fun b => by cases b <;> rfl
  unfold Abi.represents
  rw [h, h]

/-- The integral types an enumeration can have as underlying type. -/
def integral : List Base := [.bool, .char, .schar, .uchar, .wchar, .char16, .char32, .short, .ushort, .int, .uint, .long,
  .ulong, .llong, .ullong]

/-- The type an integral type is printed as: `unsignedWide` where `wchar_t` is an unsigned 32-bit type. -/
def printedAs (unsignedWide : Bool) : Base → Base
  | .bool | .char | .char16 => .int
  | .char32 => .uint
  | .wchar => if unsignedWide then .uint else .int
  | a => a

/-- The best constructors of `FormatInt`. -/
theorem construct_table (abi : Abi) (a : Base) (ha : a ∈ integral) :
    abi.construct .enum a = [printedAs (!abi.wcharSigned && abi.wcharIs32) a] ∧
    ∀ b, abi.construct .enum a = [b] → abi.represents b a = true := by
  have h : ∀ c l s w : Bool, ∀ a ∈ integral,
      (⟨c, l, s, w, fun _ => true, fun _ => []⟩ : Abi).construct .enum a = [printedAs (!s && w) a] ∧
      (⟨c, l, s, w, fun _ => true, fun _ => []⟩ : Abi).represents (printedAs (!s && w) a) a = true := by decide +kernel
  have he : ∀ i, a ≠ .enum i := by rintro i rfl; simp [integral] at ha
  obtain ⟨h1, h2⟩ := h abi.charSigned abi.longIs64 abi.wcharSigned abi.wcharIs32 a ha
  rw [construct_plain abi _ a he]
  refine ⟨h1, fun b hb => ?_⟩
  rw [h1] at hb
  rw [represents_plain]
  injection hb with hb
  rw [← hb]
  exact h2

/-- C76.  The constructor of the formatter class for every supported type that is not an enumeration or a stream position is the
one for that very type. -/
theorem C76_constructor (abi : Abi) (b : Base) (k : Kind) (h : b.kind = some k) (hk : k ≠ .enum ∧ k ≠ .fpos) :
    abi.construct k b = [b] := by
  have he : ∀ i, b ≠ .enum i := by
    rintro i rfl
    rw [Base.kind] at h; cases h; exact hk.1 rfl
  rw [construct_plain abi k b he]
  have t : ∀ c l s w : Bool, ∀ x ∈ [(Base.nullptr, Kind.null), (.bool, .bool), (.char, .char), (.schar, .int), (.uchar, .int),
      (.short, .int), (.ushort, .int), (.int, .int), (.uint, .int), (.long, .int), (.ulong, .int), (.llong, .int),
      (.ullong, .int), (.float, .float), (.double, .float), (.ldouble, .float)],
      (⟨c, l, s, w, fun _ => true, fun _ => []⟩ : Abi).construct x.2 x.1 = [x.1] := by decide +kernel
  refine t _ _ _ _ (b, k) ?_
  cases b <;> first
    | (simp [Base.kind] at h; done)
    | (rw [Base.kind] at h; cases h; first | exact absurd rfl hk.1 | exact absurd rfl hk.2 | simp)

/-- The values of the integral types, as C++14 [basic.fundamental] and the platforms have them. -/
def HasValue (abi : Abi) : Base → Int → Prop
  | .bool, z => z = 0 ∨ z = 1
  | .char, z => if abi.charSigned then -128 ≤ z ∧ z ≤ 127 else 0 ≤ z ∧ z ≤ 255
  | .schar, z => -128 ≤ z ∧ z ≤ 127
  | .uchar, z => 0 ≤ z ∧ z ≤ 255
  | .wchar, z =>
    if abi.wcharIs32 then
      (if abi.wcharSigned then -2147483648 ≤ z ∧ z ≤ 2147483647 else 0 ≤ z ∧ z ≤ 4294967295)
    else (if abi.wcharSigned then -32768 ≤ z ∧ z ≤ 32767 else 0 ≤ z ∧ z ≤ 65535)
  | .char16, z => 0 ≤ z ∧ z ≤ 65535
  | .char32, z => 0 ≤ z ∧ z ≤ 4294967295
  | .short, z => -32768 ≤ z ∧ z ≤ 32767
  | .ushort, z => 0 ≤ z ∧ z ≤ 65535
  | .int, z => -2147483648 ≤ z ∧ z ≤ 2147483647
  | .uint, z => 0 ≤ z ∧ z ≤ 4294967295
  | .long, z =>
    if abi.longIs64 then -9223372036854775808 ≤ z ∧ z ≤ 9223372036854775807 else -2147483648 ≤ z ∧ z ≤ 2147483647
  | .ulong, z => if abi.longIs64 then 0 ≤ z ∧ z ≤ 18446744073709551615 else 0 ≤ z ∧ z ≤ 4294967295
  | .llong, z => -9223372036854775808 ≤ z ∧ z ≤ 9223372036854775807
  | .ullong, z => 0 ≤ z ∧ z ≤ 18446744073709551615
  | _, _ => False

/-- The ranges of the model are these values. -/
theorem C76_range (abi : Abi) (a : Base) (l h : Int) (hr : abi.range a = some (l, h)) (z : Int) :
    HasValue abi a z ↔ l ≤ z ∧ z ≤ h := by
  obtain ⟨c, lo, s, w, sc, ep⟩ := abi
  cases c <;> cases lo <;> cases s <;> cases w <;> cases a <;> first
    | (simp [Abi.range] at hr; done)
    | (simp [Abi.range, Overload.range] at hr; obtain ⟨rfl, rfl⟩ := hr; simp [HasValue]; done)
    | (simp [Abi.range, Overload.range] at hr; obtain ⟨rfl, rfl⟩ := hr; simp [HasValue]; omega)

/-- C76.  `int` is the promoted type of exactly the narrow types all whose values it has, and so on. -/
theorem C76_represents (abi : Abi) (a b : Base) (ha : a ∈ integral) (hb : b ∈ integral) :
    abi.represents b a = true ↔ ∀ z, HasValue abi a z → HasValue abi b z := by
  have hr : ∀ a ∈ integral, ∃ l h, abi.range a = some (l, h) ∧ l ≤ h := by
    have key : ∀ (s : Bool) (n : Nat), (Overload.range s n).1 ≤ (Overload.range s n).2 := by
      intro s n
      have h1 : (0 : Int) < 2 ^ (n - 1) := Int.pow_pos (by decide)
      have h2 : (0 : Int) < 2 ^ n := Int.pow_pos (by decide)
      cases s <;> simp only [Overload.range, Bool.false_eq_true, if_true, if_false] <;> omega
    intro a ha
    simp only [integral, List.mem_cons, List.not_mem_nil, or_false] at ha
    rcases ha with rfl | rfl | rfl | rfl | rfl | rfl | rfl | rfl | rfl | rfl | rfl | rfl | rfl | rfl | rfl
    all_goals first
      | exact ⟨_, _, rfl, by decide⟩
      | exact ⟨_, _, rfl, key _ _⟩
      | exact ⟨_, _, rfl, key true _⟩
      | exact ⟨_, _, rfl, key false _⟩
  obtain ⟨l, h, e, hlh⟩ := hr a ha
  obtain ⟨l', h', e', -⟩ := hr b hb
  unfold Abi.represents
  rw [e, e']
  simp only [C76_range abi a l h e, C76_range abi b l' h' e', Bool.and_eq_true, decide_eq_true_eq]
  constructor
  · rintro ⟨h1, h2⟩ z ⟨h3, h4⟩; omega
  · intro hz
    have h1 := hz l ⟨Int.le_refl _, hlh⟩
    have h2 := hz h ⟨hlh, Int.le_refl _⟩
    omega

/-- C76.  For every integral type exactly one constructor of `FormatInt` is best, and its parameter represents every value of
the type: enumerations of any underlying type and stream positions print their value. -/
theorem C76_underlying (abi : Abi) (a : Base) (ha : a ∈ integral) :
    ∃ b, abi.construct .enum a = [b] ∧ ∀ z, HasValue abi a z → HasValue abi b z := by
  refine ⟨_, (construct_table abi a ha).1, fun z => ?_⟩
  obtain ⟨c, lo, s, w, sc, ep⟩ := abi
  simp only [integral, List.mem_cons, List.not_mem_nil, or_false] at ha
  rcases ha with rfl | rfl | rfl | rfl | rfl | rfl | rfl | rfl | rfl | rfl | rfl | rfl | rfl | rfl | rfl
  all_goals first
    | exact id
    | (cases c <;> simp [printedAs, HasValue] <;> omega)
    | (cases s <;> cases w <;> simp [printedAs, HasValue] <;> omega)

/-- C76.  No other type that converts to integers gets past the constructors: the call is ambiguous. -/
theorem C76_ambiguous (abi : Abi) (a : Base) (ha : arithmetic a = true) (hn : a ∉ integral) :
    2 ≤ (abi.construct .enum a).length := by
  obtain ⟨c, l, s, w, sc, ep⟩ := abi
  cases a <;> first
    | (simp [arithmetic] at ha; done)
    | (simp [integral] at hn; done)
    | (simp [Abi.construct, constructors, Abi.standard, Abi.promotesTo, Abi.convertible, arithmetic, best, List.filterMap,
        Rank.level])

/-- C76.  Whatever type the extraction overloads are enabled for, the extractor converts to it by exactly one function, which
yields that type; for stream positions through `std::streamoff`, `long` or `long long`. -/
theorem C76_conversion (c v : Bool) (b : Base) (k : Kind) (h : extractOverloads (.base c v b) = [k]) :
    (k ≠ .fpos → convert k b = [b]) ∧ (k = .fpos → ∀ o ∈ [Base.long, .llong], convert k o = [o]) := by
  refine ⟨fun hk => ?_, fun hk o ho => ?_⟩
  · rw [extract_base] at h
    have hb : b.kind = some k := by
      cases hb : b.kind with
      | none => rw [hb] at h; cases h
      | some k' =>
        rw [hb] at h
        dsimp only at h
        split at h
        · split at h
          · cases h; rfl
          · cases h
        · cases h; rfl
    cases b <;> first
      | (simp [Base.kind] at hb; done)
      | (rw [Base.kind] at hb; cases hb; first | exact absurd rfl hk | rfl)
  · subst hk
    simp only [List.mem_cons, List.not_mem_nil, or_false] at ho
    rcases ho with rfl | rfl <;> rfl

/-- The C++ type of a value of one of the ten integer types. -/
def IntVal.base : IntVal → Base
  | .i8 _ => .schar | .u8 _ => .uchar | .i16 _ => .short | .u16 _ => .ushort | .i32 _ => .int | .u32 _ => .uint
  | .long32 _ | .long64 _ => .long | .ulong32 _ | .ulong64 _ => .ulong | .i64 _ => .llong | .u64 _ => .ullong

/-- The underlying types of an enumeration that a value of the model stands for. -/
def EnumVal.Underlying (abi : Abi) : EnumVal → Base → Prop
  | .int v, b => b = v.base
  | .bool _, b => b = .bool
  | .schar _, b => b = .char ∧ abi.charSigned = true
  | .uchar _, b => b = .char ∧ abi.charSigned = false
  | .w16 _, b => b = .char16 ∨ (b = .wchar ∧ abi.wcharSigned = false ∧ abi.wcharIs32 = false)
  | .w32 _, b => b = .char32 ∨ (b = .wchar ∧ abi.wcharSigned = false ∧ abi.wcharIs32 = true)
  | .ws32 _, b => b = .wchar ∧ abi.wcharSigned = true ∧ abi.wcharIs32 = true

/-- C76.  The model of `FormatEnum` uses the constructor that overload resolution selects, with the value of the enumerator. -/
theorem C76_model (abi : Abi) (p : Platform) (junk : Bytes) (e : EnumVal) (b : Base) (h : e.Underlying abi b) :
    ∃ w : IntVal, abi.construct .enum b = [w.base] ∧ formatEnum p junk e = formatInt p junk w ∧ w.toInt = e.toInt := by
  cases e with
  | int v =>
    refine ⟨v, ?_, rfl, rfl⟩
    cases h
    rw [(construct_table abi _ (by cases v <;> simp [IntVal.base, integral])).1]
    cases v <;> rfl
  | bool x =>
    refine ⟨.i32 (if x then 1 else 0), ?_, rfl, by cases x <;> rfl⟩
    cases h
    exact (construct_table abi _ (by decide)).1
  | schar x =>
    refine ⟨.i32 x.toInt32, ?_, rfl, by simp [IntVal.toInt, EnumVal.toInt]⟩
    obtain ⟨rfl, -⟩ := h
    exact (construct_table abi _ (by decide)).1
  | uchar x =>
    refine ⟨.i32 x.toUInt32.toInt32, ?_, rfl, ?_⟩
    · obtain ⟨rfl, -⟩ := h
      exact (construct_table abi _ (by decide)).1
    · have := x.toNat_lt
      simp only [IntVal.toInt, EnumVal.toInt, u32_toInt32, UInt8.toNat_toUInt32]
      exact bmod_small _ 31 (by omega) (by omega)
  | w16 x =>
    refine ⟨.i32 x.toUInt32.toInt32, ?_, rfl, ?_⟩
    · rcases h with rfl | ⟨rfl, -, hw⟩
      · exact (construct_table abi _ (by decide)).1
      · rw [(construct_table abi _ (by decide)).1]; simp [printedAs, hw, IntVal.base]
    · have := x.toNat_lt
      simp only [IntVal.toInt, EnumVal.toInt, u32_toInt32, UInt16.toNat_toUInt32]
      exact bmod_small _ 31 (by omega) (by omega)
  | w32 x =>
    refine ⟨.u32 x, ?_, rfl, rfl⟩
    rcases h with rfl | ⟨rfl, hs, hw⟩
    · exact (construct_table abi _ (by decide)).1
    · rw [(construct_table abi _ (by decide)).1]; simp [printedAs, hs, hw, IntVal.base]
  | ws32 x =>
    refine ⟨.i32 x, ?_, rfl, rfl⟩
    obtain ⟨rfl, hs, -⟩ := h
    rw [(construct_table abi _ (by decide)).1]; simp [printedAs, hs, IntVal.base]

/-! Non-vacuity. -/

/-- x86-64 Linux. -/
def gnuAbi : Abi := ⟨true, true, true, true, fun _ => true, fun _ => []⟩

example : gnuAbi.resolve true .bool (.of (.arr (some 5) (.base true false .char))) = .calls .pointer := by decide
example : (Ty.arr (some 5) (.base true false .char)).ReadableText := Or.inr (Or.inr ⟨true, some 5, rfl⟩)
example : gnuAbi.resolve false .double (.zero .int) = .ambiguous ∧ gnuAbi.resolve true .double (.zero .int) = .calls .pointer := by
  decide
example : Base.OfLiteral .int ∧ Base.kind .double = some .float ∧ Base.int ≠ Base.double := ⟨Or.inl rfl, rfl, by decide⟩
example : gnuAbi.resolve true (.enum 3) (.zero .int) = .calls .pointer ∧
    gnuAbi.resolve true .int (.zero .int) = .calls .value := by decide
example : gnuAbi.resolve true .bool (.of (.ptr false false (.base true false .wchar))) = .calls .value := by decide
example : ¬ (Ty.ptr false false (.base true false .wchar)).ReadableText := by
  simp [Ty.ReadableText, Ty.noRef]
example : gnuAbi.resolve true .long (.of (.base false false .float)) = .calls .value := by decide
example : gnuAbi.convertible .float = true ∧ Kind.Arithmetic .int := ⟨rfl, Or.inr (Or.inr (Or.inl rfl))⟩
example : gnuAbi.construct .enum .char32 = [.uint] ∧ gnuAbi.construct .enum .wchar = [.int] ∧ Base.wchar ∈ integral := by decide
example : extractOverloads (.base false false (.fpos 0)) = [.fpos] ∧ (EnumVal.w16 7).Underlying gnuAbi .char16 :=
  ⟨by decide, Or.inl rfl⟩
example : gnuAbi.resolve true .int (.of (.base false true .int)) = .noMatch := by decide
example : gnuAbi.range .ushort = some (0, 65535) ∧ HasValue gnuAbi .char16 60000 := ⟨by decide, by simp [HasValue]⟩
example : arithmetic (.ext 1) = true ∧ Base.ext 1 ∉ integral := by decide

end Lexi
