import Verif.Proofs.IntFmt

/-!
# Integer properties: C01, C02, C03, C05, C06, C07, C08, C09, C47

`decimalText`, `CanonicalNumeral`, `IntText`, `textNumber`, `wrapInt` are in `Verif.Spec`.
`Platform.Supported p`: the macros consulted by the code tell the truth about the width of `long`.
`IntVal.Fits p v`: a `long` value has the width the platform gives it.
-/

namespace Lexi
open Spec

/-- C01.  Every integer value of every accepted type formats as its canonical decimal numeral. -/
theorem C01_int_canonical (p : Platform) (hp : p.Supported) (junk : Bytes)
    (hj : junk.length = INTEGER_SIZE) (v : IntVal) (hv : v.Fits p) :
    ∃ t, stringInt p junk v = .ok t ∧ t = decimalText v.toInt ∧ CanonicalNumeral t v.toInt :=
  ⟨_, stringInt_eq p hp junk hj v hv, rfl, decimalText_canonical _⟩

/-- An LP64 platform with GCC/Clang (Linux, macOS). -/
def lp64 : Platform := ⟨false, false, true, true, true⟩
/-- 64-bit Windows with MSVC. -/
def win64 : Platform := ⟨true, true, false, false, false⟩
/-- A 32-bit GCC platform. -/
def ilp32 : Platform := ⟨false, false, true, false, false⟩

example : lp64.Supported ∧ win64.Supported ∧ ilp32.Supported ∧
    (IntVal.long64 (-9223372036854775808)).Fits lp64 ∧ (IntVal.long32 (-7)).Fits win64 := by
  simp [Platform.Supported, lp64, win64, ilp32, IntVal.Fits]

example : stringInt lp64 (List.replicate 22 0xAA) (.long64 (-9223372036854775808)) =
    .ok (ascii "-9223372036854775808") := by decide

/-- Why C01 needs `Supported`: with a compiler that is neither Windows nor defines `__GNUC__`, on a
64-bit `long` platform, `SYSTEM_ARCHITECTURE` is undefined and a `long` is truncated to 32 bits. -/
theorem C01_unsupported_long_truncated :
    stringInt ⟨false, false, false, true, true⟩ (List.replicate 22 0) (.long64 4294967297) =
      .ok (ascii "1") := by decide

/-- C02.  Reading back the text of an integer gives the integer; nothing throws. -/
theorem C02_int_round_trip (p : Platform) (hp : p.Supported) (junk : Bytes)
    (hj : junk.length = INTEGER_SIZE) (v : IntVal) (hv : v.Fits p) :
    (stringInt p junk v >>= lexiInt v.ty) = .ok v := by
  rw [stringInt_eq p hp junk hj v hv]
  exact lexiInt_decimal v

example : (IntVal.i8 (-128)).Fits lp64 := trivial
example : (stringInt lp64 (List.replicate 22 1) (.i8 (-128)) >>= lexiInt .i8) = .ok (.i8 (-128)) := by
  decide

/-- C03.  Construction of `FormatInt` is free of undefined behaviour whatever the buffer held, keeps the
buffer's size, NUL-terminates inside it, reports at most 20 characters, and the text does not depend on
the previous contents. -/
theorem C03_int_buffer (p : Platform) (hp : p.Supported) (junk : Bytes)
    (hj : junk.length = INTEGER_SIZE) (v : IntVal) (hv : v.Fits p) :
    ∃ o, formatInt p junk v = .ok o ∧ o.buffer.length = INTEGER_SIZE ∧ o.first = 0 ∧
      o.size ≤ 20 ∧ o.buffer[o.size]? = some 0 ∧
      (∀ junk' : Bytes, junk'.length = INTEGER_SIZE → ∃ o', formatInt p junk' v = .ok o' ∧
        o'.string = o.string ∧ o'.size = o.size) := by
  have hl := decimalText_length_le _ v.toInt_bounds.1 v.toInt_bounds.2
  refine ⟨_, formatInt_eq p hp junk hj v hv, ?_, rfl, ?_, ?_, ?_⟩
  · have : INTEGER_SIZE = 22 := rfl
    simp; omega
  · simpa [IntObj.size] using hl
  · simp [IntObj.size]
  · intro junk' hj'
    refine ⟨_, formatInt_eq p hp junk' hj' v hv, ?_, rfl⟩
    simp [IntObj.string, IntObj.data, IntObj.c_str, IntObj.size, readN_prefix]

example : (List.replicate 22 (0xAA : UInt8)).length = INTEGER_SIZE := rfl

/-- C03, tightness of the bound on the buffer: 20 characters are really produced, so with the NUL a
buffer of 20 bytes would overflow. -/
theorem C03_buffer_of_20_overflows :
    formatInt lp64 (List.replicate 20 0) (.u64 18446744073709551615) = .ub := by decide

/-- C05.  Texts of two integers, of whatever types and platforms, agree iff the integers agree. -/
theorem C05_same_number_same_text (p p' : Platform) (hp : p.Supported) (hp' : p'.Supported)
    (junk junk' : Bytes) (hj : junk.length = INTEGER_SIZE) (hj' : junk'.length = INTEGER_SIZE)
    (v v' : IntVal) (hv : v.Fits p) (hv' : v'.Fits p') :
    stringInt p junk v = stringInt p' junk' v' ↔ v.toInt = v'.toInt := by
  rw [stringInt_eq p hp junk hj v hv, stringInt_eq p' hp' junk' hj' v' hv', Res.ok.injEq]
  exact ⟨decimalText_injective, fun h => by rw [h]⟩

example : (IntVal.long64 300).Fits lp64 ∧ (IntVal.long32 300).Fits win64 ∧
    (IntVal.long64 300).toInt = (IntVal.long32 300).toInt := ⟨rfl, rfl, rfl⟩

/-- C06.  Numeric order of unsigned values is shortlex order of their texts. -/
theorem C06_unsigned_text_order (p : Platform) (hp : p.Supported) (junk : Bytes)
    (hj : junk.length = INTEGER_SIZE) (a b : UInt64) :
    ∃ ta tb, stringInt p junk (.u64 a) = .ok ta ∧ stringInt p junk (.u64 b) = .ok tb ∧
      (a < b ↔ ta.length < tb.length ∨ (ta.length = tb.length ∧ ta < tb)) := by
  refine ⟨_, _, stringInt_eq p hp junk hj _ trivial, stringInt_eq p hp junk hj _ trivial, ?_⟩
  simp only [IntVal.toInt, decimalText_natCast]
  rw [UInt64.lt_iff_toNat_lt]
  constructor
  · exact decN_order _ _
  · intro h
    rcases Nat.lt_trichotomy a.toNat b.toNat with h1 | h1 | h1
    · exact h1
    · rw [h1] at h
      rcases h with h | ⟨_, h⟩
      · omega
      · exact absurd h (List.lt_irrefl _)
    · rcases decN_order _ _ h1 with h2 | ⟨h2, h3⟩
      · omega
      · rcases h with h | ⟨_, h⟩
        · omega
        · exact absurd (List.lt_trans h h3) (List.lt_irrefl _)

example : ((99 : UInt64) < 100) ∧ (decimalText 99).length < (decimalText 100).length := by decide

/-- C07.  Integer extraction: never throws; returns the number written at the start of the string
(saturated, then reduced into the type); 0 if there is no number. -/
theorem C07_int_extraction (t : IntTy) (s : Bytes) :
    ∃ v, lexiInt t s = .ok v ∧ v.ty = t ∧
      (∀ neg ds, IntText s neg ds → v.toInt = wrapInt t.signed t.width (textNumber neg ds)) ∧
      ((∀ neg ds, ¬ IntText s neg ds) → v.toInt = 0) := by
  refine ⟨_, rfl, convertInt_ty _ _, ?_, ?_⟩
  · intro neg ds h; exact lexiInt_textNumber h t
  · intro h
    rw [convertInt_toInt, extractInt, strtoull_no_text h]
    cases t <;> decide

example : IntText (ascii " \t-0042xyz") true (ascii "0042") := by
  refine ⟨ascii " \t-0042xyz", ascii " \t", ascii "-", ascii "xyz", ⟨by decide, Or.inl rfl⟩, by decide,
    ?_, by decide, by decide, by decide, ?_⟩
  · unfold IsSpace; decide
  · intro b hb; simp [ascii] at hb; subst hb; decide
example : ∀ neg ds, ¬ IntText (ascii "+ 7") neg ds := by
  rintro neg ds h
  have := strtoull_of_intText h
  obtain ⟨t, ws, sg, rest, hc, ht, hw, hsg, hne, hd, hr⟩ := h
  have hct : t = ascii "+ 7" := by
    obtain ⟨h0, h1 | ⟨r, h1⟩⟩ := hc
    · exact h1.symm
    · exact absurd (h1 ▸ (by simp : (0 : UInt8) ∈ t ++ 0 :: r)) (by decide)
  have e : ascii "+ 7" = [43, 32, 55] := by decide
  rw [hct, e] at ht
  obtain ⟨d, ds, rfl⟩ := List.exists_cons_of_ne_nil hne
  have hd0 := hd d (by simp)
  cases ws with
  | cons w ws =>
    simp at ht
    exact absurd (hw w (by simp)) (by rw [← ht.1]; unfold IsSpace; decide)
  | nil =>
    rcases hsg with ⟨rfl, _⟩ | ⟨rfl, _⟩ | ⟨rfl, _⟩ <;> simp at ht
    · rw [← ht.1] at hd0; exact absurd hd0 (by decide)
    · rw [← ht.1] at hd0; exact absurd hd0 (by decide)

theorem cstr_head_not_digit {rest : Bytes} (hr : ∀ b, rest.head? = some b → ¬ IsDigit b) :
    ∀ b, (cstr rest).head? = some b → ¬ IsDigit b := by
  intro b hb
  cases rest with
  | nil => simp [cstr] at hb
  | cons c cs =>
    by_cases hc : c = 0
    · subst hc; simp [cstr] at hb
    · have : cstr (c :: cs) = c :: cstr cs := by simp [cstr, hc]
      rw [this] at hb
      exact hr b (by simpa using hb)

theorem space_ne_zero {b : UInt8} (h : IsSpace b) : b ≠ 0 := by
  rintro rfl; revert h; unfold IsSpace; decide

/-- A text built from its parts is an `IntText`; `rest` may contain anything that does not start with a
digit, including NUL bytes. -/
theorem intText_of_parts (ws sg ds rest : Bytes) (neg : Bool) (hw : ∀ b ∈ ws, IsSpace b)
    (hsg : sg = [] ∧ neg = false ∨ sg = [43] ∧ neg = false ∨ sg = [45] ∧ neg = true)
    (hne : ds ≠ []) (hd : ∀ b ∈ ds, IsDigit b) (hr : ∀ b, rest.head? = some b → ¬ IsDigit b) :
    IntText (ws ++ sg ++ ds ++ rest) neg ds := by
  refine ⟨ws ++ sg ++ ds ++ cstr rest, ws, sg, cstr rest, ?_, rfl, hw, hsg, hne, hd,
    cstr_head_not_digit hr⟩
  have hc := cstring_cstr rest
  refine ⟨?_, ?_⟩
  · simp only [List.mem_append, not_or]
    refine ⟨⟨⟨?_, ?_⟩, ?_⟩, hc.1⟩
    · intro h; exact space_ne_zero (hw _ h) rfl
    · rcases hsg with ⟨rfl, _⟩ | ⟨rfl, _⟩ | ⟨rfl, _⟩ <;> decide
    · intro h; exact digit_ne_zero (hd _ h) rfl
  · rcases hc.2 with h | ⟨r, h⟩
    · left; rw [← h]
    · right; exact ⟨r, by rw [List.append_assoc _ (cstr rest), ← h]⟩

theorem digitsValue_zeros (k : Nat) (ds : Bytes) :
    digitsValue (List.replicate k 48 ++ ds) = digitsValue ds := by
  unfold digitsValue
  rw [List.foldl_append]
  congr 1
  induction k with
  | zero => rfl
  | succ k ih => rw [List.replicate_succ, List.foldl_cons]; exact ih

/-- C08.  White space before, a '+' sign, any number of leading zeros, and any following text that does
not start with a digit do not change the result. -/
theorem C08_int_extraction_ignores (t : IntTy) (ws sg ds rest : Bytes) (neg : Bool) (k : Nat)
    (hw : ∀ b ∈ ws, IsSpace b)
    (hsg : sg = [] ∧ neg = false ∨ sg = [43] ∧ neg = false ∨ sg = [45] ∧ neg = true)
    (hne : ds ≠ []) (hd : ∀ b ∈ ds, IsDigit b) (hr : ∀ b, rest.head? = some b → ¬ IsDigit b) :
    lexiInt t (ws ++ sg ++ (List.replicate k 48 ++ ds) ++ rest) =
      lexiInt t ((if neg then [45] else []) ++ ds) := by
  have h1 : IntText (ws ++ sg ++ (List.replicate k 48 ++ ds) ++ rest) neg (List.replicate k 48 ++ ds) := by
    refine intText_of_parts ws sg _ rest neg hw hsg (by simp [hne]) ?_ hr
    intro b hb
    rcases List.mem_append.mp hb with hb | hb
    · rw [(List.mem_replicate.mp hb).2]; decide
    · exact hd b hb
  have h2 : IntText ((if neg then [45] else []) ++ ds) neg ds := by
    have := intText_of_parts [] (if neg then [45] else []) ds [] neg (by simp)
      (by cases neg <;> simp) hne hd (by simp)
    simpa using this
  unfold lexiInt
  congr 1
  apply IntVal.ext'
  · rw [convertInt_ty, convertInt_ty]
  · rw [lexiInt_textNumber h1, lexiInt_textNumber h2]
    simp only [textNumber, digitsValue_zeros]

example : lexiInt .i16 (ascii "\n +00012z") = lexiInt .i16 (ascii "12") := by decide

/-- C08.  Everything from the first NUL byte on is ignored. -/
theorem C08_int_extraction_nul (t : IntTy) (s r : Bytes) : lexiInt t (s ++ 0 :: r) = lexiInt t s := by
  have e : cstr (s ++ 0 :: r) = cstr s := by
    obtain ⟨h0, h⟩ := cstring_cstr s
    apply cstr_eq
    refine ⟨h0, Or.inr ?_⟩
    rcases h with h | ⟨q, h⟩
    · exact ⟨r, by rw [← h]⟩
    · exact ⟨q ++ 0 :: r, by
        calc s ++ 0 :: r = (cstr s ++ 0 :: q) ++ 0 :: r := by rw [← h]
          _ = _ := by simp⟩
  unfold lexiInt extractInt strtoull
  rw [e]

/-- C08.  Leading white space is ignored in front of any string whatever. -/
theorem C08_int_extraction_space (t : IntTy) (ws s : Bytes) (hw : ∀ b ∈ ws, IsSpace b) :
    lexiInt t (ws ++ s) = lexiInt t s := by
  have e : cstr (ws ++ s) = ws ++ cstr s := by
    unfold cstr
    rw [List.takeWhile_append_of_pos]
    intro a ha
    simpa using space_ne_zero (hw a ha)
  unfold lexiInt extractInt strtoull
  rw [e, skipSpace_append _ _ hw]

/-- C09.  Numerals of magnitude at least 2^64: maximum of every unsigned type, -1 for every signed one;
below 2^64: the written value reduced modulo 2^width. -/
theorem C09_int_out_of_range (t : IntTy) (s : Bytes) (neg : Bool) (ds : Bytes) (h : IntText s neg ds) :
    ∃ v, lexiInt t s = .ok v ∧
      (2 ^ 64 ≤ digitsValue ds → v.toInt = if t.signed then -1 else 2 ^ t.width - 1) ∧
      (digitsValue ds < 2 ^ 64 →
        v.toInt = wrapInt t.signed t.width (if neg then -(digitsValue ds : Int) else digitsValue ds)) := by
  refine ⟨_, rfl, ?_, ?_⟩
  · intro hb
    rw [lexiInt_textNumber h, textNumber, if_pos hb]
    cases t <;> decide
  · intro hb
    rw [lexiInt_textNumber h, textNumber, if_neg (by omega)]

example : IntText (ascii "-18446744073709551616") true (ascii "18446744073709551616") ∧
    2 ^ 64 ≤ digitsValue (ascii "18446744073709551616") := by
  refine ⟨?_, by decide⟩
  have := intText_of_parts [] [45] (ascii "18446744073709551616") [] true (by simp) (by simp)
    (by decide) (by decide) (by simp)
  rw [List.append_nil] at this
  exact this
example : lexiInt .i64 (ascii "-18446744073709551616") = .ok (.i64 (-1)) := by decide
example : lexiInt .u8 (ascii "-18446744073709551616") = .ok (.u8 255) := by decide

/-- An enum value's underlying `long` has the platform's width. -/
def EnumVal.Fits (p : Platform) : EnumVal → Prop
  | .int v => v.Fits p
  | _ => True

theorem stringEnum_eq (p : Platform) (hp : p.Supported) (junk : Bytes)
    (hj : junk.length = INTEGER_SIZE) (e : EnumVal) (he : e.Fits p) :
    stringEnum p junk e = .ok (decimalText e.toInt) := by
  have key : ∀ v : IntVal, v.Fits p → v.toInt = e.toInt → formatEnum p junk e = formatInt p junk v →
      stringEnum p junk e = .ok (decimalText e.toInt) := by
    intro v hv h1 h2
    have := stringInt_eq p hp junk hj v hv
    unfold stringInt at this
    rw [stringEnum, h2, this, h1]
  cases e with
  | int v => exact key v he rfl rfl
  | bool b => exact key (.i32 (if b then 1 else 0)) trivial (by cases b <;> rfl) rfl
  | schar c => exact key (.i32 c.toInt32) trivial (by simp [IntVal.toInt, EnumVal.toInt]) rfl
  | uchar c =>
    refine key (.i32 c.toUInt32.toInt32) trivial ?_ rfl
    have := c.toNat_lt
    simp only [IntVal.toInt, EnumVal.toInt, u32_toInt32, UInt8.toNat_toUInt32]
    exact bmod_small _ 31 (by omega) (by omega)
  | w16 c =>
    refine key (.i32 c.toUInt32.toInt32) trivial ?_ rfl
    have := c.toNat_lt
    simp only [IntVal.toInt, EnumVal.toInt, u32_toInt32, UInt16.toNat_toUInt32]
    exact bmod_small _ 31 (by omega) (by omega)
  | w32 c => exact key (.u32 c) trivial rfl rfl
  | ws32 c => exact key (.i32 c) trivial rfl rfl

/-- C47.  An enumeration value formats as the decimal of its underlying value and reads back. -/
theorem C47_enum_round_trip (p : Platform) (hp : p.Supported) (junk : Bytes)
    (hj : junk.length = INTEGER_SIZE) (e : EnumVal) (he : e.Fits p) :
    stringEnum p junk e = .ok (decimalText e.toInt) ∧
    (stringEnum p junk e >>= lexiEnum e.ty) = .ok e := by
  have h := stringEnum_eq p hp junk hj e he
  exact ⟨h, by rw [h]; exact lexiEnum_decimal e⟩

example : (EnumVal.int (.long64 (-5))).Fits lp64 ∧ (EnumVal.bool true).Fits win64 := ⟨rfl, trivial⟩

/-- C47.  A stream position formats as its offset and reads back. -/
theorem C47_fpos_round_trip (p : Platform) (hp : p.Supported) (junk : Bytes)
    (hj : junk.length = INTEGER_SIZE) (off : Int64) :
    stringFpos p junk off = .ok (decimalText off.toInt) ∧
    (stringFpos p junk off >>= lexiFpos) = .ok off := by
  have h : stringFpos p junk off = .ok (decimalText off.toInt) := by
    unfold stringFpos
    split
    · rename_i hl; exact stringInt_eq p hp junk hj (.long64 off) hl
    · exact stringInt_eq p hp junk hj (.i64 off) trivial
  refine ⟨h, ?_⟩
  rw [h]
  have := lexiInt_decimal (.i64 off)
  unfold lexiInt convertInt at this
  simp only [IntVal.ty, IntVal.toInt, Res.ok.injEq, IntVal.i64.injEq] at this
  simp [lexiFpos, this]

/-! ## C82 -/

/-- What a number becomes in a value of the underlying type: reduced modulo a power of two, but for `bool` whether it is not
zero. -/
def Spec.enumNumber (t : EnumTy) (z : Int) : Int :=
  match t with
  | .int t => wrapInt t.signed t.width z
  | .bool => if z = 0 then 0 else 1
  | .schar => wrapInt true 8 z
  | .uchar => wrapInt false 8 z
  | .w16 => wrapInt false 16 z
  | .w32 => wrapInt false 32 z
  | .ws32 => wrapInt true 32 z

/-- C82.  Reading an enumeration never throws; it gives the number written at the start of the string (saturated, then
converted to the underlying type), and the enumerator of value 0 if there is no number. -/
theorem C82_enum_extraction (t : EnumTy) (s : Bytes) :
    ∃ v, lexiEnum t s = .ok v ∧ v.ty = t ∧
      (∀ neg ds, IntText s neg ds → v.toInt = enumNumber t (textNumber neg ds)) ∧
      ((∀ neg ds, ¬ IntText s neg ds) → v.toInt = 0) := by
  have hex (h : ∀ neg ds, ¬ IntText s neg ds) : extractInt s = 0 := by rw [extractInt, strtoull_no_text h]
  have key : ∀ i : IntTy, ∀ w, convertEnum (extractInt s) (.int i) = .int w →
      (∀ neg ds, IntText s neg ds → w.toInt = wrapInt i.signed i.width (textNumber neg ds)) ∧
      ((∀ neg ds, ¬ IntText s neg ds) → w.toInt = 0) := by
    intro i w hw
    rw [convertEnum_int] at hw
    cases hw
    refine ⟨fun neg ds h => lexiInt_textNumber h i, fun h => ?_⟩
    rw [convertInt_toInt, hex h]; cases i <;> decide
  cases t with
  | int i =>
    refine ⟨.int (convertInt (extractInt s) i), by rw [lexiEnum, convertEnum_int], congrArg EnumTy.int (convertInt_ty _ _), ?_⟩
    exact key i _ (convertEnum_int _ _)
  | bool =>
    refine ⟨_, rfl, rfl, ?_, ?_⟩
    · intro neg ds h
      have h1 := lexiInt_textNumber h .u64
      have h2 : ((extractInt s).toNat : Int) = textNumber neg ds % 2 ^ 64 := h1
      have h3 : extractInt s = 0 ↔ textNumber neg ds = 0 := by
        rw [← UInt64.toNat_inj]
        change (extractInt s).toNat = 0 ↔ _
        unfold textNumber at h2 ⊢
        split at h2
        · rw [if_pos ‹_›]; omega
        · rw [if_neg ‹_›]
          split at h2
          · rw [if_pos ‹_›]; omega
          · rw [if_neg ‹_›]; omega
      simp only [EnumVal.toInt, convertEnum, enumNumber]
      by_cases h0 : extractInt s = 0
      · rw [if_pos (h3.mp h0)]; simp [h0]
      · rw [if_neg fun e => h0 (h3.mpr e)]; simp [h0]
    · intro h; rw [hex h]; rfl
  | schar => exact ⟨_, rfl, rfl, key .i8 (.i8 _) rfl⟩
  | uchar => exact ⟨_, rfl, rfl, key .u8 (.u8 _) rfl⟩
  | w16 => exact ⟨_, rfl, rfl, key .u16 (.u16 _) rfl⟩
  | w32 => exact ⟨_, rfl, rfl, key .u32 (.u32 _) rfl⟩
  | ws32 => exact ⟨_, rfl, rfl, key .i32 (.i32 _) rfl⟩

/-- C82.  Reading a stream position: the number written at the start, saturated, as a 64-bit offset; 0 if there is none. -/
theorem C82_fpos_extraction (s : Bytes) :
    ∃ o, lexiFpos s = .ok o ∧
      (∀ neg ds, IntText s neg ds → o.toInt = wrapInt true 64 (textNumber neg ds)) ∧
      ((∀ neg ds, ¬ IntText s neg ds) → o.toInt = 0) := by
  refine ⟨_, rfl, fun neg ds h => lexiInt_textNumber h .i64, fun h => ?_⟩
  rw [extractInt, strtoull_no_text h]; decide

/-! Non-vacuity: an enumeration over `bool` reads 2 as its enumerator 1, one over `signed char` reads 200 as -56. -/
example : lexiEnum .bool (ascii "2") = .ok (.bool true) ∧ lexiEnum .schar (ascii "200") = .ok (.schar (-56)) ∧
    enumNumber .bool 2 = 1 ∧ enumNumber .schar 200 = -56 ∧ lexiFpos (ascii "18446744073709551616") = .ok (-1) := by
  decide +kernel

end Lexi
