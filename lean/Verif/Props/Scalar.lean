import Verif.Props.Str
import Verif.Props.Int

/-!
# bool, null and char properties: C10, C11, C12, C48 (char part), C51 (bool/null part), C04 and C49
(all classes except float)
-/

namespace Lexi
open Spec

theorem strncpyLit_ok (buf lit : Bytes) (h0 : 0 ∉ lit) (h : lit.length + 1 ≤ buf.length) :
    strncpyLit buf lit = .ok (lit ++ 0 :: buf.drop (lit.length + 1)) := by
  have hc : cstr lit = lit := cstr_eq ⟨h0, Or.inl rfl⟩
  rw [strncpyLit]
  simp only [hc]
  rw [if_pos h]
  simp

theorem strncpyLit_ub (buf lit : Bytes) (h : buf.length < lit.length + 1) : strncpyLit buf lit = .ub := by
  rw [strncpyLit, if_neg (by omega)]

theorem readN_zero (m : Bytes) (n : Nat) (h : n ≤ m.length) : readN m 0 n = .ok (m.take n) := by
  simp [readN, h]

/-! ## C10 -/

/-- C10.  Text of a boolean. -/
theorem C10_bool_format (junk : Bytes) (hj : junk.length = BOOL_SIZE) (b : Bool) :
    stringBool .default junk b = .ok (ascii (if b then "true" else "false")) := by
  unfold BOOL_SIZE at hj
  cases b
  · have := strncpyLit_ok junk Literals.default.false_ (by decide) (by rw [hj]; decide)
    simp only [stringBool, formatBool, this, Bool.false_eq_true, if_false, if_true, Res.ok_bind]
    show readN _ 0 5 = _
    exact readN_prefix (ascii "false") _
  · have := strncpyLit_ok junk Literals.default.true_ (by decide) (by rw [hj]; decide)
    simp only [stringBool, formatBool, this, Bool.false_eq_true, if_false, if_true, Res.ok_bind]
    show readN _ 0 4 = _
    exact readN_prefix (ascii "true") _

example : stringBool .default (List.replicate 6 0xFF) true = .ok (ascii "true") := by decide

/-- C10.  Reading a boolean: exactly the two words, everything else throws. -/
theorem C10_bool_extract (s : Bytes) :
    (lexiBool .default s = .ok true ↔ s = ascii "true") ∧
    (lexiBool .default s = .ok false ↔ s = ascii "false") ∧
    (lexiBool .default s = .throws ↔ s ≠ ascii "true" ∧ s ≠ ascii "false") ∧
    lexiBool .default s ≠ .ub := by
  have h1 : cstr Literals.default.true_ = ascii "true" := by decide
  have h2 : cstr Literals.default.false_ = ascii "false" := by decide
  unfold lexiBool extractBool
  rw [h1, h2]
  by_cases ht : s = ascii "true"
  · subst ht; decide
  · by_cases hf : s = ascii "false"
    · subst hf; decide
    · simp [ht, hf]

/-- C10.  The two conversions are mutually inverse. -/
theorem C10_bool_round_trip (junk : Bytes) (hj : junk.length = BOOL_SIZE) :
    (∀ b, (stringBool .default junk b >>= lexiBool .default) = .ok b) ∧
    (∀ s b, lexiBool .default s = .ok b → stringBool .default junk b = .ok s) := by
  refine ⟨?_, ?_⟩
  · intro b
    rw [C10_bool_format junk hj]
    cases b <;> decide
  · intro s b h
    rw [C10_bool_format junk hj]
    cases b
    · rw [(C10_bool_extract s).2.1.mp h]; rfl
    · rw [(C10_bool_extract s).1.mp h]; rfl

example : lexiBool .default (ascii "true") = .ok true ∧ lexiBool .default (ascii "True") = .throws ∧
    lexiBool .default (ascii "true" ++ [0]) = .throws := by decide

/-! ## C11 -/

/-- C11.  Text of null, and the exact set of strings read as null. -/
theorem C11_null (junk : Bytes) (hj : junk.length = NULL_SIZE) (s : Bytes) :
    stringNull .default junk = .ok (ascii "null") ∧
    (lexiNull .default s = .ok () ↔ s = ascii "null") ∧
    (lexiNull .default s = .throws ↔ s ≠ ascii "null") := by
  unfold NULL_SIZE at hj
  refine ⟨?_, ?_, ?_⟩
  · have := strncpyLit_ok junk Literals.default.null (by decide) (by rw [hj]; decide)
    simp only [stringNull, formatNull, this, Res.ok_bind]
    show readN _ 0 4 = _
    exact readN_prefix (ascii "null") _
  all_goals
    have h1 : cstr Literals.default.null = ascii "null" := by decide
    unfold lexiNull extractNull
    rw [h1]
    by_cases h : s = ascii "null" <;> simp [h]

example : lexiNull .default (ascii "null ") = .throws := by decide

/-! ## C12 -/

theorem formatChar_eq (junk : Bytes) (hj : junk.length = CHAR_SIZE) (c : UInt8) :
    formatChar junk c = .ok ⟨[c, 0]⟩ := by
  match junk, hj with
  | [a, b], _ => rfl

/-- C12.  Text of a char, reading a char, and the round trip. -/
theorem C12_char (junk : Bytes) (hj : junk.length = CHAR_SIZE) (c : UInt8) :
    stringChar junk c = .ok [c] ∧ (stringChar junk c >>= lexiChar) = .ok c ∧
    (∀ s, lexiChar (c :: s) = .ok c) ∧ lexiChar [] = .throws := by
  have h : stringChar junk c = .ok [c] := by
    rw [stringChar, formatChar_eq junk hj]; rfl
  exact ⟨h, by rw [h]; rfl, fun _ => rfl, rfl⟩

example : stringChar [1, 2] 0 = .ok [0] ∧ stringChar [1, 2] 0xFF = .ok [0xFF] := by decide

/-- C48.  escape/jsonify of a char equal escape/jsonify of the one-byte string. -/
theorem C48_char_as_string (sgn : Bool) (junk : Bytes) (hj : junk.length = CHAR_SIZE) (c : UInt8) :
    (formatChar junk c >>= CharObj.escape sgn) = .ok (escapeStr sgn [c]) ∧
    (formatChar junk c >>= CharObj.jsonify sgn) = jsonifyStr sgn [c] := by
  rw [formatChar_eq junk hj]
  exact ⟨rfl, rfl⟩

example : (formatChar [0, 0] 34 >>= CharObj.jsonify true) = .ok (ascii "\"\\\"\"") := by decide

/-! ## C51, bool and null -/

/-- C51.  `FormatBool` with overriding NUL-free literals: memory-safe iff the literal has at most 5 bytes;
the text is the literal (for every prior buffer content) iff LEXI_TRUE has exactly 4 bytes and LEXI_FALSE
exactly 5. -/
theorem C51_bool_literals (L : Literals) (h0 : 0 ∉ L.true_) (h1 : 0 ∉ L.false_) :
    ((∀ junk, junk.length = BOOL_SIZE → ∀ b, formatBool L junk b ≠ .ub) ↔
      L.true_.length ≤ 5 ∧ L.false_.length ≤ 5) ∧
    ((∀ junk, junk.length = BOOL_SIZE → stringBool L junk true = .ok L.true_) ↔ L.true_.length = 4) ∧
    ((∀ junk, junk.length = BOOL_SIZE → stringBool L junk false = .ok L.false_) ↔
      L.false_.length = 5) := by
  have hB : BOOL_SIZE = 6 := rfl
  obtain ⟨z, hr⟩ : ∃ z : Bytes, z.length = BOOL_SIZE := ⟨List.replicate 6 0, rfl⟩
  refine ⟨⟨?_, ?_⟩, ⟨?_, ?_⟩, ⟨?_, ?_⟩⟩
  · intro h
    refine ⟨?_, ?_⟩
    · apply Nat.le_of_not_lt
      intro hc
      apply h _ hr true
      simp [formatBool, strncpyLit_ub z L.true_ (by omega)]
    · apply Nat.le_of_not_lt
      intro hc
      apply h _ hr false
      simp [formatBool, strncpyLit_ub z L.false_ (by omega)]
  · rintro ⟨ht, hf⟩ junk hj b
    cases b
    · simp [formatBool, strncpyLit_ok junk L.false_ h1 (by omega)]
    · simp [formatBool, strncpyLit_ok junk L.true_ h0 (by omega)]
  · intro h
    have h := h _ hr
    by_cases hl : L.true_.length + 1 ≤ 6
    · simp only [stringBool, formatBool, strncpyLit_ok z L.true_ h0 (by omega),
        if_true, Res.ok_bind, BoolObj.string, BoolObj.data, BoolObj.c_str, BoolObj.size] at h
      rw [readN_zero _ _ (by simp; omega), Res.ok.injEq] at h
      have := congrArg List.length h
      simp at this
      omega
    · simp [stringBool, formatBool, strncpyLit_ub z L.true_ (by omega)] at h
  · intro hl junk hj
    simp only [stringBool, formatBool, strncpyLit_ok junk L.true_ h0 (by omega), if_true, Res.ok_bind,
      BoolObj.string, BoolObj.data, BoolObj.c_str, BoolObj.size]
    rw [← hl]; exact readN_prefix _ _
  · intro h
    have h := h _ hr
    by_cases hl : L.false_.length + 1 ≤ 6
    · simp only [stringBool, formatBool, strncpyLit_ok z L.false_ h1 (by omega),
        Bool.false_eq_true, if_false, Res.ok_bind, BoolObj.string, BoolObj.data, BoolObj.c_str,
        BoolObj.size] at h
      rw [readN_zero _ _ (by simp; omega), Res.ok.injEq] at h
      have := congrArg List.length h
      simp at this
      omega
    · simp [stringBool, formatBool, strncpyLit_ub z L.false_ (by omega)] at h
  · intro hl junk hj
    simp only [stringBool, formatBool, strncpyLit_ok junk L.false_ h1 (by omega), Bool.false_eq_true,
      if_false, Res.ok_bind, BoolObj.string, BoolObj.data, BoolObj.c_str, BoolObj.size]
    rw [← hl]; exact readN_prefix _ _

/-- C51.  `FormatNull` with an overriding NUL-free literal: memory-safe iff at most 4 bytes, faithful iff
exactly 4. -/
theorem C51_null_literal (L : Literals) (h0 : 0 ∉ L.null) :
    ((∀ junk, junk.length = NULL_SIZE → formatNull L junk ≠ .ub) ↔ L.null.length ≤ 4) ∧
    ((∀ junk, junk.length = NULL_SIZE → stringNull L junk = .ok L.null) ↔ L.null.length = 4) := by
  have hB : NULL_SIZE = 5 := rfl
  obtain ⟨z, hr⟩ : ∃ z : Bytes, z.length = NULL_SIZE := ⟨List.replicate 5 0, rfl⟩
  refine ⟨⟨?_, ?_⟩, ⟨?_, ?_⟩⟩
  · intro h
    apply Nat.le_of_not_lt
    intro hc
    apply h _ hr
    simp [formatNull, strncpyLit_ub z L.null (by omega)]
  · intro hl junk hj
    simp [formatNull, strncpyLit_ok junk L.null h0 (by omega)]
  · intro h
    have h := h _ hr
    by_cases hl : L.null.length + 1 ≤ 5
    · simp only [stringNull, formatNull, strncpyLit_ok z L.null h0 (by omega),
        Res.ok_bind, NullObj.string, NullObj.data, NullObj.c_str, NullObj.size] at h
      rw [readN_zero _ _ (by simp; omega), Res.ok.injEq] at h
      have := congrArg List.length h
      simp at this
      omega
    · simp [stringNull, formatNull, strncpyLit_ub z L.null (by omega)] at h
  · intro hl junk hj
    simp only [stringNull, formatNull, strncpyLit_ok junk L.null h0 (by omega), Res.ok_bind,
      NullObj.string, NullObj.data, NullObj.c_str, NullObj.size]
    rw [← hl]; exact readN_prefix _ _

/-- C51.  Reading with overriding NUL-free literals accepts exactly those literals. -/
theorem C51_extract_literals (L : Literals) (h0 : 0 ∉ L.true_) (h1 : 0 ∉ L.false_) (h2 : 0 ∉ L.null) (s : Bytes) :
    (lexiBool L s = .ok true ↔ s = L.true_) ∧
    (lexiBool L s = .ok false ↔ s = L.false_ ∧ s ≠ L.true_) ∧
    (lexiBool L s = .throws ↔ s ≠ L.true_ ∧ s ≠ L.false_) ∧
    (lexiNull L s = .ok () ↔ s = L.null) ∧ (lexiNull L s = .throws ↔ s ≠ L.null) := by
  have e0 : cstr L.true_ = L.true_ := cstr_eq ⟨h0, Or.inl rfl⟩
  have e1 : cstr L.false_ = L.false_ := cstr_eq ⟨h1, Or.inl rfl⟩
  have e2 : cstr L.null = L.null := cstr_eq ⟨h2, Or.inl rfl⟩
  simp only [lexiBool, extractBool, lexiNull, extractNull, e0, e1, e2]
  refine ⟨?_, ?_, ?_, ?_, ?_⟩ <;> (repeat' split) <;> simp_all

/-- C51.  Overriding literals of the right lengths round-trip. -/
theorem C51_bool_round_trip (L : Literals) (h0 : 0 ∉ L.true_) (h1 : 0 ∉ L.false_) (l0 : L.true_.length = 4)
    (l1 : L.false_.length = 5) (junk : Bytes) (hj : junk.length = BOOL_SIZE) (b : Bool) :
    (stringBool L junk b >>= lexiBool L) = .ok b := by
  have h := C51_bool_literals L h0 h1
  have hx := C51_extract_literals { L with null := [] } h0 h1 (by simp)
  cases b
  · rw [h.2.2.mpr l1 junk hj, Res.ok_bind]
    exact (hx L.false_).2.1.mpr ⟨rfl, fun (e : L.false_ = L.true_) => by rw [e] at l1; omega⟩
  · rw [h.2.1.mpr l0 junk hj, Res.ok_bind]
    exact (hx L.true_).1.mpr rfl

example : (0 : UInt8) ∉ ascii "WAHR" ∧ (ascii "WAHR").length = 4 ∧ (0 : UInt8) ∉ ascii "FALSO" ∧ (ascii "FALSO").length = 5 := by
  decide

/-- Overriding LEXI_TRUE with "yes" leaks an uninitialised byte into the text; "enabled" overflows. -/
example : stringBool { Literals.default with true_ := ascii "yes" } (List.replicate 6 0xAA) true =
    .ok (ascii "yes" ++ [0]) := by decide
example : stringBool { Literals.default with true_ := ascii "on" } (List.replicate 6 0xAA) true =
    .ok (ascii "on" ++ [0, 0xAA]) := by decide
example : formatBool { Literals.default with true_ := ascii "enabled" } (List.replicate 6 0) true = .ub := by
  decide
example : (0 : UInt8) ∉ ascii "yes" := by decide

/-! ## C04 and C49 for bool, null, char, int and enum -/

/-- The accessors of a formatter agree: `length()` is `size()`, `data()` is `c_str()`, `string()` and
`operator std::string` are exactly the `size()` bytes at `data()`, and `data()[size()]` is NUL. -/
structure AccessorsAgree (buffer : Bytes) (size length data c_str : Nat) (string toStd : Res Bytes) : Prop where
  length_eq : length = size
  data_eq : data = c_str
  string_eq : ∃ t, string = .ok t ∧ t.length = size ∧ ∀ i, i < size → t[i]? = buffer[data + i]?
  toStd_eq : toStd = string
  terminated : buffer[data + size]? = some 0

theorem accessors_of_text (t r : Bytes) :
    AccessorsAgree (t ++ 0 :: r) t.length t.length 0 0 (readN (t ++ 0 :: r) 0 t.length)
      (readN (t ++ 0 :: r) 0 t.length) where
  length_eq := rfl
  data_eq := rfl
  string_eq := ⟨t, readN_prefix _ _, rfl, fun i hi => by simp [List.getElem?_append_left hi]⟩
  toStd_eq := rfl
  terminated := by simp

/-- C04 for `FormatBool`. -/
theorem C04_bool (junk : Bytes) (hj : junk.length = BOOL_SIZE) (b : Bool) :
    ∃ o, formatBool .default junk b = .ok o ∧
      AccessorsAgree o.buffer o.size o.length o.data o.c_str o.string o.toStdString := by
  unfold BOOL_SIZE at hj
  cases b
  · have := strncpyLit_ok junk Literals.default.false_ (by decide) (by rw [hj]; decide)
    exact ⟨_, by simp only [formatBool, this]; rfl, accessors_of_text Literals.default.false_ _⟩
  · have := strncpyLit_ok junk Literals.default.true_ (by decide) (by rw [hj]; decide)
    exact ⟨_, by simp only [formatBool, this]; rfl, accessors_of_text Literals.default.true_ _⟩

/-- C04 for `FormatNull`. -/
theorem C04_null (junk : Bytes) (hj : junk.length = NULL_SIZE) :
    ∃ o, formatNull .default junk = .ok o ∧
      AccessorsAgree o.buffer o.size o.length o.data o.c_str o.string o.toStdString := by
  unfold NULL_SIZE at hj
  have := strncpyLit_ok junk Literals.default.null (by decide) (by rw [hj]; decide)
  exact ⟨_, by simp only [formatNull, this]; rfl, accessors_of_text Literals.default.null _⟩

/-- C04 for `FormatChar`. -/
theorem C04_char (junk : Bytes) (hj : junk.length = CHAR_SIZE) (c : UInt8) :
    ∃ o, formatChar junk c = .ok o ∧
      AccessorsAgree o.buffer o.size o.length o.data o.c_str o.string o.toStdString :=
  ⟨_, formatChar_eq junk hj c, accessors_of_text [c] []⟩

/-- C04 for `FormatInt`. -/
theorem C04_int (p : Platform) (hp : p.Supported) (junk : Bytes) (hj : junk.length = INTEGER_SIZE)
    (v : IntVal) (hv : v.Fits p) :
    ∃ o, formatInt p junk v = .ok o ∧
      AccessorsAgree o.buffer o.size o.length o.data o.c_str o.string o.toStdString :=
  ⟨_, formatInt_eq p hp junk hj v hv, accessors_of_text (decimalText v.toInt) _⟩

theorem formatEnum_eq (p : Platform) (hp : p.Supported) (junk : Bytes) (hj : junk.length = INTEGER_SIZE)
    (e : EnumVal) (he : e.Fits p) :
    formatEnum p junk e =
      .ok ⟨decimalText e.toInt ++ 0 :: junk.drop ((decimalText e.toInt).length + 1), 0,
        (decimalText e.toInt).length⟩ := by
  have key : ∀ v : IntVal, v.Fits p → v.toInt = e.toInt → formatEnum p junk e = formatInt p junk v →
      formatEnum p junk e = .ok ⟨decimalText e.toInt ++ 0 :: junk.drop ((decimalText e.toInt).length + 1),
        0, (decimalText e.toInt).length⟩ := by
    intro v hv h1 h2
    rw [h2, formatInt_eq p hp junk hj v hv, h1]
  cases e with
  | int v => exact key v he rfl rfl
  | bool b => exact key (.i32 (if b then 1 else 0)) trivial (by cases b <;> rfl) rfl
  | schar c => exact key (.i32 c.toInt32) trivial (by simp [IntVal.toInt, EnumVal.toInt]) rfl
  | uchar c =>
    refine key (.i32 c.toUInt32.toInt32) trivial ?_ rfl
    have := c.toNat_lt
    simp only [IntVal.toInt, EnumVal.toInt, u32_toInt32, UInt8.toNat_toUInt32]
    exact bmod_small _ 31 (by omega) (by omega)
  | w16 c =>
    refine key (.i32 c.toUInt32.toInt32) trivial ?_ rfl
    have := c.toNat_lt
    simp only [IntVal.toInt, EnumVal.toInt, u32_toInt32, UInt16.toNat_toUInt32]
    exact bmod_small _ 31 (by omega) (by omega)
  | w32 c => exact key (.u32 c) trivial rfl rfl
  | ws32 c => exact key (.i32 c) trivial rfl rfl

/-- C04 for `FormatEnum` (which inherits the accessors of `FormatInt`). -/
theorem C04_enum (p : Platform) (hp : p.Supported) (junk : Bytes) (hj : junk.length = INTEGER_SIZE)
    (e : EnumVal) (he : e.Fits p) :
    ∃ o, formatEnum p junk e = .ok o ∧
      AccessorsAgree o.buffer o.size o.length o.data o.c_str o.string o.toStdString :=
  ⟨_, formatEnum_eq p hp junk hj e he, accessors_of_text (decimalText e.toInt) _⟩

theorem digit_not_needsEscape {b : UInt8} (h : IsDigit b) : ¬ NeedsEscape b := by
  have : ∀ b : UInt8, IsDigit b → ¬ NeedsEscape b := by
    refine forall_byte ?_; decide +kernel
  exact this b h

theorem escape_digits (sgn : Bool) (ds : Bytes) (h : ∀ b ∈ ds, IsDigit b) : escapeStr sgn ds = ds := by
  rw [escapeStr, escape_eq]
  induction ds with
  | nil => rfl
  | cons c cs ih =>
    rw [List.flatMap_cons, ih fun b hb => h b (by simp [hb])]
    simp [escB, digit_not_needsEscape (h c (by simp))]

theorem escape_decimal (sgn : Bool) (n : Int) : escapeStr sgn (decimalText n) = decimalText n ↔ 0 ≤ n := by
  constructor
  · intro h
    apply Int.not_lt.mp
    intro hn
    rw [decimalText_neg _ hn] at h
    rw [escapeStr, escape_eq, List.flatMap_cons] at h
    have h45 : escB 45 = [92, 45] := by decide
    rw [h45] at h
    exact absurd (congrArg List.head? h) (by simp)
  · intro h
    rw [decimalText_nonneg _ h]
    exact escape_digits sgn _ (decN_digits _)

/-- C49.  `escape()` of null, bool and integer formatters is the plain text; it coincides with
`lexi::escape(string())` for null, bool and non-negative integers, and never for negative ones. -/
theorem C49_scalar_escape (sgn : Bool) :
    (∀ junk, junk.length = NULL_SIZE → ∀ o, formatNull .default junk = .ok o →
      o.escape = o.string ∧ ∃ t, o.string = .ok t ∧ escapeStr sgn t = t) ∧
    (∀ junk, junk.length = BOOL_SIZE → ∀ b o, formatBool .default junk b = .ok o →
      o.escape = o.string ∧ ∃ t, o.string = .ok t ∧ escapeStr sgn t = t) ∧
    (∀ p : Platform, p.Supported → ∀ junk, junk.length = INTEGER_SIZE → ∀ v : IntVal, v.Fits p →
      ∀ o, formatInt p junk v = .ok o →
      o.escape = o.string ∧ ∃ t, o.string = .ok t ∧ (escapeStr sgn t = t ↔ 0 ≤ v.toInt)) := by
  refine ⟨?_, ?_, ?_⟩
  · intro junk hj o ho
    refine ⟨rfl, ascii "null", ?_, by cases sgn <;> decide⟩
    have := (C11_null junk hj []).1
    rw [stringNull, ho] at this; exact this
  · intro junk hj b o ho
    refine ⟨rfl, ascii (if b then "true" else "false"), ?_, by cases sgn <;> cases b <;> decide⟩
    have := C10_bool_format junk hj b
    rw [stringBool, ho] at this; exact this
  · intro p hp junk hj v hv o ho
    refine ⟨rfl, decimalText v.toInt, ?_, ?_⟩
    · have := stringInt_eq p hp junk hj v hv
      rw [stringInt, ho] at this; exact this
    · exact escape_decimal sgn _

example : escapeStr true (ascii "-5") = ascii "\\-5" := by decide

/-- C49, enumerations.  The same for enumerations and their underlying values. -/
theorem C49_enum_escape (sgn : Bool) (p : Platform) (hp : p.Supported) (junk : Bytes) (hj : junk.length = INTEGER_SIZE)
    (e : EnumVal) (he : e.Fits p) :
    ∃ o t, formatEnum p junk e = .ok o ∧ o.escape = o.string ∧ o.string = .ok t ∧
      (escapeStr sgn t = t ↔ 0 ≤ e.toInt) := by
  have h := stringEnum_eq p hp junk hj e he
  unfold stringEnum at h
  cases ho : formatEnum p junk e with
  | ok o => rw [ho] at h; exact ⟨o, _, rfl, rfl, h, escape_decimal sgn _⟩
  | throws => rw [ho] at h; cases h
  | ub => rw [ho] at h; cases h

example : (EnumVal.int (.long64 (-5))).Fits lp64 ∧ (EnumVal.int (.long64 (-5))).toInt = -5 := ⟨rfl, by decide⟩

end Lexi
