import Verif.Model.ReadApi
import Verif.Props.Json
import Verif.Props.ReadSingle

/-!
# Reading through pointers and the round trip as a whole: C72, C73
-/

namespace Lexi
open Spec Soft Dtoa DiyFp

/-! ## C72 -/

/-- Reading a terminated array depends only on the bytes before the terminator. -/
theorem C72_terminated (L : Literals) (F : FpFormat) (T : Target) (s r : Bytes) (h : 0 ∉ s) :
    T.lexi L F (.cstr (s ++ 0 :: r)) = T.lexi L F (.stdString s) := by
  have h1 : cstr (s ++ 0 :: r) = s := cstr_eq ⟨h, Or.inr ⟨r, rfl⟩⟩
  have h2 : (StrArg.cstr (s ++ 0 :: r)).toStd = .ok s := by rw [StrArg.toStd, if_pos (by simp), h1]
  rw [Target.lexi, Target.lexi, h2]; rfl

/-- Without a terminator in the array reading is undefined. -/
theorem C72_unterminated (L : Literals) (F : FpFormat) (T : Target) (a : Bytes) (h : 0 ∉ a) :
    T.lexi L F (.cstr a) = .ub := by
  rw [Target.lexi, StrArg.toStd, if_neg h]; rfl

theorem decimalText_no_nul (n : ℤ) : 0 ∉ decimalText n := by
  obtain ⟨k, hwf, ht, -⟩ := canonical_json (decimalText_canonical n)
  intro h0
  rw [← ht, text_eq] at h0
  rcases List.mem_append.mp h0 with h0 | h0
  · split at h0 <;> simp at h0
  · exact number_bytes k hwf 0 h0 rfl

theorem number_no_nul {n : JNumber} (hn : n.WF) : 0 ∉ n.text := by
  intro h0
  rw [text_eq] at h0
  rcases List.mem_append.mp h0 with h0 | h0
  · split at h0 <;> simp at h0
  · exact number_bytes n hn 0 h0 rfl

/-- The object made from any `long double`: its text has no NUL and is followed by one. -/
theorem formatLd_pointer {m : Machine} (hm : m.Ok) (hL : m.literals = .default) (x : LVal) :
    ∃ t r, (formatLd m.literals m.env (m.junk FLOAT_SIZE) x >>= FloatObj.string) = .ok t ∧
      (do let o ← formatLd m.literals m.env (m.junk FLOAT_SIZE) x; .ok (o.buffer.drop o.c_str)) = .ok (t ++ 0 :: r) ∧
      0 ∉ t := by
  rw [hL]
  obtain ⟨t, -, h⟩ := formatLd_any m.env hm.env x
  have h1 := h _ (hm.junk FLOAT_SIZE)
  have hs : (formatLd .default m.env (m.junk FLOAT_SIZE) x >>= FloatObj.string) = .ok t := by
    rw [h1, Res.ok_bind]; exact readN_prefix _ _
  refine ⟨t, _, hs, by rw [h1, Res.ok_bind]; rfl, ?_⟩
  rcases class_cases x.toDouble with hf | hi | hn
  · obtain ⟨n, hwf, h2, -⟩ := double_text (x := x) hm rfl hf
    rw [hL, hs] at h2
    injection h2 with h2
    rw [h2]; exact number_no_nul hwf
  · rw [formatLd_inf m.env x hi, stringLit _ _ (by split <;> decide)
      (by rw [hm.junk]; split <;> decide), Res.ok_bind] at hs
    have h2 := (readN_prefix _ _).symm.trans hs
    injection h2 with h2
    rw [← h2]; split <;> decide
  · rw [formatLd_nan m.env x hn, stringLit _ _ (by decide) (by rw [hm.junk]; decide), Res.ok_bind] at hs
    have h2 := (readN_prefix _ _).symm.trans hs
    injection h2 with h2
    rw [← h2]; decide

/-- The text of every scalar is followed by a NUL in the object, and contains none unless it is the character `'\0'`. -/
theorem arg_pointer {m : Machine} (hm : m.Ok) (hL : m.literals = .default) (a : Arg) (he : a.Exists m.platform)
    (hs : a.target ≠ none) :
    ∃ t r, a.string m = .ok t ∧ a.c_str m = .ok (t ++ 0 :: r) ∧ (0 ∈ t ↔ a = .char 0) := by
  cases a with
  | null =>
    have h := strncpyLit_ok (m.junk NULL_SIZE) Literals.default.null (by decide) (by rw [hm.junk]; decide)
    refine ⟨Literals.default.null, (m.junk NULL_SIZE).drop (Literals.default.null.length + 1), ?_, ?_, ⟨fun h' => absurd h' (by decide), fun h' => by cases h'⟩⟩
    · rw [Arg.string, hL]
      simp only [formatNull, h, Res.ok_bind]
      exact readN_prefix (ascii "null") _
    · rw [Arg.c_str, hL]
      simp only [formatNull, h, Res.ok_bind]
      rfl
  | bool b =>
    cases b with
    | false =>
      have h := strncpyLit_ok (m.junk BOOL_SIZE) Literals.default.false_ (by decide) (by rw [hm.junk]; decide)
      refine ⟨Literals.default.false_, (m.junk BOOL_SIZE).drop (Literals.default.false_.length + 1), ?_, ?_, ⟨fun h' => absurd h' (by decide), fun h' => by cases h'⟩⟩
      · rw [Arg.string, hL]
        simp only [formatBool, h, Bool.false_eq_true, if_false, Res.ok_bind]
        exact readN_prefix (ascii "false") _
      · rw [Arg.c_str, hL]
        simp only [formatBool, h, Bool.false_eq_true, if_false, Res.ok_bind]
        rfl
    | true =>
      have h := strncpyLit_ok (m.junk BOOL_SIZE) Literals.default.true_ (by decide) (by rw [hm.junk]; decide)
      refine ⟨Literals.default.true_, (m.junk BOOL_SIZE).drop (Literals.default.true_.length + 1), ?_, ?_, ⟨fun h' => absurd h' (by decide), fun h' => by cases h'⟩⟩
      · rw [Arg.string, hL]
        simp only [formatBool, h, if_true, Res.ok_bind]
        exact readN_prefix (ascii "true") _
      · rw [Arg.c_str, hL]
        simp only [formatBool, h, if_true, Res.ok_bind]
        rfl
  | char c =>
    have h := formatChar_eq (m.junk CHAR_SIZE) (hm.junk _) c
    refine ⟨[c], [], ?_, ?_, ?_⟩
    · rw [Arg.string, h]; rfl
    · rw [Arg.c_str, h]; rfl
    · simp [eq_comm]
  | int v =>
    have h := formatInt_eq _ hm.platform _ (hm.junk _) v he
    refine ⟨decimalText v.toInt, (m.junk INTEGER_SIZE).drop ((decimalText v.toInt).length + 1), ?_, ?_,
      ⟨fun h' => absurd h' (decimalText_no_nul _), fun h' => by cases h'⟩⟩
    · rw [Arg.string, h]; exact readN_prefix _ _
    · rw [Arg.c_str, h]; rfl
  | enum e =>
    have h := formatEnum_eq _ hm.platform _ (hm.junk _) e he
    refine ⟨decimalText e.toInt, (m.junk INTEGER_SIZE).drop ((decimalText e.toInt).length + 1), ?_, ?_,
      ⟨fun h' => absurd h' (decimalText_no_nul _), fun h' => by cases h'⟩⟩
    · rw [Arg.string, h]; exact readN_prefix _ _
    · rw [Arg.c_str, h]; rfl
  | fpos o =>
    obtain ⟨v, hv, ho⟩ : ∃ v : IntVal, v.Fits m.platform ∧
        formatFpos m.platform (m.junk INTEGER_SIZE) o = formatInt m.platform (m.junk INTEGER_SIZE) v := by
      unfold formatFpos
      split
      · rename_i hl; exact ⟨.long64 o, hl, rfl⟩
      · exact ⟨.i64 o, trivial, rfl⟩
    have h := formatInt_eq _ hm.platform _ (hm.junk _) v hv
    refine ⟨decimalText v.toInt, (m.junk INTEGER_SIZE).drop ((decimalText v.toInt).length + 1), ?_, ?_,
      ⟨fun h' => absurd h' (decimalText_no_nul _), fun h' => by cases h'⟩⟩
    · rw [Arg.string, ho, h]; exact readN_prefix _ _
    · rw [Arg.c_str, ho, h]; rfl
  | float u =>
    obtain ⟨t, r, h1, h2, h3⟩ := formatLd_pointer hm hL (.ofFloat u)
    exact ⟨t, r, h1, h2, ⟨fun h' => absurd h' h3, fun h' => by cases h'⟩⟩
  | double u =>
    obtain ⟨t, r, h1, h2, h3⟩ := formatLd_pointer hm hL (.ofDouble u)
    exact ⟨t, r, h1, h2, ⟨fun h' => absurd h' h3, fun h' => by cases h'⟩⟩
  | longDouble x =>
    obtain ⟨t, r, h1, h2, h3⟩ := formatLd_pointer hm hL x
    exact ⟨t, r, h1, h2, ⟨fun h' => absurd h' h3, fun h' => by cases h'⟩⟩
  | text a => exact absurd rfl hs

/-- C72.  For every scalar value but the character `'\0'`, reading any type from the pointer `Format()(x).c_str()` gives what
reading it from `lexi::string(x)` gives, whatever is in the rest of the buffer. -/
theorem C72_pointer (m : Machine) (hm : m.Ok) (hL : m.literals = .default) (F : FpFormat) (a : Arg)
    (he : a.Exists m.platform) (hs : a.target ≠ none) (h0 : a ≠ .char 0) (T : Target) :
    ∃ t mem, a.string m = .ok t ∧ a.c_str m = .ok mem ∧
      T.lexi m.literals F (.cstr mem) = T.lexi m.literals F (.stdString t) := by
  obtain ⟨t, r, h1, h2, h3⟩ := arg_pointer hm hL a he hs
  exact ⟨t, _, h1, h2, C72_terminated _ _ _ _ _ fun h => h0 (h3.mp h)⟩

/-- C72, strings: reading from `s.c_str()` of a string, or from the pointer that was given, is reading the part of the string
before its first NUL; so it is reading the string unless that holds one. -/
theorem C72_text (m : Machine) (F : FpFormat) (a : StrArg) (s : Bytes) (hs : a.toStd = .ok s) (T : Target) :
    ∃ mem, (Arg.text a).c_str m = .ok mem ∧
      T.lexi m.literals F (.cstr mem) = T.lexi m.literals F (.stdString (s.takeWhile (· ≠ 0))) ∧
      (0 ∉ s → T.lexi m.literals F (.cstr mem) = T.lexi m.literals F (.stdString s)) := by
  have key : ∀ mem : Bytes, 0 ∈ mem → mem.takeWhile (· ≠ 0) = s.takeWhile (· ≠ 0) →
      T.lexi m.literals F (.cstr mem) = T.lexi m.literals F (.stdString (s.takeWhile (· ≠ 0))) ∧
      (0 ∉ s → T.lexi m.literals F (.cstr mem) = T.lexi m.literals F (.stdString s)) := by
    intro mem h0 he
    obtain ⟨r, hr⟩ : ∃ r, mem = mem.takeWhile (· ≠ 0) ++ 0 :: r := by
      clear he
      induction mem with
      | nil => simp at h0
      | cons b l ih =>
        by_cases hb : b = 0
        · exact ⟨l, by simp [hb]⟩
        · obtain ⟨r, hr⟩ := ih (by simpa [Ne.symm hb] using h0)
          refine ⟨r, ?_⟩
          rw [List.takeWhile_cons, if_pos (by simpa using hb), List.cons_append, ← hr]
    have hn : (0 : UInt8) ∉ s.takeWhile (· ≠ 0) := by
      intro h
      have := List.all_takeWhile (l := s) (p := fun b => decide (b ≠ 0))
      rw [List.all_eq_true] at this
      simpa using this 0 h
    have h1 : T.lexi m.literals F (.cstr mem) = T.lexi m.literals F (.stdString (s.takeWhile (· ≠ 0))) := by
      rw [hr, he]; exact C72_terminated _ _ _ _ _ hn
    refine ⟨h1, fun h => ?_⟩
    have hs : s.takeWhile (· ≠ 0) = s := by
      clear hs h1 hn he
      induction s with
      | nil => rfl
      | cons b l ih =>
        have hb : b ≠ 0 := fun e => h (by simp [e])
        rw [List.takeWhile_cons, if_pos (by simpa using hb), ih fun h' => h (by simp [h'])]
    rw [h1, hs]
  cases a with
  | stdString s' =>
    cases hs
    refine ⟨_, rfl, key _ (by simp) ?_⟩
    clear key
    induction s with
    | nil => rfl
    | cons b l ih => simp only [List.cons_append, List.takeWhile_cons]; rw [ih]
  | cstr mem =>
    by_cases h0 : 0 ∈ mem
    · rw [StrArg.toStd, if_pos h0] at hs
      cases hs
      refine ⟨_, rfl, key _ h0 ?_⟩
      unfold Lexi.cstr
      clear key h0
      induction mem with
      | nil => rfl
      | cons b l ih =>
        by_cases hb : b = 0
        · simp [hb]
        · simp only [List.takeWhile_cons, ne_eq, hb, not_false_eq_true, decide_true, if_true, bne_iff_ne]
          rw [ih]
    · rw [StrArg.toStd, if_neg h0] at hs; cases hs

example : (StrArg.cstr [49, 50, 0, 51]).toStd = .ok [49, 50] ∧
    ∀ m, (Arg.text (.stdString [49, 50])).c_str m = .ok [49, 50, 0] := ⟨rfl, fun _ => rfl⟩

/-- C72, the exception: the character `'\0'` reads back from its `std::string`, but not from its pointer. -/
theorem C72_nul (m : Machine) (hm : m.Ok) (F : FpFormat) :
    ∃ t mem, (Arg.char 0).string m = .ok t ∧ (Arg.char 0).c_str m = .ok mem ∧
      Target.char.lexi m.literals F (.stdString t) = .ok (.char 0) ∧
      Target.char.lexi m.literals F (.cstr mem) = .throws := by
  have h := formatChar_eq (m.junk CHAR_SIZE) (hm.junk _) 0
  refine ⟨[0], [0, 0], ?_, ?_, rfl, rfl⟩
  · rw [Arg.string, h]; rfl
  · rw [Arg.c_str, h]; rfl

/-! ## C73 -/

/-- Equality as C++ `==` sees it, except that NaNs count as equal. -/
def Arg.Same : Arg → Arg → Prop
  | .float u, .float v => (FNaN u ∧ FNaN v) ∨ (FZero u ∧ FZero v) ∨ (u = v)
  | .double u, .double v => (DNaN u ∧ DNaN v) ∨ (DZero u ∧ DZero v) ∨ (u = v)
  | .longDouble x, .longDouble y =>
    (x = .nan ∧ y = .nan) ∨ (∃ b c, x = .fin b 0 ∧ y = .fin c 0) ∨ (x = y)
  | a, b => a = b

/-- The values whose text gives them back where `long double` has the format `F`.  Doubles: all where `long double` is
binary64 or has at least 73 significant bits, those of even significand and the specials where it has at least 64.  Floats: all
where `long double` is no narrower than `double`.  Long doubles: all where `long double` is binary64. -/
def Arg.Survives (F : FpFormat) : Arg → Prop
  | .float _ => 53 ≤ F.p ∧ F.emin ≤ -1074 ∧ 1024 ≤ F.emax
  | .double u => F = .binary64 ∨ (73 ≤ F.p ∧ F.emin ≤ -1146 ∧ 1024 ≤ F.emax) ∨
      (64 ≤ F.p ∧ F.emin ≤ -1076 ∧ 1024 ≤ F.emax ∧ u.toNat % 2 = 0) ∨ ¬ DFinite u
  | .longDouble x => F = .binary64 ∧ ∃ u, x = .ofDouble u
  | .text _ => False
  | _ => True

theorem read_zero (F : FpFormat) : strtold F (ascii "0.0") = .fin false 0 := by
  have hwf : (⟨false, [48], some [48], none⟩ : JNumber).WF :=
    ⟨by simp, by simp [IsDigit], by simp, by simp [IsDigit], by simp⟩
  have h := strtold_number F ⟨false, [48], some [48], none⟩ hwf
  have e1 : (⟨false, [48], some [48], none⟩ : JNumber).text = ascii "0.0" := by decide
  have e2 : (⟨false, [48], some [48], none⟩ : JNumber).mag = 0 := by
    simp [JNumber.mag, JNumber.fracDigits, digitsValue]
  rw [e1, e2] at h
  rw [h]
  simp [FpFormat.round, roundRat]

theorem fclass_cases (u : UInt32) : FFinite u ∨ FInfinite u ∨ FNaN u := by
  unfold FFinite FInfinite FNaN; tauto

theorem ofFloat_inf (u : UInt32) (h : FInfinite u) : LVal.ofFloat u = .inf (decide (fNeg u)) := by
  obtain ⟨h1, h2⟩ := h
  unfold fExp at h1; unfold fFrac at h2
  unfold LVal.ofFloat
  dsimp only
  rw [if_pos h1, if_pos h2]
  rfl

theorem ofFloat_nan (u : UInt32) (h : FNaN u) : LVal.ofFloat u = .nan := by
  obtain ⟨h1, h2⟩ := h
  unfold fExp at h1; unfold fFrac at h2
  unfold LVal.ofFloat
  dsimp only
  rw [if_pos h1, if_neg h2]

theorem finf_bits (u : UInt32) (h : FInfinite u) : u = if fNeg u then 0xFF800000 else 0x7F800000 := by
  obtain ⟨h1, h2⟩ := h
  unfold fExp at h1; unfold fFrac at h2
  have hl := u.toNat_lt
  by_cases h : fNeg u
  · rw [if_pos h]
    apply UInt32.toNat_inj.mp
    unfold fNeg at h
    rw [show (0xFF800000 : UInt32).toNat = 4286578688 by decide]; omega
  · rw [if_neg h]
    apply UInt32.toNat_inj.mp
    unfold fNeg at h
    rw [show (0x7F800000 : UInt32).toNat = 2139095040 by decide]; omega

/-- The text of any `long double`, read by any of the three floating types, up to the finite non-zero case. -/
theorem special_printed (env : Env) (junk : Bytes) (hj : junk.length = FLOAT_SIZE) (x : LVal) :
    (DNaN x.toDouble → stringLongDouble .default env junk x = .ok (ascii "NaN")) ∧
    (DInfinite x.toDouble → stringLongDouble .default env junk x =
      .ok (ascii (if dNeg x.toDouble then "-Infinity" else "Infinity"))) ∧
    (DZero x.toDouble → stringLongDouble .default env junk x = .ok (ascii "0.0")) := by
  have hlen : junk.length = 30 := hj
  unfold stringLongDouble
  refine ⟨fun h => ?_, fun h => ?_, fun h => ?_⟩
  · rw [formatLd_nan env _ h, stringLit _ _ (by decide) (by rw [hlen]; decide)]
    exact readN_prefix (ascii "NaN") _
  · rw [formatLd_inf env _ h]
    by_cases hn : dNeg x.toDouble
    · simp only [hn, if_true]
      rw [stringLit _ _ (by decide) (by rw [hlen]; decide)]
      exact readN_prefix (ascii "-Infinity") _
    · simp only [hn, if_false]
      rw [stringLit _ _ (by decide) (by rw [hlen]; decide)]
      exact readN_prefix (ascii "Infinity") _
  · rw [formatLd_zero env x h _ junk hj]
    exact readN_prefix (ascii "0.0") _

theorem read_nan (F : FpFormat) : strtold F (ascii "NaN") = .nan := rfl
theorem read_inf (F : FpFormat) (b : Prop) [Decidable b] :
    strtold F (ascii (if b then "-Infinity" else "Infinity")) = .inf (decide b) := by
  by_cases h : b
  · rw [if_pos h, decide_eq_true h]; rfl
  · rw [if_neg h, decide_eq_false h]; rfl

theorem inf_class (b : Bool) : DInfinite (LVal.inf b).toDouble ∧ (dNeg (LVal.inf b).toDouble ↔ b = true) := by
  cases b <;> decide +kernel

/-- C73 for floats. -/
theorem float_survives {m : Machine} (hm : m.Ok) (hL : m.literals = .default) (F : FpFormat) (u : UInt32)
    (h : (Arg.float u).Survives F) :
    ∃ t b, (Arg.float u).string m = .ok t ∧ Target.float.lexi m.literals F (.stdString t) = .ok b ∧ (Arg.float u).Same b := by
  have hj := hm.junk FLOAT_SIZE
  have sp := special_printed m.env _ hj (.ofFloat u)
  rw [← hL] at sp
  rcases fclass_cases u with hf | hi | hn
  · by_cases hz : FZero u
    · have h0 : fMag u = 0 := by unfold fMag fSig; rw [if_pos hz.1, hz.2]; simp
      have h1 : LVal.ofFloat u = .fin (decide (fNeg u)) 0 := by rw [ofFloat_finite u hf, h0]
      have h2 : DZero (LVal.ofFloat u).toDouble := by rw [h1]; cases decide (fNeg u) <;> decide +kernel
      refine ⟨_, .float (lexiFloat F (ascii "0.0")), sp.2.2 h2, rfl, Or.inr (Or.inl ⟨hz, ?_⟩)⟩
      rw [lexiFloat, extractLongDouble, read_zero]
      decide +kernel
    · obtain ⟨t, h1, h2⟩ := C24_float_round_trip F h.1 h.2.1 h.2.2 m.env hm.env m.literals _ hj u hf hz
      exact ⟨t, .float (lexiFloat F t), h1, rfl, Or.inr (Or.inr h2.symm)⟩
  · have h1 := ofFloat_inf u hi
    obtain ⟨h2, h3⟩ := inf_class (decide (fNeg u))
    rw [← h1] at h2 h3
    refine ⟨_, .float (lexiFloat F _), sp.2.1 h2, rfl, Or.inr (Or.inr ?_)⟩
    rw [lexiFloat, extractLongDouble, read_inf]
    have hb := finf_bits u hi
    by_cases hn : fNeg u
    · rw [if_pos hn] at hb
      rw [decide_eq_true (h3.mpr (decide_eq_true hn)), hb]; rfl
    · rw [if_neg hn] at hb
      rw [decide_eq_false (fun h' => hn (of_decide_eq_true (h3.mp h'))), hb]; rfl
  · have h1 := ofFloat_nan u hn
    refine ⟨_, .float (lexiFloat F _), sp.1 (by rw [h1]; decide +kernel), rfl, Or.inl ⟨hn, ?_⟩⟩
    rw [lexiFloat, extractLongDouble, read_nan]; decide +kernel

/-- C73 for doubles. -/
theorem double_survives {m : Machine} (hm : m.Ok) (hL : m.literals = .default) (F : FpFormat) (u : UInt64)
    (h : (Arg.double u).Survives F) :
    ∃ t b, (Arg.double u).string m = .ok t ∧ Target.double.lexi m.literals F (.stdString t) = .ok b ∧
      (Arg.double u).Same b := by
  have hj := hm.junk FLOAT_SIZE
  have sp := C22_special F m.env _ hj u
  have sp0 := (C30_special_values m.env _ hj u).2.2
  rw [← hL] at sp sp0
  rcases class_cases u with hf | hi | hn
  · by_cases hz : DZero u
    · refine ⟨_, .double (lexiDouble F (ascii "0.0")), sp0 hz, rfl, Or.inr (Or.inl ⟨hz, ?_⟩)⟩
      rw [lexiDouble, extractLongDouble, read_zero]
      decide +kernel
    · obtain ⟨t, h1, h2⟩ : ∃ t, stringDouble m.literals m.env (m.junk FLOAT_SIZE) u = .ok t ∧ lexiDouble F t = u := by
        rcases h with rfl | h | h | h
        · exact C22_round_trip m.env hm.env _ _ hj u hf hz
        · exact C23_wide_partial F h.1 h.2.1 h.2.2 m.env hm.env _ _ hj u hf hz
        · obtain ⟨t, h1, h2, -⟩ := C23_neighbour_partial F h.1 h.2.1 h.2.2.1 m.env hm.env m.literals _ hj u hf hz
          exact ⟨t, h1, h2 h.2.2.2⟩
        · exact absurd hf h
      exact ⟨t, .double (lexiDouble F t), h1, rfl, Or.inr (Or.inr h2.symm)⟩
  · obtain ⟨t, h1, h2⟩ := sp.2.1 hi
    exact ⟨t, .double (lexiDouble F t), h1, rfl, Or.inr (Or.inr h2.symm)⟩
  · obtain ⟨t, h1, h2⟩ := sp.1 hn
    exact ⟨t, .double (lexiDouble F t), h1, rfl, Or.inl ⟨hn, h2⟩⟩

/-- C73 for long doubles. -/
theorem longDouble_survives {m : Machine} (hm : m.Ok) (hL : m.literals = .default) (u : UInt64) :
    ∃ t b, (Arg.longDouble (.ofDouble u)).string m = .ok t ∧
      Target.longDouble.lexi m.literals .binary64 (.stdString t) = .ok b ∧ (Arg.longDouble (.ofDouble u)).Same b := by
  have hj := hm.junk FLOAT_SIZE
  have sp := special_printed m.env _ hj (.ofDouble u)
  rw [← hL] at sp
  rcases class_cases u with hf | hi | hn
  · by_cases hz : DZero u
    · refine ⟨_, .longDouble (extractLongDouble .binary64 (ascii "0.0")), sp.2.2 ?_, rfl,
        Or.inr (Or.inl ⟨decide (dNeg u), false, ?_, ?_⟩)⟩
      · rw [toDouble_ofDouble u fun h => hf h.1]; exact hz
      · rw [ofDouble_finite u hf, dMag_zero hz]
      · rw [extractLongDouble, read_zero]
    · obtain ⟨D, k, hP, h⟩ := stringDouble_finite m.env hm.env u hf hz
      refine ⟨_, .longDouble (extractLongDouble .binary64 _), h u rfl m.literals _ hj, rfl, Or.inr (Or.inr ?_)⟩
      have hint := hP.interval hz
      have hV : 0 < (D : ℚ) * 10 ^ k := (lowB_pos hz).trans hP.lower
      unfold extractLongDouble
      rw [parse_signed _ hz hP]
      have hr := roundRat_interval (p := 53) (by norm_num) hV (dSig u) (dUlpExp u) (dSig_lt u)
        (ulpExp_bounds u hf).1 (uExp_normal u) hint
      have hlt : roundRat FpFormat.binary64.p FpFormat.binary64.emin ((D : ℚ) * 10 ^ k) < 2 ^ (1024 : ℤ) := by
        change roundRat 53 (-1074) _ < _
        rw [hr]
        refine lt_of_le_of_lt ?_ (highB_lt_top hf)
        rw [highB_eq]
        have := zp (dUlpExp u - 1)
        unfold dMag; linarith
      rw [round_finite _ _ _ (le_refl _) hlt, ofDouble_finite u hf]
      change _ = LVal.fin _ (roundRat 53 (-1074) _)
      rw [hr]
      rfl
  · have h1 := ofDouble_inf u hi
    obtain ⟨h2, h3⟩ := inf_class (decide (dNeg u))
    rw [← h1] at h2 h3
    refine ⟨_, .longDouble (extractLongDouble .binary64 _), sp.2.1 h2, rfl, Or.inr (Or.inr ?_)⟩
    rw [extractLongDouble, read_inf]
    refine h1.trans (congrArg LVal.inf ?_)
    by_cases hn : dNeg u
    · rw [decide_eq_true hn, decide_eq_true (h3.mpr (decide_eq_true hn))]
    · rw [decide_eq_false hn, decide_eq_false (fun h' => hn (of_decide_eq_true (h3.mp h')))]
  · have h1 := ofDouble_nan u hn
    exact ⟨_, .longDouble (extractLongDouble .binary64 (ascii "NaN")), sp.1 (by rw [h1]; decide +kernel), rfl,
      Or.inl ⟨h1, read_nan _⟩⟩

/-- C73.  Every value of every scalar type that survives on the platform comes back from its text, read with its own type, equal
in the sense of C++ `==` (a NaN comes back as a NaN, a zero as a zero). -/
theorem C73_round_trip (m : Machine) (hm : m.Ok) (hL : m.literals = .default) (F : FpFormat) (a : Arg)
    (he : a.Exists m.platform) (h : a.Survives F) :
    ∃ T t b, a.target = some T ∧ a.string m = .ok t ∧ T.lexi m.literals F (.stdString t) = .ok b ∧ a.Same b := by
  cases a with
  | null =>
    refine ⟨_, ascii "null", .null, rfl, ?_, ?_, rfl⟩
    · rw [Arg.string, hL]; exact (C11_null _ (hm.junk _) []).1
    · rw [hL]; rfl
  | bool b =>
    refine ⟨_, ascii (if b then "true" else "false"), .bool b, rfl, ?_, ?_, rfl⟩
    · rw [Arg.string, hL]; exact C10_bool_format _ (hm.junk _) b
    · rw [hL]; cases b <;> rfl
  | char c => exact ⟨_, [c], .char c, rfl, (C12_char _ (hm.junk _) c).1, rfl, rfl⟩
  | int v =>
    refine ⟨_, decimalText v.toInt, .int v, rfl, ?_, ?_, rfl⟩
    · exact stringInt_eq _ hm.platform _ (hm.junk _) v he
    · change (lexiInt v.ty (decimalText v.toInt) >>= fun w => Res.ok (Arg.int w)) = _
      rw [lexiInt_decimal v]; rfl
  | enum e =>
    refine ⟨_, decimalText e.toInt, .enum e, rfl, ?_, ?_, rfl⟩
    · exact stringEnum_eq _ hm.platform _ (hm.junk _) e he
    · change (lexiEnum e.ty (decimalText e.toInt) >>= fun w => Res.ok (Arg.enum w)) = _
      rw [lexiEnum_decimal e]; rfl
  | fpos o =>
    obtain ⟨h1, h2⟩ := C47_fpos_round_trip _ hm.platform _ (hm.junk INTEGER_SIZE) o
    rw [h1, Res.ok_bind] at h2
    refine ⟨_, decimalText o.toInt, .fpos o, rfl, h1, ?_, rfl⟩
    change (lexiFpos (decimalText o.toInt) >>= fun w => Res.ok (Arg.fpos w)) = _
    rw [h2]; rfl
  | float u =>
    obtain ⟨t, b, h1, h2, h3⟩ := float_survives hm hL F u h
    exact ⟨_, t, b, rfl, h1, h2, h3⟩
  | double u =>
    obtain ⟨t, b, h1, h2, h3⟩ := double_survives hm hL F u h
    exact ⟨_, t, b, rfl, h1, h2, h3⟩
  | longDouble x =>
    obtain ⟨rfl, u, rfl⟩ := h
    obtain ⟨t, b, h1, h2, h3⟩ := longDouble_survives hm hL u
    exact ⟨_, t, b, rfl, h1, h2, h3⟩
  | text a => exact h.elim

/-- A platform for the examples. -/
def sampleMachine : Machine := ⟨lp64, true, .default, sampleEnv, fun n => List.replicate n 7⟩

theorem sampleMachine_ok : sampleMachine.Ok := ⟨by simp [Platform.Supported, lp64, sampleMachine], sampleEnv_ok, fun n => by simp [sampleMachine]⟩

/-! Non-vacuity. -/
example : 0 ∉ ascii "-12" ∧ Target.int .i16 ≠ .null := by decide
example : Target.lexi .default .binary64 (.int .i16) (.cstr (ascii "-12" ++ 0 :: ascii "34")) = .ok (.int (.i16 (-12))) := by
  rfl
example : (Arg.int (.i16 (-12))).Exists sampleMachine.platform ∧ (Arg.int (.i16 (-12))).target ≠ none ∧
    Arg.int (.i16 (-12)) ≠ .char 0 := ⟨trivial, by decide, by simp⟩
example : (Arg.double 0x3FB999999999999A).Survives .x87 ∧ (Arg.double 0x3FB999999999999A).Survives .binary128 :=
  ⟨Or.inr (Or.inr (Or.inl (by decide))), Or.inr (Or.inl (by decide))⟩
example : (Arg.float 0x3DCCCCCD).Survives .x87 ∧ (Arg.longDouble (.ofDouble 0x3FB999999999999A)).Survives .binary64 :=
  ⟨by unfold Arg.Survives; decide, rfl, _, rfl⟩
/-- The condition cannot be dropped: the odd double of `C23_refuted_x87` does not survive on x87. -/
example : ¬ (Arg.double x87Witness).Survives .x87 := by
  unfold Arg.Survives; decide +kernel

end Lexi
