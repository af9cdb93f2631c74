import Verif.Props.Whole
import Verif.Props.LongDouble
import Verif.Props.ReadSingle
import Verif.Proofs.BigDecimal
import Verif.Spec.Trunc

/-!
# Reading one type's text as another: C28 (by value), C65, C66
-/

namespace Lexi
open Spec Soft Dtoa DiyFp

/-! ### Texts as integers -/

theorem frac_head {n : JNumber} (hn : n.WF) :
    ∀ b, ((match n.frac with | some f => 46 :: f | none => []) ++
      (match n.exp with | some e => e.text | none => [])).head? = some b → ¬ IsDigit b := by
  intro b hb
  cases hf : n.frac with
  | some f =>
    rw [hf] at hb
    simp only [List.cons_append, List.head?_cons, Option.some.injEq] at hb
    subst hb; decide
  | none =>
    rw [hf] at hb
    cases he : n.exp with
    | none => rw [he] at hb; simp at hb
    | some e =>
      rw [he] at hb
      simp only [List.nil_append, JExp.text, List.head?_cons, Option.some.injEq] at hb
      subst hb
      rcases (hn.exp_ok e he).1 with h | h <;> rw [h] <;> decide

theorem json_intText {n : JNumber} (hn : n.WF) : IntText n.text n.neg n.int := by
  have := intText_of_parts [] (if n.neg then [45] else []) n.int _ n.neg (by simp)
    (by cases n.neg <;> simp) hn.int_ne hn.int_digits (frac_head hn)
  rw [List.nil_append] at this
  have e : n.text = (if n.neg then [45] else []) ++ n.int ++ ((match n.frac with | some f => 46 :: f | none => []) ++
      (match n.exp with | some e => e.text | none => [])) := by
    unfold JNumber.text
    cases n.frac <;> cases n.exp <;> simp
  rw [e]
  exact this

theorem mag_bounds {n : JNumber} (hn : n.WF) :
    (digitsValue n.int : ℚ) * 10 ^ n.expValue ≤ n.mag ∧ n.mag < (digitsValue n.int + 1) * 10 ^ n.expValue := by
  have hf : ∀ b ∈ n.fracDigits, IsDigit b := by
    unfold JNumber.fracDigits
    cases h : n.frac with
    | none => simp
    | some f => exact (hn.frac_ok f h).2
  have hp : (0 : ℚ) < 10 ^ n.fracDigits.length := by positivity
  have hx : (0 : ℚ) < 10 ^ n.expValue := by positivity
  have hlt : (digitsValue n.fracDigits : ℚ) < 10 ^ n.fracDigits.length := by
    exact_mod_cast BigInt.digitsValue_lt_pow _ hf
  have e : n.mag = (digitsValue n.int + digitsValue n.fracDigits / 10 ^ n.fracDigits.length) * 10 ^ n.expValue := by
    unfold JNumber.mag
    rw [zpow_sub₀ (by norm_num), zpow_natCast, digitsValue_append]
    push_cast
    field_simp
  rw [e]
  constructor
  · refine mul_le_mul_of_nonneg_right ?_ hx.le
    have : (0 : ℚ) ≤ digitsValue n.fracDigits / 10 ^ n.fracDigits.length := by positivity
    linarith
  · refine mul_lt_mul_of_pos_right ?_ hx
    have := (div_lt_one hp).mpr hlt
    linarith

theorem floor_mag {n : JNumber} (hn : n.WF) (he : n.exp = none) :
    (digitsValue n.int : ℚ) ≤ n.mag ∧ n.mag < digitsValue n.int + 1 := by
  have hx : n.expValue = 0 := by unfold JNumber.expValue; rw [he]
  have := mag_bounds hn
  rwa [hx, zpow_zero, mul_one, mul_one] at this

theorem truncate_value {n : JNumber} (hn : n.WF) (he : n.exp = none) :
    truncate n.value = if n.neg then -(digitsValue n.int : ℤ) else digitsValue n.int := by
  obtain ⟨h1, h2⟩ := floor_mag hn he
  have h0 : (0 : ℚ) ≤ digitsValue n.int := by positivity
  have hfl : ⌊n.mag⌋ = (digitsValue n.int : ℤ) := by
    rw [Int.floor_eq_iff]; push_cast; exact ⟨h1, h2⟩
  unfold truncate JNumber.value
  cases n.neg
  · simp only [Bool.false_eq_true, if_false]
    rw [if_neg (not_lt.mpr (h0.trans h1)), hfl]
  · simp only [if_true]
    split
    · rw [Int.ceil_neg, hfl]
    · rename_i h
      have hz : n.mag = 0 := le_antisymm (by linarith) (h0.trans h1)
      rw [hz] at hfl ⊢
      simp at hfl ⊢
      exact_mod_cast hfl.symm

/-- C65.  Reading a JSON number as an integer looks at the integer part only: fraction and exponent are ignored. -/
theorem C65_json_integer_part (n : JNumber) (hn : n.WF) (t : IntTy) :
    lexiInt t n.text = lexiInt t ((if n.neg then [45] else []) ++ n.int) := by
  have h1 := json_intText hn
  have h2 : IntText ((if n.neg then [45] else []) ++ n.int) n.neg n.int := by
    have := intText_of_parts [] (if n.neg then [45] else []) n.int [] n.neg (by simp)
      (by cases n.neg <;> simp) hn.int_ne hn.int_digits (by simp)
    simpa using this
  unfold lexiInt
  congr 1
  apply IntVal.ext'
  · rw [convertInt_ty, convertInt_ty]
  · rw [lexiInt_textNumber h1, lexiInt_textNumber h2]

/-- C65.  A JSON number without exponent reads, as an integer type, as its value rounded towards zero and reduced into the
type, as long as it is below `2^64` in magnitude; beyond, the integer extraction saturates. -/
theorem C65_json_truncates (n : JNumber) (hn : n.WF) (he : n.exp = none) (t : IntTy) :
    ∃ v, lexiInt t n.text = .ok v ∧ v.ty = t ∧
      (|n.value| < 2 ^ 64 → v.toInt = wrapInt t.signed t.width (truncate n.value)) ∧
      (2 ^ 64 ≤ |n.value| → v.toInt = if t.signed then -1 else 2 ^ t.width - 1) := by
  obtain ⟨h1, h2⟩ := floor_mag hn he
  have habs : |n.value| = n.mag := by
    unfold JNumber.value
    split
    · rw [abs_neg, abs_of_nonneg (mag_nonneg n)]
    · exact abs_of_nonneg (mag_nonneg n)
  obtain ⟨v, e, hb, hs⟩ := C09_int_out_of_range t _ _ _ (json_intText hn)
  refine ⟨v, e, ?_, fun h => ?_, fun h => ?_⟩
  · unfold lexiInt at e
    rw [Res.ok.injEq] at e
    rw [← e, convertInt_ty]
  · rw [truncate_value hn he]
    refine hs ?_
    have : (digitsValue n.int : ℚ) < 2 ^ 64 := by rw [habs] at h; linarith
    exact_mod_cast this
  · refine hb ?_
    rw [habs] at h
    have : (2 : ℚ) ^ 64 < digitsValue n.int + 1 := by linarith
    have : 2 ^ 64 < digitsValue n.int + 1 := by exact_mod_cast this
    omega

/-! ### Doubles -/

/-- The double nearest to `10^-6`. -/
def micro : UInt64 := 0x3EB0C6F7A0B5ED8D
/-- The double `10^21`. -/
def sextillion : UInt64 := 0x444B1AE4D6E2EF50

theorem micro_value : dValue micro = 4722366482869645 * 2 ^ (-72 : ℤ) := by
  have a : dSig micro = 4722366482869645 := by decide +kernel
  have b : dUlpExp micro = -72 := by decide +kernel
  have c : ¬ dNeg micro := by decide +kernel
  unfold dValue dMag; rw [a, b, if_neg c]; norm_num

theorem sextillion_value : dValue sextillion = 10 ^ 21 := by
  have a : dSig sextillion = 7629394531250000 := by decide +kernel
  have b : dUlpExp sextillion = 17 := by decide +kernel
  have c : ¬ dNeg sextillion := by decide +kernel
  unfold dValue dMag; rw [a, b, if_neg c]; norm_num

/-- Comparing a double with one whose printed value is known. -/
theorem printed_le_iff {env : Env} (henv : EnvOk env) {w u : UInt64} {q : ℚ} (hw : DFinite w) (hwz : ¬ DZero w)
    (hu : DFinite u) {L : Literals} {junk : Bytes} (hj : junk.length = FLOAT_SIZE) {n : JNumber} (hn : n.WF)
    (hq : ∃ t, stringDouble L env junk w = .ok t ∧ IsJsonNumber t q) (ht : stringDouble L env junk u = .ok n.text) :
    (dValue w ≤ dValue u ↔ q ≤ n.value) ∧ (dValue u ≤ dValue w ↔ n.value ≤ q) := by
  obtain ⟨t, h1, h2⟩ := hq
  have hnj : IsJsonNumber n.text n.value := ⟨n, hn, rfl, rfl⟩
  have lt1 : dValue w < dValue u → q < n.value := fun h => by
    obtain ⟨a, b, v, v', e1, e2, j1, j2, hlt⟩ := C31_order env henv L junk junk hj hj w u hw hu h
    rw [h1, Res.ok.injEq] at e1
    rw [ht, Res.ok.injEq] at e2
    subst e1; subst e2
    rwa [j1.unique h2, j2.unique hnj] at hlt
  have lt2 : dValue u < dValue w → n.value < q := fun h => by
    obtain ⟨a, b, v, v', e1, e2, j1, j2, hlt⟩ := C31_order env henv L junk junk hj hj u w hu hw h
    rw [h1, Res.ok.injEq] at e2
    rw [ht, Res.ok.injEq] at e1
    subst e1; subst e2
    rwa [j2.unique h2, j1.unique hnj] at hlt
  have eq1 : dValue w = dValue u → n.value = q := fun h => by
    rcases dValue_inj hw hu h with rfl | ⟨h', -⟩
    · rw [h1, Res.ok.injEq] at ht
      rw [ht] at h2
      exact hnj.unique h2
    · exact absurd h' hwz
  rcases lt_trichotomy (dValue w) (dValue u) with h | h | h
  · exact ⟨⟨fun _ => (lt1 h).le, fun _ => h.le⟩, ⟨fun h' => absurd h (not_lt.mpr h'), fun h' => absurd (lt1 h) (not_lt.mpr h')⟩⟩
  · have := eq1 h
    exact ⟨⟨fun _ => this.ge, fun _ => h.le⟩, ⟨fun _ => this.le, fun _ => h.ge⟩⟩
  · exact ⟨⟨fun h' => absurd h (not_lt.mpr h'), fun h' => absurd (lt2 h) (not_lt.mpr h')⟩, ⟨fun _ => (lt2 h).le, fun _ => h.le⟩⟩

theorem micro_near (s : UInt64) (hs : s = micro ∨ s = micro + 2 ^ 63) : NearMag s ((1 : ℕ) * 10 ^ (-6 : ℤ)) := by
  have a : dSig s = 4722366482869645 := by rcases hs with rfl | rfl <;> decide +kernel
  have b : dUlpExp s = -72 := by rcases hs with rfl | rfl <;> decide +kernel
  unfold NearMag dMag
  rw [a, b, if_neg (by norm_num), abs_le]
  constructor <;> norm_num

theorem sextillion_near (s : UInt64) (hs : s = sextillion ∨ s = sextillion + 2 ^ 63) :
    NearMag s ((1 : ℕ) * 10 ^ (21 : ℤ)) := by
  have a : dSig s = 7629394531250000 := by rcases hs with rfl | rfl <;> decide +kernel
  have b : dUlpExp s = 17 := by rcases hs with rfl | rfl <;> decide +kernel
  unfold NearMag dMag
  rw [a, b, if_neg (by norm_num), abs_le]
  constructor <;> norm_num

/-- Comparison of magnitudes with a positive double of known text and its negation. -/
theorem printed_abs_le_iff {env : Env} (henv : EnvOk env) {w w' u : UInt64} {m : ℕ} {j : ℤ} (hm : m < 10 ^ 15)
    (hw : DFinite w ∧ dExp w ≠ 0 ∧ ¬ dNeg w ∧ NearMag w (m * 10 ^ j))
    (hw' : DFinite w' ∧ dExp w' ≠ 0 ∧ dNeg w' ∧ NearMag w' (m * 10 ^ j)) (hv : dValue w' = -dValue w)
    (hu : DFinite u) {L : Literals} {junk : Bytes} (hj : junk.length = FLOAT_SIZE) {n : JNumber} (hn : n.WF)
    (ht : stringDouble L env junk u = .ok n.text) : dValue w ≤ |dValue u| ↔ (m : ℚ) * 10 ^ j ≤ |n.value| := by
  have h1 := C53_decimal_fidelity env henv L junk hj w hw.1 hw.2.1 m j hm hw.2.2.2
  have h2 := C53_decimal_fidelity env henv L junk hj w' hw'.1 hw'.2.1 m j hm hw'.2.2.2
  rw [if_neg hw.2.2.1] at h1
  rw [if_pos hw'.2.2.1] at h2
  have a := (printed_le_iff henv hw.1 (fun h => hw.2.1 h.1) hu hj hn h1 ht).1
  have b := (printed_le_iff henv hw'.1 (fun h => hw'.2.1 h.1) hu hj hn h2 ht).2
  rw [hv] at b
  rw [le_abs, le_abs, a, le_neg, b, le_neg]

theorem micro_iff {env : Env} (henv : EnvOk env) {u : UInt64} (hu : DFinite u) {L : Literals} {junk : Bytes}
    (hj : junk.length = FLOAT_SIZE) {n : JNumber} (hn : n.WF) (ht : stringDouble L env junk u = .ok n.text) :
    dValue micro ≤ |dValue u| ↔ 10 ^ (-6 : ℤ) ≤ |n.value| := by
  have hv : dValue (micro + 2 ^ 63) = -dValue micro := by
    have a : dSig (micro + 2 ^ 63) = dSig micro := by decide +kernel
    have b : dUlpExp (micro + 2 ^ 63) = dUlpExp micro := by decide +kernel
    have c : ¬ dNeg micro := by decide +kernel
    have d : dNeg (micro + 2 ^ 63) := by decide +kernel
    unfold dValue dMag; rw [a, b, if_neg c, if_pos d]
  have := printed_abs_le_iff henv (w := micro) (w' := micro + 2 ^ 63) (m := 1) (j := -6) (by norm_num)
    ⟨by decide +kernel, by decide +kernel, by decide +kernel, micro_near _ (Or.inl rfl)⟩
    ⟨by decide +kernel, by decide +kernel, by decide +kernel, micro_near _ (Or.inr rfl)⟩ hv hu hj hn ht
  rw [this]; simp

theorem sextillion_iff {env : Env} (henv : EnvOk env) {u : UInt64} (hu : DFinite u) {L : Literals} {junk : Bytes}
    (hj : junk.length = FLOAT_SIZE) {n : JNumber} (hn : n.WF) (ht : stringDouble L env junk u = .ok n.text) :
    10 ^ 21 ≤ |dValue u| ↔ 10 ^ (21 : ℤ) ≤ |n.value| := by
  have hv : dValue (sextillion + 2 ^ 63) = -dValue sextillion := by
    have a : dSig (sextillion + 2 ^ 63) = dSig sextillion := by decide +kernel
    have b : dUlpExp (sextillion + 2 ^ 63) = dUlpExp sextillion := by decide +kernel
    have c : ¬ dNeg sextillion := by decide +kernel
    have d : dNeg (sextillion + 2 ^ 63) := by decide +kernel
    unfold dValue dMag; rw [a, b, if_neg c, if_pos d]
  have := printed_abs_le_iff henv (w := sextillion) (w' := sextillion + 2 ^ 63) (m := 1) (j := 21) (by norm_num)
    ⟨by decide +kernel, by decide +kernel, by decide +kernel, sextillion_near _ (Or.inl rfl)⟩
    ⟨by decide +kernel, by decide +kernel, by decide +kernel, sextillion_near _ (Or.inr rfl)⟩ hv hu hj hn ht
  rw [← sextillion_value, this]; simp

/-- C28.  In terms of the value itself: fixed notation is used exactly from the double nearest to `10^-6` up to, and without,
`10^21`. -/
theorem C28_by_value (env : Env) (henv : EnvOk env) (L : Literals) (junk : Bytes) (hj : junk.length = FLOAT_SIZE)
    (u : UInt64) (hfin : DFinite u) (hnz : ¬ DZero u) :
    ∃ n : JNumber, n.WF ∧ stringDouble L env junk u = .ok n.text ∧
      (n.exp = none ↔ dValue micro ≤ |dValue u| ∧ |dValue u| < 10 ^ 21) := by
  obtain ⟨n, hn, ht, h, -⟩ := C28_notation env henv L junk hj u hfin hnz
  refine ⟨n, hn, ht, ?_⟩
  rw [h, micro_iff henv hfin hj hn ht, ← not_le, ← not_le, sextillion_iff henv hfin hj hn ht]

/-- Every integer up to `2^53` in magnitude is a double. -/
theorem whole_is_double (z : ℤ) (hz : z.natAbs ≤ 2 ^ 53) : ∃ y, DFinite y ∧ dValue y = z := by
  have hq : (0 : ℚ) ≤ (z.natAbs : ℚ) := by positivity
  have hov : (z.natAbs : ℚ) < dOverflow := by
    have h1 : (z.natAbs : ℚ) ≤ 2 ^ 53 := by exact_mod_cast hz
    refine lt_of_le_of_lt h1 ?_
    unfold dOverflow
    calc (2 : ℚ) ^ 53 < (2 ^ 54 - 1) * 1 := by norm_num
      _ ≤ (2 ^ 54 - 1) * 2 ^ 970 := mul_le_mul_of_nonneg_left (one_le_pow₀ (by norm_num)) (by norm_num)
  have hexact : roundRat 53 (-1074) (z.natAbs : ℚ) = z.natAbs := by
    rcases hq.lt_or_eq with h0 | h0
    · by_cases hM2 : z.natAbs = 2 ^ 53
      · refine roundRat_exact (by omega) h0 (2 ^ 52) 1 (by omega) (by norm_num) ?_
        rw [hM2]; norm_num
      · refine roundRat_exact (by omega) h0 z.natAbs 0 (by omega) (by omega) ?_
        simp
    · rw [← h0, roundRat_zero]
  obtain ⟨a, -, c⟩ := toDouble_value (decide (z < 0)) hq hov
  refine ⟨_, a, ?_⟩
  rw [c, hexact]
  unfold sgn
  by_cases h : z < 0
  · rw [if_pos (by simpa using h), ← Int.cast_natCast, Int.ofNat_natAbs_of_nonpos h.le]; push_cast; ring
  · rw [if_neg (by simpa using h), ← Int.cast_natCast, Int.natAbs_of_nonneg (by omega)]

/-- The parse tree of an integer's digits, with or without `.0`. -/
def wholeNumber (point : Bool) (z : ℤ) : JNumber :=
  ⟨decide (z < 0), decN z.natAbs, if point then some [48] else none, none⟩

theorem wholeNumber_wf (point : Bool) (z : ℤ) : (wholeNumber point z).WF := by
  refine ⟨decN_ne_nil _, decN_digits _, ?_, ?_, ?_⟩
  · intro hl
    apply decN_head
    intro h0
    simp only [wholeNumber, h0] at hl
    exact absurd hl (by decide +kernel)
  · intro f hf
    unfold wholeNumber at hf
    cases point
    · simp at hf
    · have : f = [48] := by simpa using hf.symm
      subst this; decide
  · intro e hx; exact absurd hx (by simp [wholeNumber])

theorem wholeNumber_text (point : Bool) (z : ℤ) :
    (wholeNumber point z).text = decimalText z ++ if point then ascii ".0" else [] := by
  have e0 : ascii ".0" = [46, 48] := by decide +kernel
  by_cases h : z < 0
  · rw [decimalText_neg z h]
    cases point <;> simp [wholeNumber, JNumber.text, h, e0]
  · rw [decimalText_nonneg z (by omega)]
    cases point <;> simp [wholeNumber, JNumber.text, h, e0]

theorem wholeNumber_mag (point : Bool) (z : ℤ) : (wholeNumber point z).mag = z.natAbs := by
  cases point
  · show ((digitsValue (decN z.natAbs ++ []) : ℕ) : ℚ) * 10 ^ ((0 : ℤ) - (0 : ℕ)) = _
    rw [List.append_nil, digitsValue_decN]; simp
  · show ((digitsValue (decN z.natAbs ++ [48]) : ℕ) : ℚ) * 10 ^ ((0 : ℤ) - (1 : ℕ)) = _
    rw [digitsValue_append_singleton, digitsValue_decN]
    simp only [UInt8.toNat_ofNat]
    push_cast; norm_num; ring

theorem wholeNumber_value (point : Bool) (z : ℤ) : (wholeNumber point z).value = z := by
  unfold JNumber.value
  rw [wholeNumber_mag]
  show (if decide (z < 0) = true then _ else _) = _
  by_cases h : z < 0
  · rw [if_pos (by simpa using h), ← Int.cast_natCast, Int.ofNat_natAbs_of_nonpos h.le]; push_cast; ring
  · rw [if_neg (by simpa using h), ← Int.cast_natCast, Int.natAbs_of_nonneg (by omega)]

/-- C65.  Reading the text of a double as an integer type truncates it exactly like a C++ conversion would, for every value
below `2^53` in magnitude that is not printed in scientific notation. -/
theorem C65_double_truncates (env : Env) (henv : EnvOk env) (L : Literals) (junk : Bytes) (hj : junk.length = FLOAT_SIZE)
    (u : UInt64) (hfin : DFinite u) (hb : |dValue u| < 2 ^ 53) (hs : DZero u ∨ dValue micro ≤ |dValue u|) (t : IntTy) :
    ∃ v, (stringDouble L env junk u >>= lexiInt t) = .ok v ∧ v.ty = t ∧
      v.toInt = wrapInt t.signed t.width (truncate (dValue u)) := by
  have key : ∃ n : JNumber, n.WF ∧ n.exp = none ∧ stringDouble L env junk u = .ok n.text ∧ |n.value| < 2 ^ 64 ∧
      truncate n.value = truncate (dValue u) := by
    by_cases hint : ∃ z : ℤ, dValue u = z
    · obtain ⟨z, hz⟩ := hint
      have hzb : z.natAbs ≤ 2 ^ 53 := by
        rw [hz] at hb
        have : |z| < 2 ^ 53 := by exact_mod_cast hb
        rw [abs_lt] at this
        omega
      refine ⟨wholeNumber true z, wholeNumber_wf _ _, rfl, ?_, ?_, ?_⟩
      · rw [wholeNumber_text]; exact C60_whole_text env henv L junk hj u hfin z hz (by omega)
      · rw [wholeNumber_value, ← hz]; refine hb.trans (by norm_num)
      · rw [wholeNumber_value, hz]
    · have hnz : ¬ DZero u := fun h => hint ⟨0, by unfold dValue; rw [dMag_zero h]; simp⟩
      have hm := hs.resolve_left hnz
      obtain ⟨n, hn, ht, hexp⟩ := C28_by_value env henv L junk hj u hfin hnz
      have he : n.exp = none := hexp.mpr ⟨hm, hb.trans (by norm_num)⟩
      obtain ⟨t', v, ht', hj', -, hnear, -⟩ := C21_text_identifies_value env henv L junk hj u hfin hnz
      rw [ht, Res.ok.injEq] at ht'
      rw [← ht'] at hj'
      obtain rfl : n.value = v := IsJsonNumber.unique ⟨n, hn, rfl, rfl⟩ hj'
      rw [abs_lt] at hb
      set a := ⌊dValue u⌋ with ha
      have h1 : (a : ℚ) ≤ dValue u := Int.floor_le _
      have h2 : dValue u < a + 1 := Int.lt_floor_add_one _
      have h1' : (a : ℚ) < dValue u := lt_of_le_of_ne h1 (fun h => hint ⟨a, h.symm⟩)
      have b1 : -2 ^ 53 ≤ a := by
        rw [ha, Int.le_floor]; push_cast; exact hb.1.le
      have b2 : a + 1 ≤ 2 ^ 53 := by
        have : (a : ℚ) < 2 ^ 53 := h1'.trans hb.2
        have : a < 2 ^ 53 := by exact_mod_cast this
        omega
      obtain ⟨y1, f1, v1⟩ := whole_is_double a (by omega)
      obtain ⟨y2, f2, v2⟩ := whole_is_double (a + 1) (by omega)
      have n1 := hnear y1 f1 (by rw [v1]; exact h1'.ne)
      have n2 := hnear y2 f2 (by rw [v2]; push_cast; exact h2.ne')
      rw [v1] at n1
      rw [v2] at n2
      push_cast at n2
      have c1 : (a : ℚ) < n.value := by
        by_contra hc
        push Not at hc
        rw [abs_of_nonpos (by linarith), abs_of_nonpos (by linarith)] at n1
        linarith
      have c2 : n.value < a + 1 := by
        by_contra hc
        push Not at hc
        rw [abs_of_nonneg (by linarith), abs_of_nonneg (by linarith)] at n2
        linarith
      have q1 : (-2 ^ 53 : ℚ) ≤ a := by exact_mod_cast b1
      have q2 : (a + 1 : ℚ) ≤ 2 ^ 53 := by exact_mod_cast b2
      refine ⟨n, hn, he, ht, ?_, ?_⟩
      · rw [abs_lt]
        constructor
        · refine lt_trans (by norm_num) (lt_of_le_of_lt q1 c1)
        · refine lt_trans (c2.trans_le q2) (by norm_num)
      · have fx : ⌊n.value⌋ = a := Int.floor_eq_iff.mpr ⟨c1.le, c2⟩
        have cx : ⌈n.value⌉ = a + 1 := Int.ceil_eq_iff.mpr ⟨by push_cast; linarith, by push_cast; linarith⟩
        have cu : ⌈dValue u⌉ = a + 1 := Int.ceil_eq_iff.mpr ⟨by push_cast; linarith, by push_cast; linarith⟩
        unfold truncate
        rw [fx, cx, cu, ← ha]
        rcases lt_or_ge a 0 with h | h
        · have : a + 1 ≤ 0 := by omega
          have : (a + 1 : ℚ) ≤ 0 := by exact_mod_cast this
          rw [if_pos (by linarith), if_pos (by linarith)]
        · have : (0 : ℚ) ≤ a := by exact_mod_cast h
          rw [if_neg (by linarith), if_neg (by linarith)]
  obtain ⟨n, hn, he, ht, hlt, htr⟩ := key
  obtain ⟨v, e, hty, h1, -⟩ := C65_json_truncates n hn he t
  rw [ht, Res.ok_bind]
  exact ⟨v, e, hty, by rw [h1 hlt, htr]⟩

/-- C65.  In scientific notation the same reading yields the leading digit: for a non-zero double below `10^-6` (where
truncation gives 0) and from `10^21` on. -/
theorem C65_double_scientific (env : Env) (henv : EnvOk env) (L : Literals) (junk : Bytes) (hj : junk.length = FLOAT_SIZE)
    (u : UInt64) (hfin : DFinite u) (hnz : ¬ DZero u) (hs : |dValue u| < dValue micro ∨ 10 ^ 21 ≤ |dValue u|) (t : IntTy) :
    ∃ (txt : Bytes) (q : ℚ) (d : ℕ) (e : ℤ) (v : IntVal), stringDouble L env junk u = .ok txt ∧ IsJsonNumber txt q ∧
      1 ≤ d ∧ d ≤ 9 ∧ (d : ℚ) * 10 ^ e ≤ |q| ∧ |q| < (d + 1) * 10 ^ e ∧
      lexiInt t txt = .ok v ∧ v.toInt = wrapInt t.signed t.width (if q < 0 then -(d : ℤ) else d) := by
  obtain ⟨n, hn, ht, hexp, hsome⟩ := C28_notation env henv L junk hj u hfin hnz
  have hne : n.exp ≠ none := by
    rw [Ne, hexp, ← micro_iff henv hfin hj hn ht, ← not_le, ← sextillion_iff henv hfin hj hn ht]
    rintro ⟨a, b⟩
    rcases hs with h | h
    · exact absurd h (not_lt.mpr a)
    · exact b h
  obtain ⟨e, he⟩ := Option.ne_none_iff_exists'.mp hne
  obtain ⟨⟨c, hc, hd, h0⟩, -⟩ := hsome e he
  have hd1 : 48 < c.toNat ∧ c.toNat ≤ 57 := by
    unfold IsDigit at hd
    have : c.toNat ≠ 48 := fun h => h0 (by apply UInt8.toNat_inj.mp; exact h)
    obtain ⟨a, b⟩ := hd
    have a' : 48 ≤ c.toNat := a
    have b' : c.toNat ≤ 57 := b
    omega
  have hdv : digitsValue n.int = c.toNat - 48 := by
    rw [hc]; unfold digitsValue; simp
  obtain ⟨m1, m2⟩ := mag_bounds hn
  have habs : |n.value| = n.mag := by
    unfold JNumber.value
    split
    · rw [abs_neg, abs_of_nonneg (mag_nonneg n)]
    · exact abs_of_nonneg (mag_nonneg n)
  obtain ⟨v, ev, -, hv⟩ := C09_int_out_of_range t _ _ _ (json_intText hn)
  refine ⟨n.text, n.value, digitsValue n.int, n.expValue, v, ht, ⟨n, hn, rfl, rfl⟩, by omega, by omega, ?_, ?_, ev, ?_⟩
  · rw [habs]; exact m1
  · rw [habs]; exact m2
  · rw [hv (by omega)]
    have hpos : 0 < n.mag := by
      refine lt_of_lt_of_le ?_ m1
      have : (0 : ℚ) < digitsValue n.int := by exact_mod_cast (by omega : 0 < digitsValue n.int)
      positivity
    have : n.value < 0 ↔ n.neg = true := by
      unfold JNumber.value
      cases n.neg <;> simp <;> linarith
    simp only [this]

/-- C65.  In particular the two ways of converting disagree: `lexi<T>` of the text of a non-zero double below `10^-6` is never
0, its truncation. -/
theorem C65_double_tiny_wrong (env : Env) (henv : EnvOk env) (L : Literals) (junk : Bytes) (hj : junk.length = FLOAT_SIZE)
    (u : UInt64) (hfin : DFinite u) (hnz : ¬ DZero u) (hs : |dValue u| < dValue micro) (t : IntTy) :
    truncate (dValue u) = 0 ∧ ∃ v, (stringDouble L env junk u >>= lexiInt t) = .ok v ∧ v.toInt ≠ 0 := by
  constructor
  · have hm : dValue micro < 1 := by rw [micro_value]; norm_num
    rw [abs_lt] at hs
    unfold truncate
    split
    · rw [Int.ceil_eq_zero_iff]
      exact ⟨by linarith, by linarith⟩
    · rw [Int.floor_eq_zero_iff]
      exact ⟨by linarith, by linarith⟩
  · obtain ⟨txt, q, d, e, v, h1, -, h2, h3, -, -, h4, h5⟩ :=
      C65_double_scientific env henv L junk hj u hfin hnz (Or.inl hs) t
    refine ⟨v, by rw [h1, Res.ok_bind, h4], ?_⟩
    rw [h5]
    have hd : d = 1 ∨ d = 2 ∨ d = 3 ∨ d = 4 ∨ d = 5 ∨ d = 6 ∨ d = 7 ∨ d = 8 ∨ d = 9 := by omega
    rcases hd with rfl | rfl | rfl | rfl | rfl | rfl | rfl | rfl | rfl <;> split <;> cases t <;> decide +kernel

/-! ### Integers as doubles and floats -/

theorem small_lt_dMax : (2 : ℚ) ^ 64 ≤ dMax := by
  unfold dMax
  calc (2 : ℚ) ^ 64 = 1 * 2 ^ 64 := by ring
    _ ≤ (2 ^ 53 - 1) * 2 ^ 971 :=
      mul_le_mul (by norm_num) (pow_le_pow_right₀ (by norm_num) (by norm_num)) (by positivity) (by norm_num)

theorem small_lt_fMax : (2 : ℚ) ^ 64 ≤ fMax := by unfold fMax; norm_num

theorem intVal_abs (v : IntVal) : (v.toInt.natAbs : ℚ) ≤ 2 ^ 64 := by
  have := v.toInt_bounds
  have : v.toInt.natAbs ≤ 2 ^ 64 := by omega
  exact_mod_cast this

theorem round_int_exact (F : FpFormat) (hF : 64 ≤ F.p) (he : F.emin ≤ 0) (v : IntVal) :
    roundRat F.p F.emin (v.toInt.natAbs : ℚ) = v.toInt.natAbs := by
  rcases (by positivity : (0 : ℚ) ≤ (v.toInt.natAbs : ℚ)).lt_or_eq with h0 | h0
  · refine roundRat_exact (by omega) h0 v.toInt.natAbs 0 (by omega) ?_ (by simp)
    have := v.toInt_bounds
    calc v.toInt.natAbs < 2 ^ 64 := by omega
      _ ≤ 2 ^ F.p := Nat.pow_le_pow_right (by norm_num) hF
  · rw [← h0, roundRat_zero]

/-- C66.  Reading an integer's text as `double`: one of the two neighbouring doubles on every platform, the nearest double
(ties to even) where `long double` is `double` or holds every 64-bit integer, and the integer itself up to `2^53`. -/
theorem C66_int_as_double (p : Platform) (hp : p.Supported) (junk : Bytes) (hj : junk.length = INTEGER_SIZE) (v : IntVal)
    (hv : v.Fits p) (F : FpFormat) (hF : 53 ≤ F.p) (he : F.emin ≤ -1074) (hmax : 1024 ≤ F.emax) :
    ∃ t, stringInt p junk v = .ok t ∧ Faithful v.toInt (lexiDouble F t) ∧
      (F = .binary64 ∨ 64 ≤ F.p → NearestEven v.toInt (lexiDouble F t)) ∧
      (v.toInt.natAbs ≤ 2 ^ 53 → dValue (lexiDouble F t) = v.toInt) := by
  refine ⟨decimalText v.toInt, stringInt_eq p hp junk hj v hv, ?_⟩
  have ht : decimalText v.toInt = (wholeNumber false v.toInt).text := by rw [wholeNumber_text]; simp
  have hw := wholeNumber_wf false v.toInt
  have hval := wholeNumber_value false v.toInt
  have hmag := wholeNumber_mag false v.toInt
  have habs := intVal_abs v
  have hfaith := (C58_faithful F hF he hmax _ hw).1 (by rw [hmag]; exact habs.trans small_lt_dMax)
  rw [hval, ← ht] at hfaith
  refine ⟨hfaith, ?_, ?_⟩
  · rintro (rfl | h64)
    · have := ((C55_nearest _ hw).1 (by rw [hmag]; exact lt_of_le_of_lt (habs.trans small_lt_dMax) dMax_lt)).1
      rwa [hval, ← ht] at this
    · have hlt : (v.toInt.natAbs : ℚ) < 2 ^ F.emax := by
        calc (v.toInt.natAbs : ℚ) ≤ 2 ^ 64 := habs
          _ < 2 ^ F.emax := pow_lt_pow_right₀ (by norm_num) (by omega)
      rw [ht, lexi_eq F _ hw, hmag]
      have e : F.round (wholeNumber false v.toInt).neg (v.toInt.natAbs : ℚ) = .fin (wholeNumber false v.toInt).neg v.toInt.natAbs := by
        unfold FpFormat.round
        rw [round_int_exact F h64 (by omega) v]
        refine if_neg (not_le.mpr ?_)
        push_cast; exact hlt
      rw [e]
      have := toDouble_nearest (wholeNumber false v.toInt).neg (q := (v.toInt.natAbs : ℚ)) (by positivity)
        (lt_of_le_of_lt (habs.trans small_lt_dMax) dMax_lt)
      rw [← hmag, ← value_sgn, hval] at this
      rw [← hmag]; exact this
  · intro hb
    obtain ⟨y, hy, hyv⟩ := whole_is_double v.toInt hb
    obtain ⟨h1, h2⟩ := hfaith.2 y hy
    rw [hyv] at h1 h2
    exact le_antisymm (h1 le_rfl) (h2 le_rfl)

/-- C66.  The same for `float`; nearest only where `long double` holds every 64-bit integer. -/
theorem C66_int_as_float (p : Platform) (hp : p.Supported) (junk : Bytes) (hj : junk.length = INTEGER_SIZE) (v : IntVal)
    (hv : v.Fits p) (F : FpFormat) (hF : 24 ≤ F.p) (he : F.emin ≤ -149) (hmax : 128 ≤ F.emax) :
    ∃ t, stringInt p junk v = .ok t ∧ FFaithful v.toInt (lexiFloat F t) ∧
      (64 ≤ F.p → FNearestEven v.toInt (lexiFloat F t)) := by
  refine ⟨decimalText v.toInt, stringInt_eq p hp junk hj v hv, ?_⟩
  have ht : decimalText v.toInt = (wholeNumber false v.toInt).text := by rw [wholeNumber_text]; simp
  have hw := wholeNumber_wf false v.toInt
  have hval := wholeNumber_value false v.toInt
  have hmag := wholeNumber_mag false v.toInt
  have habs := intVal_abs v
  constructor
  · have := (C62_float_faithful F hF he hmax _ hw).1 (by rw [hmag]; exact habs.trans small_lt_fMax)
    rwa [hval, ← ht] at this
  · intro h64
    have := C62_float_nearest_exact F hmax _ hw (by rw [hmag]; exact round_int_exact F h64 (by omega) v)
      (by rw [hmag]; exact lt_of_le_of_lt (habs.trans small_lt_fMax) fMax_lt)
    rwa [hval, ← ht] at this

/-- C66.  Where `long double` is `double`, `lexi<float>` of an integer text is not always the nearest float:
`2^54 + 2^30 + 1` reads as `2^54`, although `2^54 + 2^31` is nearer. -/
theorem C66_float_not_nearest :
    stringInt lp64 (List.replicate 22 0) (.i64 18014399583223809) = .ok (ascii "18014399583223809") ∧
    ¬ FNearestEven 18014399583223809 (lexiFloat .binary64 (ascii "18014399583223809")) := by
  refine ⟨by decide +kernel, fun hc => ?_⟩
  have h1 : lexiFloat .binary64 (ascii "18014399583223809") = 0x5A800000 := by decide +kernel
  rw [h1] at hc
  have h2 := (hc.2 0x5A800001 (by decide +kernel)).1
  have v1 : fValue 0x5A800000 = 2 ^ 54 := by
    have a : fSig 0x5A800000 = 2 ^ 23 := by decide +kernel
    have b : fUlpExp 0x5A800000 = 31 := by decide +kernel
    have c : ¬ fNeg 0x5A800000 := by decide +kernel
    unfold fValue fMag; rw [a, b, if_neg c]; norm_num
  have v2 : fValue 0x5A800001 = 2 ^ 54 + 2 ^ 31 := by
    have a : fSig 0x5A800001 = 2 ^ 23 + 1 := by decide +kernel
    have b : fUlpExp 0x5A800001 = 31 := by decide +kernel
    have c : ¬ fNeg 0x5A800001 := by decide +kernel
    unfold fValue fMag; rw [a, b, if_neg c]; norm_num
  rw [v1, v2] at h2
  norm_num at h2

/-! ### Inhabited hypotheses -/

/-- `-1234.75`. -/
example : DFinite 0xC0934B0000000000 ∧ ((stringDouble .default sampleEnv (List.replicate 30 0) 0xC0934B0000000000 >>=
    lexiInt .i16) = .ok (.i16 (-1234))) := ⟨by decide +kernel, by decide +kernel⟩
example : |dValue 0xC0934B0000000000| < 2 ^ 53 ∧ dValue micro ≤ |dValue 0xC0934B0000000000| := by
  have a : dSig 0xC0934B0000000000 = 5430487929585664 := by decide +kernel
  have b : dUlpExp 0xC0934B0000000000 = -42 := by decide +kernel
  have c : dNeg 0xC0934B0000000000 := by decide +kernel
  have v : dValue 0xC0934B0000000000 = -1234.75 := by
    unfold dValue dMag; rw [a, b, if_pos c]; norm_num
  rw [v, micro_value]
  constructor <;> norm_num

/-- `5e-7` reads as 5, `3e22` as 3. -/
example : (stringDouble .default sampleEnv (List.replicate 30 0) 0x3EA0C6F7A0B5ED8D >>= lexiInt .i32) = .ok (.i32 5) := by
  decide +kernel
example : |dValue 0x3EA0C6F7A0B5ED8D| < dValue micro := by
  have a : dSig 0x3EA0C6F7A0B5ED8D = 4722366482869645 := by decide +kernel
  have b : dUlpExp 0x3EA0C6F7A0B5ED8D = -73 := by decide +kernel
  have c : ¬ dNeg 0x3EA0C6F7A0B5ED8D := by decide +kernel
  rw [micro_value]
  unfold dValue dMag; rw [a, b, if_neg c, abs_of_nonneg (by positivity)]; norm_num
example : (stringDouble .default sampleEnv (List.replicate 30 0) 0x449969368974C05B >>= lexiInt .i32) = .ok (.i32 3) := by
  decide +kernel

/-- Between `2^53` and `10^21` the printed integer is read, which may differ from the double: `2^60`. -/
example : (stringDouble .default sampleEnv (List.replicate 30 0) 0x43B0000000000000 >>= lexiInt .i64) =
    .ok (.i64 1152921504606847000) := by decide +kernel

/-- A JSON number with fraction and exponent. -/
example : sampleNumber.WF := sampleNumber_wf

example : (IntVal.i64 (-9007199254740993)).Fits lp64 ∧ lp64.Supported := by
  simp [Platform.Supported, lp64, IntVal.Fits]

end Lexi
