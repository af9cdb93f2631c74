import Verif.Props.Float
import Verif.Props.Int
import Verif.Props.Str
import Verif.Props.Scalar
import Verif.Proofs.ReadBack
import Verif.Proofs.Single
import Verif.Proofs.Shortest

/-!
# Reading floating text back, platform independence, tables: C20, C22 – C24, C26, C33 – C36
-/

namespace Lexi
open Spec Soft Dtoa DiyFp

/-! ## C20 -/

theorem canonical_json {t : Bytes} {n : ℤ} (h : CanonicalNumeral t n) : IsJsonNumber t n := by
  obtain ⟨ds, ht, hne, hd, hl, hv⟩ := h
  refine ⟨⟨decide (n < 0), ds, none, none⟩, ⟨hne, hd, hl, by simp, by simp⟩, ?_, ?_⟩
  · rw [ht]
    by_cases hn : n < 0 <;> simp [JNumber.text, hn]
  · have hm : (⟨decide (n < 0), ds, none, none⟩ : JNumber).mag = (n.natAbs : ℚ) := by
      simp [JNumber.mag, JNumber.fracDigits, JNumber.expValue, hv]
    unfold JNumber.value
    rw [hm]
    by_cases hn : n < 0
    · simp only [hn, decide_true, if_true]
      rw [Nat.cast_natAbs, abs_of_neg hn]; push_cast; ring
    · simp only [hn, decide_false, Bool.false_eq_true, if_false]
      rw [Nat.cast_natAbs, abs_of_nonneg (by omega)]

/-- C20.  `jsonify` of null and booleans is the JSON literal; of integers and enumerations a JSON number
denoting the value; of a finite double a JSON number strictly closer to it than to any other double; of a
char a JSON string literal that reads as that one byte. -/
theorem C20_jsonify_scalar :
    (∀ junk, junk.length = NULL_SIZE → (formatNull .default junk >>= NullObj.jsonify) = .ok (ascii "null")) ∧
    (∀ junk, junk.length = BOOL_SIZE → ∀ b, (formatBool .default junk b >>= BoolObj.jsonify) =
      .ok (ascii (if b then "true" else "false"))) ∧
    (∀ p : Platform, p.Supported → ∀ junk, junk.length = INTEGER_SIZE → ∀ v : IntVal, v.Fits p →
      ∃ t, (formatInt p junk v >>= IntObj.jsonify) = .ok t ∧ IsJsonNumber t v.toInt) ∧
    (∀ p : Platform, p.Supported → ∀ junk, junk.length = INTEGER_SIZE → ∀ e : EnumVal, e.Fits p →
      ∃ t, (formatEnum p junk e >>= IntObj.jsonify) = .ok t ∧ IsJsonNumber t e.toInt) ∧
    (∀ env, EnvOk env → ∀ junk, junk.length = FLOAT_SIZE → ∀ u, DFinite u →
      ∃ t v, (formatDouble .default env junk u >>= FloatObj.jsonify) = .ok t ∧ IsJsonNumber t v ∧
        ∀ y, DFinite y → dValue y ≠ dValue u → |v - dValue u| < |v - dValue y|) ∧
    (∀ sgn junk, junk.length = CHAR_SIZE → ∀ c, ∃ t, (formatChar junk c >>= CharObj.jsonify sgn) = .ok t ∧
      readString t = some ([c], [])) := by
  refine ⟨fun junk hj => (C11_null junk hj []).1, fun junk hj b => C10_bool_format junk hj b, ?_, ?_, ?_, ?_⟩
  · intro p hp junk hj v hv
    refine ⟨decimalText v.toInt, ?_, canonical_json (decimalText_canonical _)⟩
    rw [formatInt_eq p hp junk hj v hv]
    exact readN_prefix _ _
  · intro p hp junk hj v hv
    refine ⟨decimalText v.toInt, ?_, canonical_json (decimalText_canonical _)⟩
    rw [formatEnum_eq p hp junk hj v hv]
    exact readN_prefix _ _
  · intro env henv junk hj u hfin
    obtain ⟨n, hwf, -, -, -, hnear, -, -, htext⟩ := text_spec env henv u hfin
    exact ⟨n.text, n.value, htext .default junk hj, ⟨n, hwf, rfl, rfl⟩, hnear⟩
  · intro sgn junk hj c
    obtain ⟨t, h1, h2, -⟩ := C16_jsonify_decodes sgn [c] []
    exact ⟨t, by rw [(C48_char_as_string sgn junk hj c).2, h1], h2⟩

/-- C20.  For NaN and infinities the result is not valid JSON: not a number text, not one of the three
literals, not a string. -/
theorem C20_special_not_json (env : Env) (junk : Bytes) (hj : junk.length = FLOAT_SIZE) (u : UInt64)
    (hu : ¬ DFinite u) :
    ∃ t, (formatDouble .default env junk u >>= FloatObj.jsonify) = .ok t ∧ (∀ v, ¬ IsJsonNumber t v) ∧
      t ∉ [ascii "null", ascii "true", ascii "false"] ∧ readString t = none := by
  have hbad : ∀ t : Bytes, (∀ c, t.head? = some c → ¬ IsDigit c ∧ (c = 45 → ∀ d, t.tail.head? = some d → ¬ IsDigit d)) →
      ∀ v, ¬ IsJsonNumber t v := by
    rintro t ht v ⟨n, hwf, rfl, -⟩
    rw [text_eq] at ht
    cases hi : n.int with
    | nil => exact hwf.int_ne hi
    | cons c r =>
      have hc : IsDigit c := hwf.int_digits c (by rw [hi]; simp)
      rw [hi] at ht
      cases hn : n.neg with
      | true =>
        rw [hn] at ht
        exact (ht 45 (by simp)).2 rfl c (by simp) hc
      | false =>
        rw [hn] at ht
        exact (ht c (by simp)).1 hc
  obtain ⟨h1, h2, -⟩ := C30_special_values env junk hj u
  rcases class_cases u with hf | hi | hn
  · exact absurd hf hu
  · refine ⟨_, h2 hi, ?_⟩
    split
    · exact ⟨hbad _ (by decide), by decide, by decide⟩
    · exact ⟨hbad _ (by decide), by decide, by decide⟩
  · exact ⟨_, h1 hn, hbad _ (by decide), by decide, by decide⟩

example : (formatDouble .default sampleEnv (List.replicate 30 0) 0x3FF8000000000000 >>= FloatObj.jsonify) =
    .ok (ascii "1.5") := by decide +kernel
example : ¬ DFinite 0x7FF0000000000000 := by decide +kernel

/-! ## C22 -/

/-- C22.  Round trip of a finite non-zero double where `long double` is binary64. -/
theorem C22_round_trip (env : Env) (henv : EnvOk env) (L : Literals) (junk : Bytes)
    (hj : junk.length = FLOAT_SIZE) (u : UInt64) (hfin : DFinite u) (hnz : ¬ DZero u) :
    ∃ t, stringDouble L env junk u = .ok t ∧ lexiDouble .binary64 t = u := by
  obtain ⟨D, k, hP, h⟩ := stringDouble_finite env henv u hfin hnz
  refine ⟨_, h u rfl L junk hj, ?_⟩
  have hint := hP.interval hnz
  have hV : 0 < (D : ℚ) * 10 ^ k := (lowB_pos hnz).trans hP.lower
  unfold lexiDouble extractLongDouble
  rw [parse_signed _ hnz hP]
  have hr := roundRat_interval (p := 53) (by norm_num) hV (dSig u) (dUlpExp u) (dSig_lt u)
    (ulpExp_bounds u hfin).1 (uExp_normal u) hint
  have hlt : roundRat FpFormat.binary64.p FpFormat.binary64.emin ((D : ℚ) * 10 ^ k) < 2 ^ (1024 : ℤ) := by
    change roundRat 53 (-1074) _ < _
    rw [hr]
    refine lt_of_le_of_lt ?_ (highB_lt_top hfin)
    rw [highB_eq]
    have := zp (dUlpExp u - 1)
    unfold dMag; linarith
  rw [round_finite _ _ _ (le_refl _) hlt]
  change (LVal.fin _ (roundRat 53 (-1074) _)).toDouble = u
  rw [hr]
  exact toDouble_interval u hfin _ (dMag_pos hnz) (inInterval_self _ _)

/-- C22.  NaN and infinity texts read back, whatever the format of `long double`; zeros read back as +0. -/
theorem C22_special (F : FpFormat) (env : Env) (junk : Bytes) (hj : junk.length = FLOAT_SIZE) (u : UInt64) :
    (DNaN u → ∃ t, stringDouble .default env junk u = .ok t ∧ DNaN (lexiDouble F t)) ∧
    (DInfinite u → ∃ t, stringDouble .default env junk u = .ok t ∧ lexiDouble F t = u) ∧
    (DZero u → ∃ t, stringDouble .default env junk u = .ok t ∧ lexiDouble .binary64 t = 0) := by
  obtain ⟨h1, h2, h3⟩ := C30_special_values env junk hj u
  refine ⟨fun h => ⟨_, h1 h, ?_⟩, fun h => ⟨_, h2 h, ?_⟩, fun h => ⟨_, h3 h, ?_⟩⟩
  · have : strtold F (ascii "NaN") = .nan := rfl
    unfold lexiDouble extractLongDouble
    rw [this]; decide +kernel
  · have e1 : strtold F (ascii "Infinity") = .inf false := rfl
    have e2 : strtold F (ascii "-Infinity") = .inf true := rfl
    have hb := inf_bits u h
    unfold lexiDouble extractLongDouble
    by_cases hn : dNeg u
    · rw [if_pos hn] at hb ⊢; rw [e2, hb]; rfl
    · rw [if_neg hn] at hb ⊢; rw [e1, hb]; rfl
  · decide +kernel

/-- The largest double. -/
example : stringDouble .default sampleEnv (List.replicate 30 0) 0x7FEFFFFFFFFFFFFF = .ok (ascii "1.7976931348623157e308") ∧
    lexiDouble .binary64 (ascii "1.7976931348623157e308") = 0x7FEFFFFFFFFFFFFF := by decide +kernel

/-! ## C23 -/

/-- The double whose text, read through 80-bit extended precision, is rounded twice to a neighbour. -/
def x87Witness : UInt64 := 0x564DAE4EE79DEF9F

theorem x87_text : formatDouble .default (strictEnv sampleEnv) (List.replicate 30 0) x87Witness >>= FloatObj.string
    = .ok (ascii "5.445846684475361e107") := by decide +kernel

theorem x87_value : lexiDouble .x87 (ascii "5.445846684475361e107") = 0x564DAE4EE79DEF9E := by decide +kernel

/-- C23 is false for the x86 80-bit format.  On every platform (compiler variant, evaluation of the scaling
exponent, contents behind the `POWER10` table, literals, buffer) this finite non-zero double prints as
`5.445846684475361e107`, which reads back as the next smaller double. -/
theorem C23_refuted_x87 : DFinite x87Witness ∧ ¬ DZero x87Witness ∧
    ∀ env, EnvOk env → ∀ L junk, junk.length = FLOAT_SIZE → ∃ t, stringDouble L env junk x87Witness = .ok t ∧
      lexiDouble .x87 t = x87Witness - 1 := by
  have hf : DFinite x87Witness := by decide +kernel
  have hz : ¬ DZero x87Witness := by decide +kernel
  refine ⟨hf, hz, fun env henv L junk hj => ⟨ascii "5.445846684475361e107", ?_, by rw [x87_value]; decide⟩⟩
  obtain ⟨D, k, -, h⟩ := stringDouble_finite env henv x87Witness hf hz
  obtain ⟨o, ho, hs⟩ := bind_ok x87_text
  have h0 := strict_transfer sampleEnv_ok.dk henv.dk _ _ _ _ ho
  have h1 : stringDouble .default env (List.replicate 30 0) x87Witness = .ok (ascii "5.445846684475361e107") := by
    unfold stringDouble formatDouble
    rw [h0, Res.ok_bind]; exact hs
  rw [h _ rfl _ _ (by rfl)] at h1
  rw [h _ rfl L junk hj]; exact h1

/-- C23, the part that holds for every `long double` of at least 64 bits (x86 included): doubles with an even
significand survive, every other one is at worst replaced by a neighbour. Missing: equality for odd
significands, which is false (`C23_refuted_x87`). -/
theorem C23_neighbour_partial (F : FpFormat) (hp : 64 ≤ F.p) (he : F.emin ≤ -1076) (hmax : 1024 ≤ F.emax)
    (env : Env) (henv : EnvOk env) (L : Literals) (junk : Bytes) (hj : junk.length = FLOAT_SIZE)
    (u : UInt64) (hfin : DFinite u) (hnz : ¬ DZero u) :
    ∃ t, stringDouble L env junk u = .ok t ∧ (u.toNat % 2 = 0 → lexiDouble F t = u) ∧
      (lexiDouble F t = u ∨ lexiDouble F t = u + 1 ∨ lexiDouble F t = u - 1) := by
  obtain ⟨D, k, hP, h⟩ := stringDouble_finite env henv u hfin hnz
  refine ⟨_, h u rfl L junk hj, ?_⟩
  unfold lexiDouble extractLongDouble
  rw [parse_signed _ hnz hP]
  obtain ⟨h1, h2⟩ := readBack_neighbour hfin hnz hP F hp he hmax
  refine ⟨fun hev => h1 ?_, h2⟩
  unfold dSig dFrac
  split <;> omega

/-- C23, the formats with at least 73 bits (IEEE binary128: AArch64, RISC-V, s390x): the round trip is exact. -/
theorem C23_wide_partial (F : FpFormat) (hp : 73 ≤ F.p) (he : F.emin ≤ -1146) (hmax : 1024 ≤ F.emax)
    (env : Env) (henv : EnvOk env) (L : Literals) (junk : Bytes) (hj : junk.length = FLOAT_SIZE)
    (u : UInt64) (hfin : DFinite u) (hnz : ¬ DZero u) :
    ∃ t, stringDouble L env junk u = .ok t ∧ lexiDouble F t = u := by
  obtain ⟨D, k, hP, h⟩ := stringDouble_finite env henv u hfin hnz
  refine ⟨_, h u rfl L junk hj, ?_⟩
  unfold lexiDouble extractLongDouble
  rw [parse_signed _ hnz hP]
  exact readBack_exact hfin hnz hP F hp he hmax

example : 64 ≤ FpFormat.x87.p ∧ FpFormat.x87.emin ≤ -1076 ∧ 1024 ≤ FpFormat.x87.emax ∧
    73 ≤ FpFormat.binary128.p ∧ FpFormat.binary128.emin ≤ -1146 ∧ 1024 ≤ FpFormat.binary128.emax := by decide
example : lexiDouble .binary128 (ascii "5.445846684475361e107") = x87Witness := by decide +kernel

/-! ## C24 -/

/-- C24.  Every finite non-zero `float` survives on every platform whose `long double` is at least a
`double`. -/
theorem C24_float_round_trip (F : FpFormat) (hp : 53 ≤ F.p) (he : F.emin ≤ -1074) (hmax : 1024 ≤ F.emax)
    (env : Env) (henv : EnvOk env) (L : Literals) (junk : Bytes) (hj : junk.length = FLOAT_SIZE)
    (u : UInt32) (hfin : FFinite u) (hnz : ¬ FZero u) :
    ∃ t, stringFloat L env junk u = .ok t ∧ lexiFloat F t = u := by
  obtain ⟨d, hd, hdf, hdz, hneg, hmag, hexp⟩ := widen u hfin hnz
  obtain ⟨D, k, hP, h⟩ := formatLd_finite env henv d hdf hdz
  have h1 := h (.ofFloat u) (by rw [hd]) L junk hj
  refine ⟨signed (dNeg d) (prettyText (decN D) k), ?_, ?_⟩
  · unfold stringFloat formatFloat
    rw [h1, Res.ok_bind, hd]
    exact readN_prefix _ _
  · unfold lexiFloat extractLongDouble
    rw [parse_signed _ hdz hP]
    have := readBack_float hfin hnz hmag hexp hdz hP F hp he hmax
    rwa [decide_eq_decide.mpr hneg]

example : stringFloat .default sampleEnv (List.replicate 30 0) 0x3DCCCCCD = .ok (ascii "0.10000000149011612") ∧
    lexiFloat .x87 (ascii "0.10000000149011612") = 0x3DCCCCCD := by decide +kernel

/-! ## C26 -/

/-- 1/3 as a double. -/
def third : UInt64 := 0x3FD5555555555555

theorem third_ub : formatDouble .default (strictEnv sampleEnv) (List.replicate 30 0) third = .ub := by decide +kernel

/-- C26 is false: formatting 1/3 reads behind the end of `POWER10` on every platform, i.e. it is undefined
when out-of-range reads are. -/
theorem C26_refuted : DFinite third ∧ ∀ env, EnvOk env → ∀ L junk, junk.length = FLOAT_SIZE →
    formatDouble L (strictEnv env) junk third = .ub := by
  have hf : DFinite third := by decide +kernel
  have hz : ¬ DZero third := by decide +kernel
  have hn : (LVal.ofDouble third).toDouble = third := toDouble_ofDouble _ (by decide +kernel)
  refine ⟨hf, fun env henv L junk hj => ?_⟩
  obtain ⟨D, k, -, h⟩ := formatLd_strict env henv third hf hz
  obtain ⟨h1, h2, h3⟩ := h (.ofDouble third) (by rw [hn]) L junk hj
  by_cases hk : k < -cachedK third - 9
  · exact h3 hk
  · exfalso
    obtain ⟨h1, h2, -⟩ := h (.ofDouble third) (by rw [hn]) .default (List.replicate 30 0) rfl
    rw [h1] at h2
    have h4 := strict_transfer (env := env) (env' := strictEnv sampleEnv) henv.dk sampleEnv_ok.dk _ _ _ _ (h2 (by omega))
    have h5 := third_ub
    unfold formatDouble at h5
    rw [h5] at h4
    exact absurd h4 (by simp)

/-- C26, exactly when: every finite non-zero double has a decimal exponent `k` such that formatting it stays
inside the tables iff `k ≥ -cachedK u - 9`; otherwise it reads `POWER10` out of range, and nothing else
undefined happens (with any word in place of the missing entries the result is the text).  Missing: the
property itself, which is false (`C26_refuted`). -/
theorem C26_exact_partial (env : Env) (henv : EnvOk env) (u : UInt64) (hfin : DFinite u) (hnz : ¬ DZero u) :
    ∃ (D : ℕ) (k : ℤ), (∀ y, DFinite y → dValue y ≠ dMag u → |(D : ℚ) * 10 ^ k - dMag u| < |(D : ℚ) * 10 ^ k - dValue y|) ∧
      ∀ L junk, junk.length = FLOAT_SIZE →
        stringDouble L env junk u = .ok (signed (dNeg u) (prettyText (decN D) k)) ∧
        ((∃ o, formatDouble L (strictEnv env) junk u = .ok o) ↔ -cachedK u - 9 ≤ k) ∧
        (formatDouble L (strictEnv env) junk u = .ub ↔ k < -cachedK u - 9) := by
  have hnn : ¬ DNaN u := fun h => hfin h.1
  have hn := toDouble_ofDouble u hnn
  obtain ⟨D, k, hP, h⟩ := formatLd_strict env henv u hfin hnz
  refine ⟨D, k, ?_, fun L junk hj => ?_⟩
  · intro y hy hne
    have hP' := printed_abs.mpr hP
    have := nearest_pos (u := dAbs u) (fun h => hnz (zero_abs.mp h)) (dAbs_not_neg u) hy (by rwa [dMag_abs])
      hP'.lower hP'.upper
    rwa [dMag_abs] at this
  · obtain ⟨h1, h2, h3⟩ := h (.ofDouble u) (by rw [hn]) L junk hj
    rw [hn] at h1
    refine ⟨?_, ?_, ?_⟩
    · unfold stringDouble formatDouble
      rw [h1, Res.ok_bind]
      exact readN_prefix _ _
    · unfold formatDouble
      constructor
      · rintro ⟨o, ho⟩
        by_contra hk
        rw [h3 (by omega)] at ho; exact absurd ho (by simp)
      · intro hk
        exact ⟨_, (h2 hk).trans h1⟩
    · unfold formatDouble
      constructor
      · intro ho
        by_contra hk
        rw [h2 (by omega), h1] at ho; exact absurd ho (by simp)
      · exact h3

theorem strncpyLit_fits (junk t : Bytes) (h : t.length + 1 ≤ junk.length) : ∃ b, strncpyLit junk t = .ok b := by
  unfold strncpyLit
  dsimp only
  rw [if_pos h]
  exact ⟨_, rfl⟩

/-- `q` is closer to the magnitude of `u` than 0.49 units in the last place (0.24 below a power of two, where
the gap is half as wide). -/
def NearMag (u : UInt64) (q : ℚ) : Prop :=
  |q - dMag u| ≤ (if dSig u = 2 ^ 52 then 6 / 25 else 49 / 100) * 2 ^ dUlpExp u

theorem NearMag.inside {u : UInt64} {q : ℚ} (hz : ¬ DZero u) (h : NearMag u q) :
    lowB u + 2 ^ (dUlpExp u - 8) < q ∧ q < highB u - 2 ^ (dUlpExp u - 8) := by
  have hze := zp (dUlpExp u)
  have e8 : (2 : ℚ) ^ (dUlpExp u - 8) = 2 ^ dUlpExp u / 256 := by rw [zpow_sub₀ (by norm_num)]; norm_num
  have e1 : (2 : ℚ) ^ (dUlpExp u - 1) = 2 ^ dUlpExp u / 2 := by rw [zpow_sub₀ (by norm_num)]; norm_num
  have e2 : (2 : ℚ) ^ (dUlpExp u - 2) = 2 ^ dUlpExp u / 4 := by rw [zpow_sub₀ (by norm_num)]; norm_num
  unfold NearMag at h
  rw [lowB_eq u hz, highB_eq, e8, e1]
  unfold lowGap
  rw [e1, e2]
  split at h <;> rename_i h52
  · rw [if_pos h52]
    obtain ⟨ha, hb⟩ := abs_le.mp h
    constructor <;> linarith
  · rw [if_neg h52]
    obtain ⟨ha, hb⟩ := abs_le.mp h
    constructor <;> linarith

/-- C26, a large class where it holds: values near (in the sense of `NearMag`) a decimal number with at most
ten significant digits, zeros, infinities and NaNs never leave the tables. -/
theorem C26_short_partial (env : Env) (henv : EnvOk env) (junk : Bytes) (hj : junk.length = FLOAT_SIZE) (u : UInt64)
    (h : DFinite u → ¬ DZero u → ∃ (m : ℕ) (j : ℤ), m < 10 ^ 10 ∧ NearMag u (m * 10 ^ j)) :
    ∃ o, formatDouble .default (strictEnv env) junk u = .ok o := by
  rcases class_cases u with hf | hi | hn
  · have hnn : ¬ DNaN u := fun h => hf h.1
    have hn := toDouble_ofDouble u hnn
    by_cases hz : DZero u
    · unfold formatDouble
      exact ⟨_, formatLd_zero _ _ (by rw [hn]; exact hz) _ _ hj⟩
    · obtain ⟨m, j, hm, hmj⟩ := h hf hz
      obtain ⟨D, k, hP, hs⟩ := formatLd_strict env henv u hf hz
      obtain ⟨h1, h2, -⟩ := hs (.ofDouble u) (by rw [hn]) .default junk hj
      obtain ⟨hlo, hhi⟩ := hmj.inside hz
      have hjk := hP.exponent_ge hlo hhi
      have hj9 := short_exponent hf hz hm (show lowB u < (m : ℚ) * 10 ^ j by linarith [zp (dUlpExp u - 8)])
      exact ⟨_, (h2 (by omega)).trans h1⟩
  · have hn := toDouble_ofDouble u (fun h => h.2 hi.2)
    unfold formatDouble
    rw [formatLd_inf _ _ (by rw [hn]; exact hi)]
    unfold FLOAT_SIZE at hj
    rw [hn]
    obtain ⟨b, hb⟩ := strncpyLit_fits junk (if dNeg u then Literals.default.negInfinity else Literals.default.infinity)
      (by rw [hj]; split <;> decide)
    rw [hb]
    exact ⟨_, rfl⟩
  · unfold formatDouble
    rw [formatLd_nan _ _ ((ofDouble_class u).1 hn)]
    unfold FLOAT_SIZE at hj
    obtain ⟨b, hb⟩ := strncpyLit_fits junk Literals.default.nan (by rw [hj]; decide)
    rw [hb]
    exact ⟨_, rfl⟩

/-- 0.1 is near the decimal 1e-1. -/
theorem tenth_near : NearMag 0x3FB999999999999A ((1 : ℕ) * 10 ^ (-1 : ℤ)) := by
  have h1 : dSig 0x3FB999999999999A = 7205759403792794 := by decide +kernel
  have h2 : dUlpExp 0x3FB999999999999A = -56 := by decide +kernel
  unfold NearMag dMag; rw [h1, h2, abs_le]; norm_num

example : ∃ (m : ℕ) (j : ℤ), m < 10 ^ 10 ∧ NearMag 0x3FB999999999999A (m * 10 ^ j) :=
  ⟨1, -1, by norm_num, tenth_near⟩

/-! ## C52 -/

/-- C52.  Shortest output: the printed magnitude is `D * 10^k` with `D` of at most 17 digits, and no multiple of
`10^(k+1)` lies inside the rounding interval of the double shrunk by 1/256 of a unit in the last place on
each side; in particular no shorter decimal is near the double in the sense of `NearMag`. -/
theorem C52_shortest (env : Env) (henv : EnvOk env) (L : Literals) (junk : Bytes) (hj : junk.length = FLOAT_SIZE)
    (u : UInt64) (hfin : DFinite u) (hnz : ¬ DZero u) :
    ∃ (t : Bytes) (D : ℕ) (k : ℤ), stringDouble L env junk u = .ok t ∧
      IsJsonNumber t (if dNeg u then -(D * 10 ^ k) else D * 10 ^ k) ∧ D < 10 ^ 17 ∧
      ∀ (m : ℕ) (j : ℤ), NearMag u (m * 10 ^ j) → j ≤ k := by
  obtain ⟨D, k, hP, h⟩ := stringDouble_finite env henv u hfin hnz
  refine ⟨_, D, k, h u rfl L junk hj, ?_, hP.lt17, fun m j hm => ?_⟩
  · refine ⟨prettyNumber (decide (dNeg u)) (decN D) k, hP.WF hnz _, (signed_text _ _ _).symm, ?_⟩
    exact pretty_value (dNeg u) D k
  · obtain ⟨h1, h2⟩ := hm.inside hnz
    exact hP.exponent_ge h1 h2

/-! ## C53 -/

/-- C53.  Decimal fidelity: a normal double near (in the sense of `NearMag`) a decimal `m * 10^j` of at most 15
significant digits prints as a numeral of exactly that value. -/
theorem C53_decimal_fidelity (env : Env) (henv : EnvOk env) (L : Literals) (junk : Bytes)
    (hj : junk.length = FLOAT_SIZE) (u : UInt64) (hfin : DFinite u) (hnorm : dExp u ≠ 0) (m : ℕ) (j : ℤ)
    (hm : m < 10 ^ 15) (hnear : NearMag u (m * 10 ^ j)) :
    ∃ t, stringDouble L env junk u = .ok t ∧ IsJsonNumber t (if dNeg u then -(m * 10 ^ j) else m * 10 ^ j) := by
  have hnz : ¬ DZero u := fun h => hnorm h.1
  have hsig : 2 ^ 52 ≤ dSig u := by unfold dSig; rw [if_neg hnorm]; omega
  obtain ⟨D, k, hP, h⟩ := stringDouble_finite env henv u hfin hnz
  obtain ⟨h1, h2⟩ := hnear.inside hnz
  have e := hP.decimal hnz hsig hm h1 h2
  refine ⟨_, h u rfl L junk hj, prettyNumber (decide (dNeg u)) (decN D) k, hP.WF hnz _, (signed_text _ _ _).symm, ?_⟩
  rw [← e]
  exact pretty_value (dNeg u) D k

example : dExp 0x3FB999999999999A ≠ 0 ∧ NearMag 0x3FB999999999999A ((1 : ℕ) * 10 ^ (-1 : ℤ)) ∧
    stringDouble .default sampleEnv (List.replicate 30 0) 0x3FB999999999999A = .ok (ascii "0.1") :=
  ⟨by decide +kernel, tenth_near, by decide +kernel⟩

/-! ## C54 -/

/-- C54.  Round trip through IEEE binary128 `long double`. -/
theorem C54_binary128_round_trip (env : Env) (henv : EnvOk env) (L : Literals) (junk : Bytes)
    (hj : junk.length = FLOAT_SIZE) (u : UInt64) (hfin : DFinite u) (hnz : ¬ DZero u) :
    ∃ t, stringDouble L env junk u = .ok t ∧ lexiDouble .binary128 t = u :=
  C23_wide_partial .binary128 (by decide) (by decide) (by decide) env henv L junk hj u hfin hnz

example : stringDouble .default sampleEnv (List.replicate 30 0) x87Witness = .ok (ascii "5.445846684475361e107") ∧
    lexiDouble .binary128 (ascii "5.445846684475361e107") = x87Witness := by decide +kernel

/-! ## C56 -/

/-- C56.  A double near a decimal of at most ten significant digits formats without reading outside the tables,
and to the same bytes on every platform whatever lies behind them. -/
theorem C56_short_values_portable (env env' : Env) (henv : EnvOk env) (henv' : EnvOk env') (junk junk' : Bytes)
    (hj : junk.length = FLOAT_SIZE) (hj' : junk'.length = FLOAT_SIZE) (u : UInt64)
    (hfin : DFinite u) (hnz : ¬ DZero u) (m : ℕ) (j : ℤ) (hm : m < 10 ^ 10) (hnear : NearMag u (m * 10 ^ j)) :
    ∃ t, stringDouble .default (strictEnv env) junk u = .ok t ∧ stringDouble .default env' junk' u = .ok t := by
  obtain ⟨o, ho⟩ := C26_short_partial env henv junk hj u fun _ _ => ⟨m, j, hm, hnear⟩
  obtain ⟨D, k, -, h⟩ := stringDouble_finite env' henv' u hfin hnz
  have h1 := strict_transfer henv.dk henv'.dk _ _ _ _ ho
  have h2 := h u rfl .default junk hj
  refine ⟨_, ?_, h u rfl .default junk' hj'⟩
  rw [← h2]
  unfold stringDouble
  rw [ho]
  unfold formatDouble
  rw [h1]

example : DFinite 0x3FB999999999999A ∧ ¬ DZero 0x3FB999999999999A ∧
    stringDouble .default (strictEnv sampleEnv) (List.replicate 30 0) 0x3FB999999999999A = .ok (ascii "0.1") := by
  decide +kernel

/-! ## C33 -/

/-- C33.  For the upper boundary `w_p` of every finite non-zero double and every evaluation of the scaling
expression whose literal, product and sum have a relative error of at most `2^-40` (double, extended,
fused), the table index is the same and inside the table, and the scaled exponent is in `[-60, -34]`. -/
theorem C33_cached_power (u : UInt64) (hfin : DFinite u) (hnz : ¬ DZero u) :
    ∃ (i : ℕ) (f : UInt64) (ce : ℤ), CACHED_POWERS_F[i]? = some f ∧ CACHED_POWERS_E[i]? = some ce ∧
      ∀ env : Env, DkEval env.dk → ∃ mi pl, normalizedBoundaries env.v.bound (ofDouble u) = .ok (mi, pl) ∧
        getCachedPower env pl.e = .ok (⟨f, ce⟩, -(-348 + 8 * (i : ℤ))) ∧
        -60 ≤ pl.e + ce + 64 ∧ pl.e + ce + 64 ≤ -34 := by
  have hr := boundary_range u hfin hnz
  set e := dUlpExp u - (63 - (dSig u).log2 : ℕ) with he
  have hok := idxOk_range e hr.1 hr.2
  simp only [idxOk, Bool.and_eq_true, decide_eq_true_eq] at hok
  obtain ⟨⟨⟨-, r3⟩, r4⟩, r5⟩ := hok
  have hi1 : 1 ≤ idx e := by unfold idx; omega
  obtain ⟨f, ce, hf, hce, -⟩ := table_entry (idx e).toNat (by omega)
  rw [hce] at r5
  simp only [Bool.and_eq_true, decide_eq_true_eq] at r5
  refine ⟨(idx e).toNat, f, ce, hf, hce, fun env hdk => ?_⟩
  obtain ⟨mi, pl, hb, -, h2, -, -⟩ := normalizedBoundaries_eq env.v.bound u hnz _ rfl
  obtain ⟨hpos, hidx⟩ := index_eq env.dk hdk.ok e hr.1 hr.2
  refine ⟨mi, pl, hb, ?_, ?_⟩
  · rw [h2, ← he]
    unfold getCachedPower
    simp only [kk_eq_ceil _ hpos, hidx]
    unfold tableAt
    simp only [hf, hce, if_neg (show ¬ idx e < 0 by omega), Res.ok_bind, Res.pure_eq]
    congr 3
    omega
  · rw [h2, ← he]; exact ⟨r5.1, r5.2⟩

/-- C33.  Plain double evaluation of the source expression and fused multiply-add are such evaluations. -/
theorem C33_evaluations : DkEval dkDouble ∧ DkEval dkFma := ⟨dkDouble_eval, dkFma_eval⟩
example : getCachedPower sampleEnv (-63) = .ok (⟨0x9C40000000000000, -50⟩, -4) := by decide +kernel

/-! ## C34 -/

/-- C34.  Entry `i` of the table is the 64-bit number nearest to `10^(8i - 348)` with the top bit set; it is
never a close call (the error is at most 255/512 of a unit). -/
theorem C34_table (i : ℕ) (h : i < 87) :
    CACHED_POWERS_F.length = 87 ∧ CACHED_POWERS_E.length = 87 ∧
    ∃ f e, CACHED_POWERS_F[i]? = some f ∧ CACHED_POWERS_E[i]? = some e ∧ 2 ^ 63 ≤ f.toNat ∧
      |(f.toNat : ℚ) * 2 ^ e - 10 ^ (-348 + 8 * (i : ℤ))| ≤ 255 / 512 * 2 ^ e ∧
      ∀ n : ℕ, n ≠ f.toNat → |(f.toNat : ℚ) * 2 ^ e - 10 ^ (-348 + 8 * (i : ℤ))| <
        |(n : ℚ) * 2 ^ e - 10 ^ (-348 + 8 * (i : ℤ))| := by
  obtain ⟨f, e, hf, he, -, htop, ht⟩ := table_entry i h
  refine ⟨by decide, by decide, f, e, hf, he, htop, ht, fun n hn => ?_⟩
  have hp := zp e
  refine lt_of_le_of_lt ht ?_
  have hd : 2 ^ e ≤ |(n : ℚ) * 2 ^ e - f.toNat * 2 ^ e| := by
    rw [← sub_mul, abs_mul, abs_of_pos hp]
    refine le_mul_of_one_le_left hp.le ?_
    have : (1 : ℤ) ≤ |(n : ℤ) - f.toNat| := Int.one_le_abs (by omega)
    exact_mod_cast this
  have htri : |(n : ℚ) * 2 ^ e - f.toNat * 2 ^ e| ≤ |(n : ℚ) * 2 ^ e - 10 ^ (-348 + 8 * (i : ℤ))| +
      |(f.toNat : ℚ) * 2 ^ e - 10 ^ (-348 + 8 * (i : ℤ))| := by
    have := abs_sub_le ((n : ℚ) * 2 ^ e) (10 ^ (-348 + 8 * (i : ℤ))) (f.toNat * 2 ^ e)
    rwa [abs_sub_comm (10 ^ (-348 + 8 * (i : ℤ))) ((f.toNat : ℚ) * 2 ^ e)] at this
  linarith

example : CACHED_POWERS_F[44]? = some 0x9C40000000000000 ∧ CACHED_POWERS_E[44]? = some (-50) := by decide +kernel

/-! ## C35 -/

/-- C35, helpers.  The compiler variants of the extended multiplication agree on all operands, those of the
normalisations on every significand a double (or its boundary) can have. -/
theorem C35_diyfp_variants :
    (∀ v w l r, DiyFp.mul v l r = DiyFp.mul w l r) ∧
    (∀ v w (u : UInt64), ¬ DZero u → DiyFp.normalize v (ofDouble u) = DiyFp.normalize w (ofDouble u)) ∧
    (∀ v w (u : UInt64), ¬ DZero u →
      DiyFp.normalizedBoundaries v (ofDouble u) = DiyFp.normalizedBoundaries w (ofDouble u)) ∧
    (∀ v w (x : DiyFp), x.f ≠ 0 → x.f.toNat < 2 ^ 53 → DiyFp.normalize v x = DiyFp.normalize w x) ∧
    (∀ v w (x : DiyFp), x.f ≠ 0 → x.f.toNat < 2 ^ 54 → DiyFp.normalizeBoundary v x = DiyFp.normalizeBoundary w x) := by
  refine ⟨mul_variant, fun v w u hnz => ?_, fun v w u hnz => boundaries_variant v w u hnz,
    normalize_variant, normalizeBoundary_variant⟩
  apply normalize_variant
  · intro h0
    have h1 : (DiyFp.ofDouble u).f.toNat = 0 := by rw [h0]; rfl
    rw [(ofDouble_eq u).1] at h1
    have := dSig_pos hnz; omega
  · rw [(ofDouble_eq u).1]; exact dSig_lt u

/-- C35, text.  Two platforms that see the same words behind the `POWER10` table print the same bytes. -/
theorem C35_same_text (env env' : Env) (h : DkEval env.dk) (h' : DkEval env'.dk) (ho : env.oob = env'.oob)
    (L : Literals) (junk : Bytes) (u : UInt64) : stringDouble L env junk u = stringDouble L env' junk u := by
  have : formatDouble L env junk u = formatDouble L env' junk u := by
    unfold formatDouble formatLd
    by_cases hf : Ieee.isFinite (LVal.ofDouble u).toDouble = true
    · simp only [hf, Bool.not_true, Bool.false_eq_true, if_false]
      rw [dtoa_congr ho h.ok h'.ok _ ((isFinite_iff _).mp hf)]
    · simp only [hf, Bool.not_false, if_true]
  unfold stringDouble
  rw [this]

/-- C35, text.  When formatting stays inside the tables on one platform it gives the same bytes on all. -/
theorem C35_defined_text (env env' : Env) (h : DkEval env.dk) (h' : DkEval env'.dk) (L : Literals) (junk t : Bytes)
    (u : UInt64) (hok : stringDouble L (strictEnv env) junk u = .ok t) : stringDouble L env' junk u = .ok t := by
  unfold stringDouble at hok ⊢
  obtain ⟨o, ho, hs⟩ := bind_ok hok
  have := strict_transfer h.ok h'.ok L junk (.ofDouble u) o ho
  unfold formatDouble
  rw [this]; exact hs

/-- C35's conclusion about texts is false in general: because of the out-of-range read (C26), the text of this
double depends on the words that happen to follow `POWER10`. -/
theorem C35_text_depends_on_memory : ∃ (u : UInt64) (o o' : ℕ → Res UInt64), DFinite u ∧
    (∀ i, ∃ w, o i = .ok w ∧ w.toNat < 2 ^ 32) ∧ (∀ i, ∃ w, o' i = .ok w ∧ w.toNat < 2 ^ 32) ∧
    ∀ junk, junk.length = FLOAT_SIZE → ∀ v dk, DkEval dk →
      stringDouble .default ⟨v, dk, o⟩ junk u = .ok (ascii "456.39035566757897") ∧
      stringDouble .default ⟨v, dk, o'⟩ junk u = .ok (ascii "456.39035566757896") := by
  refine ⟨4646736520237392117, fun _ => .ok 0, fun _ => .ok 0xFFFFFFFF, by decide +kernel,
    fun _ => ⟨_, rfl, by decide⟩, fun _ => ⟨_, rfl, by decide⟩, fun junk hj v dk hdk => ?_⟩
  have hf : DFinite 4646736520237392117 := by decide +kernel
  have hz : ¬ DZero 4646736520237392117 := by decide +kernel
  have key : ∀ (o : ℕ → Res UInt64) (t : Bytes), (∀ i, ∃ w, o i = .ok w) →
      stringDouble .default ⟨sampleEnv.v, dkDouble, o⟩ (List.replicate 30 0) 4646736520237392117 = .ok t →
      stringDouble .default ⟨v, dk, o⟩ junk 4646736520237392117 = .ok t := by
    intro o t ho h
    obtain ⟨D, k, -, hs⟩ := stringDouble_finite ⟨v, dk, o⟩ ⟨hdk.ok, fun j _ _ => ho j⟩ 4646736520237392117 hf hz
    rw [hs _ rfl .default junk hj, ← hs _ rfl .default (List.replicate 30 0) rfl, ← h]
    exact C35_same_text ⟨v, dk, o⟩ ⟨sampleEnv.v, dkDouble, o⟩ hdk dkDouble_eval rfl _ _ _
  exact ⟨key _ _ (fun _ => ⟨_, rfl⟩) (by decide +kernel), key _ _ (fun _ => ⟨_, rfl⟩) (by decide +kernel)⟩

example : stringDouble .default (strictEnv sampleEnv) (List.replicate 30 0) 0x3FF8000000000000 = .ok (ascii "1.5") := by
  decide +kernel

/-! ## C36 -/

/-- C36.  The classification functions compute the IEEE-754 classes, and the classes partition the 2^64
patterns. -/
theorem C36_classes (u : UInt64) :
    (Ieee.isNan u = true ↔ DNaN u) ∧ (Ieee.isInf u = true ↔ DInfinite u) ∧
    (Ieee.isInfinity u = true ↔ DInfinite u ∧ ¬ dNeg u) ∧
    (Ieee.isNegativeInfinity u = true ↔ DInfinite u ∧ dNeg u) ∧
    (Ieee.isFinite u = true ↔ DFinite u) ∧ (Ieee.isZero u = true ↔ DZero u) ∧
    (Ieee.isPositive u = true ↔ ¬ dNeg u) ∧
    (DFinite u ∨ DInfinite u ∨ DNaN u) ∧ ¬ (DFinite u ∧ DInfinite u) ∧ ¬ (DFinite u ∧ DNaN u) ∧
    ¬ (DInfinite u ∧ DNaN u) :=
  ⟨isNan_iff u, isInf_iff u, isInfinity_iff u, isNegativeInfinity_iff u, isFinite_iff u, isZero_iff u,
    isPositive_iff u, class_cases u, fun h => h.1 h.2.1, fun h => h.1 h.2.1, fun h => h.2.2 h.1.2⟩

example : DNaN 0x7FF8000000000001 ∧ DInfinite 0xFFF0000000000000 ∧ DFinite 0x0010000000000000 ∧
    DZero 0x8000000000000000 := by decide +kernel

end Lexi
