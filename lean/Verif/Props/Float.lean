import Verif.Proofs.FloatFmt
import Mathlib.Tactic.NormNum

/-!
# Floating-point formatting: C21, C25, C27 – C32, and the float parts of C04, C49, C51

`EnvOk env` collects what is assumed of the platform: the cached-power index computation is accurate to
2^-11 (proved for binary64 with and without fused multiply-add in Proofs/Dk, see C33), and the
out-of-range table reads of C26 return some word.  All theorems hold for every compiler variant in `env.v`
and every word returned.
-/

namespace Lexi
open Spec Soft Dtoa DiyFp

/-- A platform: GCC on x86-64 with 128-bit integers; out-of-range reads return 0. -/
def sampleEnv : Env := ⟨⟨.gnu128, .gnu, .generic⟩, dkDouble, fun _ => .ok 0⟩

/-- The environment hypothesis is satisfiable. -/
theorem sampleEnv_ok : EnvOk sampleEnv := ⟨dkDouble_ok, fun _ _ _ => ⟨0, rfl⟩⟩

/-- Text of a finite double, with everything known about it. -/
theorem text_spec (env : Env) (henv : EnvOk env) (u : UInt64) (hfin : DFinite u) :
    ∃ n : JNumber, n.WF ∧ (n.neg = true ↔ dValue u < 0) ∧ (n.frac.isSome ∨ n.exp.isSome) ∧
      (n.value = 0 ↔ DZero u) ∧
      (∀ y, DFinite y → dValue y ≠ dValue u → |n.value - dValue u| < |n.value - dValue y|) ∧
      |n.value| < 2 ^ 1024 - 2 ^ 970 ∧ n.text.length ≤ 25 ∧
      ∀ L junk, junk.length = FLOAT_SIZE → stringDouble L env junk u = .ok n.text := by
  by_cases hz : DZero u
  · have hu0 : dValue u = 0 := by unfold dValue; rw [dMag_zero hz]; simp
    refine ⟨zeroNumber, zeroNumber_WF, ?_, Or.inl rfl, ?_, ?_, ?_, by decide, ?_⟩
    · rw [hu0]; simp [zeroNumber]
    · simp [zeroNumber_value, hz]
    · intro y _ hne
      rw [zeroNumber_value, hu0, sub_self, abs_zero, abs_pos, zero_sub, neg_ne_zero]
      rwa [hu0] at hne
    · rw [zeroNumber_value, abs_zero, sub_pos]
      exact pow_lt_pow_right₀ (by norm_num) (by norm_num)
    · intro L junk hj
      exact stringDouble_zero env u hz L junk hj
  · obtain ⟨D, k, hP, h⟩ := stringDouble_finite env henv u hfin hz
    have hmp := dMag_pos hz
    have hV : 0 < (D : ℚ) * 10 ^ k := (lowB_pos hz).trans hP.lower
    have hval := pretty_value (dNeg u) D k
    refine ⟨prettyNumber (decide (dNeg u)) (decN D) k, hP.WF hz _, ?_, prettyNumber_point _ _ _, ?_, ?_, ?_, ?_, ?_⟩
    · rw [prettyNumber_neg, decide_eq_true_eq]
      unfold dValue
      split <;> rename_i hn
      · simp only [hn, true_iff]; linarith
      · simp only [hn, false_iff]; linarith
    · rw [hval]
      simp only [hz, iff_false]
      split <;> linarith
    · -- nearest
      have hP' : Printed (dAbs u) D k := printed_abs.mpr hP
      have hza : ¬ DZero (dAbs u) := fun h => hz (zero_abs.mp h)
      intro y hy hne
      rw [hval]
      unfold dValue at hne
      by_cases hn : dNeg u
      · rw [if_pos hn]
        have e : dValue u = -dMag u := by unfold dValue; rw [if_pos hn]
        rw [e]
        rw [if_pos hn] at hne
        -- negate y
        have hyn : ∃ z, DFinite z ∧ dValue z = -dValue y := by
          by_cases hyn : dNeg y
          · refine ⟨dAbs y, finite_abs.mpr hy, ?_⟩
            unfold dValue
            rw [if_neg (dAbs_not_neg y), if_pos hyn, dMag_abs, _root_.neg_neg]
          · have hnn : dNeg (Ieee.neg y) := by unfold dNeg; rw [neg_toNat, if_neg hyn]; omega
            have ha : dAbs (Ieee.neg y) = y := by rw [dAbs_of_neg hnn, Dtoa.neg_neg]
            refine ⟨Ieee.neg y, by rw [← finite_abs, ha]; exact hy, ?_⟩
            unfold dValue
            rw [if_pos hnn, if_neg hyn, ← dMag_abs, ha]
        obtain ⟨z, hzf, hzv⟩ := hyn
        have := nearest_pos hza (dAbs_not_neg u) hzf (by
          rw [hzv, dMag_abs]
          intro h'
          apply hne
          change dValue y = _
          linarith) hP'.lower hP'.upper
        rw [hzv, dMag_abs] at this
        have e1 : |-((D : ℚ) * 10 ^ k) - -dMag u| = |(D : ℚ) * 10 ^ k - dMag u| := by
          rw [← abs_neg]; congr 1; ring
        have e2 : |-((D : ℚ) * 10 ^ k) - dValue y| = |(D : ℚ) * 10 ^ k - -dValue y| := by
          rw [← abs_neg]; congr 1; ring
        rw [e1, e2]; exact this
      · rw [if_neg hn]
        have e : dValue u = dMag u := by unfold dValue; rw [if_neg hn]
        rw [if_neg hn] at hne
        rw [e]
        exact nearest_pos hz hn hy hne hP.lower hP.upper
    · have e1 : |(prettyNumber (decide (dNeg u)) (decN D) k).value| = (D : ℚ) * 10 ^ k := by
        rw [hval]
        split
        · rw [abs_neg, abs_of_pos hV]
        · rw [abs_of_pos hV]
      rw [e1]
      have h1 := hP.upper
      have h2 := highB_lt hfin
      have h3 : ((2 : ℚ) ^ 54 - 1) * 2 ^ (970 : ℤ) = 2 ^ 1024 - 2 ^ 970 := by
        have : (2 : ℚ) ^ (970 : ℤ) = 2 ^ 970 := by
          rw [show (970 : ℤ) = ((970 : ℕ) : ℤ) by norm_num, zpow_natCast]
        rw [this, show (1024 : ℕ) = 54 + 970 by norm_num, pow_add]; ring
      rw [h3] at h2
      exact h1.trans_le h2
    · rw [← signed_text]
      have := hP.text_length hfin hz
      unfold signed
      split
      · simp only [List.cons_append, List.nil_append, List.length_cons]; omega
      · simp only [List.nil_append]; omega
    · intro L junk hj
      rw [← signed_text]
      exact h u rfl L junk hj

/-! ## C21 -/

/-- C21.  The text of a finite non-zero double is a JSON decimal numeral whose exact value is strictly
closer to that double than to any other finite double, and below the overflow threshold of binary64. -/
theorem C21_text_identifies_value (env : Env) (henv : EnvOk env) (L : Literals) (junk : Bytes)
    (hj : junk.length = FLOAT_SIZE) (u : UInt64) (hfin : DFinite u) (hnz : ¬ DZero u) :
    ∃ t v, stringDouble L env junk u = .ok t ∧ IsJsonNumber t v ∧ v ≠ 0 ∧
      (∀ y, DFinite y → dValue y ≠ dValue u → |v - dValue u| < |v - dValue y|) ∧
      |v| < 2 ^ 1024 - 2 ^ 970 := by
  obtain ⟨n, hwf, -, -, h0, hnear, hth, -, htext⟩ := text_spec env henv u hfin
  exact ⟨n.text, n.value, htext L junk hj, ⟨n, hwf, rfl, rfl⟩, fun h => hnz (h0.mp h), hnear, hth⟩

/-- The text of 5e-324, the least subnormal, computed by the model. -/
example : stringDouble .default sampleEnv (List.replicate 30 0xAA) 1 = .ok (ascii "5e-324") := by decide +kernel
example : DFinite 1 ∧ ¬ DZero 1 := by decide +kernel

/-! ## C27 -/

/-- C27.  The text of every finite double is a JSON number with a fraction or an exponent part; it begins
with `-` exactly for negative values; it denotes 0 exactly for the zeros. -/
theorem C27_text_grammar (env : Env) (henv : EnvOk env) (L : Literals) (junk : Bytes)
    (hj : junk.length = FLOAT_SIZE) (u : UInt64) (hfin : DFinite u) :
    ∃ n : JNumber, n.WF ∧ stringDouble L env junk u = .ok n.text ∧ (n.frac.isSome ∨ n.exp.isSome) ∧
      (n.text.head? = some 45 ↔ dValue u < 0) ∧ (n.value = 0 ↔ DZero u) := by
  obtain ⟨n, hwf, hneg, hpt, h0, -, -, -, htext⟩ := text_spec env henv u hfin
  refine ⟨n, hwf, htext L junk hj, hpt, ?_, h0⟩
  rw [← hneg, text_eq]
  cases hn : n.neg with
  | true => simp
  | false =>
    cases hi : n.int with
    | nil => exact absurd hi hwf.int_ne
    | cons c r =>
      have hc : IsDigit c := hwf.int_digits c (by rw [hi]; simp)
      have : c ≠ 45 := by rintro rfl; exact absurd hc (by decide)
      simp [this]

example : stringDouble .default sampleEnv (List.replicate 30 0) 0xC059000000000000 = .ok (ascii "-100.0") := by
  decide +kernel

/-! ## C28 -/

/-- C28.  Notation: fixed exactly when the printed magnitude is in [10^-6, 10^21); otherwise one non-zero
digit before the point, lower-case `e`, no plus sign, an exponent numeral without leading zeros, between
-324 and 308, and equal to the decimal exponent of the printed value. -/
theorem C28_notation (env : Env) (henv : EnvOk env) (L : Literals) (junk : Bytes)
    (hj : junk.length = FLOAT_SIZE) (u : UInt64) (hfin : DFinite u) (hnz : ¬ DZero u) :
    ∃ n : JNumber, n.WF ∧ stringDouble L env junk u = .ok n.text ∧
      (n.exp = none ↔ 10 ^ (-6 : ℤ) ≤ |n.value| ∧ |n.value| < 10 ^ (21 : ℤ)) ∧
      ∀ e, n.exp = some e →
        (∃ c, n.int = [c] ∧ IsDigit c ∧ c ≠ 48) ∧ e.marker = 101 ∧ e.sign ≠ [43] ∧
        CanonicalNumeral (e.sign ++ e.digits) e.value ∧ -324 ≤ e.value ∧ e.value ≤ 308 ∧
        10 ^ e.value ≤ |n.value| ∧ |n.value| < 10 ^ (e.value + 1) := by
  obtain ⟨D, k, hP, h⟩ := stringDouble_finite env henv u hfin hnz
  have hV : 0 < (D : ℚ) * 10 ^ k := (lowB_pos hnz).trans hP.lower
  have habs : |(prettyNumber (decide (dNeg u)) (decN D) k).value| = (D : ℚ) * 10 ^ k := by
    rw [pretty_value]
    split
    · rw [abs_neg, abs_of_pos hV]
    · rw [abs_of_pos hV]
  have hDp := hP.pos hnz
  obtain ⟨hb1, hb2⟩ := value_bounds D k hDp
  have hkk := hP.kk hfin hnz
  refine ⟨prettyNumber (decide (dNeg u)) (decN D) k, hP.WF hnz _, ?_, ?_, ?_⟩
  · rw [← signed_text]; exact h u rfl L junk hj
  · rw [prettyNumber_fixed _ _ _ (decN_ne_nil _), habs]
    constructor
    · rintro ⟨h1, h2⟩
      constructor
      · exact le_trans (zpow_le_zpow_right₀ (by norm_num) (by omega)) hb1
      · exact lt_of_lt_of_le hb2 (zpow_le_zpow_right₀ (by norm_num) (by omega))
    · rintro ⟨h1, h2⟩
      have a := (zpow_lt_zpow_iff_right₀ (a := (10 : ℚ)) (by norm_num)).mp (lt_of_le_of_lt h1 hb2)
      have b := (zpow_lt_zpow_iff_right₀ (a := (10 : ℚ)) (by norm_num)).mp (lt_of_le_of_lt hb1 h2)
      omega
  · intro e he
    obtain ⟨h1, h2⟩ := prettyNumber_sci (decide (dNeg u)) (decN D) k (decN_ne_nil _) (by rw [he]; simp)
    rw [he, Option.some.injEq] at h1
    subst h1
    rw [habs, expPart_value]
    refine ⟨?_, rfl, ?_, ?_, by omega, by omega, hb1, ?_⟩
    · rw [h2]
      cases hd : decN D with
      | nil => exact absurd hd (decN_ne_nil D)
      | cons c r =>
        refine ⟨c, rfl, decN_digits D c (by rw [hd]; simp), ?_⟩
        have := decN_pos_head hDp
        rw [hd] at this
        simpa using this
    · unfold expPart
      dsimp only
      split <;> decide
    · have := decimalText_canonical ((decN D).length + k - 1)
      have ht := expPart_text ((decN D).length + k - 1)
      rw [JExp.text] at ht
      rw [(List.cons.inj ht).2]
      exact this
    · rw [sub_add_cancel]; exact hb2

example : stringDouble .default sampleEnv (List.replicate 30 0) 0x3EB0C6F7A0B5ED8D = .ok (ascii "0.000001") := by
  decide +kernel
example : stringDouble .default sampleEnv (List.replicate 30 0) 0x444B1AE4D6E2EF50 = .ok (ascii "1e21") := by
  decide +kernel

/-! ## C29 -/

/-- C29.  For a positive finite double, the text of its negation is `-` followed by its text. -/
theorem C29_sign_symmetry (env : Env) (henv : EnvOk env) (L : Literals) (junk junk' : Bytes)
    (hj : junk.length = FLOAT_SIZE) (hj' : junk'.length = FLOAT_SIZE) (u w : UInt64) (hfin : DFinite u)
    (hw : DFinite w) (hpos : 0 < dValue u) (hneg : dValue w = -dValue u) :
    ∃ t, stringDouble L env junk u = .ok t ∧ stringDouble L env junk' w = .ok (45 :: t) := by
  have mag0 : ∀ x : UInt64, 0 ≤ dMag x := fun x => by unfold dMag; positivity
  have hnz : ¬ DZero u := by
    intro hz; unfold dValue at hpos; rw [dMag_zero hz] at hpos; simp at hpos
  have hun : ¬ dNeg u := by
    intro hn; unfold dValue at hpos; rw [if_pos hn] at hpos; have := mag0 u; linarith
  have hwn : dNeg w := by
    by_contra hn
    unfold dValue at hneg hpos; rw [if_neg hn] at hneg; rw [if_neg hun] at hneg hpos
    have := mag0 w; linarith
  have hm : dMag w = dMag u := by
    unfold dValue at hneg; rw [if_pos hwn, if_neg hun] at hneg; linarith
  have hnzw : ¬ DZero w := by
    intro hz; rw [dMag_zero hz] at hm; have := dMag_pos hnz; linarith
  have habs : dAbs w = dAbs u := by
    have h1 := toDouble_interval (dAbs w) (finite_abs.mpr hw) (dMag (dAbs w)) (by rw [dMag_abs]; exact dMag_pos hnzw)
      (inInterval_self _ _)
    have h2 := toDouble_interval (dAbs u) (finite_abs.mpr hfin) (dMag (dAbs u)) (by rw [dMag_abs]; exact dMag_pos hnz)
      (inInterval_self _ _)
    rw [← h1, ← h2, dMag_abs, dMag_abs, hm]
    simp only [dAbs_not_neg, decide_false]
  obtain ⟨D, k, hP, h⟩ := stringDouble_finite env henv u hfin hnz
  refine ⟨prettyText (decN D) k, ?_, ?_⟩
  · rw [h u rfl L junk hj]; simp [signed, hun]
  · rw [h w habs L junk' hj']; simp [signed, hwn]

example : 0 < dValue 0x3FF8000000000000 ∧ dValue 0xBFF8000000000000 = -dValue 0x3FF8000000000000 := by
  decide +kernel

/-! ## C30 -/

theorem stringLit (junk lit : Bytes) (h0 : 0 ∉ lit) (h : lit.length + 1 ≤ junk.length) :
    (strncpyLit junk lit >>= fun b => .ok (⟨b, 0, lit.length⟩ : FloatObj)) =
      .ok ⟨lit ++ 0 :: junk.drop (lit.length + 1), 0, lit.length⟩ := by
  rw [strncpyLit_ok junk lit h0 h]; rfl

/-- C30.  NaNs, infinities and zeros. -/
theorem C30_special_values (env : Env) (junk : Bytes) (hj : junk.length = FLOAT_SIZE) (u : UInt64) :
    (DNaN u → stringDouble .default env junk u = .ok (ascii "NaN")) ∧
    (DInfinite u → stringDouble .default env junk u = .ok (ascii (if dNeg u then "-Infinity" else "Infinity"))) ∧
    (DZero u → stringDouble .default env junk u = .ok (ascii "0.0")) := by
  have hlen : junk.length = 30 := hj
  refine ⟨fun h => ?_, fun h => ?_, fun h => stringDouble_zero env u h _ junk hj⟩
  · have h' := (ofDouble_class u).1 h
    unfold stringDouble formatDouble
    rw [formatLd_nan env _ h', stringLit _ _ (by decide) (by rw [hlen]; decide)]
    exact readN_prefix (ascii "NaN") _
  · have e := (ofDouble_class u).2 (fun hn => hn.2 h.2)
    unfold stringDouble formatDouble
    rw [formatLd_inf env _ (by rw [e]; exact h), e]
    by_cases hn : dNeg u
    · simp only [hn, if_true]
      rw [stringLit _ _ (by decide) (by rw [hlen]; decide)]
      exact readN_prefix (ascii "-Infinity") _
    · simp only [hn, if_false]
      rw [stringLit _ _ (by decide) (by rw [hlen]; decide)]
      exact readN_prefix (ascii "Infinity") _

/-- C30.  No finite value prints as a special literal, and no non-zero value as `0.0`. -/
theorem C30_finite_not_special (env : Env) (henv : EnvOk env) (L : Literals) (junk : Bytes)
    (hj : junk.length = FLOAT_SIZE) (u : UInt64) (hfin : DFinite u) :
    ∃ t, stringDouble L env junk u = .ok t ∧ t ≠ ascii "NaN" ∧ t ≠ ascii "Infinity" ∧ t ≠ ascii "-Infinity" ∧
      (t = ascii "0.0" ↔ DZero u) := by
  obtain ⟨n, hwf, -, -, h0, -, -, -, htext⟩ := text_spec env henv u hfin
  have hd : ∀ t : Bytes, n.text = t → ∃ c, (c = t.head? ∨ c = t.tail.head?) ∧ ∃ d, c = some d ∧ IsDigit d := by
    rintro t rfl
    rw [text_eq]
    cases hi : n.int with
    | nil => exact absurd hi hwf.int_ne
    | cons c r =>
      have hc : IsDigit c := hwf.int_digits c (by rw [hi]; simp)
      refine ⟨some c, ?_, c, rfl, hc⟩
      cases n.neg <;> simp
  refine ⟨n.text, htext L junk hj, ?_, ?_, ?_, ?_⟩
  · intro h; obtain ⟨c, hc, d, rfl, hdd⟩ := hd _ h
    rcases hc with hc | hc <;> rw [Option.some.inj hc] at hdd <;> exact absurd hdd (by decide)
  · intro h; obtain ⟨c, hc, d, rfl, hdd⟩ := hd _ h
    rcases hc with hc | hc <;> rw [Option.some.inj hc] at hdd <;> exact absurd hdd (by decide)
  · intro h; obtain ⟨c, hc, d, rfl, hdd⟩ := hd _ h
    rcases hc with hc | hc <;> rw [Option.some.inj hc] at hdd <;> exact absurd hdd (by decide)
  · rw [← h0]
    constructor
    · intro h
      have : zeroNumber.text = ascii "0.0" := by decide
      have hnz : n = zeroNumber := JNumber.text_inj hwf zeroNumber_WF (by rw [h, this])
      rw [hnz, zeroNumber_value]
    · intro h
      have hz := h0.mp h
      have := stringDouble_zero env u hz L junk hj
      rw [htext L junk hj] at this
      exact Res.ok.inj this

example : DNaN 0x7FF0000000000001 ∧ DNaN 0xFFFFFFFFFFFFFFFF ∧ DInfinite 0xFFF0000000000000 ∧
    DZero 0x8000000000000000 := by decide +kernel

/-! ## C31 -/

/-- C31.  Printed values are ordered like the doubles, and have their signs. -/
theorem C31_order (env : Env) (henv : EnvOk env) (L : Literals) (junk junk' : Bytes)
    (hj : junk.length = FLOAT_SIZE) (hj' : junk'.length = FLOAT_SIZE) (x y : UInt64)
    (hx : DFinite x) (hy : DFinite y) (hlt : dValue x < dValue y) :
    ∃ t t' v v', stringDouble L env junk x = .ok t ∧ stringDouble L env junk' y = .ok t' ∧
      IsJsonNumber t v ∧ IsJsonNumber t' v' ∧ v < v' := by
  obtain ⟨n, hwf, -, -, -, hnear, -, -, htext⟩ := text_spec env henv x hx
  obtain ⟨m, hwf', -, -, -, hnear', -, -, htext'⟩ := text_spec env henv y hy
  refine ⟨n.text, m.text, n.value, m.value, htext L junk hj, htext' L junk' hj', ⟨n, hwf, rfl, rfl⟩,
    ⟨m, hwf', rfl, rfl⟩, ?_⟩
  have h1 := hnear y hy hlt.ne'
  have h2 := hnear' x hx hlt.ne
  have h3 : n.value < (dValue x + dValue y) / 2 := by
    by_contra hc
    push Not at hc
    have a : |n.value - dValue x| = n.value - dValue x := abs_of_nonneg (by linarith)
    rw [a] at h1
    have := abs_le.mp (le_refl |n.value - dValue y|)
    rcases abs_cases (n.value - dValue y) with ⟨h, _⟩ | ⟨h, _⟩ <;> linarith
  have h4 : (dValue x + dValue y) / 2 < m.value := by
    by_contra hc
    push Not at hc
    have a : |m.value - dValue y| = -(m.value - dValue y) := abs_of_nonpos (by linarith)
    rw [a] at h2
    rcases abs_cases (m.value - dValue x) with ⟨h, _⟩ | ⟨h, _⟩ <;> linarith
  linarith

theorem dValue_inj {x y : UInt64} (hx : DFinite x) (hy : DFinite y) (h : dValue x = dValue y) :
    x = y ∨ (DZero x ∧ DZero y) := by
  by_cases hzx : DZero x
  · right
    refine ⟨hzx, ?_⟩
    by_contra hzy
    have := dMag_pos hzy
    unfold dValue at h
    rw [dMag_zero hzx] at h
    split at h <;> split at h <;> linarith
  · left
    have px := dMag_pos hzx
    have my : 0 ≤ dMag y := by unfold dMag; positivity
    have hs : (dNeg x ↔ dNeg y) ∧ dMag x = dMag y := by
      unfold dValue at h
      split at h <;> split at h <;> rename_i h1 h2
      · exact ⟨by simp [h1, h2], by linarith⟩
      · exfalso; linarith
      · exfalso; linarith
      · exact ⟨by simp [h1, h2], by linarith⟩
    have e1 := toDouble_interval x hx _ px (inInterval_self _ _)
    have e2 := toDouble_interval y hy _ (by rw [hs.2] at px; exact px) (inInterval_self _ _)
    change (LVal.fin (decide (dNeg x)) (dMag x)).toDouble = x at e1
    change (LVal.fin (decide (dNeg y)) (dMag y)).toDouble = y at e2
    rw [← e1, ← e2, hs.2]
    congr 2
    simp [hs.1]

/-- C31.  Two finite doubles with the same text are equal or both zero. -/
theorem C31_distinct (env : Env) (henv : EnvOk env) (L : Literals) (junk junk' : Bytes)
    (hj : junk.length = FLOAT_SIZE) (hj' : junk'.length = FLOAT_SIZE) (x y : UInt64)
    (hx : DFinite x) (hy : DFinite y) (h : stringDouble L env junk x = stringDouble L env junk' y) :
    x = y ∨ (DZero x ∧ DZero y) := by
  rcases lt_trichotomy (dValue x) (dValue y) with hlt | heq | hlt
  · obtain ⟨t, t', v, v', h1, h2, h3, h4, h5⟩ := C31_order env henv L junk junk' hj hj' x y hx hy hlt
    rw [h1, h2, Res.ok.injEq] at h
    subst h
    exact absurd (h3.unique h4) h5.ne
  · exact dValue_inj hx hy heq
  · obtain ⟨t, t', v, v', h1, h2, h3, h4, h5⟩ := C31_order env henv L junk' junk hj' hj y x hy hx hlt
    rw [h1, h2, Res.ok.injEq] at h
    subst h
    exact absurd (h3.unique h4) h5.ne

/-- C31.  The printed value has the sign of the double. -/
theorem C31_sign (env : Env) (henv : EnvOk env) (L : Literals) (junk : Bytes)
    (hj : junk.length = FLOAT_SIZE) (x : UInt64) (hx : DFinite x) :
    ∃ t v, stringDouble L env junk x = .ok t ∧ IsJsonNumber t v ∧ (0 < v ↔ 0 < dValue x) ∧ (v < 0 ↔ dValue x < 0) := by
  obtain ⟨n, hwf, hneg, -, h0, -, -, -, htext⟩ := text_spec env henv x hx
  refine ⟨n.text, n.value, htext L junk hj, ⟨n, hwf, rfl, rfl⟩, ?_⟩
  have hm0 : 0 ≤ n.mag := by unfold JNumber.mag; positivity
  by_cases hz : DZero x
  · have hv := h0.mpr hz
    have hu0 : dValue x = 0 := by unfold dValue; rw [dMag_zero hz]; simp
    rw [hv, hu0]; simp
  · have hvn : n.value ≠ 0 := fun h => hz (h0.mp h)
    have hp := dMag_pos hz
    have hxn : dValue x ≠ 0 := by unfold dValue; split <;> linarith
    have key : n.value < 0 ↔ dValue x < 0 := by
      rw [← hneg]
      unfold JNumber.value at hvn ⊢
      cases hb : n.neg with
      | true =>
        rw [hb] at hvn
        simp only [if_true] at hvn ⊢
        simp only [iff_true]
        have : n.mag ≠ 0 := fun h => hvn (by rw [h]; simp)
        have := lt_of_le_of_ne hm0 (Ne.symm this)
        linarith
      | false => simp [hm0]
    refine ⟨?_, key⟩
    constructor
    · intro h
      rcases lt_or_gt_of_ne hxn with h' | h'
      · have := key.mpr h'; linarith
      · exact h'
    · intro h
      rcases lt_or_gt_of_ne hvn with h' | h'
      · have := key.mp h'; linarith
      · exact h'

example : DFinite 0x4000000000000000 ∧ dValue 0x3FF8000000000000 < dValue 0x4000000000000000 := by decide +kernel

/-! ## C32 -/

/-- C32.  The printed magnitude differs from the double by less than half a unit in the last place; below
a power of two (significand 2^52) by less than a quarter. -/
theorem C32_accuracy (env : Env) (henv : EnvOk env) (L : Literals) (junk : Bytes)
    (hj : junk.length = FLOAT_SIZE) (u : UInt64) (hfin : DFinite u) (hnz : ¬ DZero u) :
    ∃ t v, stringDouble L env junk u = .ok t ∧ IsJsonNumber t v ∧ |v - dValue u| < 2 ^ dUlpExp u / 2 ∧
      (dSig u = 2 ^ 52 → |v| < |dValue u| → |v - dValue u| < 2 ^ dUlpExp u / 4) := by
  obtain ⟨D, k, hP, h⟩ := stringDouble_finite env henv u hfin hnz
  have hV : 0 < (D : ℚ) * 10 ^ k := (lowB_pos hnz).trans hP.lower
  have hmp := dMag_pos hnz
  have hval := pretty_value (dNeg u) D k
  refine ⟨_, (prettyNumber (decide (dNeg u)) (decN D) k).value, h u rfl L junk hj,
    ⟨prettyNumber (decide (dNeg u)) (decN D) k, hP.WF hnz _, (signed_text _ _ _).symm, rfl⟩, ?_⟩
  have e : |(prettyNumber (decide (dNeg u)) (decN D) k).value - dValue u| = |(D : ℚ) * 10 ^ k - dMag u| := by
    rw [hval]; unfold dValue
    split
    · rw [← abs_neg]; congr 1; ring
    · rfl
  have e1 : |(prettyNumber (decide (dNeg u)) (decN D) k).value| = (D : ℚ) * 10 ^ k := by
    rw [hval]
    split
    · rw [abs_neg, abs_of_pos hV]
    · rw [abs_of_pos hV]
  have e2 : |dValue u| = dMag u := by
    unfold dValue
    split
    · rw [abs_neg, abs_of_pos hmp]
    · rw [abs_of_pos hmp]
  have h1 := hP.lower
  have h2 := hP.upper
  rw [lowB_eq u hnz] at h1
  rw [highB_eq] at h2
  have hu : (2 : ℚ) ^ dUlpExp u = 2 ^ (dUlpExp u - 1) * 2 := by
    rw [← zpow_add_one₀ (by norm_num)]; congr 1; ring
  have hg2 := lowGap_le u
  rw [e, e1, e2]
  constructor
  · rw [abs_lt, hu]; constructor <;> linarith
  · intro h52 hlt
    have hg : lowGap u = 2 ^ dUlpExp u / 4 := by
      unfold lowGap
      rw [if_pos h52, zpow_sub₀ (by norm_num)]
      norm_num
    rw [abs_of_neg (by linarith), ← hg]
    linarith

example : dSig 0x3FF0000000000000 = 2 ^ 52 := by decide +kernel

/-! ## C25, C04, C49, C51 (float) -/

/-- Everything about the object made from any `long double` argument, default literals. -/
theorem formatLd_any (env : Env) (henv : EnvOk env) (x : LVal) :
    ∃ t : Bytes, t.length ≤ 25 ∧ ∀ junk, junk.length = FLOAT_SIZE →
      formatLd .default env junk x = .ok ⟨t ++ 0 :: junk.drop (t.length + 1), 0, t.length⟩ := by
  have hF : FLOAT_SIZE = 30 := rfl
  rcases class_cases x.toDouble with hf | hi | hn
  · by_cases hz : DZero x.toDouble
    · exact ⟨[48, 46, 48], by decide, fun junk hj => formatLd_zero env x hz _ junk hj⟩
    · obtain ⟨D, k, hP, h⟩ := formatLd_finite env henv x.toDouble hf hz
      refine ⟨_, ?_, fun junk hj => h x rfl _ junk hj⟩
      have := hP.text_length hf hz
      unfold signed
      split
      · simp only [List.cons_append, List.nil_append, List.length_cons]; omega
      · simp only [List.nil_append]; omega
  · by_cases hn : dNeg x.toDouble
    · refine ⟨Literals.default.negInfinity, by decide, fun junk hj => ?_⟩
      rw [formatLd_inf env x hi]
      simp only [hn, if_true]
      exact stringLit _ _ (by decide) (by rw [hj, hF]; decide)
    · refine ⟨Literals.default.infinity, by decide, fun junk hj => ?_⟩
      rw [formatLd_inf env x hi]
      simp only [hn, if_false]
      exact stringLit _ _ (by decide) (by rw [hj, hF]; decide)
  · refine ⟨Literals.default.nan, by decide, fun junk hj => ?_⟩
    rw [formatLd_nan env x hn]
    exact stringLit _ _ (by decide) (by rw [hj, hF]; decide)

/-- C25.  `FormatFloat` of any value: never undefined on the write side (every write is bounds-checked in
the model and every loop has ended), the buffer keeps its 30 bytes, bytes behind the NUL are untouched, the
size is at most 25, NUL-terminated inside the buffer, and the text does not depend on the previous
contents. -/
theorem C25_write_safety (env : Env) (henv : EnvOk env) (x : LVal) :
    ∃ t : Bytes, t.length ≤ 25 ∧ ∀ junk, junk.length = FLOAT_SIZE →
      ∃ o, formatLd .default env junk x = .ok o ∧ o.string = .ok t ∧ o.size = t.length ∧
        o.buffer.length = FLOAT_SIZE ∧ o.buffer[o.size]? = some 0 ∧
        (∀ i, o.size < i → o.buffer[i]? = junk[i]?) := by
  obtain ⟨t, ht, h⟩ := formatLd_any env henv x
  refine ⟨t, ht, fun junk hj => ⟨_, h junk hj, readN_prefix _ _, rfl, ?_, ?_, ?_⟩⟩
  · have : junk.length = 30 := hj
    simp only [List.length_append, List.length_cons, List.length_drop]
    rw [hj]; unfold FLOAT_SIZE; omega
  · simp [FloatObj.size]
  · intro i hi
    simp only [FloatObj.size, Nat.sub_zero] at hi
    rw [List.getElem?_append_right (by omega)]
    obtain ⟨j, rfl⟩ : ∃ j, i = t.length + (j + 1) := ⟨i - t.length - 1, by omega⟩
    rw [show t.length + (j + 1) - t.length = j + 1 by omega, List.getElem?_cons_succ, List.getElem?_drop]
    congr 1; omega

/-- C25.  At most 17 significant digits. -/
theorem C25_digits (env : Env) (henv : EnvOk env) (L : Literals) (junk : Bytes)
    (hj : junk.length = FLOAT_SIZE) (u : UInt64) (hfin : DFinite u) (hnz : ¬ DZero u) :
    ∃ (t : Bytes) (D : ℕ) (k : ℤ), stringDouble L env junk u = .ok t ∧ 0 < D ∧ D < 10 ^ 17 ∧
      IsJsonNumber t (if dNeg u then -((D : ℚ) * 10 ^ k) else (D : ℚ) * 10 ^ k) := by
  obtain ⟨D, k, hP, h⟩ := stringDouble_finite env henv u hfin hnz
  exact ⟨_, D, k, h u rfl L junk hj, hP.pos hnz, hP.lt17, prettyNumber (decide (dNeg u)) (decN D) k, hP.WF hnz _,
    (signed_text _ _ _).symm, pretty_value _ _ _⟩

/-- The bound 25 is reached. -/
example : stringDouble .default sampleEnv (List.replicate 30 7) 0xBEB81A8D6F8DD98E =
    .ok (ascii "-0.0000014366937064171057") := by decide +kernel


/-- C04 for `FormatFloat`, on any `long double` argument. -/
theorem C04_float (env : Env) (henv : EnvOk env) (junk : Bytes) (hj : junk.length = FLOAT_SIZE) (x : LVal) :
    ∃ o, formatLd .default env junk x = .ok o ∧
      AccessorsAgree o.buffer o.size o.length o.data o.c_str o.string o.toStdString := by
  obtain ⟨t, -, h⟩ := formatLd_any env henv x
  exact ⟨_, h junk hj, accessors_of_text t _⟩

/-- C51.  `FormatFloat` with overriding NUL-free literals: memory-safe on NaN and infinities iff every
literal has at most 29 bytes, and then the text is exactly the literal. -/
theorem C51_float_literals (env : Env) (L : Literals) (h1 : 0 ∉ L.nan) (h2 : 0 ∉ L.infinity)
    (h3 : 0 ∉ L.negInfinity) :
    ((∀ junk, junk.length = FLOAT_SIZE → ∀ u, ¬ DFinite u → formatDouble L env junk u ≠ .ub) ↔
      L.nan.length ≤ 29 ∧ L.infinity.length ≤ 29 ∧ L.negInfinity.length ≤ 29) ∧
    (L.nan.length ≤ 29 ∧ L.infinity.length ≤ 29 ∧ L.negInfinity.length ≤ 29 →
      ∀ junk, junk.length = FLOAT_SIZE → ∀ u, ¬ DFinite u →
        stringDouble L env junk u = .ok (if DNaN u then L.nan else if dNeg u then L.negInfinity else L.infinity)) := by
  have hF : FLOAT_SIZE = 30 := rfl
  have main : L.nan.length ≤ 29 ∧ L.infinity.length ≤ 29 ∧ L.negInfinity.length ≤ 29 →
      ∀ junk, junk.length = FLOAT_SIZE → ∀ u, ¬ DFinite u →
        ∃ lit r, lit = (if DNaN u then L.nan else if dNeg u then L.negInfinity else L.infinity) ∧
          formatDouble L env junk u = .ok ⟨lit ++ 0 :: r, 0, lit.length⟩ := by
    rintro ⟨l1, l2, l3⟩ junk hj u hu
    rcases class_cases u with hf | hi | hn
    · exact absurd hf hu
    · have hnn : ¬ DNaN u := fun hn => hn.2 hi.2
      have e := (ofDouble_class u).2 hnn
      unfold formatDouble
      rw [formatLd_inf env _ (by rw [e]; exact hi), e, if_neg hnn]
      by_cases hneg : dNeg u
      · simp only [hneg, if_true]
        exact ⟨_, _, rfl, stringLit _ _ h3 (by omega)⟩
      · simp only [hneg, if_false]
        exact ⟨_, _, rfl, stringLit _ _ h2 (by omega)⟩
    · unfold formatDouble
      rw [formatLd_nan env _ ((ofDouble_class u).1 hn), if_pos hn]
      exact ⟨_, _, rfl, stringLit _ _ h1 (by omega)⟩
  refine ⟨⟨?_, ?_⟩, ?_⟩
  · intro h
    obtain ⟨z, hz⟩ : ∃ z : Bytes, z.length = FLOAT_SIZE := ⟨List.replicate 30 0, rfl⟩
    have hub : ∀ u : UInt64, ∀ lit : Bytes, ¬ DFinite u → formatDouble L env z u =
        (strncpyLit z lit >>= fun b => .ok ⟨b, 0, lit.length⟩) → lit.length ≤ 29 := by
      intro u lit hu he
      apply Nat.le_of_not_lt
      intro hc
      apply h z hz u hu
      rw [he, strncpyLit_ub z lit (by omega)]; rfl
    refine ⟨hub 0x7FF8000000000000 L.nan (by decide +kernel) ?_, hub 0x7FF0000000000000 L.infinity (by decide +kernel) ?_,
      hub 0xFFF0000000000000 L.negInfinity (by decide +kernel) ?_⟩
    · exact formatLd_nan env _ (by decide +kernel) L z
    · have := formatLd_inf env (LVal.ofDouble 0x7FF0000000000000) (by decide +kernel) L z
      rw [if_neg (by decide +kernel)] at this
      exact this
    · have := formatLd_inf env (LVal.ofDouble 0xFFF0000000000000) (by decide +kernel) L z
      rw [if_pos (by decide +kernel)] at this
      exact this
  · intro hl junk hj u hu
    obtain ⟨lit, r, -, h⟩ := main hl junk hj u hu
    rw [h]; simp
  · intro hl junk hj u hu
    obtain ⟨lit, r, hlit, h⟩ := main hl junk hj u hu
    unfold stringDouble
    rw [h, ← hlit]
    exact readN_prefix _ _

theorem escape_fixed (sgn : Bool) (t : Bytes) : escapeStr sgn t = t ↔ ∀ b ∈ t, ¬ NeedsEscape b := by
  rw [escapeStr, escape_eq]
  have hlen : ∀ s : Bytes, s.length ≤ (s.flatMap escB).length := by
    intro s
    induction s with
    | nil => simp
    | cons c cs ih =>
      rw [List.flatMap_cons, List.length_append, List.length_cons]
      have : 1 ≤ (escB c).length := by unfold escB; split <;> simp
      omega
  induction t with
  | nil => simp
  | cons c cs ih =>
    rw [List.flatMap_cons]
    by_cases hc : NeedsEscape c
    · constructor
      · intro h
        have h1 := congrArg List.length h
        have h2 := hlen cs
        simp only [escB, if_pos hc, List.length_append, List.length_cons, List.length_nil] at h1
        omega
      · intro h; exact absurd hc (h c (by simp))
    · simp only [escB, if_neg hc, List.cons_append, List.nil_append, List.cons.injEq, true_and]
      constructor
      · intro h b hb
        rcases List.mem_cons.mp hb with rfl | hb
        · exact hc
        · exact ih.mp h b hb
      · intro h
        exact ih.mpr fun b hb => h b (by simp [hb])

/-- C49.  `escape()` of a float formatter is the plain text; for a finite double it differs from
`lexi::escape(string())` for every negative value and for every value printed in fixed notation, because
`-` and `.` stay unescaped. -/
theorem C49_float_escape (env : Env) (henv : EnvOk env) (sgn : Bool) (L : Literals) (junk : Bytes)
    (hj : junk.length = FLOAT_SIZE) (u : UInt64) (hfin : DFinite u) :
    ∃ o t n, formatDouble L env junk u = .ok o ∧ o.escape = o.string ∧ o.string = .ok t ∧
      n.WF ∧ JNumber.text n = t ∧ (dValue u < 0 ∨ n.exp = none → escapeStr sgn t ≠ t) := by
  obtain ⟨n, hwf, hneg, hpt, h0, -, -, -, htext⟩ := text_spec env henv u hfin
  have ht := htext L junk hj
  unfold stringDouble at ht
  cases ho : formatDouble L env junk u with
  | throws => rw [ho] at ht; simp at ht
  | ub => rw [ho] at ht; simp at ht
  | ok o =>
    rw [ho, Res.ok_bind] at ht
    refine ⟨o, n.text, n, rfl, rfl, ht, hwf, rfl, ?_⟩
    intro h hc
    rw [escape_fixed] at hc
    rcases h with h | h
    · refine hc 45 ?_ (by decide)
      rw [text_eq, hneg.mpr h]; simp
    · refine hc 46 ?_ (by decide)
      rw [h] at hpt
      rw [text_eq]
      cases hf : n.frac with
      | none => rw [hf] at hpt; simp at hpt
      | some f => simp [fracText]

/-- Texts such as `1e21` contain neither. -/
example : escapeStr true (ascii "1e21") = ascii "1e21" ∧ escapeStr true (ascii "1.5") = ascii "1\\.5" := by decide

/-- C49, NaN and infinities.  `escape()` is the plain text too; only the minus of negative infinity makes a difference. -/
theorem C49_special_escape (env : Env) (sgn : Bool) (junk : Bytes) (hj : junk.length = FLOAT_SIZE) (u : UInt64)
    (hu : ¬ DFinite u) :
    ∃ o t, formatDouble .default env junk u = .ok o ∧ o.escape = o.string ∧ o.string = .ok t ∧
      (escapeStr sgn t = t ↔ DNaN u ∨ ¬ dNeg u) := by
  obtain ⟨h1, h2, -⟩ := C30_special_values env junk hj u
  have main : ∀ t, stringDouble .default env junk u = .ok t → (escapeStr sgn t = t ↔ DNaN u ∨ ¬ dNeg u) →
      ∃ o t, formatDouble .default env junk u = .ok o ∧ o.escape = o.string ∧ o.string = .ok t ∧
      (escapeStr sgn t = t ↔ DNaN u ∨ ¬ dNeg u) := by
    intro t ht h
    unfold stringDouble at ht
    cases ho : formatDouble .default env junk u with
    | throws => rw [ho] at ht; simp at ht
    | ub => rw [ho] at ht; simp at ht
    | ok o => rw [ho, Res.ok_bind] at ht; exact ⟨o, t, rfl, rfl, ht, h⟩
  have hc : DInfinite u ∨ DNaN u := by
    unfold DFinite at hu; unfold DInfinite DNaN; omega
  rcases hc with h | h
  · refine main _ (h2 h) ?_
    by_cases hn : dNeg u
    · rw [if_pos hn]
      exact iff_of_false (by cases sgn <;> decide) (by rintro (h' | h'); exacts [h'.2 h.2, h' hn])
    · rw [if_neg hn]
      exact iff_of_true (by cases sgn <;> decide) (.inr hn)
  · exact main _ (h1 h) (iff_of_true (by cases sgn <;> decide) (.inl h))

example : ¬ DFinite 0xFFF0000000000000 ∧ dNeg 0xFFF0000000000000 ∧ ¬ DNaN 0xFFF0000000000000 := by decide +kernel

end Lexi
