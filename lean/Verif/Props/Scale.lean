import Verif.Props.Strtod
import Verif.Props.Reading
import Mathlib.Tactic.Linarith
import Mathlib.Tactic.FieldSimp

/-!
# Accuracy of the decimal scaling: C67
-/

namespace Lexi
open Spec Soft Dtoa Strtod

/-- Half the least positive double. -/
def halfTiny : ℚ := 2 ^ (-1075 : ℤ)

theorem halfTiny_pos : 0 < halfTiny := zp _

/-- Rounding to double changes a number by at most `2^-53` of itself plus half the least positive double. -/
theorem round_err {q : ℚ} (hq : 0 ≤ q) : |roundRat 53 (-1074) q - q| ≤ q / 2 ^ 53 + halfTiny := by
  rcases hq.lt_or_eq with hq | rfl
  · rw [roundRat_pos hq]
    refine (qsig_err hq).trans ?_
    have h1 := (lg_spec hq).1
    have hz := halfTiny_pos
    rcases le_total (lg q - 52) (-1074) with h | h
    · have he : qexp 53 (-1074) q = -1074 := by rw [qexp_eq]; omega
      have e : (2 : ℚ) ^ (-1074 : ℤ) / 2 = halfTiny := by
        unfold halfTiny
        rw [show (-1075 : ℤ) = -1074 - 1 by norm_num, zpow_sub₀ (by norm_num)]; norm_num
      rw [he, e]
      have : 0 ≤ q / 2 ^ 53 := by positivity
      linarith
    · have he : qexp 53 (-1074) q = lg q + (-52) := by rw [qexp_eq]; omega
      rw [he, zpow_add₀ (by norm_num), show (2 : ℚ) ^ (-52 : ℤ) = 1 / 2 ^ 52 by norm_num]
      have h4 : (2 : ℚ) ^ lg q * (1 / 2 ^ 52) / 2 = 2 ^ lg q / 2 ^ 53 := by ring
      rw [h4]
      have h6 : (2 : ℚ) ^ lg q / 2 ^ 53 ≤ q / 2 ^ 53 := div_le_div_of_nonneg_right h1 (by norm_num)
      linarith
  · rw [roundRat_zero]; simp [halfTiny_pos.le]

theorem round_err_normal {q : ℚ} (hq : 1 ≤ q) : |roundRat 53 (-1074) q - q| ≤ q / 2 ^ 53 := by
  have hq0 : 0 < q := by linarith
  rw [roundRat_pos hq0]
  refine (qsig_err hq0).trans ?_
  have h1 := (lg_spec hq0).1
  have hl := le_lg hq0 (a := 0) (by simpa using hq)
  have he : qexp 53 (-1074) q = lg q + (-52) := by rw [qexp_eq]; omega
  rw [he, zpow_add₀ (by norm_num), show (2 : ℚ) ^ (-52 : ℤ) = 1 / 2 ^ 52 by norm_num]
  have h4 : (2 : ℚ) ^ lg q * (1 / 2 ^ 52) / 2 = 2 ^ lg q / 2 ^ 53 := by ring
  rw [h4]
  exact div_le_div_of_nonneg_right h1 (by norm_num)

theorem pow308_lt (k : ℕ) (hk : k ≤ 308) : (10 : ℚ) ^ k < dOverflow := by
  have h : (10 : ℕ) ^ 308 < (2 ^ 54 - 1) * 2 ^ 970 := by decide +kernel
  have h' : (((10 : ℕ) ^ 308 : ℕ) : ℚ) < (((2 ^ 54 - 1) * 2 ^ 970 : ℕ) : ℚ) := by exact_mod_cast h
  have e : (((2 ^ 54 - 1) * 2 ^ 970 : ℕ) : ℚ) = dOverflow := by
    unfold dOverflow
    rw [Nat.cast_mul, Nat.cast_pow, Nat.cast_ofNat]
    norm_num
  rw [e, Nat.cast_pow] at h'
  exact lt_of_le_of_lt (pow_le_pow_right₀ (by norm_num) hk) (by exact_mod_cast h')

/-- The table entries, up to a relative error of `2^-53`. -/
theorem power10_near (k : ℕ) (hk : k ≤ 308) :
    DFinite (LVal.fin false ((10 ^ k : Nat) : Rat)).toDouble ∧
      ¬ dNeg (LVal.fin false ((10 ^ k : Nat) : Rat)).toDouble ∧
      |dMag (LVal.fin false ((10 ^ k : Nat) : Rat)).toDouble - 10 ^ k| ≤ 10 ^ k / 2 ^ 53 := by
  have e : ((10 ^ k : Nat) : Rat) = (10 : ℚ) ^ k := by push_cast; rfl
  rw [e]
  have h1 : (1 : ℚ) ≤ 10 ^ k := one_le_pow₀ (by norm_num)
  obtain ⟨a, b, c, -⟩ := toDouble_pos false (by linarith : (0 : ℚ) < 10 ^ k) (pow308_lt k hk)
  exact ⟨a, by simpa using b, by rw [c]; exact round_err_normal h1⟩

theorem fmul_signed (a b : UInt64) (ha : DFinite a) (hb : DFinite b) (nb : ¬ dNeg b) :
    fmul a b = (LVal.fin (decide (dNeg a)) (dMag a * dMag b)).toDouble := by
  unfold fmul
  rw [ofDouble_finite a ha, ofDouble_pos' b hb nb]
  simp

theorem fdiv_signed (a b : UInt64) (ha : DFinite a) (hb : DFinite b) (nb : ¬ dNeg b) (hz : dMag b ≠ 0) :
    fdiv a b = (LVal.fin (decide (dNeg a)) (dMag a / dMag b)).toDouble := by
  unfold fdiv
  rw [ofDouble_finite a ha, ofDouble_pos' b hb nb]
  simp [hz]

theorem toDouble_mag (neg : Bool) {q : ℚ} (hq : 0 ≤ q) (h : q < dOverflow) :
    DFinite (LVal.fin neg q).toDouble ∧ (dNeg (LVal.fin neg q).toDouble ↔ neg = true) ∧
      |dMag (LVal.fin neg q).toDouble - q| ≤ q / 2 ^ 53 + halfTiny := by
  rcases hq.lt_or_eq with h0 | rfl
  · obtain ⟨a, b, c, -⟩ := toDouble_pos neg h0 h
    exact ⟨a, b, by rw [c]; exact round_err hq⟩
  · obtain ⟨a, b, c, -⟩ := toDouble_zero neg
    exact ⟨a, b, by rw [c]; simp [halfTiny_pos.le]⟩

/-- One scaling step: what `fastPath` does to the magnitude. -/
theorem fastPath_err (d : UInt64) (hf : DFinite d) (p : ℤ) (h1 : -308 ≤ p) (h2 : p ≤ 308)
    (hov : dMag d * 10 ^ p * (1 + 1 / 2 ^ 52) < dOverflow) :
    ∃ r, fastPath d p = .ok r ∧ DFinite r ∧ (dNeg r ↔ dNeg d) ∧
      |dMag r - dMag d * 10 ^ p| ≤ dMag d * 10 ^ p * (3 / 2 ^ 53) + halfTiny := by
  have hm := dMag_nonneg d
  have hz := halfTiny_pos
  unfold fastPath
  rw [if_neg (by omega)]
  by_cases hp : 0 ≤ p
  · obtain ⟨k, rfl⟩ : ∃ k : ℕ, p = k := ⟨p.toNat, by omega⟩
    rw [if_pos hp, pow10_ok _ hp (by omega)]
    obtain ⟨e1, e2, e3⟩ := power10_near k (by omega)
    simp only [Int.toNat_natCast]
    generalize (LVal.fin false ((10 ^ k : Nat) : Rat)).toDouble = t at *
    rw [zpow_natCast] at *
    have hT : (0 : ℚ) < 10 ^ k := by positivity
    generalize (10 : ℚ) ^ k = T at *
    rw [abs_le] at e3
    have ht : 0 ≤ dMag t := dMag_nonneg t
    have hq : 0 ≤ dMag d * T := by positivity
    have hx1 : dMag d * dMag t ≤ dMag d * T + dMag d * T / 2 ^ 53 := by
      have := mul_le_mul_of_nonneg_left (show dMag t ≤ T + T / 2 ^ 53 by linarith [e3.2]) hm
      calc _ ≤ _ := this
        _ = _ := by ring
    have hx2 : dMag d * T - dMag d * T / 2 ^ 53 ≤ dMag d * dMag t := by
      have := mul_le_mul_of_nonneg_left (show T - T / 2 ^ 53 ≤ dMag t by linarith [e3.1]) hm
      calc _ = _ := by ring
        _ ≤ _ := this
    have hlt : dMag d * dMag t < dOverflow := by
      refine lt_of_le_of_lt hx1 (lt_of_le_of_lt ?_ hov)
      have : dMag d * T / 2 ^ 53 ≤ dMag d * T * (1 / 2 ^ 52) := by
        rw [div_eq_mul_one_div]
        exact mul_le_mul_of_nonneg_left (by norm_num) hq
      linarith
    obtain ⟨a, b, c⟩ := toDouble_mag (decide (dNeg d)) (by positivity : 0 ≤ dMag d * dMag t) hlt
    refine ⟨_, rfl, ?_⟩
    rw [fmul_signed d t hf e1 e2]
    refine ⟨a, by simpa using b, ?_⟩
    rw [abs_le] at c ⊢
    generalize dMag (LVal.fin (decide (dNeg d)) (dMag d * dMag t)).toDouble = R at *
    generalize dMag d * dMag t = X at *
    generalize dMag d * T = Q at *
    constructor
    · linarith [c.1]
    · have : X / 2 ^ 53 ≤ Q / 2 ^ 53 + Q / 2 ^ 53 := by linarith
      linarith [c.2]
  · obtain ⟨k, hk⟩ : ∃ k : ℕ, p = -k := ⟨(-p).toNat, by omega⟩
    subst hk
    rw [if_neg hp, _root_.neg_neg, pow10_ok _ (by omega) (by omega)]
    obtain ⟨e1, e2, e3⟩ := power10_near k (by omega)
    simp only [Int.toNat_natCast]
    generalize (LVal.fin false ((10 ^ k : Nat) : Rat)).toDouble = t at *
    rw [zpow_neg, zpow_natCast, ← div_eq_mul_inv] at *
    have hT : (0 : ℚ) < 10 ^ k := by positivity
    generalize (10 : ℚ) ^ k = T at *
    rw [abs_le] at e3
    have ht : 0 < dMag t := by linarith [e3.1]
    have hq : 0 ≤ dMag d / T := by positivity
    have hd : dMag d = dMag d / T * T := by field_simp
    have hx1 : dMag d / dMag t ≤ dMag d / T * (1 + 1 / 2 ^ 53 + 1 / 2 ^ 100) := by
      rw [div_le_iff₀ ht]
      generalize dMag d / T = Q at *
      rw [hd]
      have : Q * T ≤ Q * ((1 + 1 / 2 ^ 53 + 1 / 2 ^ 100) * dMag t) := by
        apply mul_le_mul_of_nonneg_left _ hq
        have : (1 + 1 / 2 ^ 53 + 1 / 2 ^ 100) * (T - T / 2 ^ 53) ≤ (1 + 1 / 2 ^ 53 + 1 / 2 ^ 100) * dMag t :=
          mul_le_mul_of_nonneg_left (by linarith [e3.1]) (by norm_num)
        linarith
      linarith
    have hx2 : dMag d / T * (1 - 1 / 2 ^ 53) ≤ dMag d / dMag t := by
      rw [le_div_iff₀ ht]
      generalize dMag d / T = Q at *
      rw [hd]
      have : Q * ((1 - 1 / 2 ^ 53) * dMag t) ≤ Q * T := by
        apply mul_le_mul_of_nonneg_left _ hq
        have : (1 - 1 / 2 ^ 53) * dMag t ≤ (1 - 1 / 2 ^ 53) * (T + T / 2 ^ 53) :=
          mul_le_mul_of_nonneg_left (by linarith [e3.2]) (by norm_num)
        linarith
      linarith
    have hlt : dMag d / dMag t < dOverflow := by
      refine lt_of_le_of_lt hx1 (lt_of_le_of_lt ?_ hov)
      exact mul_le_mul_of_nonneg_left (by norm_num) hq
    obtain ⟨a, b, c⟩ := toDouble_mag (decide (dNeg d)) (by positivity : 0 ≤ dMag d / dMag t) hlt
    refine ⟨_, rfl, ?_⟩
    rw [fdiv_signed d t hf e1 e2 ht.ne']
    refine ⟨a, by simpa using b, ?_⟩
    rw [abs_le] at c ⊢
    generalize dMag (LVal.fin (decide (dNeg d)) (dMag d / dMag t)).toDouble = R at *
    generalize dMag d / dMag t = X at *
    generalize dMag d / T = Q at *
    constructor
    · linarith [c.1]
    · linarith [c.2]

/-- C67.  Scaling by a power of ten from `10^-616` to `10^308` is accurate to eight units of relative error `2^-53` plus
the least positive double, for every finite double whose exact result does not come near overflow; the sign is kept. -/
theorem C67_accuracy (d : UInt64) (hf : DFinite d) (p : ℤ) (h1 : -616 ≤ p) (h2 : p ≤ 308)
    (hov : |dValue d| * 10 ^ p * (1 + 1 / 2 ^ 52) < dOverflow) :
    ∃ r, normalPrecision d p = .ok r ∧ DFinite r ∧ (dNeg r ↔ dNeg d) ∧
      |dValue r - dValue d * 10 ^ p| ≤ |dValue d| * 10 ^ p / 2 ^ 50 + 2 ^ (-1074 : ℤ) := by
  have hm := dMag_nonneg d
  have habs : |dValue d| = dMag d := by
    unfold dValue; split
    · rw [abs_neg, abs_of_nonneg hm]
    · rw [abs_of_nonneg hm]
  have hz := halfTiny_pos
  have hz2 : (2 : ℚ) ^ (-1074 : ℤ) = 2 * halfTiny := by
    unfold halfTiny
    rw [show (-1074 : ℤ) = 1 + (-1075) by norm_num, zpow_add₀ (by norm_num)]; norm_num
  rw [habs] at hov ⊢
  rw [hz2]
  have main : ∃ r, normalPrecision d p = .ok r ∧ DFinite r ∧ (dNeg r ↔ dNeg d) ∧
      |dMag r - dMag d * 10 ^ p| ≤ dMag d * 10 ^ p / 2 ^ 50 + 2 * halfTiny := by
    unfold normalPrecision
    by_cases hp : p < -308
    · rw [if_pos hp]
      have hTk : (1 : ℚ) ≤ 10 ^ (-(p + 308)) := one_le_zpow₀ (by norm_num) (by omega)
      have hT10 : (10 : ℚ) ≤ 10 ^ (-(p + 308)) := by
        have : (10 : ℚ) ^ (1 : ℤ) ≤ 10 ^ (-(p + 308)) := zpow_le_zpow_right₀ (by norm_num) (by omega)
        simpa using this
      have hsplit : dMag d * 10 ^ p = dMag d * 10 ^ (-308 : ℤ) * 10 ^ (p + 308) := by
        rw [mul_assoc, ← zpow_add₀ (by norm_num)]; congr 2; ring
      have hS : (0 : ℚ) < 10 ^ (p + 308) := by positivity
      have hS10 : (10 : ℚ) ^ (p + 308) ≤ 1 / 10 := by
        have : (10 : ℚ) ^ (p + 308) ≤ 10 ^ (-1 : ℤ) := zpow_le_zpow_right₀ (by norm_num) (by omega)
        norm_num at this ⊢; exact this
      have h308 : (10 : ℚ) ^ (-308 : ℤ) ≤ 1 / 2 := by
        have : (10 : ℚ) ^ (-308 : ℤ) ≤ 10 ^ (-1 : ℤ) := zpow_le_zpow_right₀ (by norm_num) (by norm_num)
        norm_num at this ⊢; linarith
      have hdo : dMag d < dOverflow := by
        refine lt_of_le_of_lt (dMag_le_dMax d hf) dMax_lt
      have hov1 : dMag d * 10 ^ (-308 : ℤ) * (1 + 1 / 2 ^ 52) < dOverflow := by
        have : dMag d * 10 ^ (-308 : ℤ) ≤ dMag d * (1 / 2) := mul_le_mul_of_nonneg_left h308 hm
        have h0 : 0 ≤ dMag d * (10 : ℚ) ^ (-308 : ℤ) := by positivity
        linarith
      obtain ⟨s, s1, s2, s3, s4⟩ := fastPath_err d hf (-308) (by norm_num) (by norm_num) hov1
      have hsm := dMag_nonneg s
      have hov2 : dMag s * 10 ^ (p + 308) * (1 + 1 / 2 ^ 52) < dOverflow := by
        have h0 : dMag s * 10 ^ (p + 308) ≤ dMag s * (1 / 10) := mul_le_mul_of_nonneg_left hS10 hsm
        have := lt_of_le_of_lt (dMag_le_dMax s s2) dMax_lt
        have h1 : 0 ≤ dMag s * (10 : ℚ) ^ (p + 308) := by positivity
        linarith
      obtain ⟨r, r1, r2, r3, r4⟩ := fastPath_err s s2 (p + 308) (by omega) (by omega) hov2
      rw [s1]
      refine ⟨r, r1, r2, r3.trans s3, ?_⟩
      rw [hsplit]
      have hQ1 : 0 ≤ dMag d * (10 : ℚ) ^ (-308 : ℤ) := by positivity
      generalize dMag d * (10 : ℚ) ^ (-308 : ℤ) = Q1 at *
      generalize (10 : ℚ) ^ (p + 308) = S at *
      rw [abs_le] at s4 r4 ⊢
      have u1 : dMag s * S ≤ (Q1 + Q1 * (3 / 2 ^ 53) + halfTiny) * S :=
        mul_le_mul_of_nonneg_right (by linarith [s4.2]) hS.le
      have u2 : (Q1 - Q1 * (3 / 2 ^ 53) - halfTiny) * S ≤ dMag s * S :=
        mul_le_mul_of_nonneg_right (by linarith [s4.1]) hS.le
      have u3 : halfTiny * S ≤ halfTiny * (1 / 10) := mul_le_mul_of_nonneg_left hS10 hz.le
      have u4 : 0 ≤ Q1 * S := by positivity
      have u5 : 0 ≤ halfTiny * S := by positivity
      have v1 : dMag s * S ≤ Q1 * S + Q1 * S * (3 / 2 ^ 53) + halfTiny * S := by linarith
      have v2 : Q1 * S - Q1 * S * (3 / 2 ^ 53) - halfTiny * S ≤ dMag s * S := by linarith
      generalize dMag s * S = X at *
      generalize Q1 * S = Q at *
      generalize halfTiny * S = Y at *
      generalize dMag r = R at *
      constructor
      · linarith [r4.1]
      · linarith [r4.2]
    · rw [if_neg hp]
      obtain ⟨r, r1, r2, r3, r4⟩ := fastPath_err d hf p (by omega) h2 hov
      refine ⟨r, r1, r2, r3, r4.trans ?_⟩
      have : 0 ≤ dMag d * (10 : ℚ) ^ p := by positivity
      linarith
  obtain ⟨r, a, b, c, e⟩ := main
  refine ⟨r, a, b, c, ?_⟩
  have : |dValue r - dValue d * 10 ^ p| = |dMag r - dMag d * 10 ^ p| := by
    unfold dValue
    by_cases hn : dNeg d
    · rw [if_pos hn, if_pos (c.mpr hn), ← abs_neg]; congr 1; ring
    · rw [if_neg hn, if_neg (fun h => hn (c.mp h))]
  rw [this]; exact e

/-- C67.  Below `10^-616` the result is `+0`. -/
theorem C67_underflow (d : UInt64) (p : ℤ) (hp : p < -616) : normalPrecision d p = .ok 0 := by
  unfold normalPrecision
  rw [if_pos (by omega)]
  obtain ⟨s, hs⟩ := (C50_fastPath_defined d (-308)).mpr (by omega)
  rw [hs, Res.ok_bind, fastPath, if_pos (by omega)]

/-- C67.  That is within the bound for every significand up to `2^64`, … -/
theorem C67_underflow_small (d : UInt64) (p : ℤ) (hp : p < -616) (hd : |dValue d| ≤ 2 ^ 64) :
    |dValue 0 - dValue d * 10 ^ p| ≤ 2 ^ (-1074 : ℤ) := by
  have h0 : dValue 0 = 0 := by
    have a : dSig 0 = 0 := by decide +kernel
    unfold dValue dMag; rw [a]; simp
  have hN : (2 : ℕ) ^ 64 * 2 ^ 1074 ≤ 10 ^ 616 := by decide +kernel
  have hQ : (2 : ℚ) ^ 64 * 2 ^ 1074 ≤ 10 ^ 616 := by exact_mod_cast hN
  rw [h0, zero_sub, abs_neg, abs_mul, abs_of_pos (by positivity : (0 : ℚ) < 10 ^ p)]
  have h1 : (10 : ℚ) ^ p ≤ 10 ^ (-616 : ℤ) := zpow_le_zpow_right₀ (by norm_num) (by omega)
  have h2 : |dValue d| * 10 ^ p ≤ 2 ^ 64 * 10 ^ (-616 : ℤ) := mul_le_mul hd h1 (by positivity) (by positivity)
  refine h2.trans ?_
  rw [show (-616 : ℤ) = -((616 : ℕ) : ℤ) by norm_num, show (-1074 : ℤ) = -((1074 : ℕ) : ℤ) by norm_num, zpow_neg, zpow_neg,
    zpow_natCast, zpow_natCast]
  have hA : (0 : ℚ) < 2 ^ 1074 := pow_pos (by norm_num) _
  have hB : (0 : ℚ) < 10 ^ 616 := pow_pos (by norm_num) _
  generalize (2 : ℚ) ^ 1074 = A at *
  generalize (10 : ℚ) ^ 616 = B at *
  rw [← div_eq_mul_inv, ← one_div, div_le_div_iff₀ hB hA]
  linarith

/-- C67.  … and not for every double: `1e308 * 10^-617` is scaled to zero although it is more than `2^40` times the least
positive double. -/
theorem C67_underflow_wrong :
    DFinite 0x7FE1CCF385EBC8A0 ∧ normalPrecision 0x7FE1CCF385EBC8A0 (-617) = .ok 0 ∧
    2 ^ 40 * 2 ^ (-1074 : ℤ) < dValue 0x7FE1CCF385EBC8A0 * 10 ^ (-617 : ℤ) := by
  refine ⟨by decide +kernel, C67_underflow _ _ (by norm_num), ?_⟩
  have a : dSig 0x7FE1CCF385EBC8A0 = 5010420900022432 := by decide +kernel
  have b : dUlpExp 0x7FE1CCF385EBC8A0 = 971 := by decide +kernel
  have c : ¬ dNeg 0x7FE1CCF385EBC8A0 := by decide +kernel
  have hN : (2 : ℕ) ^ 40 * 10 ^ 617 < 5010420900022432 * 2 ^ 971 * 2 ^ 1074 := by decide +kernel
  have hQ : (2 : ℚ) ^ 40 * 10 ^ 617 < 5010420900022432 * 2 ^ 971 * 2 ^ 1074 := by exact_mod_cast hN
  unfold dValue dMag; rw [a, b, if_neg c]
  rw [show (-617 : ℤ) = -((617 : ℕ) : ℤ) by norm_num, show (-1074 : ℤ) = -((1074 : ℕ) : ℤ) by norm_num,
    show (971 : ℤ) = ((971 : ℕ) : ℤ) by norm_num, zpow_neg, zpow_neg, zpow_natCast, zpow_natCast, zpow_natCast]
  have hA : (0 : ℚ) < 2 ^ 1074 := pow_pos (by norm_num) _
  have hB : (0 : ℚ) < 10 ^ 617 := pow_pos (by norm_num) _
  generalize (2 : ℚ) ^ 1074 = A at *
  generalize (10 : ℚ) ^ 617 = B at *
  generalize (2 : ℚ) ^ 971 = C at *
  rw [← div_eq_mul_inv, ← div_eq_mul_inv, div_lt_div_iff₀ hA hB]
  push_cast
  linarith

/-- C67.  From slightly above the overflow threshold on the result is the infinity of the sign. -/
theorem C67_overflow (d : UInt64) (hf : DFinite d) (p : ℤ) (h1 : 0 ≤ p) (h2 : p ≤ 308)
    (hov : dOverflow ≤ |dValue d| * 10 ^ p * (1 - 1 / 2 ^ 52)) :
    normalPrecision d p = .ok (if dNeg d then 0xFFF0000000000000 else 0x7FF0000000000000) := by
  have hm := dMag_nonneg d
  have habs : |dValue d| = dMag d := by
    unfold dValue; split
    · rw [abs_neg, abs_of_nonneg hm]
    · rw [abs_of_nonneg hm]
  rw [habs] at hov
  obtain ⟨k, rfl⟩ : ∃ k : ℕ, p = k := ⟨p.toNat, by omega⟩
  unfold normalPrecision fastPath
  rw [if_neg (by omega), if_neg (by omega), if_pos h1, pow10_ok _ h1 h2]
  obtain ⟨e1, e2, e3⟩ := power10_near k (by omega)
  simp only [Int.toNat_natCast, Res.ok_bind, Res.pure_eq]
  rw [fmul_signed d _ hf e1 e2, toDouble_overflow]
  · simp
  · refine hov.trans ?_
    rw [zpow_natCast]
    rw [abs_le] at e3
    have hT : (0 : ℚ) < 10 ^ k := by positivity
    generalize (10 : ℚ) ^ k = T at *
    rw [mul_assoc]
    exact mul_le_mul_of_nonneg_left (by linarith [e3.1]) hm

/-! ### Inhabited hypotheses -/

/-- 1 scaled by `10^-320`, a subnormal: exact value and result. -/
example : normalPrecision 0x3FF0000000000000 (-320) = .ok 0x00000000000007E8 := by decide +kernel
example : |dValue 0x3FF0000000000000| * 10 ^ (-320 : ℤ) * (1 + 1 / 2 ^ 52) < dOverflow := by
  have a : dSig 0x3FF0000000000000 = 2 ^ 52 := by decide +kernel
  have b : dUlpExp 0x3FF0000000000000 = -52 := by decide +kernel
  have c : ¬ dNeg 0x3FF0000000000000 := by decide +kernel
  have v : dValue 0x3FF0000000000000 = 1 := by unfold dValue dMag; rw [a, b, if_neg c]; norm_num
  rw [v, abs_one, one_mul]
  have h : (10 : ℚ) ^ (-320 : ℤ) ≤ 10 ^ (0 : ℤ) := zpow_le_zpow_right₀ (by norm_num) (by norm_num)
  rw [zpow_zero] at h
  have h0 : (0 : ℚ) < 10 ^ (-320 : ℤ) := by positivity
  generalize (10 : ℚ) ^ (-320 : ℤ) = X at *
  refine small_lt_overflow ?_
  have : X * (1 + 1 / 2 ^ 52) ≤ 1 * (1 + 1 / 2 ^ 52) := mul_le_mul_of_nonneg_right h (by norm_num)
  refine lt_of_le_of_lt this (by norm_num)
example : normalPrecision 0x4059000000000000 308 = .ok 0x7FF0000000000000 := by decide +kernel
example : DFinite 0x4059000000000000 := by decide +kernel

end Lexi
