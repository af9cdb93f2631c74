import Verif.Proofs.Round
import Verif.Proofs.Dtoa

/-! # Conversions between bit patterns and values -/

namespace Lexi
open Spec Soft Dtoa DiyFp

theorem uExp_normal (u : UInt64) (h : -1074 < dUlpExp u) : 2 ^ 52 ≤ dSig u := by
  unfold dUlpExp at h
  unfold dSig
  split at h <;> split <;> omega

/-- The bits of a finite double without the sign. -/
theorem encode_eq (u : UInt64) (hfin : DFinite u) :
    (dUlpExp u - (-1074)).toNat * 2 ^ (53 - 1) + dSig u = u.toNat % 2 ^ 63 := by
  have hu := u.toNat_lt
  have hm : u.toNat % 2 ^ 63 = dExp u * 2 ^ 52 + dFrac u := by unfold dExp dFrac; omega
  rw [hm]
  have := dExp_lt u
  unfold DFinite at hfin
  unfold dUlpExp dSig
  split
  · rename_i h; rw [h]; simp
  · have e : ((dExp u : ℤ) - 1075 - -1074).toNat = dExp u - 1 := by omega
    rw [e]
    have : dExp u = dExp u - 1 + 1 := by omega
    conv_rhs => rw [this]
    rw [Nat.add_mul]; omega

theorem encode_lt (u : UInt64) (hfin : DFinite u) : u.toNat % 2 ^ 63 < 2047 * 2 ^ 52 := by
  have hu := u.toNat_lt
  have hm : u.toNat % 2 ^ 63 = dExp u * 2 ^ 52 + dFrac u := by unfold dExp dFrac; omega
  have := dExp_lt u
  have := dFrac_lt u
  unfold DFinite at hfin
  rw [hm]
  have : dExp u * 2 ^ 52 ≤ 2046 * 2 ^ 52 := Nat.mul_le_mul_right _ (by omega)
  omega

/-- Any magnitude in the rounding interval of a double converts to it. -/
theorem toDouble_interval (u : UInt64) (hfin : DFinite u) (q : ℚ) (hq : 0 < q)
    (h : InInterval 53 (-1074) (dSig u) (dUlpExp u) q) :
    (LVal.fin (decide (dNeg u)) q).toDouble = u := by
  have henc := encodeMag_interval (p := 53) (by omega) hq (dSig u) (dUlpExp u) (dSig_lt u)
    (ulpExp_bounds u hfin).1 (uExp_normal u) h (2047 * 2 ^ 52)
    (by rw [encode_eq u hfin]; exact (encode_lt u hfin).le)
  rw [encode_eq u hfin] at henc
  have hu := u.toNat_lt
  apply UInt64.toNat_inj.mp
  simp only [LVal.toDouble, henc]
  rw [toNat_ofNat_lt]
  · by_cases hn : dNeg u
    · simp only [hn, decide_true, if_true]; unfold dNeg at hn; omega
    · simp only [hn, decide_false, Bool.false_eq_true, if_false]; unfold dNeg at hn; omega
  · split <;> omega

theorem ofDouble_finite (u : UInt64) (hfin : DFinite u) :
    LVal.ofDouble u = .fin (decide (dNeg u)) (dMag u) := by
  unfold DFinite dExp at hfin
  unfold LVal.ofDouble
  dsimp only
  rw [if_neg hfin]
  have hd : (decide (2 ^ 63 ≤ u.toNat)) = decide (dNeg u) := rfl
  unfold dMag dSig dUlpExp dExp dFrac
  split
  · rw [scale_eq, hd]
  · rw [scale_eq, hd]

theorem dMag_pos {u : UInt64} (hnz : ¬ DZero u) : 0 < dMag u := by
  have := dSig_pos hnz
  have h : (0 : ℚ) < dSig u := by exact_mod_cast this
  unfold dMag; positivity

theorem dMag_zero {u : UInt64} (hz : DZero u) : dMag u = 0 := by
  unfold dMag dSig
  rw [if_pos hz.1, hz.2]; simp

theorem class_cases (u : UInt64) : DFinite u ∨ DInfinite u ∨ DNaN u := by
  unfold DFinite DInfinite DNaN
  by_cases h : dExp u = 2047
  · by_cases h2 : dFrac u = 0
    · exact Or.inr (Or.inl ⟨h, h2⟩)
    · exact Or.inr (Or.inr ⟨h, h2⟩)
  · exact Or.inl h

theorem ofDouble_inf (u : UInt64) (h : DInfinite u) : LVal.ofDouble u = .inf (decide (dNeg u)) := by
  obtain ⟨h1, h2⟩ := h
  unfold dExp at h1
  unfold dFrac at h2
  unfold LVal.ofDouble
  dsimp only
  rw [if_pos h1, if_pos h2]
  rfl

theorem ofDouble_nan (u : UInt64) (h : DNaN u) : LVal.ofDouble u = .nan := by
  obtain ⟨h1, h2⟩ := h
  unfold dExp at h1
  unfold dFrac at h2
  unfold LVal.ofDouble
  dsimp only
  rw [if_pos h1, if_neg h2]

theorem inf_bits (u : UInt64) (h : DInfinite u) :
    u = if dNeg u then 0xFFF0000000000000 else 0x7FF0000000000000 := by
  obtain ⟨h1, h2⟩ := h
  have hu := u.toNat_lt
  apply UInt64.toNat_inj.mp
  split
  · rename_i hn
    show u.toNat = 0xFFF0000000000000
    unfold dNeg at hn; unfold dExp at h1; unfold dFrac at h2; omega
  · rename_i hn
    show u.toNat = 0x7FF0000000000000
    unfold dNeg at hn; unfold dExp at h1; unfold dFrac at h2; omega

/-- Narrowing undoes widening, except that a NaN becomes the canonical one. -/
theorem toDouble_ofDouble (u : UInt64) (h : ¬ DNaN u) : (LVal.ofDouble u).toDouble = u := by
  rcases class_cases u with hf | hi | hn
  · by_cases hz : DZero u
    · rw [ofDouble_finite u hf, dMag_zero hz]
      have hu := u.toNat_lt
      obtain ⟨h1, h2⟩ := hz
      unfold dExp at h1; unfold dFrac at h2
      apply UInt64.toNat_inj.mp
      have h0 : encodeMag 53 (-1074) (2047 * 2 ^ 52) 0 = 0 := rfl
      simp only [LVal.toDouble, h0]
      by_cases hn : dNeg u
      · simp only [hn, decide_true, if_true]
        rw [toNat_ofNat_lt _ (by omega)]
        unfold dNeg at hn; omega
      · simp only [hn, decide_false, Bool.false_eq_true, if_false]
        rw [toNat_ofNat_lt _ (by omega)]
        unfold dNeg at hn; omega
    · rw [ofDouble_finite u hf]
      exact toDouble_interval u hf _ (dMag_pos hz) (inInterval_self _ _)
  · rw [ofDouble_inf u hi]
    conv_rhs => rw [inf_bits u hi]
    simp only [LVal.toDouble, decide_eq_true_eq]
  · exact absurd hn h

/-! ## Classification -/

theorem expMask_toNat (u : UInt64) : (u &&& Ieee.EXPONENT_MASK).toNat = dExp u * 2 ^ 52 := by
  have h1 := exp_shift_toNat u
  have h2 : (u &&& Ieee.EXPONENT_MASK).toNat % 2 ^ 52 = 0 := by
    have hm : Ieee.EXPONENT_MASK.toNat % 2 ^ 52 = 0 := by decide +kernel
    rw [UInt64.toNat_and, Nat.and_mod_two_pow, hm, Nat.and_zero]
  have h3 : ((u &&& Ieee.EXPONENT_MASK) >>> 52).toNat = (u &&& Ieee.EXPONENT_MASK).toNat / 2 ^ 52 :=
    shr_toNat _ 52 (by omega)
  rw [h1] at h3
  omega

theorem isFinite_iff (u : UInt64) : Ieee.isFinite u = true ↔ DFinite u := by
  unfold Ieee.isFinite DFinite
  rw [bne_iff_ne, ne_eq, ← UInt64.toNat_inj, expMask_toNat]
  have hm : Ieee.EXPONENT_MASK.toNat = 2047 * 2 ^ 52 := by decide +kernel
  rw [hm]
  omega

theorem isNan_iff (u : UInt64) : Ieee.isNan u = true ↔ DNaN u := by
  unfold Ieee.isNan DNaN
  have h1 := isFinite_iff u
  rw [Bool.and_eq_true, Bool.not_eq_true', bne_iff_ne, ne_eq, ← UInt64.toNat_inj, frac_toNat, Bool.eq_false_iff,
    ne_eq, h1, DFinite, Decidable.not_not]
  rfl

theorem isInf_iff (u : UInt64) : Ieee.isInf u = true ↔ DInfinite u := by
  unfold Ieee.isInf DInfinite
  have h1 := isFinite_iff u
  rw [Bool.and_eq_true, Bool.not_eq_true', beq_iff_eq, ← UInt64.toNat_inj, frac_toNat, Bool.eq_false_iff,
    ne_eq, h1, DFinite, Decidable.not_not]
  rfl

theorem isInfinity_iff (u : UInt64) : Ieee.isInfinity u = true ↔ DInfinite u ∧ ¬ dNeg u := by
  unfold Ieee.isInfinity
  rw [beq_iff_eq]
  constructor
  · rintro rfl; decide +kernel
  · rintro ⟨h1, h2⟩
    have := inf_bits u h1
    rw [if_neg h2] at this; exact this

theorem isNegativeInfinity_iff (u : UInt64) : Ieee.isNegativeInfinity u = true ↔ DInfinite u ∧ dNeg u := by
  unfold Ieee.isNegativeInfinity
  rw [beq_iff_eq]
  constructor
  · rintro rfl; decide +kernel
  · rintro ⟨h1, h2⟩
    have := inf_bits u h1
    rw [if_pos h2] at this; exact this

theorem isZero_iff (u : UInt64) : Ieee.isZero u = true ↔ DZero u := by
  unfold Ieee.isZero
  rw [beq_iff_eq, ← UInt64.toNat_inj, toNat_and_mask u _ 63 (by decide +kernel)]
  unfold DZero dExp dFrac
  have := u.toNat_lt
  show _ = 0 ↔ _
  omega

theorem isPositive_iff (u : UInt64) : Ieee.isPositive u = true ↔ ¬ dNeg u := by
  unfold Ieee.isPositive
  rw [beq_iff_eq, ← not_iff_not, Decidable.not_not]
  have := and_bit_ne_zero u Ieee.SIGN_MASK 63 rfl
  rw [ne_eq] at this
  rw [this, Nat.testBit_eq_decide_div_mod_eq, decide_eq_true_iff]
  unfold dNeg
  have := u.toNat_lt
  omega

end Lexi
