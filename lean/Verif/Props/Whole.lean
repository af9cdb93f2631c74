import Verif.Props.FloatRead
import Verif.Props.Int

/-!
# Whole numbers: C60
-/

namespace Lexi
open Spec Soft Dtoa DiyFp

theorem decN_mul_pow (D t : ℕ) (h : D ≠ 0) : decN (D * 10 ^ t) = decN D ++ List.replicate t 48 := by
  induction t with
  | zero => simp
  | succ t ih =>
    have hp : 0 < D * 10 ^ t := Nat.mul_pos (by omega) (by positivity)
    have e : D * 10 ^ (t + 1) = 10 * (D * 10 ^ t) + 0 := by rw [pow_succ]; ring
    have h1 := decN'_step (D * 10 ^ t) 0 (by omega) (by omega)
    unfold decN' at h1
    rw [if_neg (by omega), if_neg (by omega)] at h1
    rw [e, h1, ih, List.replicate_succ', List.append_assoc]
    rfl

/-- A double holding an integer of magnitude below `2^54` prints its digits: the only integer in its rounding
interval is itself. -/
theorem Dtoa.Printed.whole {u : UInt64} {D : ℕ} {k : ℤ} (hnz : ¬ DZero u) (hP : Printed u D k) {M : ℕ}
    (hM : dMag u = M) (hb : M < 2 ^ 54) : ∃ t : ℕ, k = t ∧ D * 10 ^ t = M := by
  have hze := zp (dUlpExp u)
  have e1 : (2 : ℚ) ^ (dUlpExp u - 1) = 2 ^ dUlpExp u / 2 := by rw [zpow_sub₀ (by norm_num)]; norm_num
  have e2 : (2 : ℚ) ^ (dUlpExp u - 2) = 2 ^ dUlpExp u / 4 := by rw [zpow_sub₀ (by norm_num)]; norm_num
  have hnear : NearMag u ((M : ℚ) * 10 ^ (0 : ℤ)) := by
    unfold NearMag
    rw [zpow_zero, mul_one, hM, sub_self, abs_zero]
    split <;> positivity
  obtain ⟨h1, h2⟩ := hnear.inside hnz
  have hk := hP.exponent_ge h1 h2
  obtain ⟨t, rfl⟩ : ∃ t : ℕ, k = t := ⟨k.toNat, by omega⟩
  refine ⟨t, rfl, ?_⟩
  have hlo := hP.lower
  have hhi := hP.upper
  rw [lowB_eq u hnz, hM] at hlo
  rw [highB_eq, hM, e1] at hhi
  rw [zpow_natCast] at hlo hhi
  have bounds : lowGap u ≤ 1 ∧ (2 : ℚ) ^ dUlpExp u / 2 ≤ 1 := by
    by_cases hE : dUlpExp u ≤ 1
    · have : (2 : ℚ) ^ dUlpExp u ≤ 2 ^ (1 : ℤ) := zpow_mono hE
      rw [zpow_one] at this
      refine ⟨(lowGap_le u).trans ?_, by linarith⟩
      rw [e1]; linarith
    · exfalso
      have hn : 2 ^ 52 ≤ dSig u := by
        unfold dUlpExp at hE
        unfold dSig
        split at hE
        · omega
        · rename_i h; rw [if_neg h]; omega
      have hq : (2 : ℚ) ^ 52 ≤ dSig u := by exact_mod_cast hn
      have h4 : (2 : ℚ) ^ (2 : ℤ) ≤ 2 ^ dUlpExp u := zpow_mono (by omega)
      have h5 : (2 : ℚ) ^ 52 * 2 ^ (2 : ℤ) ≤ dMag u := mul_le_mul hq h4 (by positivity) (by positivity)
      rw [hM] at h5
      have h6 : (M : ℚ) < 2 ^ 54 := by exact_mod_cast hb
      norm_num at h5 h6
      linarith
  have a : (M : ℚ) - 1 < ((D * 10 ^ t : ℕ) : ℚ) := by push_cast; linarith [bounds.1]
  have b : ((D * 10 ^ t : ℕ) : ℚ) < M + 1 := by push_cast; linarith [bounds.2]
  have a' : M < D * 10 ^ t + 1 := by exact_mod_cast (by linarith : (M : ℚ) < ((D * 10 ^ t : ℕ) : ℚ) + 1)
  have b' : D * 10 ^ t < M + 1 := by exact_mod_cast b
  omega

/-- C60.  A double holding an integer of magnitude below `2^54` formats as the integer's decimal digits and `.0`, on every
platform and whatever the out-of-range reads of C26 return. -/
theorem C60_whole_text (env : Env) (henv : EnvOk env) (L : Literals) (junk : Bytes) (hj : junk.length = FLOAT_SIZE)
    (u : UInt64) (hfin : DFinite u) (n : ℤ) (hn : dValue u = n) (hb : n.natAbs < 2 ^ 54) :
    stringDouble L env junk u = .ok (decimalText n ++ ascii ".0") := by
  have hnn : ¬ DNaN u := fun h => hfin h.1
  by_cases hz : DZero u
  · have h0 : dValue u = 0 := by unfold dValue; rw [dMag_zero hz]; simp
    obtain rfl : n = 0 := by rw [h0] at hn; exact_mod_cast hn.symm
    have e := toDouble_ofDouble u hnn
    unfold stringDouble formatDouble
    rw [formatLd_zero env _ (by rw [e]; exact hz) L junk hj]
    exact readN_prefix [48, 46, 48] _
  · obtain ⟨D, k, hP, h⟩ := stringDouble_finite env henv u hfin hz
    rw [h u rfl L junk hj]
    have hpos := dMag_pos hz
    have hM : dMag u = (n.natAbs : ℕ) := by
      unfold dValue at hn
      have : |(n : ℚ)| = dMag u := by
        rw [← hn]
        split
        · rw [abs_neg, abs_of_pos hpos]
        · rw [abs_of_pos hpos]
      rw [← this, ← Int.cast_abs, Int.abs_eq_natAbs, Int.cast_natCast]
    obtain ⟨t, rfl, ht⟩ := hP.whole hz hM hb
    have hD : D ≠ 0 := by
      rintro rfl
      rw [zero_mul] at ht
      rw [← ht] at hM
      simp at hM
      linarith
    have hlen : (decN D ++ List.replicate t 48).length ≤ 17 := by
      rw [← decN_mul_pow D t hD, ht]
      exact decN_length_le 17 _ (by omega) (by omega)
    have hp : prettyText (decN D) t = decN n.natAbs ++ ascii ".0" := by
      simp only [List.length_append, List.length_replicate] at hlen
      unfold prettyText
      dsimp only
      rw [if_pos (by omega), ← ht, decN_mul_pow D t hD, show ((decN D).length : ℤ) + t - (decN D).length = t by ring]
      rfl
    have hs : dNeg u ↔ n < 0 := by
      unfold dValue at hn
      split at hn
      · rename_i h; simp only [h, true_iff]
        have : (n : ℚ) < 0 := by linarith
        exact_mod_cast this
      · rename_i h; simp only [h, false_iff]
        have : (0 : ℚ) < n := by linarith
        have : 0 < n := by exact_mod_cast this
        omega
    rw [hp]
    unfold signed
    by_cases hneg : n < 0
    · rw [if_pos (hs.mpr hneg), decimalText_neg n hneg]; rfl
    · rw [if_neg (fun h => hneg (hs.mp h)), decimalText_nonneg n (by omega)]; rfl

/-- C60.  … which reads back, as any integer type that holds the integer, exactly. -/
theorem C60_whole_read (env : Env) (henv : EnvOk env) (L : Literals) (junk : Bytes) (hj : junk.length = FLOAT_SIZE)
    (u : UInt64) (hfin : DFinite u) (v : IntVal) (hn : dValue u = v.toInt) (hb : v.toInt.natAbs < 2 ^ 54) :
    (stringDouble L env junk u >>= lexiInt v.ty) = .ok v := by
  rw [C60_whole_text env henv L junk hj u hfin _ hn hb, Res.ok_bind]
  have h1 := intText_decimal v.toInt
  have h2 : IntText (decimalText v.toInt ++ ascii ".0") (decide (v.toInt < 0)) (decN v.toInt.natAbs) := by
    by_cases h : v.toInt < 0
    · rw [decimalText_neg _ h]
      have := intText_of_parts [] [45] (decN v.toInt.natAbs) (ascii ".0") true (by simp) (by simp) (decN_ne_nil _)
        (decN_digits _) (by decide)
      simpa [h] using this
    · rw [decimalText_nonneg _ (by omega)]
      have := intText_of_parts [] [] (decN v.toInt.natAbs) (ascii ".0") false (by simp) (by simp) (decN_ne_nil _)
        (decN_digits _) (by decide)
      simpa [h] using this
  have e : lexiInt v.ty (decimalText v.toInt ++ ascii ".0") = lexiInt v.ty (decimalText v.toInt) := by
    unfold lexiInt extractInt
    rw [strtoull_of_intText h1, strtoull_of_intText h2]
  rw [e]
  exact lexiInt_decimal v

/-- 9007199254740992 = 2^53, and -2016. -/
example : DFinite 0x4340000000000000 ∧ DFinite 0xC09F800000000000 ∧
    stringDouble .default sampleEnv (List.replicate 30 0) 0x4340000000000000 = .ok (ascii "9007199254740992.0") ∧
    stringDouble .default sampleEnv (List.replicate 30 0) 0xC09F800000000000 = .ok (ascii "-2016.0") ∧
    lexiInt .i16 (ascii "-2016.0") = .ok (.i16 (-2016)) := by decide +kernel
example : dValue 0xC09F800000000000 = (IntVal.i16 (-2016)).toInt := by
  have h1 : dSig 0xC09F800000000000 = 8866461766385664 := by decide +kernel
  have h2 : dUlpExp 0xC09F800000000000 = -42 := by decide +kernel
  have h3 : dNeg 0xC09F800000000000 := by decide +kernel
  unfold dValue dMag
  rw [h1, h2, if_pos h3, show (IntVal.i16 (-2016)).toInt = -2016 by decide]
  norm_num

/-- 72057594037928096, a little above 2^56. -/
def wholeBeyond : UInt64 := 0x4370000000000000 + 10

/-- C60, the bound.  Not all whole doubles print as themselves: on every machine the text of this one is 4 more. -/
theorem C60_beyond (env : Env) (henv : EnvOk env) (L : Literals) (junk : Bytes) (hj : junk.length = FLOAT_SIZE) :
    DFinite wholeBeyond ∧ dValue wholeBeyond = 72057594037928096 ∧
      ∃ t, stringDouble L env junk wholeBeyond = .ok t ∧ IsJsonNumber t 72057594037928100 := by
  have hf : DFinite wholeBeyond := by decide +kernel
  have a : dSig wholeBeyond = 4503599627370506 := by decide +kernel
  have b : dUlpExp wholeBeyond = 4 := by decide +kernel
  have c : ¬ dNeg wholeBeyond := by decide +kernel
  refine ⟨hf, by unfold dValue dMag; rw [a, b, if_neg c]; norm_num, ?_⟩
  obtain ⟨t, h1, h2⟩ := C53_decimal_fidelity env henv L junk hj wholeBeyond hf (by decide +kernel) 720575940379281 2
    (by norm_num) (by unfold NearMag dMag; rw [a, b, if_neg (by norm_num), abs_le]; constructor <;> norm_num)
  rw [if_neg c] at h2
  refine ⟨t, h1, ?_⟩
  norm_num at h2
  exact h2

end Lexi
