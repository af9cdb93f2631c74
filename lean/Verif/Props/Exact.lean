import Verif.Proofs.Places
import Verif.Props.Inside
import Verif.Props.ReadSingle

/-!
# C112: numbers written exactly, and floats
-/

namespace Lexi
open Spec Soft Dtoa DiyFp

/-- The specified text is a JSON number of the value meant, for any number of places. -/
theorem C112_number (n : ℤ) (j : ℕ) : IsJsonNumber (amountText n j) ((n : ℚ) / 10 ^ j) := by
  have hp : 0 < 10 ^ j := by positivity
  have hpq : (0 : ℚ) < 10 ^ j := by positivity
  have hdm := Nat.div_add_mod n.natAbs (10 ^ j)
  have ecast : (n.natAbs : ℚ) = |(n : ℚ)| := by rw [Nat.cast_natAbs, Int.cast_abs]
  have hlead : ∀ q : ℕ, (decN q).length > 1 → (decN q).head? ≠ some 48 := by
    intro q hl
    refine decN_head q ?_
    rintro rfl
    exact absurd hl (by decide +kernel)
  -- places and their value
  obtain ⟨f, hf, hf0, hfd, hfv⟩ : ∃ f, withoutZeros (placeDigits j (n.natAbs % 10 ^ j)) = f ∧ f ≠ [] ∧ (∀ b ∈ f, IsDigit b) ∧
      (digitsValue f : ℚ) / 10 ^ f.length = ((n.natAbs % 10 ^ j : ℕ) : ℚ) / 10 ^ j := by
    by_cases h0 : n.natAbs % 10 ^ j = 0
    · refine ⟨[48], by rw [h0, withoutZeros_none], by simp, by decide, ?_⟩
      rw [h0]
      have : digitsValue [48] = 0 := by decide
      rw [this]; simp
    · obtain ⟨t, r', h1, h2, h3, h4, h5⟩ := places_reduce j (n.natAbs % 10 ^ j) (by omega) (Nat.mod_lt _ hp)
      have ejj : placeDigits j = placeDigits (t + (j - t)) := by rw [show t + (j - t) = j by omega]
      refine ⟨placeDigits t r', by rw [h3, ejj, withoutZeros_of t _ _ h1 h4], ?_, places_digits t r', ?_⟩
      · intro hc
        have := placeDigits_length t r'
        rw [hc, List.length_nil] at this
        omega
      · rw [digitsValue_places t r' h5, placeDigits_length, h3]
        have : (10 : ℚ) ^ j = 10 ^ t * 10 ^ (j - t) := by rw [← pow_add]; congr 1; omega
        rw [this]
        push_cast
        field_simp
  refine ⟨⟨decide (n < 0), decN (n.natAbs / 10 ^ j), some f, none⟩,
    ⟨decN_ne_nil _, decN_digits _, hlead _, fun g hg => by obtain rfl := Option.some.inj hg; exact ⟨hf0, hfd⟩, fun e he => by cases he⟩, ?_, ?_⟩
  · unfold amountText
    rw [hf, decimalText_nonneg _ (Int.natCast_nonneg _), Int.natAbs_natCast]
    simp [JNumber.text]
  · have hmag : (⟨decide (n < 0), decN (n.natAbs / 10 ^ j), some f, none⟩ : JNumber).mag = (n.natAbs : ℚ) / 10 ^ j := by
      show ((digitsValue (decN (n.natAbs / 10 ^ j) ++ f) : ℕ) : ℚ) * 10 ^ ((0 : ℤ) - (f.length : ℤ)) = _
      rw [digitsValue_append, digitsValue_decN, zero_sub, zpow_neg, zpow_natCast, ← div_eq_mul_inv]
      push_cast
      rw [add_div, hfv, mul_div_assoc, div_self (by positivity), mul_one]
      have : (n.natAbs : ℚ) = ((10 ^ j * (n.natAbs / 10 ^ j) + n.natAbs % 10 ^ j : ℕ) : ℚ) := by rw [hdm]
      rw [this]
      push_cast
      field_simp
    unfold JNumber.value
    rw [hmag]
    show (if decide (n < 0) = true then _ else _) = _
    by_cases hneg : n < 0
    · rw [if_pos (by simpa using hneg), ecast, abs_of_neg (by exact_mod_cast hneg)]; ring
    · rw [if_neg (by simpa using hneg), ecast, abs_of_nonneg (by exact_mod_cast not_lt.mp hneg)]

/-- The interval of a normal double is small compared to it. -/
theorem half_ulp_small {u : UInt64} (hnorm : 2 ^ 52 ≤ dSig u) : (2 : ℚ) ^ 53 * 2 ^ (dUlpExp u - 1) ≤ dMag u := by
  have h1 : (2 : ℚ) ^ 52 ≤ dSig u := by exact_mod_cast hnorm
  have e1 : (2 : ℚ) ^ (dUlpExp u - 1) = 2 ^ dUlpExp u / 2 := by rw [zpow_sub₀ (by norm_num)]; norm_num
  have h2 := mul_le_mul_of_nonneg_right h1 (zp (dUlpExp u)).le
  rw [e1]
  unfold dMag
  linarith

theorem Dtoa.Printed.near {u : UInt64} {D : ℕ} {k : ℤ} (hz : ¬ DZero u) (hP : Printed u D k) :
    |(D : ℚ) * 10 ^ k - dMag u| < 2 ^ (dUlpExp u - 1) := by
  have h1 := hP.lower
  have h2 := hP.upper
  rw [lowB_eq u hz] at h1
  rw [highB_eq] at h2
  have := lowGap_le u
  rw [abs_lt]
  constructor <;> linarith

/-- C112.  A double that equals a decimal of less than `2^53` units of its last place, and is zero or at least `10^-6`, is written as
that decimal. -/
theorem C112_exact (env : Env) (henv : EnvOk env) (L : Literals) (junk : Bytes) (hjunk : junk.length = FLOAT_SIZE)
    (u : UInt64) (hfin : DFinite u) (n : ℤ) (j : ℕ) (hv : dValue u = (n : ℚ) / 10 ^ j) (hn : n.natAbs < 2 ^ 53)
    (hs : n = 0 ∨ 10 ^ j ≤ n.natAbs * 10 ^ 6) : stringDouble L env junk u = .ok (amountText n j) := by
  have hp : (0 : ℚ) < 10 ^ j := by positivity
  by_cases hw : (10 : ℤ) ^ j ∣ n
  · obtain ⟨z, rfl⟩ := hw
    rw [mul_comm] at hv hn ⊢
    have hq : ((z * 10 ^ j : ℤ) : ℚ) / 10 ^ j = z := by push_cast; field_simp
    rw [hq] at hv
    have hzb : z.natAbs ≤ 2 ^ 53 := by
      rw [Int.natAbs_mul, Int.natAbs_pow] at hn
      have h1 : z.natAbs * 1 ≤ z.natAbs * (10 : ℤ).natAbs ^ j := Nat.mul_le_mul_left _ (Nat.one_le_pow _ _ (by norm_num))
      omega
    rw [amountText_int]
    exact C60_whole_text env henv L junk hjunk u hfin z hv (by omega)
  · have hj1 : 1 ≤ j := by
      by_contra hc
      obtain rfl : j = 0 := by omega
      exact hw (by simp)
    have hn0 : n ≠ 0 := by rintro rfl; exact hw (dvd_zero _)
    replace hs := hs.resolve_left hn0
    have hm : dMag u = (n.natAbs : ℚ) / 10 ^ j := by
      rw [← abs_dValue, hv, abs_div, abs_of_pos hp, Nat.cast_natAbs, Int.cast_abs]
    have hna : (1 : ℚ) ≤ n.natAbs := by
      have : 1 ≤ n.natAbs := by omega
      exact_mod_cast this
    have hmpos : 0 < dMag u := by rw [hm]; positivity
    have hz : ¬ DZero u := fun hz => by rw [dMag_zero hz] at hmpos; exact lt_irrefl _ hmpos
    have hlb : (2 : ℚ) ^ (-20 : ℤ) ≤ dMag u := by
      have hs' : (10 : ℚ) ^ j ≤ n.natAbs * 10 ^ 6 := by exact_mod_cast hs
      rw [hm, le_div_iff₀ hp]
      calc (2 : ℚ) ^ (-20 : ℤ) * 10 ^ j ≤ 2 ^ (-20 : ℤ) * (n.natAbs * 10 ^ 6) := mul_le_mul_of_nonneg_left hs' (by positivity)
        _ = n.natAbs * (2 ^ (-20 : ℤ) * 10 ^ 6) := by ring
        _ ≤ n.natAbs * 1 := mul_le_mul_of_nonneg_left (by norm_num) (by positivity)
        _ = _ := mul_one _
    have hnorm : 2 ^ 52 ≤ dSig u := by
      refine uExp_normal u ?_
      by_contra hc
      have hs := DiyFp.dSig_lt u
      have h1 : (dSig u : ℚ) ≤ 2 ^ 53 := by exact_mod_cast hs.le
      have h2 : (2 : ℚ) ^ dUlpExp u ≤ 2 ^ (-1074 : ℤ) := zpow_mono (by omega)
      have h3 : dMag u ≤ 2 ^ 53 * 2 ^ (-1074 : ℤ) := mul_le_mul h1 h2 (by positivity) (by positivity)
      have h4 : (2 : ℚ) ^ 53 * 2 ^ (-1074 : ℤ) < 2 ^ (-20 : ℤ) := by
        rw [show (2 : ℚ) ^ 53 = 2 ^ (53 : ℤ) by norm_num, ← zpow_add₀ (by norm_num)]
        exact zpow_lt_zpow_right₀ (by norm_num) (by norm_num)
      linarith
    have hdec : (n.natAbs : ℚ) / 10 ^ j = n.natAbs * 10 ^ (-(j : ℤ)) := by rw [zpow_neg, zpow_natCast]; rfl
    obtain ⟨hi1, hi2⟩ := (near_self (hm.trans hdec)).inside hz
    obtain ⟨D, k, hP, h⟩ := stringDouble_finite env henv u hfin hz
    have hkj := hP.exponent_ge hi1 hi2
    -- a multiple of the last place, closer than that place
    obtain ⟨i, hi⟩ : ∃ i : ℕ, k = -(j : ℤ) + i := ⟨(k + j).toNat, by omega⟩
    have hDi : (D : ℚ) * 10 ^ k = ((D * 10 ^ i : ℕ) : ℚ) / 10 ^ j := by
      rw [hi, zpow_add₀ (by norm_num), zpow_neg, zpow_natCast, zpow_natCast]
      push_cast
      field_simp
    have heq : D * 10 ^ i = n.natAbs := by
      have h1 := hP.near hz
      rw [hDi, hm, ← sub_div, abs_div, abs_of_pos hp, div_lt_iff₀ hp] at h1
      have h2 := half_ulp_small hnorm
      rw [hm, le_div_iff₀ hp] at h2
      have h3 : (n.natAbs : ℚ) < 2 ^ 53 := by exact_mod_cast hn
      have h4 : (2 : ℚ) ^ (dUlpExp u - 1) * 10 ^ j < 1 := by
        by_contra hc
        rw [not_lt] at hc
        have : (2 : ℚ) ^ 53 * 1 ≤ 2 ^ 53 * (2 ^ (dUlpExp u - 1) * 10 ^ j) := mul_le_mul_of_nonneg_left hc (by positivity)
        rw [← mul_assoc] at this
        linarith
      have h5 : |((D * 10 ^ i : ℕ) : ℤ) - (n.natAbs : ℤ)| < 1 := by
        have : |((D * 10 ^ i : ℕ) : ℚ) - (n.natAbs : ℚ)| < 1 := h1.trans h4
        exact_mod_cast this
      rw [Int.abs_lt_one_iff] at h5
      omega
    have hval : (D : ℚ) * 10 ^ k = n.natAbs * 10 ^ (-(j : ℤ)) := by rw [hDi, heq, hdec]
    have hk0 : k < 0 := by
      by_contra hc
      refine hw (Int.natAbs_dvd_natAbs.mp ?_)
      rw [Int.natAbs_pow, ← heq]
      show 10 ^ j ∣ D * 10 ^ i
      exact Dvd.dvd.mul_left (pow_dvd_pow 10 (by omega)) D
    obtain ⟨t, rfl⟩ : ∃ t : ℕ, k = -(t : ℤ) := ⟨(-k).toNat, by omega⟩
    have hD10 : D % 10 ≠ 0 := by
      intro hd
      refine hP.short (D / 10) (-(t : ℤ) + 1) (by omega) ?_
      have e : ((D / 10 : ℕ) : ℚ) * 10 ^ (-(t : ℤ) + 1) = D * 10 ^ (-(t : ℤ)) := by
        have : (D : ℚ) = (D / 10 : ℕ) * 10 := by exact_mod_cast (Nat.div_mul_cancel (Nat.dvd_of_mod_eq_zero hd)).symm
        rw [zpow_add_one₀ (by norm_num), this]
        ring
      rw [e, hval]
      exact ⟨hi1, hi2⟩
    have hDn : D * 10 ^ (j - t) = n.natAbs := by rw [← heq]; congr 2; omega
    have hst : 10 ^ t ≤ D * 10 ^ 6 := by
      have e : 10 ^ j = 10 ^ t * 10 ^ (j - t) := by rw [← pow_add]; congr 1; omega
      rw [e, ← hDn, mul_right_comm] at hs
      exact Nat.le_of_mul_le_mul_right hs (by positivity)
    have hsgn : dNeg u ↔ n < 0 := by
      have h1 : (n : ℚ) / 10 ^ j < 0 ↔ n < 0 := by
        rw [div_lt_iff₀ hp, zero_mul]
        exact_mod_cast Iff.rfl
      rw [← h1, ← hv]
      unfold dValue
      by_cases hneg : dNeg u
      · simp only [hneg, if_true, true_iff]; linarith
      · simp only [hneg, if_false, false_iff]; linarith
    rw [h u rfl L junk hjunk, ← amountText_quot (by omega) (by omega) hDn hD10 hP.lt17 hst]
    unfold signed
    simp only [hsgn]

/-! ## Floats -/

/-- A float is formatted as the double of the same value. -/
theorem float_as_double (u : UInt32) (hfin : FFinite u) :
    ∃ d : UInt64, DFinite d ∧ dValue d = fValue u ∧ (¬ FZero u → 2 ^ 52 ≤ dSig d) ∧
      ∀ L env junk, stringFloat L env junk u = stringDouble L env junk d := by
  have key : ∀ d : UInt64, (LVal.ofFloat u).toDouble = d → DFinite d →
      ∀ L env junk, stringFloat L env junk u = stringDouble L env junk d := by
    intro d hd hdf L env junk
    unfold stringFloat stringDouble formatFloat formatDouble formatLd
    rw [hd, toDouble_ofDouble d (fun h => hdf h.1)]
  by_cases hz : FZero u
  · have hm : fMag u = 0 := by
      unfold fMag fSig
      rw [if_pos hz.1, hz.2]; simp
    have hov : (0 : ℚ) < dOverflow := by unfold dOverflow; norm_num
    have hx := ofFloat_finite u hfin
    rw [hm] at hx
    obtain ⟨h1, -, h2⟩ := toDouble_value (decide (fNeg u)) le_rfl hov
    refine ⟨_, h1, ?_, fun h => absurd hz h, key _ (by rw [hx]) h1⟩
    rw [h2, roundRat_zero]
    unfold sgn fValue
    rw [hm]; simp
  · obtain ⟨d, hd, hdf, hdz, hneg, hmag, hexp⟩ := widen u hfin hz
    refine ⟨d, hdf, by unfold dValue fValue; simp only [hneg, hmag], fun _ => uExp_normal d ?_, key d hd hdf⟩
    -- the least float is a normal double
    by_contra hc
    have h1 : (2 : ℚ) ^ (-149 : ℤ) ≤ fMag u := by
      have hs : (1 : ℚ) ≤ fSig u := by exact_mod_cast fSig_pos hz
      have he : (2 : ℚ) ^ (-149 : ℤ) ≤ 2 ^ fUlpExp u := zpow_mono (fUlpExp_bounds u hfin).1
      calc (2 : ℚ) ^ (-149 : ℤ) = 1 * 2 ^ (-149 : ℤ) := (one_mul _).symm
        _ ≤ _ := mul_le_mul hs he (by positivity) (by positivity)
    have hs := DiyFp.dSig_lt d
    have h2 : (dSig d : ℚ) ≤ 2 ^ 53 := by exact_mod_cast hs.le
    have h3 : (2 : ℚ) ^ dUlpExp d ≤ 2 ^ (-1074 : ℤ) := zpow_mono (by omega)
    have h4 : dMag d ≤ 2 ^ 53 * 2 ^ (-1074 : ℤ) := mul_le_mul h2 h3 (by positivity) (by positivity)
    have h5 : (2 : ℚ) ^ 53 * 2 ^ (-1074 : ℤ) < 2 ^ (-149 : ℤ) := by
      rw [show (2 : ℚ) ^ 53 = 2 ^ (53 : ℤ) by norm_num, ← zpow_add₀ (by norm_num)]
      exact zpow_lt_zpow_right₀ (by norm_num) (by norm_num)
    linarith

theorem abs_fValue (u : UInt32) : |fValue u| = fMag u := by
  have h : 0 ≤ fMag u := by unfold fMag; positivity
  unfold fValue
  split
  · rw [abs_neg, abs_of_nonneg h]
  · rw [abs_of_nonneg h]

/-- A float that is a multiple of `2^-12` and below `2^53` is a decimal of at most twelve places and less than `2^53` units. -/
theorem float_short {u : UInt32} (hm : fMag u < 2 ^ 53) {z : ℤ} (hz : fValue u * 2 ^ 12 = z) :
    ∃ (n : ℤ) (b i : ℕ), b + i = 12 ∧ n.natAbs < 2 ^ 53 ∧ z * 5 ^ 12 = n * 10 ^ i ∧ (n = 0 ∨ 10 ^ b ≤ n.natAbs * 10 ^ 6) := by
  have hmz : fMag u * 2 ^ 12 = z.natAbs := by
    rw [← abs_fValue, Nat.cast_natAbs, Int.cast_abs, ← hz, abs_mul, abs_of_pos (show (0 : ℚ) < 2 ^ 12 by positivity)]
  have hsig := fSig_lt u
  have hpow : ∀ b : ℕ, b ≤ 12 → (10 : ℕ) ^ b ≤ 5 ^ b * 10 ^ 6 := by
    intro b hb
    have : (2 : ℕ) ^ b ≤ 2 ^ 12 := Nat.pow_le_pow_right (by norm_num) hb
    calc (10 : ℕ) ^ b = 5 ^ b * 2 ^ b := by rw [← mul_pow]; rfl
      _ ≤ 5 ^ b * 10 ^ 6 := Nat.mul_le_mul_left _ (this.trans (by norm_num))
  by_cases he0 : 0 ≤ fUlpExp u
  · -- whole
    obtain ⟨g, hg⟩ : ∃ g : ℕ, fUlpExp u = g := ⟨_, (Int.toNat_of_nonneg he0).symm⟩
    have h1 : fMag u = ((fSig u * 2 ^ g : ℕ) : ℚ) := by unfold fMag; rw [hg, zpow_natCast]; push_cast; ring
    have h2 : fSig u * 2 ^ g * 2 ^ 12 = z.natAbs := by rw [h1] at hmz; exact_mod_cast hmz
    have hd : (2 : ℤ) ^ 12 ∣ z := Int.natAbs_dvd_natAbs.mp (by rw [← h2]; exact ⟨fSig u * 2 ^ g, by rw [mul_comm]; rfl⟩)
    obtain ⟨w, rfl⟩ := hd
    have hw : w.natAbs = fSig u * 2 ^ g := by
      rw [Int.natAbs_mul] at h2
      have : (((2 : ℤ) ^ 12).natAbs) = 4096 := by decide
      rw [this] at h2
      omega
    refine ⟨w, 0, 12, rfl, ?_, by ring, ?_⟩
    · rw [hw]; rw [h1] at hm; exact_mod_cast hm
    · by_cases h0 : w = 0
      · exact Or.inl h0
      · right; rw [pow_zero]; omega
  · by_cases he : -12 ≤ fUlpExp u
    · obtain ⟨b, hb⟩ : ∃ b : ℕ, fUlpExp u = -(b : ℤ) := ⟨(-fUlpExp u).toNat, by omega⟩
      have h1 : fMag u * 2 ^ b = fSig u := by
        unfold fMag
        rw [hb, mul_assoc, zpow_neg, zpow_natCast, inv_mul_cancel₀ (by positivity), mul_one]
      have h2 : fSig u * 2 ^ (12 - b) = z.natAbs := by
        have : (fSig u : ℚ) * 2 ^ (12 - b) = z.natAbs := by
          rw [← h1, ← hmz, mul_assoc, ← pow_add]
          congr 2
          omega
        exact_mod_cast this
      obtain ⟨w, rfl⟩ : (2 : ℤ) ^ (12 - b) ∣ z := Int.natAbs_dvd_natAbs.mp (by rw [← h2, Int.natAbs_pow]; exact ⟨fSig u, by rw [mul_comm]; rfl⟩)
      have hw : w.natAbs = fSig u := by
        rw [Int.natAbs_mul, Int.natAbs_pow, mul_comm] at h2
        exact (Nat.eq_of_mul_eq_mul_left (show 0 < 2 ^ (12 - b) by positivity) h2).symm
      have hwn : (w * 5 ^ b).natAbs = fSig u * 5 ^ b := by rw [Int.natAbs_mul, Int.natAbs_pow, hw]; rfl
      refine ⟨w * 5 ^ b, b, 12 - b, by omega, ?_, ?_, ?_⟩
      · rw [hwn]
        calc fSig u * 5 ^ b ≤ 2 ^ 24 * 5 ^ 12 := Nat.mul_le_mul hsig.le (Nat.pow_le_pow_right (by norm_num) (by omega))
          _ < 2 ^ 53 := by norm_num
      · rw [show (12 : ℕ) = b + (12 - b) by omega, pow_add, show b + (12 - b) - b = 12 - b by omega, show (10 : ℤ) = 2 * 5 by norm_num, mul_pow]
        ring
      · by_cases h0 : w = 0
        · left; rw [h0, zero_mul]
        · right
          rw [hwn, mul_assoc]
          have hf1 : 1 ≤ fSig u := by omega
          calc 10 ^ b ≤ 5 ^ b * 10 ^ 6 := hpow b (by omega)
            _ = 1 * (5 ^ b * 10 ^ 6) := (one_mul _).symm
            _ ≤ _ := Nat.mul_le_mul_right _ hf1
    · have hzs : z.natAbs ≤ fSig u := by
        have h1 : fMag u * 2 ^ 12 ≤ fSig u := by
          unfold fMag
          have : (2 : ℚ) ^ fUlpExp u ≤ 2 ^ (-12 : ℤ) := zpow_mono (by omega)
          calc (fSig u : ℚ) * 2 ^ fUlpExp u * 2 ^ 12 ≤ fSig u * 2 ^ (-12 : ℤ) * 2 ^ 12 :=
                mul_le_mul_of_nonneg_right (mul_le_mul_of_nonneg_left this (by positivity)) (by positivity)
            _ = fSig u := by rw [mul_assoc]; norm_num
        rw [hmz] at h1
        exact_mod_cast h1
      have hwn : (z * 5 ^ 12).natAbs = z.natAbs * 5 ^ 12 := by rw [Int.natAbs_mul, Int.natAbs_pow]; rfl
      refine ⟨z * 5 ^ 12, 12, 0, rfl, ?_, by ring, ?_⟩
      · rw [hwn]; omega
      · by_cases h0 : z = 0
        · left; rw [h0, zero_mul]
        · right; rw [hwn]; omega

/-- C112, floats written exactly.  A float below `2^53` that is a multiple of `2^-12` is written as its value. -/
theorem C112_float_exact (env : Env) (henv : EnvOk env) (L : Literals) (junk : Bytes) (hjunk : junk.length = FLOAT_SIZE)
    (u : UInt32) (hfin : FFinite u) (hm : fMag u < 2 ^ 53) (z : ℤ) (hz : fValue u * 2 ^ 12 = z) :
    stringFloat L env junk u = .ok (amountText (z * 5 ^ 12) 12) := by
  obtain ⟨d, hd, hv, -, hs⟩ := float_as_double u hfin
  obtain ⟨n, b, i, hbi, hn, hzn, hsm⟩ := float_short hm hz
  rw [hs, hzn, ← hbi, amountText_pad]
  refine C112_exact env henv L junk hjunk d hd n b ?_ hn hsm
  rw [hv, eq_div_iff (by positivity)]
  have h1 : fValue u * 10 ^ 12 = (n : ℚ) * 10 ^ i := by
    have : ((z * 5 ^ 12 : ℤ) : ℚ) = ((n * 10 ^ i : ℤ) : ℚ) := by rw [hzn]
    push_cast at this
    rw [← this, ← hz]
    norm_num
    ring
  rw [← hbi, pow_add, ← mul_assoc] at h1
  exact mul_right_cancel₀ (by positivity) h1

/-- A decimal of at most twelve places nearer to a float than half an ulp of the double of the same value is that float, and a
multiple of `2^-12`. -/
theorem float_multiple {u : UInt32} {N : ℕ} (hn : |(N : ℚ) / 10 ^ 12 - fMag u| * 2 ^ 53 ≤ fMag u) :
    ∃ z : ℕ, fMag u * 2 ^ 12 = z := by
  by_cases he : -12 ≤ fUlpExp u
  · refine ⟨fSig u * 2 ^ (fUlpExp u + 12).toNat, ?_⟩
    unfold fMag
    push_cast
    rw [mul_assoc]
    congr 1
    rw [← zpow_natCast, ← zpow_natCast, ← zpow_add₀ (by norm_num)]
    congr 1
    omega
  · obtain ⟨g, hg⟩ : ∃ g : ℕ, fUlpExp u = -(g : ℤ) - 12 := ⟨(-fUlpExp u - 12).toNat, by omega⟩
    have hsig : (fSig u : ℚ) < 2 ^ 24 := by exact_mod_cast fSig_lt u
    have hM : fMag u * (2 ^ g * 2 ^ 12) = fSig u := by
      unfold fMag
      rw [hg, zpow_sub₀ (by norm_num), zpow_neg, zpow_natCast]
      norm_num
      field_simp
    obtain ⟨c, hcq, hcop⟩ : ∃ c : ℕ, (c : ℚ) = 5 ^ 12 ∧ Nat.Coprime (2 ^ g) c :=
      ⟨5 ^ 12, by rw [Nat.cast_pow]; norm_num, Nat.Coprime.pow g 12 (by decide)⟩
    have hc0 : (0 : ℚ) < c := by rw [hcq]; positivity
    have hP : (0 : ℚ) < c * (2 ^ g * 2 ^ 12) := by positivity
    have h1 : |((N * 2 ^ g : ℕ) : ℚ) - ((fSig u * c : ℕ) : ℚ)| < 1 := by
      have e : ((N * 2 ^ g : ℕ) : ℚ) - ((fSig u * c : ℕ) : ℚ) = ((N : ℚ) / 10 ^ 12 - fMag u) * (c * (2 ^ g * 2 ^ 12)) := by
        rw [sub_mul, Nat.cast_mul, Nat.cast_mul, ← hM, hcq, Nat.cast_pow, show (10 : ℚ) ^ 12 = 5 ^ 12 * 2 ^ 12 by norm_num]
        push_cast
        field_simp
      rw [e, abs_mul, abs_of_pos hP]
      have h2 := mul_le_mul_of_nonneg_right hn hP.le
      have h3 : fMag u * (c * (2 ^ g * 2 ^ 12)) = c * fSig u := by rw [← hM]; ring
      rw [h3] at h2
      have h4 : (c : ℚ) * fSig u < 2 ^ 53 := by
        calc (c : ℚ) * fSig u ≤ c * 2 ^ 24 := mul_le_mul_of_nonneg_left hsig.le hc0.le
          _ < 2 ^ 53 := by rw [hcq]; norm_num
      have h5 : |(N : ℚ) / 10 ^ 12 - fMag u| * ((c : ℚ) * (2 ^ g * 2 ^ 12)) * 2 ^ 53 < 1 * 2 ^ 53 := by
        rw [one_mul, mul_right_comm]; exact h2.trans_lt h4
      exact lt_of_mul_lt_mul_right h5 (by positivity)
    have h2 : N * 2 ^ g = fSig u * c := by
      have : |((N * 2 ^ g : ℕ) : ℤ) - ((fSig u * c : ℕ) : ℤ)| < 1 := by exact_mod_cast h1
      rw [Int.abs_lt_one_iff] at this
      omega
    have h3 : 2 ^ g ∣ fSig u := by
      refine hcop.dvd_of_dvd_mul_right ?_
      rw [← h2]
      exact Dvd.intro_left N rfl
    obtain ⟨z, hz⟩ := h3
    refine ⟨z, ?_⟩
    have : fMag u * 2 ^ 12 * 2 ^ g = z * 2 ^ g := by
      have : (fSig u : ℚ) = 2 ^ g * z := by exact_mod_cast hz
      rw [this] at hM
      linarith
    exact mul_right_cancel₀ (by positivity) this

/-- C112, floats written at length.  The text of a float that is not a multiple of `2^-12` has at least 13 decimal places: its value
is no decimal of fewer. -/
theorem C112_float_long (env : Env) (henv : EnvOk env) (L : Literals) (junk : Bytes) (hjunk : junk.length = FLOAT_SIZE)
    (u : UInt32) (hfin : FFinite u) (hne : ¬ ∃ z : ℤ, fValue u * 2 ^ 12 = z) :
    ∃ t v, stringFloat L env junk u = .ok t ∧ IsJsonNumber t v ∧ ∀ (n : ℤ) (j : ℕ), j ≤ 12 → v ≠ (n : ℚ) / 10 ^ j := by
  have hz : ¬ FZero u := by
    intro hz
    refine hne ⟨0, ?_⟩
    have hm : fMag u = 0 := by
      unfold fMag fSig
      rw [if_pos hz.1, hz.2]; simp
    unfold fValue
    rw [hm]; simp
  obtain ⟨d, hd, hv, hnorm, hs⟩ := float_as_double u hfin
  have hnorm := hnorm hz
  have hmag : dMag d = fMag u := by rw [← abs_dValue, ← abs_fValue, hv]
  have hdz : ¬ DZero d := fun h => by
    have := dMag_zero h
    have h2 := fMag_pos hz
    rw [hmag] at this
    linarith
  obtain ⟨D, k, hP, h⟩ := stringDouble_finite env henv d hd hdz
  refine ⟨_, _, (hs L env junk).trans (h d rfl L junk hjunk),
    ⟨prettyNumber (decide (dNeg d)) (decN D) k, hP.WF hdz _, (signed_text _ _ _).symm, rfl⟩, ?_⟩
  intro n j hj hv'
  rw [pretty_value] at hv'
  have habs : (D : ℚ) * 10 ^ k = ((n.natAbs * 10 ^ (12 - j) : ℕ) : ℚ) / 10 ^ 12 := by
    have h0 : (0 : ℚ) ≤ (D : ℚ) * 10 ^ k := by positivity
    have h1 : (D : ℚ) * 10 ^ k = |(n : ℚ) / 10 ^ j| := by
      rw [← hv']
      split
      · rw [abs_neg, abs_of_nonneg h0]
      · rw [abs_of_nonneg h0]
    have hp : (0 : ℚ) < 10 ^ j := by positivity
    rw [h1, abs_div, abs_of_pos hp]
    push_cast
    rw [Nat.cast_natAbs, Int.cast_abs, show (10 : ℚ) ^ 12 = 10 ^ j * 10 ^ (12 - j) by rw [← pow_add]; congr 1; omega]
    field_simp
  have hnear := hP.near hdz
  have hul := half_ulp_small hnorm
  rw [habs, hmag] at hnear
  rw [hmag] at hul
  obtain ⟨z, hz'⟩ := float_multiple (u := u) (N := n.natAbs * 10 ^ (12 - j)) (by
    have := mul_le_mul_of_nonneg_right hnear.le (show (0 : ℚ) ≤ 2 ^ 53 by positivity)
    linarith)
  refine hne ?_
  unfold fValue
  by_cases hneg : fNeg u
  · exact ⟨-z, by rw [if_pos hneg, neg_mul, hz']; push_cast; ring⟩
  · exact ⟨z, by rw [if_neg hneg, hz']; push_cast; ring⟩

/-- C112, which decimals come back from floats.  A float below `2^53` is written as a given decimal of at most twelve places exactly
if it is that decimal. -/
theorem C112_float_back (env : Env) (henv : EnvOk env) (L : Literals) (junk : Bytes) (hjunk : junk.length = FLOAT_SIZE)
    (u : UInt32) (hfin : FFinite u) (hm : fMag u < 2 ^ 53) (n : ℤ) (j : ℕ) (hj : j ≤ 12) :
    stringFloat L env junk u = .ok (amountText n j) ↔ fValue u = (n : ℚ) / 10 ^ j := by
  have e12 : (10 : ℚ) ^ 12 = 10 ^ j * 10 ^ (12 - j) := by rw [← pow_add]; congr 1; omega
  have pad : amountText (n * 10 ^ (12 - j)) 12 = amountText n j := by
    have := amountText_pad n j (12 - j)
    rwa [show j + (12 - j) = 12 by omega] at this
  constructor
  · intro h
    have hz : ∃ z : ℤ, fValue u * 2 ^ 12 = z := by
      by_contra hne
      obtain ⟨t, v, h1, h2, h3⟩ := C112_float_long env henv L junk hjunk u hfin hne
      obtain rfl := Res.ok.inj (h1.symm.trans h)
      exact h3 n j hj (h2.unique (C112_number n j))
    obtain ⟨z, hz⟩ := hz
    have h1 := C112_float_exact env henv L junk hjunk u hfin hm z hz
    have h2 := C112_number (z * 5 ^ 12) 12
    rw [Res.ok.inj (h1.symm.trans h)] at h2
    rw [← h2.unique (C112_number n j)]
    push_cast
    rw [← hz]
    norm_num
    ring
  · intro h
    obtain ⟨z, hz⟩ : ∃ z : ℕ, fMag u * 2 ^ 12 = z := by
      refine float_multiple (u := u) (N := n.natAbs * 10 ^ (12 - j)) ?_
      have hp : (0 : ℚ) < 10 ^ j := by positivity
      have e : ((n.natAbs * 10 ^ (12 - j) : ℕ) : ℚ) / 10 ^ 12 = fMag u := by
        rw [← abs_fValue, h, abs_div, abs_of_pos hp, e12]
        push_cast
        rw [Nat.cast_natAbs, Int.cast_abs]
        field_simp
      rw [e, sub_self, abs_zero, zero_mul]
      unfold fMag
      positivity
    obtain ⟨w, hw⟩ : ∃ w : ℤ, fValue u * 2 ^ 12 = w := by
      unfold fValue
      by_cases hneg : fNeg u
      · exact ⟨-z, by rw [if_pos hneg, neg_mul, hz]; push_cast; ring⟩
      · exact ⟨z, by rw [if_neg hneg, hz]; push_cast; ring⟩
    rw [C112_float_exact env henv L junk hjunk u hfin hm w hw, ← pad]
    congr 2
    have : ((w * 5 ^ 12 : ℤ) : ℚ) = ((n * 10 ^ (12 - j) : ℤ) : ℚ) := by
      push_cast
      have h12 : (2 : ℚ) ^ 12 * 244140625 = 10 ^ 12 := by norm_num
      rw [← hw, h, mul_assoc, h12, e12]
      field_simp
    exact_mod_cast this

/-- C112, cents.  Of the amounts with two places, written to a float and back, those and only those return that are multiples of a
quarter. -/
theorem C112_cents (env : Env) (henv : EnvOk env) (L : Literals) (junk : Bytes) (hjunk : junk.length = FLOAT_SIZE)
    (n : ℤ) (hn : n.natAbs < 25 * 2 ^ 24) (u : UInt32) (hu : FNearest ((n : ℚ) / 10 ^ 2) u) :
    stringFloat L env junk u = .ok (amountText n 2) ↔ 25 ∣ n := by
  have hm : fMag u < 2 ^ 53 := by
    have h0 : fValue 0 = 0 := by decide +kernel
    have h1 := hu.2 0 (by decide)
    rw [h0, zero_sub, abs_neg, abs_div, abs_of_pos (show (0 : ℚ) < 10 ^ 2 by norm_num), ← Int.cast_abs, ← Nat.cast_natAbs] at h1
    have h2 : ((n.natAbs : ℕ) : ℚ) < 25 * 2 ^ 24 := by exact_mod_cast hn
    have h3 : |fValue u| ≤ |fValue u - (n : ℚ) / 10 ^ 2| + |(n : ℚ) / 10 ^ 2| := by
      have := abs_add_le (fValue u - (n : ℚ) / 10 ^ 2) ((n : ℚ) / 10 ^ 2)
      rwa [sub_add_cancel] at this
    rw [abs_div (n : ℚ), abs_of_pos (show (0 : ℚ) < 10 ^ 2 by norm_num), ← Int.cast_abs, ← Nat.cast_natAbs, abs_fValue] at h3
    norm_num at h1 h2 h3 ⊢
    linarith
  rw [C112_float_back env henv L junk hjunk u hu.1 hm n 2 (by norm_num)]
  constructor
  · intro h
    obtain ⟨z, hz⟩ : ∃ z : ℕ, fMag u * 2 ^ 12 = z := by
      refine float_multiple (u := u) (N := n.natAbs * 10 ^ 10) ?_
      have e : ((n.natAbs * 10 ^ 10 : ℕ) : ℚ) / 10 ^ 12 = fMag u := by
        rw [← abs_fValue, h, abs_div, abs_of_pos (show (0 : ℚ) < 10 ^ 2 by norm_num)]
        push_cast
        rw [Nat.cast_natAbs, Int.cast_abs]
        ring
      rw [e, sub_self, abs_zero, zero_mul]
      unfold fMag
      positivity
    rw [← abs_fValue, h, abs_div, abs_of_pos (show (0 : ℚ) < 10 ^ 2 by norm_num)] at hz
    have h1 : ((n.natAbs * 1024 : ℕ) : ℚ) = ((25 * z : ℕ) : ℚ) := by
      push_cast
      rw [← hz, Nat.cast_natAbs, Int.cast_abs]
      ring
    have h2 : n.natAbs * 1024 = 25 * z := by exact_mod_cast h1
    omega
  · rintro ⟨m, rfl⟩
    have hmn : m.natAbs < 2 ^ 24 := by
      rw [Int.natAbs_mul, show (25 : ℤ).natAbs = 25 from rfl] at hn
      omega
    have hq : ((25 * m : ℤ) : ℚ) / 10 ^ 2 = m / 4 := by push_cast; ring
    rw [hq] at hu ⊢
    have h0 : (0 : ℚ) ≤ (m.natAbs : ℚ) * 2 ^ (-2 : ℤ) := by positivity
    have hov : (m.natAbs : ℚ) * 2 ^ (-2 : ℤ) < fOverflow := by
      have h1 : (m.natAbs : ℚ) < 2 ^ 24 := by exact_mod_cast hmn
      unfold fOverflow
      norm_num at h1 ⊢
      linarith
    obtain ⟨hy, -, hyv⟩ := toFloat_value (decide (m < 0)) h0 hov
    have hr : roundRat 24 (-149) ((m.natAbs : ℚ) * 2 ^ (-2 : ℤ)) = (m.natAbs : ℚ) * 2 ^ (-2 : ℤ) := by
      rcases h0.lt_or_eq with h | h
      · exact roundRat_exact (by norm_num) h m.natAbs (-2) (by norm_num) hmn rfl
      · rw [← h, roundRat_zero]
    have hval : fValue (LVal.fin (decide (m < 0)) ((m.natAbs : ℚ) * 2 ^ (-2 : ℤ))).toFloat = (m : ℚ) / 4 := by
      rw [hyv, hr]
      have ecast : (m.natAbs : ℚ) = |(m : ℚ)| := by rw [Nat.cast_natAbs, Int.cast_abs]
      unfold sgn
      by_cases hneg : m < 0
      · rw [if_pos (by simpa using hneg), ecast, abs_of_neg (by exact_mod_cast hneg)]; norm_num; ring
      · rw [if_neg (by simpa using hneg), ecast, abs_of_nonneg (by exact_mod_cast not_lt.mp hneg)]; norm_num; ring
    have h1 := hu.2 _ hy
    rw [hval, sub_self, abs_zero, abs_nonpos_iff, sub_eq_zero] at h1
    exact h1

/-- C112, the limit.  With 13 places for 12 `C112_float_back` and `C112_float_long` are false on every platform: 512.00006103515625f
is written with 13 places, which are not its value. -/
theorem C112_float_limit (env : Env) (henv : EnvOk env) (L : Literals) (junk : Bytes) (hjunk : junk.length = FLOAT_SIZE) :
    ∃ (n : ℤ), stringFloat L env junk 0x44000001 = .ok (amountText n 13) ∧ fValue 0x44000001 ≠ (n : ℚ) / 10 ^ 13 := by
  have hf : fValue 0x44000001 = 8388609 / 16384 := by decide +kernel
  have hd : (LVal.ofFloat 0x44000001).toDouble = 0x4080000020000000 := by decide +kernel
  have hdf : DFinite 0x4080000020000000 := by decide
  have hdz : ¬ DZero 0x4080000020000000 := by decide
  have hsig : dSig 0x4080000020000000 = 4503600164241408 := by decide +kernel
  have hexp : dUlpExp 0x4080000020000000 = -43 := by decide +kernel
  have hneg : ¬ dNeg 0x4080000020000000 := by decide
  obtain ⟨D, k, hP, h⟩ := stringDouble_finite env henv _ hdf hdz
  have hz := hP.near hdz
  have hin : lowB 0x4080000020000000 + 2 ^ (dUlpExp 0x4080000020000000 - 8) < ((5120000610351562 : ℕ) : ℚ) * 10 ^ (-13 : ℤ) ∧
      ((5120000610351562 : ℕ) : ℚ) * 10 ^ (-13 : ℤ) < highB 0x4080000020000000 - 2 ^ (dUlpExp 0x4080000020000000 - 8) := by
    unfold lowB highB
    rw [hsig, hexp]
    norm_num
  have hk := hP.exponent_ge hin.1 hin.2
  have hM : dMag 0x4080000020000000 = 8388609 / 16384 := by unfold dMag; rw [hsig, hexp]; norm_num
  rw [hM, hexp] at hz
  have hne : ∀ m : ℕ, (m : ℚ) / 10 ^ 13 ≠ 8388609 / 16384 := by
    intro m hm
    have : (m : ℚ) * 16384 = 8388609 * 10 ^ 13 := by
      field_simp at hm
      linarith
    have h2 : m * 16384 = 8388609 * 10 ^ 13 := by exact_mod_cast this
    omega
  obtain ⟨i, hi⟩ : ∃ i : ℕ, k = -13 + i := ⟨(k + 13).toNat, by omega⟩
  have hDi : (D : ℚ) * 10 ^ k = ((D * 10 ^ i : ℕ) : ℚ) / 10 ^ 13 := by
    rw [hi, zpow_add₀ (by norm_num), zpow_natCast]
    push_cast
    norm_num
    ring
  -- two candidates, neither of which ends in zero
  rw [hDi] at hz
  have hc : D * 10 ^ i = 5120000610351562 ∨ D * 10 ^ i = 5120000610351563 := by
    rw [abs_lt] at hz
    obtain ⟨h1, h2⟩ := hz
    generalize D * 10 ^ i = m at h1 h2
    have e44 : (2 : ℚ) ^ (-43 - 1 : ℤ) = 1 / 17592186044416 := by norm_num
    rw [e44] at h1 h2
    have h3 : (5120000610351561 : ℚ) < m := by linarith
    have h4 : (m : ℚ) < 5120000610351564 := by linarith
    have h5 : 5120000610351561 < m := by exact_mod_cast h3
    have h6 : m < 5120000610351564 := by exact_mod_cast h4
    omega
  have hi0 : i = 0 := by
    by_contra h0
    obtain ⟨i', rfl⟩ : ∃ i', i = i' + 1 := ⟨i - 1, by omega⟩
    rw [pow_succ, ← mul_assoc] at hc
    omega
  subst hi0
  rw [pow_zero, mul_one] at hc
  have hkk : k = -((13 : ℕ) : ℤ) := by rw [hi]; norm_num
  refine ⟨D, ?_, fun h' => hne D (by rw [hf, Int.cast_natCast] at h'; exact h'.symm)⟩
  have e : stringFloat L env junk 0x44000001 = stringDouble L env junk 0x4080000020000000 := by
    unfold stringFloat stringDouble formatFloat formatDouble formatLd
    rw [hd, toDouble_ofDouble _ (fun h => hdf h.1)]
  rw [e, h _ rfl L junk hjunk, hkk]
  have ht := amountText_quot (n := (D : ℤ)) (j := 13) (D := D) (t := 13) (by norm_num) le_rfl (by simp) (by omega) hP.lt17 (by omega)
  rw [← ht]
  have hnn : ¬ (D : ℤ) < 0 := by omega
  unfold signed
  rw [if_neg hneg, if_neg hnn]

/-! Non-vacuity. -/
example : amountText (5 * 5 ^ 12) 12 = ascii "0.001220703125" ∧ fValue 0x3AA00000 * 2 ^ 12 = (5 : ℤ) ∧ fMag 0x3AA00000 < 2 ^ 53 ∧
    stringFloat .default sampleEnv (List.replicate 30 0) 0x3AA00000 = .ok (ascii "0.001220703125") := by decide +kernel
example : ¬ ∃ z : ℤ, fValue 0x3DCCCCCD * 2 ^ 12 = z := by
  rintro ⟨z, hz⟩
  have e : fValue 0x3DCCCCCD = 13421773 / 134217728 := by decide +kernel
  rw [e] at hz
  have h1 : (13421773 : ℚ) = ((z * 32768 : ℤ) : ℚ) := by push_cast; linarith
  have h2 : (13421773 : ℤ) = z * 32768 := by exact_mod_cast h1
  omega
example : stringFloat .default sampleEnv (List.replicate 30 0) 0x3DCCCCCD = .ok (ascii "0.10000000149011612") := by decide +kernel
/-- 19.75f comes back, 19.99f does not. -/
example : stringFloat .default sampleEnv (List.replicate 30 0) (lexiFloat .x87 (ascii "19.75")) = .ok (ascii "19.75") ∧
    stringFloat .default sampleEnv (List.replicate 30 0) (lexiFloat .x87 (ascii "19.99")) = .ok (ascii "19.989999771118165") := by
  decide +kernel
/-- A double of 13 places, all of them written. -/
example : dValue 0x3FBF980000000000 = (1234130859375 : ℤ) / 10 ^ 13 ∧ 10 ^ 13 ≤ (1234130859375 : ℤ).natAbs * 10 ^ 6 ∧
    stringDouble .default sampleEnv (List.replicate 30 0) 0x3FBF980000000000 = .ok (amountText 1234130859375 13) := by decide +kernel

end Lexi
