import Verif.Proofs.Digits

/-! # grisu2 produces a decimal strictly inside the rounding interval -/

namespace Lexi.Dtoa

open Spec DiyFp

/-- Upper end of the rounding interval of a positive double. -/
def highB (u : UInt64) : ℚ := (2 * dSig u + 1 : ℕ) * 2 ^ (dUlpExp u - 1)
/-- Lower end used by the code (the narrower gap is assumed below every significand `2^52`). -/
def lowB (u : UInt64) : ℚ :=
  if dSig u = 2 ^ 52 then (4 * dSig u - 1 : ℕ) * 2 ^ (dUlpExp u - 2) else (2 * dSig u - 1 : ℕ) * 2 ^ (dUlpExp u - 1)

theorem scaled_upper (pl c : ℕ) (eb ce K : ℤ) (sh : ℕ) (hsh : -(sh : ℤ) = eb + ce + 64)
    (hpl : pl < 2 ^ 64) (hpl0 : 0 < pl) (hacc : |(c : ℚ) * 2 ^ ce - 10 ^ K| ≤ 2 ^ ce / 2)
    (x : ℚ) (hx : x * 2 ^ sh ≤ ((pl * c + 2 ^ 63) / 2 ^ 64 - 1 : ℤ)) : x * 10 ^ (-K) < pl * 2 ^ eb := by
  have hacc' := (abs_le.1 hacc).2
  have h2ce : (0 : ℚ) < 2 ^ ce := by positivity
  have h10 : (0 : ℚ) < 10 ^ K := by positivity
  have hfl : (((pl * c + 2 ^ 63) / 2 ^ 64 : ℤ) : ℚ) ≤ ((pl : ℚ) * c + 2 ^ 63) / 2 ^ 64 := by
    rw [le_div_iff₀ (by positivity)]
    have : ((pl * c + 2 ^ 63) / 2 ^ 64 : ℤ) * 2 ^ 64 ≤ (pl * c + 2 ^ 63 : ℤ) := Int.ediv_mul_le _ (by norm_num)
    exact_mod_cast this
  have hx' : x * 2 ^ sh ≤ ((pl : ℚ) * c) / 2 ^ 64 - 1 / 2 := by
    push_cast at hx
    have e : ((pl : ℚ) * c + 2 ^ 63) / 2 ^ 64 = (pl : ℚ) * c / 2 ^ 64 + 1 / 2 := by norm_num; ring
    rw [e] at hfl
    push_cast at hfl
    linarith
  -- multiply by 2^64 * 2^ce
  have hk : (c : ℚ) * 2 ^ ce ≤ 10 ^ K + 2 ^ ce / 2 := by linarith
  have hplq : (pl : ℚ) < 2 ^ 64 := by exact_mod_cast hpl
  have hplq0 : (0 : ℚ) < pl := by exact_mod_cast hpl0
  have e1 : x * 2 ^ sh * (2 ^ 64 * 2 ^ ce) ≤ pl * (c * 2 ^ ce) - 2 ^ 63 * 2 ^ ce := by
    have := mul_le_mul_of_nonneg_right hx' (show (0 : ℚ) ≤ 2 ^ 64 * 2 ^ ce by positivity)
    calc _ ≤ _ := this
      _ = _ := by ring
  have e2 : (pl : ℚ) * (c * 2 ^ ce) ≤ pl * 10 ^ K + pl * (2 ^ ce / 2) := by
    rw [← mul_add]; exact mul_le_mul_of_nonneg_left hk hplq0.le
  have e3 : (pl : ℚ) * (2 ^ ce / 2) < 2 ^ 63 * 2 ^ ce := by
    have : (pl : ℚ) * (2 ^ ce / 2) < 2 ^ 64 * (2 ^ ce / 2) := mul_lt_mul_of_pos_right hplq (by positivity)
    calc _ < _ := this
      _ = _ := by ring
  have e4 : x * 2 ^ sh * (2 ^ 64 * 2 ^ ce) < pl * 10 ^ K := by linarith
  have e5 : (2 : ℚ) ^ sh * (2 ^ 64 * 2 ^ ce) = 2 ^ (-eb) := by
    rw [← zpow_natCast (2 : ℚ) sh, ← zpow_natCast (2 : ℚ) 64, ← zpow_add₀ (by norm_num), ← zpow_add₀ (by norm_num)]
    congr 1; push_cast; omega
  rw [mul_assoc, e5, zpow_neg _ eb] at e4
  rw [zpow_neg, ← div_eq_mul_inv, div_lt_iff₀ h10]
  rw [← div_eq_mul_inv, div_lt_iff₀ (by positivity)] at e4
  linarith

theorem scaled_lower (mi c : ℕ) (eb ce K : ℤ) (sh : ℕ) (hsh : -(sh : ℤ) = eb + ce + 64)
    (hmi : mi < 2 ^ 64) (hacc : |(c : ℚ) * 2 ^ ce - 10 ^ K| ≤ 2 ^ ce / 2)
    (x : ℚ) (hx : ((mi * c + 2 ^ 63) / 2 ^ 64 + 1 : ℤ) ≤ x * 2 ^ sh) : mi * 2 ^ eb < x * 10 ^ (-K) := by
  have hacc' := (abs_le.1 hacc).1
  have h2ce : (0 : ℚ) < 2 ^ ce := by positivity
  have h10 : (0 : ℚ) < 10 ^ K := by positivity
  have hfl : ((mi : ℚ) * c + 2 ^ 63) / 2 ^ 64 < (((mi * c + 2 ^ 63) / 2 ^ 64 : ℤ) : ℚ) + 1 := by
    rw [div_lt_iff₀ (by positivity)]
    have : (mi * c + 2 ^ 63 : ℤ) < ((mi * c + 2 ^ 63) / 2 ^ 64 + 1 : ℤ) * 2 ^ 64 :=
      Int.lt_ediv_add_one_mul_self _ (by norm_num)
    exact_mod_cast this
  have hx' : ((mi : ℚ) * c) / 2 ^ 64 + 1 / 2 < x * 2 ^ sh := by
    push_cast at hx
    have e : ((mi : ℚ) * c + 2 ^ 63) / 2 ^ 64 = (mi : ℚ) * c / 2 ^ 64 + 1 / 2 := by norm_num; ring
    rw [e] at hfl
    push_cast at hfl
    linarith
  have hk : 10 ^ K - 2 ^ ce / 2 ≤ (c : ℚ) * 2 ^ ce := by linarith
  have hmiq : (mi : ℚ) < 2 ^ 64 := by exact_mod_cast hmi
  have hmiq0 : (0 : ℚ) ≤ mi := by positivity
  have e1 : mi * (c * 2 ^ ce) + 2 ^ 63 * 2 ^ ce < x * 2 ^ sh * (2 ^ 64 * 2 ^ ce) := by
    have := mul_lt_mul_of_pos_right hx' (show (0 : ℚ) < 2 ^ 64 * 2 ^ ce by positivity)
    calc _ = _ := by ring
      _ < _ := this
  have e2 : (mi : ℚ) * 10 ^ K - mi * (2 ^ ce / 2) ≤ mi * (c * 2 ^ ce) := by
    rw [← mul_sub]; exact mul_le_mul_of_nonneg_left hk hmiq0
  have e3 : (mi : ℚ) * (2 ^ ce / 2) ≤ 2 ^ 63 * 2 ^ ce := by
    have : (mi : ℚ) * (2 ^ ce / 2) ≤ 2 ^ 64 * (2 ^ ce / 2) := mul_le_mul_of_nonneg_right hmiq.le (by positivity)
    calc _ ≤ _ := this
      _ = _ := by ring
  have e4 : mi * 10 ^ K < x * 2 ^ sh * (2 ^ 64 * 2 ^ ce) := by linarith
  have e5 : (2 : ℚ) ^ sh * (2 ^ 64 * 2 ^ ce) = 2 ^ (-eb) := by
    rw [← zpow_natCast (2 : ℚ) sh, ← zpow_natCast (2 : ℚ) 64, ← zpow_add₀ (by norm_num), ← zpow_add₀ (by norm_num)]
    congr 1; push_cast; omega
  rw [mul_assoc, e5, zpow_neg _ eb] at e4
  rw [zpow_neg, ← div_eq_mul_inv, lt_div_iff₀ h10]
  rw [← div_eq_mul_inv, lt_div_iff₀ (by positivity)] at e4
  linarith

/-- The unit of the scaled numbers is not small. -/
theorem unit_ge (c : ℕ) (ce K : ℤ) (hc : c < 2 ^ 64) (hacc : |(c : ℚ) * 2 ^ ce - 10 ^ K| ≤ 255 / 512 * 2 ^ ce) :
    (10 : ℚ) ^ K ≤ 2 ^ 64 * 2 ^ ce := by
  have h1 := (abs_le.1 hacc).1
  have h2ce : (0 : ℚ) < 2 ^ ce := by positivity
  have hcq : (c : ℚ) ≤ 2 ^ 64 - 1 := by
    have : c + 1 ≤ 2 ^ 64 := hc
    have : ((c + 1 : ℕ) : ℚ) ≤ ((2 ^ 64 : ℕ) : ℚ) := by exact_mod_cast this
    push_cast at this
    linarith
  have h2 : (c : ℚ) * 2 ^ ce ≤ (2 ^ 64 - 1) * 2 ^ ce := mul_le_mul_of_nonneg_right hcq h2ce.le
  rw [sub_mul] at h2
  linarith

/-- Distance from the upper boundary: the table entries are not near the middle between two 64-bit numbers. -/
theorem scaled_upper_tight (pl c : ℕ) (eb ce K : ℤ) (sh : ℕ) (hc : c < 2 ^ 64) (hsh : -(sh : ℤ) = eb + ce + 64)
    (hpl : pl < 2 ^ 64) (hacc : |(c : ℚ) * 2 ^ ce - 10 ^ K| ≤ 255 / 512 * 2 ^ ce)
    (x : ℚ) (hx : x * 2 ^ sh ≤ ((pl * c + 2 ^ 63) / 2 ^ 64 - 1 : ℤ)) :
    x * 10 ^ (-K) ≤ pl * 2 ^ eb - 2 ^ (eb - 9) := by
  have hu := unit_ge c ce K hc hacc
  have hacc' := (abs_le.1 hacc).2
  have h2ce : (0 : ℚ) < 2 ^ ce := by positivity
  have h10 : (0 : ℚ) < 10 ^ K := by positivity
  have hfl : (((pl * c + 2 ^ 63) / 2 ^ 64 : ℤ) : ℚ) ≤ ((pl : ℚ) * c + 2 ^ 63) / 2 ^ 64 := by
    rw [le_div_iff₀ (by positivity)]
    have : ((pl * c + 2 ^ 63) / 2 ^ 64 : ℤ) * 2 ^ 64 ≤ (pl * c + 2 ^ 63 : ℤ) := Int.ediv_mul_le _ (by norm_num)
    exact_mod_cast this
  have hx' : x * 2 ^ sh ≤ ((pl : ℚ) * c) / 2 ^ 64 - 1 / 2 := by
    push_cast at hx
    have e : ((pl : ℚ) * c + 2 ^ 63) / 2 ^ 64 = (pl : ℚ) * c / 2 ^ 64 + 1 / 2 := by norm_num; ring
    rw [e] at hfl
    push_cast at hfl
    linarith
  have hk : (c : ℚ) * 2 ^ ce ≤ 10 ^ K + 255 / 512 * 2 ^ ce := by linarith
  have hplq : (pl : ℚ) < 2 ^ 64 := by exact_mod_cast hpl
  have hplq0 : (0 : ℚ) ≤ pl := by positivity
  have e1 : x * 2 ^ sh * (2 ^ 64 * 2 ^ ce) ≤ pl * (c * 2 ^ ce) - 2 ^ 63 * 2 ^ ce := by
    have := mul_le_mul_of_nonneg_right hx' (show (0 : ℚ) ≤ 2 ^ 64 * 2 ^ ce by positivity)
    calc _ ≤ _ := this
      _ = _ := by ring
  have e2 : (pl : ℚ) * (c * 2 ^ ce) ≤ pl * 10 ^ K + pl * (255 / 512 * 2 ^ ce) := by
    rw [← mul_add]; exact mul_le_mul_of_nonneg_left hk hplq0
  have e3 : (pl : ℚ) * (255 / 512 * 2 ^ ce) ≤ 255 * 2 ^ 55 * 2 ^ ce := by
    have : (pl : ℚ) * (255 / 512 * 2 ^ ce) ≤ 2 ^ 64 * (255 / 512 * 2 ^ ce) :=
      mul_le_mul_of_nonneg_right hplq.le (by positivity)
    calc _ ≤ _ := this
      _ = _ := by ring
  have e4 : x * 2 ^ sh * (2 ^ 64 * 2 ^ ce) ≤ (pl - 2 ^ (-9 : ℤ)) * 10 ^ K := by
    have h63 : (2 : ℚ) ^ 63 * 2 ^ ce = 255 * 2 ^ 55 * 2 ^ ce + 2 ^ 55 * 2 ^ ce := by ring
    have h9 : (2 : ℚ) ^ (-9 : ℤ) * 10 ^ K ≤ 2 ^ 55 * 2 ^ ce := by
      calc (2 : ℚ) ^ (-9 : ℤ) * 10 ^ K ≤ 2 ^ (-9 : ℤ) * (2 ^ 64 * 2 ^ ce) := mul_le_mul_of_nonneg_left hu (by positivity)
        _ = 2 ^ 55 * 2 ^ ce := by rw [← mul_assoc]; congr 1; norm_num
    rw [sub_mul]; linarith
  have e5 : (2 : ℚ) ^ sh * (2 ^ 64 * 2 ^ ce) = 2 ^ (-eb) := by
    rw [← zpow_natCast (2 : ℚ) sh, ← zpow_natCast (2 : ℚ) 64, ← zpow_add₀ (by norm_num), ← zpow_add₀ (by norm_num)]
    congr 1; push_cast; omega
  have e6 : (2 : ℚ) ^ (eb - 9) = 2 ^ (-9 : ℤ) * 2 ^ eb := by
    rw [← zpow_add₀ (by norm_num)]; congr 1; ring
  rw [mul_assoc, e5, zpow_neg _ eb] at e4
  rw [zpow_neg, ← div_eq_mul_inv, div_le_iff₀ h10, e6]
  rw [← div_eq_mul_inv, div_le_iff₀ (by positivity)] at e4
  linarith

theorem scaled_lower_tight (mi c : ℕ) (eb ce K : ℤ) (sh : ℕ) (hc : c < 2 ^ 64) (hsh : -(sh : ℤ) = eb + ce + 64)
    (hmi : mi < 2 ^ 64) (hacc : |(c : ℚ) * 2 ^ ce - 10 ^ K| ≤ 255 / 512 * 2 ^ ce)
    (x : ℚ) (hx : ((mi * c + 2 ^ 63) / 2 ^ 64 + 1 : ℤ) ≤ x * 2 ^ sh) :
    mi * 2 ^ eb + 2 ^ (eb - 9) ≤ x * 10 ^ (-K) := by
  have hu := unit_ge c ce K hc hacc
  have hacc' := (abs_le.1 hacc).1
  have h2ce : (0 : ℚ) < 2 ^ ce := by positivity
  have h10 : (0 : ℚ) < 10 ^ K := by positivity
  have hfl : ((mi : ℚ) * c + 2 ^ 63) / 2 ^ 64 < (((mi * c + 2 ^ 63) / 2 ^ 64 : ℤ) : ℚ) + 1 := by
    rw [div_lt_iff₀ (by positivity)]
    have : (mi * c + 2 ^ 63 : ℤ) < ((mi * c + 2 ^ 63) / 2 ^ 64 + 1 : ℤ) * 2 ^ 64 :=
      Int.lt_ediv_add_one_mul_self _ (by norm_num)
    exact_mod_cast this
  have hx' : ((mi : ℚ) * c) / 2 ^ 64 + 1 / 2 ≤ x * 2 ^ sh := by
    push_cast at hx
    have e : ((mi : ℚ) * c + 2 ^ 63) / 2 ^ 64 = (mi : ℚ) * c / 2 ^ 64 + 1 / 2 := by norm_num; ring
    rw [e] at hfl
    push_cast at hfl
    linarith
  have hk : 10 ^ K - 255 / 512 * 2 ^ ce ≤ (c : ℚ) * 2 ^ ce := by linarith
  have hmiq : (mi : ℚ) < 2 ^ 64 := by exact_mod_cast hmi
  have hmiq0 : (0 : ℚ) ≤ mi := by positivity
  have e1 : mi * (c * 2 ^ ce) + 2 ^ 63 * 2 ^ ce ≤ x * 2 ^ sh * (2 ^ 64 * 2 ^ ce) := by
    have := mul_le_mul_of_nonneg_right hx' (show (0 : ℚ) ≤ 2 ^ 64 * 2 ^ ce by positivity)
    calc _ = _ := by ring
      _ ≤ _ := this
  have e2 : (mi : ℚ) * 10 ^ K - mi * (255 / 512 * 2 ^ ce) ≤ mi * (c * 2 ^ ce) := by
    rw [← mul_sub]; exact mul_le_mul_of_nonneg_left hk hmiq0
  have e3 : (mi : ℚ) * (255 / 512 * 2 ^ ce) ≤ 255 * 2 ^ 55 * 2 ^ ce := by
    have : (mi : ℚ) * (255 / 512 * 2 ^ ce) ≤ 2 ^ 64 * (255 / 512 * 2 ^ ce) :=
      mul_le_mul_of_nonneg_right hmiq.le (by positivity)
    calc _ ≤ _ := this
      _ = _ := by ring
  have e4 : (mi + 2 ^ (-9 : ℤ)) * 10 ^ K ≤ x * 2 ^ sh * (2 ^ 64 * 2 ^ ce) := by
    have h63 : (2 : ℚ) ^ 63 * 2 ^ ce = 255 * 2 ^ 55 * 2 ^ ce + 2 ^ 55 * 2 ^ ce := by ring
    have h9 : (2 : ℚ) ^ (-9 : ℤ) * 10 ^ K ≤ 2 ^ 55 * 2 ^ ce := by
      calc (2 : ℚ) ^ (-9 : ℤ) * 10 ^ K ≤ 2 ^ (-9 : ℤ) * (2 ^ 64 * 2 ^ ce) := mul_le_mul_of_nonneg_left hu (by positivity)
        _ = 2 ^ 55 * 2 ^ ce := by rw [← mul_assoc]; congr 1; norm_num
    rw [add_mul]; linarith
  have e5 : (2 : ℚ) ^ sh * (2 ^ 64 * 2 ^ ce) = 2 ^ (-eb) := by
    rw [← zpow_natCast (2 : ℚ) sh, ← zpow_natCast (2 : ℚ) 64, ← zpow_add₀ (by norm_num), ← zpow_add₀ (by norm_num)]
    congr 1; push_cast; omega
  have e6 : (2 : ℚ) ^ (eb - 9) = 2 ^ (-9 : ℤ) * 2 ^ eb := by
    rw [← zpow_add₀ (by norm_num)]; congr 1; ring
  rw [mul_assoc, e5, zpow_neg _ eb] at e4
  rw [zpow_neg, ← div_eq_mul_inv, le_div_iff₀ h10, e6]
  rw [← div_eq_mul_inv, le_div_iff₀ (by positivity)] at e4
  linarith

/-- Exponent of the guaranteed distance between a printed value and the ends of the rounding interval. -/
def innerExp (u : UInt64) : ℤ := dUlpExp u - (63 - (dSig u).log2 : ℕ) - 9

/-- The table entry is not small. -/
theorem scale_unit (c : ℕ) (ce K : ℤ) (s : ℕ) (hs : 11 ≤ s) (hc : 2 ^ 63 ≤ c)
    (hacc : |(c : ℚ) * 2 ^ ce - 10 ^ K| ≤ 2 ^ ce / 2) : (2 : ℚ) ^ 65 * 2 ^ ce ≤ 2 ^ (s - 8) * 10 ^ K := by
  have h1 := (abs_le.1 hacc).2
  have h2ce : (0 : ℚ) < 2 ^ ce := by positivity
  have hcq : (2 : ℚ) ^ 63 ≤ c := by exact_mod_cast hc
  have h2 : (2 : ℚ) ^ 63 * 2 ^ ce ≤ c * 2 ^ ce := mul_le_mul_of_nonneg_right hcq h2ce.le
  have h3 : (2 : ℚ) ^ 62 * 2 ^ ce ≤ 10 ^ K := by
    have : (2 : ℚ) ^ 63 * 2 ^ ce = 2 ^ 62 * 2 ^ ce + 2 ^ 62 * 2 ^ ce := by ring
    have : (2 : ℚ) ^ ce / 2 ≤ 2 ^ 62 * 2 ^ ce := by norm_num; linarith
    linarith
  have h4 : (2 : ℚ) ^ 3 ≤ 2 ^ (s - 8) := pow_le_pow_right₀ (by norm_num) (by omega)
  calc (2 : ℚ) ^ 65 * 2 ^ ce = 2 ^ 3 * (2 ^ 62 * 2 ^ ce) := by norm_num; ring
    _ ≤ 2 ^ (s - 8) * 10 ^ K := mul_le_mul h4 h3 (by positivity) (by positivity)

/-- A decimal above the scaled upper boundary is at most a little below the real one. -/
theorem scaled_upper_conv (pl c : ℕ) (eb ce K : ℤ) (sh s : ℕ) (hs : 11 ≤ s) (hc : 2 ^ 63 ≤ c)
    (hsh : -(sh : ℤ) = eb + ce + 64)
    (hpl : pl < 2 ^ 64) (hacc : |(c : ℚ) * 2 ^ ce - 10 ^ K| ≤ 2 ^ ce / 2)
    (x : ℚ) (hx : ((pl * c + 2 ^ 63) / 2 ^ 64 - 1 : ℤ) < x * 2 ^ sh) :
    pl * 2 ^ eb - 2 ^ (s - 8) * 2 ^ eb < x * 10 ^ (-K) := by
  have hu := scale_unit c ce K s hs hc hacc
  have hacc' := (abs_le.1 hacc).1
  have h2ce : (0 : ℚ) < 2 ^ ce := by positivity
  have h10 : (0 : ℚ) < 10 ^ K := by positivity
  have hfl : ((pl : ℚ) * c + 2 ^ 63) / 2 ^ 64 < (((pl * c + 2 ^ 63) / 2 ^ 64 : ℤ) : ℚ) + 1 := by
    rw [div_lt_iff₀ (by positivity)]
    have : (pl * c + 2 ^ 63 : ℤ) < ((pl * c + 2 ^ 63) / 2 ^ 64 + 1 : ℤ) * 2 ^ 64 :=
      Int.lt_ediv_add_one_mul_self _ (by norm_num)
    exact_mod_cast this
  have hx' : ((pl : ℚ) * c) / 2 ^ 64 - 3 / 2 < x * 2 ^ sh := by
    push_cast at hx
    have e : ((pl : ℚ) * c + 2 ^ 63) / 2 ^ 64 = (pl : ℚ) * c / 2 ^ 64 + 1 / 2 := by norm_num; ring
    rw [e] at hfl
    push_cast at hfl
    linarith
  have hk : 10 ^ K - 2 ^ ce / 2 ≤ (c : ℚ) * 2 ^ ce := by linarith
  have hplq : (pl : ℚ) < 2 ^ 64 := by exact_mod_cast hpl
  have hplq0 : (0 : ℚ) ≤ pl := by positivity
  have e1 : pl * (c * 2 ^ ce) - 3 * 2 ^ 63 * 2 ^ ce < x * 2 ^ sh * (2 ^ 64 * 2 ^ ce) := by
    have := mul_lt_mul_of_pos_right hx' (show (0 : ℚ) < 2 ^ 64 * 2 ^ ce by positivity)
    calc _ = _ := by ring
      _ < _ := this
  have e2 : (pl : ℚ) * 10 ^ K - pl * (2 ^ ce / 2) ≤ pl * (c * 2 ^ ce) := by
    rw [← mul_sub]; exact mul_le_mul_of_nonneg_left hk hplq0
  have e3 : (pl : ℚ) * (2 ^ ce / 2) ≤ 2 ^ 63 * 2 ^ ce := by
    have : (pl : ℚ) * (2 ^ ce / 2) ≤ 2 ^ 64 * (2 ^ ce / 2) := mul_le_mul_of_nonneg_right hplq.le (by positivity)
    calc _ ≤ _ := this
      _ = _ := by ring
  have e4 : (pl - 2 ^ (s - 8)) * 10 ^ K < x * 2 ^ sh * (2 ^ 64 * 2 ^ ce) := by
    have : (2 : ℚ) ^ 65 * 2 ^ ce = 3 * 2 ^ 63 * 2 ^ ce + 2 ^ 63 * 2 ^ ce := by norm_num; ring
    rw [sub_mul]; linarith
  have e5 : (2 : ℚ) ^ sh * (2 ^ 64 * 2 ^ ce) = 2 ^ (-eb) := by
    rw [← zpow_natCast (2 : ℚ) sh, ← zpow_natCast (2 : ℚ) 64, ← zpow_add₀ (by norm_num), ← zpow_add₀ (by norm_num)]
    congr 1; push_cast; omega
  rw [mul_assoc, e5, zpow_neg _ eb] at e4
  rw [zpow_neg, ← div_eq_mul_inv, lt_div_iff₀ h10]
  rw [← div_eq_mul_inv, lt_div_iff₀ (by positivity)] at e4
  linarith

/-- A decimal at or below the scaled lower boundary is at most a little above the real one. -/
theorem scaled_lower_conv (mi c : ℕ) (eb ce K : ℤ) (sh s : ℕ) (hs : 11 ≤ s) (hc : 2 ^ 63 ≤ c)
    (hsh : -(sh : ℤ) = eb + ce + 64)
    (hmi : mi < 2 ^ 64) (hacc : |(c : ℚ) * 2 ^ ce - 10 ^ K| ≤ 2 ^ ce / 2)
    (x : ℚ) (hx : x * 2 ^ sh ≤ ((mi * c + 2 ^ 63) / 2 ^ 64 + 1 : ℤ)) :
    x * 10 ^ (-K) ≤ mi * 2 ^ eb + 2 ^ (s - 8) * 2 ^ eb := by
  have hu := scale_unit c ce K s hs hc hacc
  have hacc' := (abs_le.1 hacc).2
  have h2ce : (0 : ℚ) < 2 ^ ce := by positivity
  have h10 : (0 : ℚ) < 10 ^ K := by positivity
  have hfl : (((mi * c + 2 ^ 63) / 2 ^ 64 : ℤ) : ℚ) ≤ ((mi : ℚ) * c + 2 ^ 63) / 2 ^ 64 := by
    rw [le_div_iff₀ (by positivity)]
    have : ((mi * c + 2 ^ 63) / 2 ^ 64 : ℤ) * 2 ^ 64 ≤ (mi * c + 2 ^ 63 : ℤ) := Int.ediv_mul_le _ (by norm_num)
    exact_mod_cast this
  have hx' : x * 2 ^ sh ≤ ((mi : ℚ) * c) / 2 ^ 64 + 3 / 2 := by
    push_cast at hx
    have e : ((mi : ℚ) * c + 2 ^ 63) / 2 ^ 64 = (mi : ℚ) * c / 2 ^ 64 + 1 / 2 := by norm_num; ring
    rw [e] at hfl
    push_cast at hfl
    linarith
  have hk : (c : ℚ) * 2 ^ ce ≤ 10 ^ K + 2 ^ ce / 2 := by linarith
  have hmiq : (mi : ℚ) < 2 ^ 64 := by exact_mod_cast hmi
  have hmiq0 : (0 : ℚ) ≤ mi := by positivity
  have e1 : x * 2 ^ sh * (2 ^ 64 * 2 ^ ce) ≤ mi * (c * 2 ^ ce) + 3 * 2 ^ 63 * 2 ^ ce := by
    have := mul_le_mul_of_nonneg_right hx' (show (0 : ℚ) ≤ 2 ^ 64 * 2 ^ ce by positivity)
    calc _ ≤ _ := this
      _ = _ := by ring
  have e2 : (mi : ℚ) * (c * 2 ^ ce) ≤ mi * 10 ^ K + mi * (2 ^ ce / 2) := by
    rw [← mul_add]; exact mul_le_mul_of_nonneg_left hk hmiq0
  have e3 : (mi : ℚ) * (2 ^ ce / 2) ≤ 2 ^ 63 * 2 ^ ce := by
    have : (mi : ℚ) * (2 ^ ce / 2) ≤ 2 ^ 64 * (2 ^ ce / 2) := mul_le_mul_of_nonneg_right hmiq.le (by positivity)
    calc _ ≤ _ := this
      _ = _ := by ring
  have e4 : x * 2 ^ sh * (2 ^ 64 * 2 ^ ce) ≤ (mi + 2 ^ (s - 8)) * 10 ^ K := by
    have : (2 : ℚ) ^ 65 * 2 ^ ce = 3 * 2 ^ 63 * 2 ^ ce + 2 ^ 63 * 2 ^ ce := by norm_num; ring
    rw [add_mul]; linarith
  have e5 : (2 : ℚ) ^ sh * (2 ^ 64 * 2 ^ ce) = 2 ^ (-eb) := by
    rw [← zpow_natCast (2 : ℚ) sh, ← zpow_natCast (2 : ℚ) 64, ← zpow_add₀ (by norm_num), ← zpow_add₀ (by norm_num)]
    congr 1; push_cast; omega
  rw [mul_assoc, e5, zpow_neg _ eb] at e4
  rw [zpow_neg, ← div_eq_mul_inv, div_le_iff₀ h10]
  rw [← div_eq_mul_inv, div_le_iff₀ (by positivity)] at e4
  linarith

/-- Being nearer to the scaled value means being nearer to the value, up to a little. -/
theorem scaled_close (w c : ℕ) (eb ce K : ℤ) (sh s : ℕ) (hs : 11 ≤ s) (hc : 2 ^ 63 ≤ c)
    (hsh : -(sh : ℤ) = eb + ce + 64)
    (hw : w < 2 ^ 64) (hacc : |(c : ℚ) * 2 ^ ce - 10 ^ K| ≤ 2 ^ ce / 2)
    (x y : ℚ) (hxy : |x * 2 ^ sh - ((w * c + 2 ^ 63) / 2 ^ 64 : ℕ)| ≤ |y * 2 ^ sh - ((w * c + 2 ^ 63) / 2 ^ 64 : ℕ)|) :
    |x * 10 ^ (-K) - w * 2 ^ eb| ≤ |y * 10 ^ (-K) - w * 2 ^ eb| + 2 ^ (s - 8) * 2 ^ eb := by
  have hu := scale_unit c ce K s hs hc hacc
  have h2ce : (0 : ℚ) < 2 ^ ce := by positivity
  have h10 : (0 : ℚ) < 10 ^ K := by positivity
  set V := (w * c + 2 ^ 63) / 2 ^ 64 with hV
  have hV1 : V * 2 ^ 64 ≤ w * c + 2 ^ 63 := Nat.div_mul_le_self _ _
  have hV2 : w * c + 2 ^ 63 < (V + 1) * 2 ^ 64 := by
    rw [hV]; norm_num; omega
  have hV1q : (V : ℚ) * 2 ^ 64 ≤ w * c + 2 ^ 63 := by exact_mod_cast hV1
  have hV2q : (w : ℚ) * c + 2 ^ 63 < (V + 1) * 2 ^ 64 := by exact_mod_cast hV2
  have hwq : (w : ℚ) < 2 ^ 64 := by exact_mod_cast hw
  have hwq0 : (0 : ℚ) ≤ w := by positivity
  have k1 : |(V : ℚ) * (2 ^ 64 * 2 ^ ce) - w * (c * 2 ^ ce)| ≤ 2 ^ 63 * 2 ^ ce := by
    have e : (V : ℚ) * (2 ^ 64 * 2 ^ ce) - w * (c * 2 ^ ce) = (V * 2 ^ 64 - w * c) * 2 ^ ce := by ring
    rw [e, abs_mul, abs_of_pos h2ce]
    refine mul_le_mul_of_nonneg_right ?_ h2ce.le
    rw [abs_le]; constructor <;> linarith
  have k2 : |(w : ℚ) * (c * 2 ^ ce) - w * 10 ^ K| ≤ 2 ^ 63 * 2 ^ ce := by
    rw [← mul_sub, abs_mul, abs_of_nonneg hwq0]
    calc (w : ℚ) * |(c : ℚ) * 2 ^ ce - 10 ^ K| ≤ 2 ^ 64 * (2 ^ ce / 2) :=
          mul_le_mul hwq.le hacc (abs_nonneg _) (by positivity)
      _ = 2 ^ 63 * 2 ^ ce := by ring
  have e5 : (2 : ℚ) ^ sh * (2 ^ 64 * 2 ^ ce) = 2 ^ (-eb) := by
    rw [← zpow_natCast (2 : ℚ) sh, ← zpow_natCast (2 : ℚ) 64, ← zpow_add₀ (by norm_num), ← zpow_add₀ (by norm_num)]
    congr 1; push_cast; omega
  have k3 : ∀ z : ℚ, |z * 2 ^ sh - V| * (2 ^ 64 * 2 ^ ce) = |z * 2 ^ (-eb) - V * (2 ^ 64 * 2 ^ ce)| := by
    intro z
    rw [← e5, ← mul_assoc z, ← sub_mul, abs_mul, abs_of_pos (show (0 : ℚ) < 2 ^ 64 * 2 ^ ce by positivity)]
  have k4 : |x * 2 ^ (-eb) - V * (2 ^ 64 * 2 ^ ce)| ≤ |y * 2 ^ (-eb) - V * (2 ^ 64 * 2 ^ ce)| := by
    rw [← k3, ← k3]; exact mul_le_mul_of_nonneg_right hxy (by positivity)
  have k5 : |x * 2 ^ (-eb) - w * 10 ^ K| ≤ |y * 2 ^ (-eb) - w * 10 ^ K| + 2 ^ (s - 8) * 10 ^ K := by
    have t1 := abs_sub_le (x * 2 ^ (-eb)) (V * (2 ^ 64 * 2 ^ ce)) (w * 10 ^ K)
    have t2 := abs_sub_le ((V : ℚ) * (2 ^ 64 * 2 ^ ce)) ((w : ℚ) * (c * 2 ^ ce)) ((w : ℚ) * 10 ^ K)
    have t3 := abs_sub_le (y * 2 ^ (-eb)) (w * 10 ^ K) (V * (2 ^ 64 * 2 ^ ce))
    rw [abs_sub_comm ((w : ℚ) * 10 ^ K) (V * (2 ^ 64 * 2 ^ ce))] at t3
    have : (2 : ℚ) ^ 65 * 2 ^ ce = 2 ^ 63 * 2 ^ ce + 2 ^ 63 * 2 ^ ce + (2 ^ 63 * 2 ^ ce + 2 ^ 63 * 2 ^ ce) := by ring
    linarith
  have h2e : (0 : ℚ) < 2 ^ eb := by positivity
  have e6 : ∀ z : ℚ, z * 10 ^ (-K) - w * 2 ^ eb = (z * 2 ^ (-eb) - w * 10 ^ K) * (2 ^ eb * 10 ^ (-K)) := by
    intro z
    rw [zpow_neg, zpow_neg]; field_simp
  have e7 : (2 : ℚ) ^ (s - 8) * 2 ^ eb = 2 ^ (s - 8) * 10 ^ K * (2 ^ eb * 10 ^ (-K)) := by
    rw [zpow_neg]; field_simp
  have hpos : (0 : ℚ) < 2 ^ eb * 10 ^ (-K) := by positivity
  rw [e6, e6, e7, abs_mul _ (_ * _), abs_mul (y * 2 ^ (-eb) - w * 10 ^ K) (_ * _), abs_of_pos hpos, ← add_mul]
  exact mul_le_mul_of_nonneg_right k5 hpos.le

/-- Decimal exponent of the cached power that scales a double. -/
def cachedK (u : UInt64) : ℤ := -348 + 8 * idx (dUlpExp u - (63 - (dSig u).log2 : ℕ))

/-- The integer inequalities needed by the digit loops. -/
theorem width_bounds (A B : ℕ) (hA : 2 ^ 126 ≤ A) (hA2 : A < 2 ^ 128) (hAB : B + 1536 * 2 ^ 63 ≤ A)
    (hr : A ≤ 2 ^ 53 * (A - B)) :
    let P := (A + 2 ^ 63) / 2 ^ 64
    let Q := (B + 2 ^ 63) / 2 ^ 64
    2 ^ 62 ≤ P ∧ Q + 66 ≤ P ∧ P - 1 < 10 ^ 16 * ((P - 1) - (Q + 1)) ∧ Q + 1 < 2 ^ 64 := by
  intro P Q
  norm_num at *
  omega

theorem grisu2_spec (env : Env) (hdk : DkOk env.dk) (hoob : ∀ j, 10 ≤ j → j ≤ 18 → ∃ w, env.oob j = .ok w)
    (u : UInt64) (hfin : DFinite u) (hnz : ¬ DZero u) :
    ∃ (D : Nat) (k : ℤ), D < 10 ^ 17 ∧ lowB u < D * 10 ^ k ∧ (D : ℚ) * 10 ^ k < highB u ∧
      (∀ (m : ℕ) (j : ℤ), k < j → ¬ (lowB u + 2 ^ (dUlpExp u - 8) < (m : ℚ) * 10 ^ j ∧
        (m : ℚ) * 10 ^ j < highB u - 2 ^ (dUlpExp u - 8))) ∧
      (D < 10 ^ 10 → -cachedK u - 9 ≤ k) ∧
      (-cachedK u - 9 ≤ k ∨ Continued env → ∀ m : ℕ, lowB u + 2 ^ (dUlpExp u - 8) < (m : ℚ) * 10 ^ k →
        (m : ℚ) * 10 ^ k < highB u - 2 ^ (dUlpExp u - 8) →
        |(D : ℚ) * 10 ^ k - dSig u * 2 ^ dUlpExp u| ≤ |(m : ℚ) * 10 ^ k - dSig u * 2 ^ dUlpExp u| + 2 ^ (dUlpExp u - 8)) ∧
      lowB u + 2 ^ innerExp u ≤ D * 10 ^ k ∧ (D : ℚ) * 10 ^ k ≤ highB u - 2 ^ innerExp u ∧
      ∀ (M : Bytes) (base : Nat), base + 17 ≤ M.length →
        grisu2 env u ⟨M, base⟩ = .ok (at_ M base (decN D), k) := by
  have hlt := dSig_lt u
  have hpos := dSig_pos hnz
  set f := dSig u with hf
  set e := dUlpExp u with he
  set s := 63 - f.log2 with hs
  have hl : f.log2 < 53 := (Nat.log2_lt (by omega)).2 hlt
  have hself := Nat.lt_log2_self (n := f)
  have hself' := Nat.log2_self_le (show f ≠ 0 by omega)
  have hfs : f * 2 ^ s < 2 ^ 64 := by
    calc _ < 2 ^ (f.log2 + 1) * 2 ^ s := Nat.mul_lt_mul_of_pos_right hself (by positivity)
      _ = 2 ^ 64 := by rw [← pow_add]; congr 1; omega
  have hfs' : 2 ^ 63 ≤ f * 2 ^ s := by
    calc 2 ^ 63 = 2 ^ f.log2 * 2 ^ s := by rw [← pow_add]; congr 1; omega
      _ ≤ f * 2 ^ s := Nat.mul_le_mul_right _ hself'
  have hs11 : 11 ≤ s := by omega
  -- range of the exponent
  have hrange : -1137 ≤ e - s ∧ e - s ≤ 960 := by
    have hE : dExp u ≤ 2046 := by
      have := dExp_lt u; unfold DFinite at hfin; omega
    rw [he]; unfold dUlpExp
    split
    · omega
    · next h0 =>
      have : 2 ^ 52 ≤ f := by rw [hf]; unfold dSig; rw [if_neg h0]; omega
      have : 52 ≤ f.log2 := (Nat.le_log2 (by omega)).2 this
      omega
  obtain ⟨mi, pl, hb, hplf, hple, hmif, hmie⟩ := normalizedBoundaries_eq env.v.bound u hnz s hs
  obtain ⟨cf, ce, K, hc, hK, hacc, htop, r1, r2, htight⟩ := getCachedPower_eq env hdk (e - s) hrange.1 hrange.2
  have hof := ofDouble_eq u
  obtain ⟨wn, hwn, hwnf, -⟩ := normalize_eq env.v.norm (ofDouble u)
    (by intro h0
        have h1 : (ofDouble u).f.toNat = 0 := by rw [h0]; rfl
        rw [hof.1] at h1; omega)
    (by rw [hof.1]; exact hlt)
  rw [hof.1, ← hf, ← hs] at hwnf
  -- the boundaries as natural numbers
  set PL := (2 * f + 1) * 2 ^ (s - 1) with hPL
  set MI := miSig f s with hMI
  have hpow : 2 ^ s = 2 * 2 ^ (s - 1) := by rw [← pow_succ']; congr 1; omega
  have hpow2 : 2 ^ (s - 1) = 2 * 2 ^ (s - 2) := by rw [← pow_succ']; congr 1; omega
  have hs9 : 2 ^ 9 ≤ 2 ^ (s - 2) := Nat.pow_le_pow_right (by omega) (by omega)
  have hPLe : PL = f * 2 ^ s + 2 ^ (s - 1) := by rw [hPL, hpow]; ring
  have hPLlt : PL < 2 ^ 64 := by
    -- f < 2^(l+1), so 2f+1 < 2^(l+2) and the shift fills 64 bits
    calc PL < 2 ^ (f.log2 + 2) * 2 ^ (s - 1) :=
          Nat.mul_lt_mul_of_pos_right (by rw [pow_succ]; omega) (by positivity)
      _ = 2 ^ 64 := by rw [← pow_add]; congr 1; omega
  have hdiff : MI + 3 * 2 ^ (s - 2) ≤ PL ∧ PL ≤ 2 ^ 53 * (PL - MI) := by
    rw [hMI]; unfold miSig
    split
    · next h52 =>
      have e1 : (4 * f - 1) * 2 ^ (s - 2) + 3 * 2 ^ (s - 2) = PL := by
        rw [hPL, hpow2, ← Nat.add_mul, ← mul_assoc]; congr 1; omega
      have e2 : PL - (4 * f - 1) * 2 ^ (s - 2) = 3 * 2 ^ (s - 2) := by omega
      refine ⟨by omega, ?_⟩
      rw [e2, hPL, hpow2, h52, ← mul_assoc, ← mul_assoc]
      exact Nat.mul_le_mul_right _ (by norm_num)
    · have e1 : (2 * f - 1) * 2 ^ (s - 1) + 2 * 2 ^ (s - 1) = PL := by
        rw [hPL, ← Nat.add_mul]; congr 1; omega
      have e2 : PL - (2 * f - 1) * 2 ^ (s - 1) = 2 * 2 ^ (s - 1) := by omega
      refine ⟨by omega, ?_⟩
      rw [e2, hPL, ← mul_assoc]
      exact Nat.mul_le_mul_right _ (by omega)
  have hMIf : MI + 2 ^ (s - 2) ≤ f * 2 ^ s := by
    rw [hMI]; unfold miSig
    split
    · have e1 : (4 * f - 1) * 2 ^ (s - 2) + 2 ^ (s - 2) = (4 * f - 1 + 1) * 2 ^ (s - 2) := by ring
      have e2 : (4 * f - 1 + 1) * 2 ^ (s - 2) = f * 2 ^ s := by
        rw [hpow, hpow2, show 4 * f - 1 + 1 = 4 * f by omega]; ring
      omega
    · have e1 : (2 * f - 1) * 2 ^ (s - 1) + 2 ^ (s - 1) = (2 * f - 1 + 1) * 2 ^ (s - 1) := by ring
      have e2 : (2 * f - 1 + 1) * 2 ^ (s - 1) = f * 2 ^ s := by
        rw [hpow, show 2 * f - 1 + 1 = 2 * f by omega]; ring
      omega
  have hMIlt : MI < 2 ^ 64 := by omega
  have hPLge : 2 ^ 63 ≤ PL := by omega
  have hcf := cf.toNat_lt
  set A := PL * cf.toNat with hA
  set B := MI * cf.toNat with hB
  have hA126 : 2 ^ 126 ≤ A := by
    calc 2 ^ 126 = 2 ^ 63 * 2 ^ 63 := by norm_num
      _ ≤ PL * cf.toNat := Nat.mul_le_mul hPLge htop
  have hA128 : A < 2 ^ 128 := by
    calc A < 2 ^ 64 * 2 ^ 64 := Nat.mul_lt_mul'' hPLlt hcf
      _ = 2 ^ 128 := by norm_num
  have hABd : A - B = (PL - MI) * cf.toNat := by rw [hA, hB, Nat.sub_mul]
  have hBA : B ≤ A := Nat.mul_le_mul_right _ (by omega)
  have hAB1 : B + 1536 * 2 ^ 63 ≤ A := by
    have : 1536 * 2 ^ 63 ≤ (PL - MI) * cf.toNat := Nat.mul_le_mul (by omega) htop
    omega
  have hAB2 : A ≤ 2 ^ 53 * (A - B) := by
    rw [hABd, ← mul_assoc]; exact Nat.mul_le_mul_right _ hdiff.2
  obtain ⟨w1, w2, w3, w4⟩ := width_bounds A B hA126 hA128 hAB1 hAB2
  -- the products
  have hP : (DiyFp.mul env.v.mul pl ⟨cf, ce⟩).f.toNat = (A + 2 ^ 63) / 2 ^ 64 := by rw [mul_toNat, hplf]
  have hQ : (DiyFp.mul env.v.mul mi ⟨cf, ce⟩).f.toNat = (B + 2 ^ 63) / 2 ^ 64 := by rw [mul_toNat, hmif]
  have one_t : (1 : UInt64).toNat = 1 := rfl
  set P := (A + 2 ^ 63) / 2 ^ 64 with hPdef
  set Q := (B + 2 ^ 63) / 2 ^ 64 with hQdef
  have hWm : ((DiyFp.mul env.v.mul mi ⟨cf, ce⟩).f + 1).toNat = Q + 1 := by
    rw [UInt64.toNat_add, hQ, one_t, Nat.mod_eq_of_lt w4]
  have hWp : ((DiyFp.mul env.v.mul pl ⟨cf, ce⟩).f - 1).toNat = P - 1 := by
    rw [UInt64.toNat_sub_of_le _ _ (by rw [UInt64.le_iff_toNat_le, hP, one_t]; omega), hP, one_t]
  have hdelta : (((DiyFp.mul env.v.mul pl ⟨cf, ce⟩).f - 1) - ((DiyFp.mul env.v.mul mi ⟨cf, ce⟩).f + 1)).toNat
      = (P - 1) - (Q + 1) := by
    rw [UInt64.toNat_sub_of_le _ _ (by rw [UInt64.le_iff_toNat_le, hWp, hWm]; omega), hWp, hWm]
  set V := (f * 2 ^ s * cf.toNat + 2 ^ 63) / 2 ^ 64 with hVdef
  have hVn : (DiyFp.mul env.v.mul wn ⟨cf, ce⟩).f.toNat = V := by rw [mul_toNat, hwnf]
  have hVP : V + 2 ≤ P := by
    have h1 : f * 2 ^ s * cf.toNat + 2 ^ 65 ≤ A := by
      have : 4 * 2 ^ 63 ≤ (PL - f * 2 ^ s) * cf.toNat := Nat.mul_le_mul (by omega) htop
      rw [Nat.sub_mul, ← hA] at this
      have : f * 2 ^ s * cf.toNat ≤ A := Nat.mul_le_mul_right _ (by omega)
      omega
    rw [hVdef, hPdef]; norm_num at h1 ⊢; omega
  have hQV : Q + 2 ≤ V := by
    have h1 : B + 2 ^ 65 ≤ f * 2 ^ s * cf.toNat := by
      have : 4 * 2 ^ 63 ≤ (f * 2 ^ s - MI) * cf.toNat := Nat.mul_le_mul (by omega) htop
      rw [Nat.sub_mul, ← hB] at this
      have : B ≤ f * 2 ^ s * cf.toNat := Nat.mul_le_mul_right _ (by omega)
      omega
    rw [hVdef, hQdef]; norm_num at h1 ⊢; omega
  have hwpw : (DiyFp.sub ⟨(DiyFp.mul env.v.mul pl ⟨cf, ce⟩).f - 1, (DiyFp.mul env.v.mul pl ⟨cf, ce⟩).e⟩
      (DiyFp.mul env.v.mul wn ⟨cf, ce⟩)).f.toNat = (P - 1) - V := by
    show ((DiyFp.mul env.v.mul pl ⟨cf, ce⟩).f - 1 - (DiyFp.mul env.v.mul wn ⟨cf, ce⟩).f).toNat = _
    rw [UInt64.toNat_sub_of_le _ _ (by rw [UInt64.le_iff_toNat_le, hWp, hVn]; omega), hWp, hVn]
  obtain ⟨sh, hsh⟩ : ∃ sh : ℕ, (sh : ℤ) = -(e - s + ce + 64) := ⟨(-(e - s + ce + 64)).toNat, by omega⟩
  have hgen := generateDigits_spec env hoob (DiyFp.mul env.v.mul wn ⟨cf, ce⟩)
    ⟨(DiyFp.mul env.v.mul pl ⟨cf, ce⟩).f - 1, (DiyFp.mul env.v.mul pl ⟨cf, ce⟩).e⟩ sh (by omega) (by omega)
    (by show (DiyFp.mul env.v.mul pl ⟨cf, ce⟩).e = _; rw [mul_e]; show pl.e + ce + 64 = _; omega)
    (((DiyFp.mul env.v.mul pl ⟨cf, ce⟩).f - 1) - ((DiyFp.mul env.v.mul mi ⟨cf, ce⟩).f + 1)) (-K)
    (by rw [hWp]
        have : 2 ^ sh ≤ 2 ^ 60 := Nat.pow_le_pow_right (by omega) (by omega)
        norm_num at this w1 ⊢; omega)
    (by rw [hWp, hdelta]; exact w3)
    (by rw [hWp, hdelta]; omega)
    (by rw [hdelta]; omega) (by rw [hdelta, hwpw]; omega)
  obtain ⟨D, kap, hD, ⟨hin1, hin2⟩, hshort, hclose, hr⟩ := hgen
  rw [hWp] at hin1 hin2 hshort
  rw [hdelta] at hin2 hshort
  rw [hWp, hdelta, hwpw] at hclose
  have hlowE : (MI : ℚ) * 2 ^ (e - s) = lowB u := by
    rw [hMI]; unfold lowB miSig
    rw [← hf, ← he]
    split
    · push_cast
      rw [mul_assoc, ← zpow_natCast (2 : ℚ) (s - 2), ← zpow_add₀ (by norm_num)]
      congr 2; omega
    · push_cast
      rw [mul_assoc, ← zpow_natCast (2 : ℚ) (s - 1), ← zpow_add₀ (by norm_num)]
      congr 2; omega
  have hhighE : (PL : ℚ) * 2 ^ (e - s) = highB u := by
    unfold highB
    rw [← hf, ← he, hPL]
    push_cast
    rw [mul_assoc, ← zpow_natCast (2 : ℚ) (s - 1), ← zpow_add₀ (by norm_num)]
    congr 2; omega
  have hmarg : (2 : ℚ) ^ (s - 8) * 2 ^ (e - s) = 2 ^ (e - 8) := by
    rw [← zpow_natCast (2 : ℚ) (s - 8), ← zpow_add₀ (by norm_num)]
    congr 1; omega
  have hc1 : ((P - 1 : ℕ) : ℚ) - ((P - 1 - (Q + 1) : ℕ) : ℚ) = ((Q + 1 : ℕ) : ℚ) := by
    rw [← Nat.cast_sub (by omega)]; congr 1; omega
  have e1 : (D : ℚ) * 10 ^ kap * 10 ^ (-K) = D * 10 ^ (-K + kap) := by
    rw [mul_assoc, ← zpow_add₀ (by norm_num), add_comm kap]
  have hxlo : ((MI * cf.toNat + 2 ^ 63) / 2 ^ 64 + 1 : ℤ) ≤ (D : ℚ) * 10 ^ kap * 2 ^ sh := by
    refine le_trans ?_ hin2
    rw [hc1]
    have : ((MI * cf.toNat + 2 ^ 63) / 2 ^ 64 + 1 : ℤ) = ((Q + 1 : ℕ) : ℤ) := by
      rw [hQdef, hB]; push_cast; rfl
    rw [this]; norm_cast
  have hxhi : (D : ℚ) * 10 ^ kap * 2 ^ sh ≤ ((PL * cf.toNat + 2 ^ 63) / 2 ^ 64 - 1 : ℤ) := by
    refine le_trans hin1 ?_
    have : ((PL * cf.toNat + 2 ^ 63) / 2 ^ 64 - 1 : ℤ) = ((P - 1 : ℕ) : ℤ) := by
      rw [Nat.cast_sub (by omega), hPdef, hA]; push_cast; rfl
    rw [this]; norm_cast
  have hKc : cachedK u = K := by rw [hK]; rfl
  refine ⟨D, -K + kap, hD, ?_, ?_, ?_, ?_, ?_, ?_, ?_, ?_⟩
  · -- lower bound
    have := scaled_lower MI cf.toNat (e - s) ce K sh (by omega) hMIlt hacc _ hxlo
    rwa [e1, hlowE] at this
  · have := scaled_upper PL cf.toNat (e - s) ce K sh (by omega) hPLlt (by omega) hacc _ hxhi
    rwa [e1, hhighE] at this
  · -- shortest
    rintro m j hj ⟨h1, h2⟩
    have hm : ((m * 10 ^ (j - (-K + kap + 1)).toNat : ℕ) : ℚ) * 10 ^ (kap + 1) * 10 ^ (-K) = (m : ℚ) * 10 ^ j := by
      push_cast
      rw [← zpow_natCast (10 : ℚ) (j - (-K + kap + 1)).toNat, mul_assoc, mul_assoc, ← zpow_add₀ (by norm_num),
        ← zpow_add₀ (by norm_num)]
      congr 2; omega
    rw [← hm] at h1 h2
    refine hshort (m * 10 ^ (j - (-K + kap + 1)).toNat) ⟨?_, ?_⟩
    · by_contra hcon
      rw [not_le] at hcon
      have hx : ((PL * cf.toNat + 2 ^ 63) / 2 ^ 64 - 1 : ℤ) <
          ((m * 10 ^ (j - (-K + kap + 1)).toNat : ℕ) : ℚ) * 10 ^ (kap + 1) * 2 ^ sh := by
        refine lt_of_le_of_lt ?_ hcon
        have : ((PL * cf.toNat + 2 ^ 63) / 2 ^ 64 - 1 : ℤ) = ((P - 1 : ℕ) : ℤ) := by
          rw [Nat.cast_sub (by omega), hPdef, hA]; push_cast; rfl
        rw [this]; norm_cast
      have := scaled_upper_conv PL cf.toNat (e - s) ce K sh s hs11 htop (by omega) hPLlt hacc _ hx
      rw [hhighE, hmarg] at this
      exact lt_asymm h2 this
    · by_contra hcon
      rw [not_lt, hc1] at hcon
      have hx : ((m * 10 ^ (j - (-K + kap + 1)).toNat : ℕ) : ℚ) * 10 ^ (kap + 1) * 2 ^ sh ≤
          ((MI * cf.toNat + 2 ^ 63) / 2 ^ 64 + 1 : ℤ) := by
        refine le_trans hcon ?_
        have : ((MI * cf.toNat + 2 ^ 63) / 2 ^ 64 + 1 : ℤ) = ((Q + 1 : ℕ) : ℤ) := by
          rw [hQdef, hB]; push_cast; rfl
        rw [this]; norm_cast
      have := scaled_lower_conv MI cf.toNat (e - s) ce K sh s hs11 htop (by omega) hMIlt hacc _ hx
      rw [hlowE, hmarg] at this
      exact absurd h1 (not_lt.mpr this)
  · -- few digits
    intro hD10
    rw [hKc]
    by_contra hcon
    have hkap : kap ≤ -10 := by omega
    rw [hc1] at hin2
    have hMI62 : 2 ^ 62 ≤ MI := by
      rw [hMI]; unfold miSig
      split
      · have : (2 * f) * 2 ^ (s - 2) ≤ (4 * f - 1) * 2 ^ (s - 2) := Nat.mul_le_mul_right _ (by omega)
        have e3 : f * 2 ^ s = 2 * ((2 * f) * 2 ^ (s - 2)) := by rw [hpow, hpow2]; ring
        omega
      · have : f * 2 ^ (s - 1) ≤ (2 * f - 1) * 2 ^ (s - 1) := Nat.mul_le_mul_right _ (by omega)
        have e3 : f * 2 ^ s = 2 * (f * 2 ^ (s - 1)) := by rw [hpow]; ring
        omega
    have hB125 : 2 ^ 125 ≤ B := by
      calc 2 ^ 125 = 2 ^ 62 * 2 ^ 63 := by norm_num
        _ ≤ MI * cf.toNat := Nat.mul_le_mul hMI62 htop
    have hQ61 : 2 ^ 61 ≤ Q := by
      rw [hQdef]; norm_num at hB125 ⊢; omega
    have h1 : (2 : ℚ) ^ 61 ≤ ((Q + 1 : ℕ) : ℚ) := by exact_mod_cast (by omega : 2 ^ 61 ≤ Q + 1)
    have h2 : (2 : ℚ) ^ sh ≤ 2 ^ 60 := pow_le_pow_right₀ (by norm_num) (by omega)
    have h3 : (10 : ℚ) ^ kap ≤ 10 ^ (-10 : ℤ) := zpow_le_zpow_right₀ (by norm_num) hkap
    have h4 : (D : ℚ) < 10 ^ 10 := by exact_mod_cast hD10
    have h5 : (D : ℚ) * 10 ^ kap ≤ 10 ^ 10 * 10 ^ (-10 : ℤ) := mul_le_mul h4.le h3 (by positivity) (by positivity)
    have h6 : (D : ℚ) * 10 ^ kap * 2 ^ sh ≤ 1 * 2 ^ 60 :=
      mul_le_mul (h5.trans (by norm_num)) h2 (by positivity) (by norm_num)
    have h7 : (2 : ℚ) ^ 61 ≤ 1 * 2 ^ 60 := h1.trans (hin2.trans h6)
    norm_num at h7
  · -- nearest
    intro hk m h1 h2
    rw [hKc] at hk
    have em : (m : ℚ) * 10 ^ kap * 10 ^ (-K) = m * 10 ^ (-K + kap) := by
      rw [mul_assoc, ← zpow_add₀ (by norm_num), add_comm kap]
    rw [← em] at h1 h2
    have hin : Inside sh (P - 1) (P - 1 - (Q + 1)) m kap := by
      constructor
      · by_contra hcon
        rw [not_le] at hcon
        have hx : ((PL * cf.toNat + 2 ^ 63) / 2 ^ 64 - 1 : ℤ) < (m : ℚ) * 10 ^ kap * 2 ^ sh := by
          refine lt_of_le_of_lt ?_ hcon
          have : ((PL * cf.toNat + 2 ^ 63) / 2 ^ 64 - 1 : ℤ) = ((P - 1 : ℕ) : ℤ) := by
            rw [Nat.cast_sub (by omega), hPdef, hA]; push_cast; rfl
          rw [this]; norm_cast
        have := scaled_upper_conv PL cf.toNat (e - s) ce K sh s hs11 htop (by omega) hPLlt hacc _ hx
        rw [hhighE, hmarg] at this
        exact lt_asymm h2 this
      · rw [hc1]
        by_contra hcon
        rw [not_le] at hcon
        have hx : (m : ℚ) * 10 ^ kap * 2 ^ sh ≤ ((MI * cf.toNat + 2 ^ 63) / 2 ^ 64 + 1 : ℤ) := by
          refine le_trans hcon.le ?_
          have : ((MI * cf.toNat + 2 ^ 63) / 2 ^ 64 + 1 : ℤ) = ((Q + 1 : ℕ) : ℤ) := by
            rw [hQdef, hB]; push_cast; rfl
          rw [this]; norm_cast
        have := scaled_lower_conv MI cf.toNat (e - s) ce K sh s hs11 htop (by omega) hMIlt hacc _ hx
        rw [hlowE, hmarg] at this
        exact absurd h1 (not_lt.mpr this)
    have hcm := hclose (hk.imp (fun h => by omega) id) m hin
    have hV' : ((P - 1 : ℕ) : ℚ) - ((P - 1 - V : ℕ) : ℚ) = (V : ℚ) := by
      rw [← Nat.cast_sub (by omega)]; congr 1; omega
    rw [hV'] at hcm
    have := scaled_close (f * 2 ^ s) cf.toNat (e - s) ce K sh s hs11 htop (by omega) hfs hacc _ _ hcm
    have hfe : ((f * 2 ^ s : ℕ) : ℚ) * 2 ^ (e - s) = f * 2 ^ e := by
      push_cast
      rw [mul_assoc, ← zpow_natCast (2 : ℚ) s, ← zpow_add₀ (by norm_num)]
      congr 2; omega
    rwa [e1, em, hfe, hmarg] at this
  · have := scaled_lower_tight MI cf.toNat (e - s) ce K sh hcf (by omega) hMIlt htight _ hxlo
    rwa [e1, hlowE] at this
  · have := scaled_upper_tight PL cf.toNat (e - s) ce K sh hcf (by omega) hPLlt htight _ hxhi
    rwa [e1, hhighE] at this
  · intro M base hM
    unfold grisu2
    have hple' : pl.e = e - s := hple
    simp only [hb, Res.ok_bind, hple', hc, hwn]
    exact hr M base hM

end Lexi.Dtoa
