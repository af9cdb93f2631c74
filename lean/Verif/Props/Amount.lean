import Verif.Proofs.Amount
import Verif.Props.LastDigit

/-!
# C111: which decimals come back as they were written
-/

namespace Lexi
open Spec Soft Dtoa DiyFp

/-- A numeral with a fraction and no exponent. -/
theorem pointed_wf (i f : Bytes) (h : i ≠ [] ∧ (∀ b ∈ i, IsDigit b) ∧ (i.length > 1 → i.head? ≠ some 48) ∧ f ≠ [] ∧ ∀ b ∈ f, IsDigit b) :
    (⟨false, i, some f, none⟩ : JNumber).WF :=
  ⟨h.1, h.2.1, h.2.2.1, fun g hg => by obtain rfl := Option.some.inj hg; exact h.2.2.2, fun e he => by cases he⟩

theorem amountText_of_quot {n : ℤ} {j D t : ℕ} (hj : j ≤ 3) (ht1 : 1 ≤ t) (htj : t ≤ j) (hD : D * 10 ^ (j - t) = n.natAbs)
    (h10 : D % 10 ≠ 0) (h17 : D < 10 ^ 17) : signed (n < 0) (prettyText (decN D) (-(t : ℤ))) = amountText n j := by
  have hp : 0 < 10 ^ (j - t) := by positivity
  have ej : 10 ^ j = 10 ^ t * 10 ^ (j - t) := by rw [← pow_add]; congr 1; omega
  have hm : D % 10 ^ t % 10 ≠ 0 := by
    rw [Nat.mod_mod_of_dvd _ (dvd_pow_self 10 (by omega))]; exact h10
  unfold amountText
  rw [pretty_places (by omega) (by omega) h17, ← hD, ej, Nat.mul_div_mul_right _ _ hp, Nat.mul_mod_mul_right,
    withoutZeros_places hj ht1 htj (Nat.mod_lt _ (by positivity)) hm, decimalText_nonneg _ (Int.natCast_nonneg _), Int.natAbs_natCast]
  unfold signed
  split <;> simp

theorem amountText_whole {z : ℤ} {j : ℕ} (hj : j ≤ 3) : amountText (z * 10 ^ j) j = decimalText z ++ ascii ".0" := by
  have hp : 0 < 10 ^ j := by positivity
  have ha : (z * 10 ^ j).natAbs = z.natAbs * 10 ^ j := by rw [Int.natAbs_mul, Int.natAbs_pow]; rfl
  have hs : z * 10 ^ j < 0 ↔ z < 0 := by
    constructor
    · intro h
      by_contra hc
      exact absurd (mul_nonneg (not_lt.mp hc) (by positivity : (0 : ℤ) ≤ 10 ^ j)) (not_le.mpr h)
    · intro h
      exact mul_neg_of_neg_of_pos h (by positivity)
  have e0 : ascii ".0" = [46, 48] := by decide +kernel
  unfold amountText
  rw [ha, Nat.mul_div_cancel _ hp, Nat.mul_mod_left, withoutZeros_zero hj, decimalText_nonneg _ (Int.natCast_nonneg _), Int.natAbs_natCast, e0]
  by_cases h : z < 0
  · rw [if_pos (hs.mpr h), decimalText_neg z h]; rfl
  · rw [if_neg (mt hs.mp h), decimalText_nonneg z (not_lt.mp h)]; rfl

/-- C111 with the value of the text. -/
theorem amount_text (env : Env) (henv : EnvOk env) (L : Literals) (junk : Bytes) (hjunk : junk.length = FLOAT_SIZE)
    (n : ℤ) (j : ℕ) (hj : j ≤ 3) (hn : n.natAbs < 10 ^ 15) (u : UInt64) (hu : NearestEven ((n : ℚ) / 10 ^ j) u) :
    stringDouble L env junk u = .ok (amountText n j) ∧ IsJsonNumber (amountText n j) ((n : ℚ) / 10 ^ j) := by
  by_cases hw : (10 : ℤ) ^ j ∣ n
  · obtain ⟨z, rfl⟩ := hw
    rw [mul_comm] at hu hn ⊢
    have hq : ((z * 10 ^ j : ℤ) : ℚ) / 10 ^ j = z := by push_cast; field_simp
    rw [hq] at hu ⊢
    have hzb : z.natAbs ≤ 2 ^ 53 := by
      rw [Int.natAbs_mul, Int.natAbs_pow] at hn
      have h1 : z.natAbs * 1 ≤ z.natAbs * (10 : ℤ).natAbs ^ j := Nat.mul_le_mul_left _ (Nat.one_le_pow _ _ (by norm_num))
      omega
    obtain ⟨y, hy, ey⟩ := whole_is_double z hzb
    have h1 := (hu.2 y hy).1
    rw [ey, sub_self, abs_zero, abs_nonpos_iff, sub_eq_zero] at h1
    rw [amountText_whole hj]
    refine ⟨C60_whole_text env henv L junk hjunk u hu.1 z h1 (by omega), wholeNumber true z, wholeNumber_wf _ _, ?_, wholeNumber_value _ _⟩
    rw [wholeNumber_text]; rfl
  · have hp : (0 : ℚ) < 10 ^ j := by positivity
    have hj1 : 1 ≤ j := by
      by_contra hc
      obtain rfl : j = 0 := by omega
      exact hw (by simp)
    have hn0 : n ≠ 0 := by rintro rfl; exact hw (dvd_zero _)
    have hq0 : (n : ℚ) / 10 ^ j ≠ 0 := div_ne_zero (by exact_mod_cast hn0) hp.ne'
    have habs : |(n : ℚ) / 10 ^ j| = (n.natAbs : ℚ) / 10 ^ j := by
      rw [abs_div, abs_of_pos hp, Nat.cast_natAbs, Int.cast_abs]
    have hna : (1 : ℚ) ≤ n.natAbs := by
      have : 1 ≤ n.natAbs := by omega
      exact_mod_cast this
    have hnb : (n.natAbs : ℚ) ≤ 10 ^ 15 := by exact_mod_cast hn.le
    have hjub : (10 : ℚ) ^ j ≤ 10 ^ 3 := pow_le_pow_right₀ (by norm_num) hj
    have hjlb : (10 : ℚ) ^ 1 ≤ 10 ^ j := pow_le_pow_right₀ (by norm_num) hj1
    obtain ⟨hz, hnorm, hE, hlo, hhi⟩ := nearest_interval hu
      (by
        rw [habs, le_div_iff₀ hp]
        calc (2 : ℚ) ^ (-10 : ℤ) * 10 ^ j ≤ 2 ^ (-10 : ℤ) * 10 ^ 3 := mul_le_mul_of_nonneg_left hjub (by positivity)
          _ ≤ 1 := by norm_num
          _ ≤ _ := hna)
      (by
        rw [habs, div_lt_iff₀ hp]
        calc (n.natAbs : ℚ) ≤ 10 ^ 15 := hnb
          _ < 2 ^ (47 : ℤ) * 10 ^ 1 := by norm_num
          _ ≤ _ := mul_le_mul_of_nonneg_left hjlb (by positivity))
    rw [habs] at hlo hhi
    have h1000 : (n.natAbs : ℚ) / 10 ^ j * 1000 = ((n.natAbs * 10 ^ (3 - j) : ℕ) : ℚ) := by
      push_cast
      rw [show (1000 : ℚ) = 10 ^ (3 - j) * 10 ^ j by rw [← pow_add, show 3 - j + j = 3 by omega]; norm_num]
      field_simp
    obtain ⟨hi1, hi2⟩ := thousandths_inside hnorm hE h1000 hlo hhi
    have hdec : (n.natAbs : ℚ) / 10 ^ j = n.natAbs * 10 ^ (-(j : ℤ)) := by rw [zpow_neg, zpow_natCast]; rfl
    rw [hdec] at hi1 hi2
    obtain ⟨D, k, hP, h⟩ := stringDouble_finite env henv u hu.1 hz
    have hval := hP.decimal hz hnorm hn hi1 hi2
    have hkj := hP.exponent_ge hi1 hi2
    have hk0 : k < 0 := by
      by_contra hc
      obtain ⟨t, rfl⟩ : ∃ t : ℕ, k = t := ⟨k.toNat, by omega⟩
      rw [← hdec, zpow_natCast, eq_div_iff hp.ne'] at hval
      have : D * 10 ^ t * 10 ^ j = n.natAbs := by exact_mod_cast hval
      exact hw (Int.natAbs_dvd_natAbs.mp (by rw [Int.natAbs_pow]; exact ⟨D * 10 ^ t, by rw [← this, mul_comm]; rfl⟩))
    obtain ⟨t, rfl⟩ : ∃ t : ℕ, k = -(t : ℤ) := ⟨(-k).toNat, by omega⟩
    have hD10 : D % 10 ≠ 0 := by
      intro hd
      refine hP.short (D / 10) (-(t : ℤ) + 1) (by omega) ?_
      have e : ((D / 10 : ℕ) : ℚ) * 10 ^ (-(t : ℤ) + 1) = D * 10 ^ (-(t : ℤ)) := by
        have : (D : ℚ) = (D / 10 : ℕ) * 10 := by exact_mod_cast (Nat.div_mul_cancel (Nat.dvd_of_mod_eq_zero hd)).symm
        rw [zpow_add_one₀ (by norm_num), this]
        ring
      rw [e, hval]
      exact ⟨hi1, hi2⟩
    have hDn : D * 10 ^ (j - t) = n.natAbs := by
      have e : (D : ℚ) * 10 ^ (j - t) = n.natAbs := by
        have h2 : (D : ℚ) * 10 ^ (-(t : ℤ)) * 10 ^ (j : ℤ) = n.natAbs := by
          rw [hval, mul_assoc, ← zpow_add₀ (by norm_num), neg_add_cancel, zpow_zero, mul_one]
        rw [← h2, mul_assoc, ← zpow_add₀ (by norm_num), ← zpow_natCast]
        congr 2
        omega
      exact_mod_cast e
    have hsgn := nearest_sign hu hq0 hz
    have hnq : (n : ℚ) / 10 ^ j < 0 ↔ n < 0 := by
      rw [div_lt_iff₀ hp, zero_mul]
      exact_mod_cast Iff.rfl
    have hs : dNeg u ↔ n < 0 := hsgn.trans hnq
    have htext : signed (dNeg u) (prettyText (decN D) (-(t : ℤ))) = amountText n j := by
      rw [← amountText_of_quot hj (by omega) (by omega) hDn hD10 hP.lt17]
      unfold signed
      simp only [hs]
    refine ⟨by rw [h u rfl L junk hjunk, htext], prettyNumber (decide (dNeg u)) (decN D) (-(t : ℤ)), hP.WF hz _, ?_, ?_⟩
    · rw [← signed_text, htext]
    · rw [pretty_value, hval, ← hdec]
      have ecast : (n.natAbs : ℚ) = |(n : ℚ)| := by rw [Nat.cast_natAbs, Int.cast_abs]
      by_cases hneg : n < 0
      · rw [if_pos (hs.mpr hneg), ecast, abs_of_neg (by exact_mod_cast hneg)]; ring
      · rw [if_neg (mt hs.mp hneg), ecast, abs_of_nonneg (by exact_mod_cast not_lt.mp hneg)]

/-- C111.  The double nearest to a decimal of at most 15 digits and at most three places is written as that decimal, on every
platform. -/
theorem C111_text (env : Env) (henv : EnvOk env) (L : Literals) (junk : Bytes) (hjunk : junk.length = FLOAT_SIZE)
    (n : ℤ) (j : ℕ) (hj : j ≤ 3) (hn : n.natAbs < 10 ^ 15) (u : UInt64) (hu : NearestEven ((n : ℚ) / 10 ^ j) u) :
    stringDouble L env junk u = .ok (amountText n j) :=
  (amount_text env henv L junk hjunk n j hj hn u hu).1

/-- The specified text is a JSON number of the value meant. -/
theorem C111_number (n : ℤ) (j : ℕ) (hj : j ≤ 3) (hn : n.natAbs < 10 ^ 15) : IsJsonNumber (amountText n j) ((n : ℚ) / 10 ^ j) := by
  have hp : (0 : ℚ) < 10 ^ j := by positivity
  have h0 : (0 : ℚ) ≤ n.natAbs / 10 ^ j := by positivity
  have hlt : (n.natAbs : ℚ) / 10 ^ j < 2 ^ 53 := by
    rw [div_lt_iff₀ hp]
    have h1 : (n.natAbs : ℚ) < 10 ^ 15 := by exact_mod_cast hn
    have h2 : (1 : ℚ) ≤ 10 ^ j := one_le_pow₀ (by norm_num)
    calc (n.natAbs : ℚ) < 2 ^ 53 * 1 := h1.trans (by norm_num)
      _ ≤ _ := mul_le_mul_of_nonneg_left h2 (by positivity)
  have hu := ((round_nearest (decide (n < 0)) h0).1 (small_overflow hlt)).1
  have e : sgn (decide (n < 0)) ((n.natAbs : ℚ) / 10 ^ j) = (n : ℚ) / 10 ^ j := by
    have ecast : (n.natAbs : ℚ) = |(n : ℚ)| := by rw [Nat.cast_natAbs, Int.cast_abs]
    unfold sgn
    by_cases hneg : n < 0
    · rw [if_pos (by simpa using hneg), ecast, abs_of_neg (by exact_mod_cast hneg)]; ring
    · rw [if_neg (by simpa using hneg), ecast, abs_of_nonneg (by exact_mod_cast not_lt.mp hneg)]
  rw [e] at hu
  exact (amount_text sampleEnv sampleEnv_ok .default (List.replicate 30 0) rfl n j hj hn _ hu).2

/-- C111, there and back.  Such a decimal is read and written again as it was, whether `long double` is a double (MSVC), the
80-bit format of x86 or binary128. -/
theorem C111_cycle (env : Env) (henv : EnvOk env) (L : Literals) (junk : Bytes) (hjunk : junk.length = FLOAT_SIZE) (F : FpFormat)
    (hF : F = .binary64 ∨ 62 ≤ F.p ∧ F.emin + F.p ≤ -1021 ∧ 1024 ≤ F.emax) (n : ℤ) (j : ℕ) (hj : j ≤ 3) (hn : n.natAbs < 10 ^ 15) :
    stringDouble L env junk (lexiDouble F (amountText n j)) = .ok (amountText n j) := by
  obtain ⟨N, hwf, ht, hv⟩ := C111_number n j hj hn
  refine C111_text env henv L junk hjunk n j hj hn _ ?_
  have hp : (0 : ℚ) < 10 ^ j := by positivity
  have habs : |(n : ℚ) / 10 ^ j| = (n.natAbs : ℚ) / 10 ^ j := by
    rw [abs_div, abs_of_pos hp, Nat.cast_natAbs, Int.cast_abs]
  have hmag : N.mag = (n.natAbs : ℚ) / 10 ^ j := by
    rw [← habs, ← hv, value_sgn]
    unfold sgn
    split
    · rw [abs_neg, abs_of_nonneg (mag_nonneg N)]
    · rw [abs_of_nonneg (mag_nonneg N)]
  have hlt : N.mag < 2 ^ 53 := by
    rw [hmag, div_lt_iff₀ hp]
    have h1 : (n.natAbs : ℚ) < 10 ^ 15 := by exact_mod_cast hn
    have h2 : (1 : ℚ) ≤ 10 ^ j := one_le_pow₀ (by norm_num)
    calc (n.natAbs : ℚ) < 2 ^ 53 * 1 := h1.trans (by norm_num)
      _ ≤ _ := mul_le_mul_of_nonneg_left h2 (by positivity)
  rw [← hv, ← ht]
  rcases hF with rfl | ⟨h1, h2, h3⟩
  · exact ((C55_nearest N hwf).1 (small_overflow hlt)).1
  · refine C85_places_double F (by omega) h2 h3 N hwf hlt 3 (n.natAbs * 10 ^ (3 - j)) ?_ ?_
    · calc 10 ^ 3 < 2 ^ 10 := by norm_num
        _ ≤ 2 ^ (F.p - 52) := Nat.pow_le_pow_right (by norm_num) (by omega)
    · rw [hmag]
      push_cast
      rw [show (10 : ℚ) ^ 3 = 10 ^ (3 - j) * 10 ^ j by rw [← pow_add, show 3 - j + j = 3 by omega]]
      field_simp

/-- The text of a double has the same length everywhere. -/
theorem double_length (env env' : Env) (h : EnvOk env) (h' : EnvOk env') (L L' : Literals) (junk junk' : Bytes)
    (hj : junk.length = FLOAT_SIZE) (hj' : junk'.length = FLOAT_SIZE) (u : UInt64) (hfin : DFinite u) (hnz : ¬ DZero u) (t : Bytes)
    (ht : stringDouble L env junk u = .ok t) : ∃ t', stringDouble L' env' junk' u = .ok t' ∧ t'.length = t.length := by
  obtain ⟨D, k, hP, hs⟩ := stringDouble_finite env h u hfin hnz
  have e : stringDouble L' env junk' u = .ok t := by rw [hs u rfl L' junk' hj', ← ht, hs u rfl L junk hj]
  exact C92_length env env' h h' L' junk' hj' (LVal.ofDouble u) t e

/-- C111, the limit.  On every platform the decimals of at most 15 digits and `k` places are all written as they are exactly when
`k` is at most three: `65536.0553` is written with 16 digits. -/
theorem C111_limit (env : Env) (henv : EnvOk env) (L : Literals) (junk : Bytes) (hjunk : junk.length = FLOAT_SIZE) (k : ℕ) :
    (∀ (n : ℤ) (j : ℕ) (u : UInt64), j ≤ k → n.natAbs < 10 ^ 15 → NearestEven ((n : ℚ) / 10 ^ j) u →
      stringDouble L env junk u = .ok (amountText n j)) ↔ k ≤ 3 := by
  constructor
  · intro h
    by_contra hk
    have e1 : lexiDouble .binary64 (ascii "65536.0553") = 0x40F00000E28240B8 := by decide +kernel
    let N : JNumber := ⟨false, ascii "65536", some (ascii "0553"), none⟩
    have hwf : N.WF := pointed_wf _ _ (by decide +kernel)
    have hNt : N.text = ascii "65536.0553" := by decide +kernel
    have hNv : N.value = (655360553 : ℤ) / 10 ^ 4 := by decide +kernel
    have hNm : N.mag < 2 ^ 53 := by decide +kernel
    have hu := ((C55_nearest N hwf).1 (small_overflow hNm)).1
    rw [hNv, hNt, e1] at hu
    have h1 := h _ _ _ (by omega) (by norm_num) hu
    have e2 : stringDouble .default sampleEnv (List.replicate 30 0) 0x40F00000E28240B8 = .ok (ascii "65536.05530000001") := by
      decide +kernel
    obtain ⟨t', ht', hl⟩ := double_length sampleEnv env sampleEnv_ok henv .default L (List.replicate 30 0) junk rfl hjunk _
      (by decide) (by decide) _ e2
    rw [ht'] at h1
    rw [Res.ok.inj h1] at hl
    exact absurd hl (by decide +kernel)
  · intro hk n j u hj hn hu
    exact C111_text env henv L junk hjunk n j (by omega) hn u hu

/-- C111, no digit count is safe either: `5e22`, of one digit, is written with 17 digits on every platform. -/
theorem C111_one_digit : NearestEven (5 * 10 ^ 22) 0x44A52D02C7E14AF6 ∧
    ∀ (env : Env), EnvOk env → ∀ (L : Literals) (junk : Bytes), junk.length = FLOAT_SIZE →
      ∃ t, stringDouble L env junk 0x44A52D02C7E14AF6 = .ok t ∧ t.length = 21 := by
  constructor
  · have e1 : lexiDouble .binary64 (ascii "5e22") = 0x44A52D02C7E14AF6 := by decide +kernel
    let N : JNumber := ⟨false, ascii "5", none, some ⟨101, [], ascii "22"⟩⟩
    have hwf : N.WF := ⟨by decide +kernel, by decide +kernel, by decide +kernel, (fun g hg => by cases hg), fun e he => by
      obtain rfl := Option.some.inj he
      exact ⟨by decide, by decide, by decide +kernel, by decide +kernel⟩⟩
    have hNt : N.text = ascii "5e22" := by decide +kernel
    have hNv : N.value = 5 * 10 ^ 22 := by decide +kernel
    have hNm : N.mag < dOverflow := by
      have : N.mag = 5 * 10 ^ 22 := by decide +kernel
      rw [this]
      unfold dOverflow
      calc (5 : ℚ) * 10 ^ 22 < (2 ^ 54 - 1) * 2 ^ 30 := by norm_num
        _ ≤ _ := mul_le_mul_of_nonneg_left (pow_le_pow_right₀ (by norm_num) (by norm_num)) (by norm_num)
    have hu := ((C55_nearest N hwf).1 hNm).1
    rwa [hNv, hNt, e1] at hu
  · intro env henv L junk hjunk
    have e2 : stringDouble .default sampleEnv (List.replicate 30 0) 0x44A52D02C7E14AF6 = .ok (ascii "4.9999999999999999e22") := by
      decide +kernel
    obtain ⟨t', ht', hl⟩ := double_length sampleEnv env sampleEnv_ok henv .default L (List.replicate 30 0) junk rfl hjunk _
      (by decide) (by decide) _ e2
    exact ⟨t', ht', hl.trans (by decide +kernel)⟩

/-- C111, where the platform cannot be seen.  A normal double near (`NearMag`, C53) any decimal of at most 15 digits has the same
text on every platform. -/
theorem C111_portable (env env' : Env) (h : EnvOk env) (h' : EnvOk env') (L : Literals) (junk : Bytes)
    (hj : junk.length = FLOAT_SIZE) (u : UInt64) (hfin : DFinite u) (hnorm : dExp u ≠ 0) (m : ℕ) (j : ℤ) (hm : m < 10 ^ 15)
    (hnear : NearMag u (m * 10 ^ j)) : stringDouble L env junk u = stringDouble L env' junk u := by
  have hnz : ¬ DZero u := fun h => hnorm h.1
  have hsig : 2 ^ 52 ≤ dSig u := by unfold dSig; rw [if_neg hnorm]; omega
  obtain ⟨D, k, hP, hs⟩ := stringDouble_finite env h u hfin hnz
  obtain ⟨D', k', hP', hs'⟩ := stringDouble_finite env' h' u hfin hnz
  obtain ⟨h1, h2⟩ := hnear.inside hnz
  have e := hP.decimal hnz hsig hm h1 h2
  have e' := hP'.decimal hnz hsig hm h1 h2
  have hk : k' ≤ k := hP.exponent_ge (by rw [e']; exact h1) (by rw [e']; exact h2)
  have hk' : k ≤ k' := hP'.exponent_ge (by rw [e]; exact h1) (by rw [e]; exact h2)
  obtain rfl : k = k' := le_antisymm hk' hk
  have hD : D = D' := by
    have : (D : ℚ) = D' := mul_right_cancel₀ (zpow_ne_zero k (by norm_num : (10 : ℚ) ≠ 0)) (e.trans e'.symm)
    exact_mod_cast this
  rw [hs u rfl L junk hj, hs' u rfl L junk hj, hD]

/-! Non-vacuity: a price, a temperature, a sum of fifteen digits; a platform with 80-bit `long double`. -/
example : amountText 1999 2 = ascii "19.99" ∧ amountText (-40) 3 = ascii "-0.04" ∧ amountText 999999999999999 3 = ascii "999999999999.999" := by
  decide +kernel
example : NearestEven ((1999 : ℤ) / 10 ^ 2) 0x4033FD70A3D70A3D := by
  have e1 : lexiDouble .binary64 (ascii "19.99") = 0x4033FD70A3D70A3D := by decide +kernel
  let N : JNumber := ⟨false, ascii "19", some (ascii "99"), none⟩
  have hwf : N.WF := pointed_wf _ _ (by decide +kernel)
  have hNt : N.text = ascii "19.99" := by decide +kernel
  have hNv : N.value = (1999 : ℤ) / 10 ^ 2 := by decide +kernel
  have hNm : N.mag < 2 ^ 53 := by decide +kernel
  have hu := ((C55_nearest N hwf).1 (small_overflow hNm)).1
  rwa [hNv, hNt, e1] at hu
example : stringDouble .default sampleEnv (List.replicate 30 0) 0x4033FD70A3D70A3D = .ok (amountText 1999 2) := by decide +kernel
example : 62 ≤ FpFormat.x87.p ∧ FpFormat.x87.emin + FpFormat.x87.p ≤ -1021 ∧ 1024 ≤ FpFormat.x87.emax := by decide
example : stringDouble .default sampleEnv (List.replicate 30 0) (lexiDouble .x87 (ascii "-999999999999.999")) =
    .ok (ascii "-999999999999.999") := by decide +kernel
example : NearMag 0x3FB999999999999A ((1 : ℕ) * 10 ^ (-1 : ℤ)) ∧ dExp 0x3FB999999999999A ≠ 0 := ⟨tenth_near, by decide +kernel⟩

end Lexi
