import Verif.Spec.Amount
import Verif.Props.Cross
import Verif.Props.Twice

/-!
# Lemmas for C111: decimals with at most three places stay away from the ends of rounding intervals
-/

namespace Lexi
open Spec Soft Dtoa DiyFp

/-! ## Texts -/

theorem dig_eq (n : ℕ) : UInt8.ofNat (48 + n) = dig n := rfl

theorem decN_ge10 (n : ℕ) (h : 10 ≤ n) : decN n = decN (n / 10) ++ [dig (n % 10)] := by rw [decN, dif_neg (by omega)]

/-- The digits of a number are those of its quotient and the places of its remainder. -/
theorem decN_places (t D : ℕ) (h : 10 ^ t ≤ D) : decN D = decN (D / 10 ^ t) ++ placeDigits t (D % 10 ^ t) := by
  induction t generalizing D with
  | zero => simp [placeDigits]
  | succ t ih =>
    have hp : 0 < 10 ^ t := by positivity
    rw [pow_succ] at h
    have h10 : 10 ≤ D := by
      have : 1 * 10 ≤ 10 ^ t * 10 := Nat.mul_le_mul_right _ hp
      omega
    have hq : 10 ^ t ≤ D / 10 := (Nat.le_div_iff_mul_le (by omega)).mpr h
    have e1 : D / 10 / 10 ^ t = D / 10 ^ (t + 1) := by rw [Nat.div_div_eq_div_mul, pow_succ, mul_comm]
    have e2 : D % 10 ^ (t + 1) / 10 = D / 10 % 10 ^ t := by rw [pow_succ, mul_comm, Nat.mod_mul_right_div_self]
    have e3 : D % 10 ^ (t + 1) % 10 = D % 10 := Nat.mod_mod_of_dvd _ (dvd_pow_self 10 (by omega))
    rw [decN_ge10 D h10, ih (D / 10) hq, e1, placeDigits, e2, e3, List.append_assoc, dig_eq]

theorem placeDigits_length (t r : ℕ) : (placeDigits t r).length = t := by
  induction t generalizing r with
  | zero => rfl
  | succ t ih => simp [placeDigits, ih]

/-- Fixed notation with up to three places. -/
theorem pretty_places {D t : ℕ} (ht : t = 1 ∨ t = 2 ∨ t = 3) (hD : 0 < D) (h17 : D < 10 ^ 17) :
    prettyText (decN D) (-(t : ℤ)) = decN (D / 10 ^ t) ++ 46 :: placeDigits t (D % 10 ^ t) := by
  by_cases h : 10 ^ t ≤ D
  · have hl := decN_length_le 17 D h17 (by omega)
    have e := decN_places t D h
    have hne := decN_ne_nil (D / 10 ^ t)
    have hpos : 0 < (decN (D / 10 ^ t)).length := List.length_pos_iff.mpr hne
    have hlen : (decN D).length = (decN (D / 10 ^ t)).length + t := by rw [e, List.length_append, placeDigits_length]
    unfold prettyText
    dsimp only
    rw [if_neg (by omega), if_pos (by omega)]
    have hk : (((decN D).length : ℤ) + -(t : ℤ)).toNat = (decN (D / 10 ^ t)).length := by omega
    rw [hk, e, List.take_left, List.drop_left]
  · have key : ∀ t : Fin 4, 1 ≤ t.val → ∀ D : Fin 1000, 0 < D.val → ¬ 10 ^ t.val ≤ D.val →
        prettyText (decN D.val) (-(t.val : ℤ)) = decN (D.val / 10 ^ t.val) ++ 46 :: placeDigits t.val (D.val % 10 ^ t.val) := by
      decide +kernel
    have h1000 : 10 ^ t ≤ 1000 := by rcases ht with rfl | rfl | rfl <;> norm_num
    exact key ⟨t, by omega⟩ (by rcases ht with rfl | rfl | rfl <;> simp) ⟨D, by omega⟩ hD h

theorem withoutZeros_places {j t r : ℕ} (hj : j ≤ 3) (ht : 1 ≤ t) (htj : t ≤ j) (hr : r < 10 ^ t) (h10 : r % 10 ≠ 0) :
    withoutZeros (placeDigits j (r * 10 ^ (j - t))) = placeDigits t r := by
  have key : ∀ j : Fin 4, ∀ t : Fin 4, 1 ≤ t.val → t.val ≤ j.val → ∀ r : Fin 1000, r.val < 10 ^ t.val → r.val % 10 ≠ 0 →
      withoutZeros (placeDigits j.val (r.val * 10 ^ (j.val - t.val))) = placeDigits t.val r.val := by decide +kernel
  have h1000 : 10 ^ t ≤ 10 ^ 3 := Nat.pow_le_pow_right (by norm_num) (by omega)
  exact key ⟨j, by omega⟩ ⟨t, by omega⟩ ht htj ⟨r, by omega⟩ hr h10

theorem withoutZeros_zero {j : ℕ} (hj : j ≤ 3) : withoutZeros (placeDigits j 0) = [48] := by
  have key : ∀ j : Fin 4, withoutZeros (placeDigits j.val 0) = [48] := by decide +kernel
  exact key ⟨j, by omega⟩

/-! ## Nearest doubles -/

/-- `a * 2^c` with either sign is a double. -/
theorem dyadic_double (neg : Bool) (a : ℕ) (c : ℤ) (ha : a < 2 ^ 53) (hc : -1074 ≤ c) (ho : (a : ℚ) * 2 ^ c < dOverflow) :
    ∃ y, DFinite y ∧ dValue y = sgn neg (a * 2 ^ c) := by
  have h0 : (0 : ℚ) ≤ a * 2 ^ c := by positivity
  obtain ⟨h1, -, h2⟩ := toDouble_value neg h0 ho
  refine ⟨_, h1, ?_⟩
  rw [h2]
  rcases h0.lt_or_eq with h | h
  · rw [roundRat_exact (by norm_num) h a c hc ha rfl]
  · rw [← h, roundRat_zero]

theorem abs_dValue (u : UInt64) : |dValue u| = dMag u := by
  unfold dValue
  split
  · rw [abs_neg, abs_of_nonneg (dMag_nonneg u)]
  · rw [abs_of_nonneg (dMag_nonneg u)]

/-- The magnitude of the nearest double is nearest to the magnitude. -/
theorem nearest_mag {q : ℚ} {u : UInt64} (h : NearestEven q u) (a : ℕ) (c : ℤ) (ha : a < 2 ^ 53) (hc : -1074 ≤ c)
    (ho : (a : ℚ) * 2 ^ c < dOverflow) : abs (dMag u - abs q) ≤ abs ((a : ℚ) * 2 ^ c - abs q) := by
  obtain ⟨y, hy, e⟩ := dyadic_double (decide (q < 0)) a c ha hc ho
  have h1 := (h.2 y hy).1
  rw [← abs_dValue]
  refine (abs_abs_sub_abs_le _ _).trans (h1.trans (le_of_eq ?_))
  rw [e]
  unfold sgn
  by_cases hq : q < 0
  · rw [if_pos (by simpa using hq), abs_of_neg hq, ← abs_neg]
    congr 1
    ring
  · rw [if_neg (by simpa using hq), abs_of_nonneg (not_lt.mp hq)]

theorem nearest_sign {q : ℚ} {u : UInt64} (h : NearestEven q u) (hq : q ≠ 0) (hz : ¬ DZero u) : dNeg u ↔ q < 0 := by
  obtain ⟨y, hy, e⟩ := dyadic_double false 0 0 (by norm_num) (by norm_num) (by
    rw [Nat.cast_zero, zero_mul]; unfold dOverflow; norm_num)
  have h1 := (h.2 y hy).1
  have hm := dMag_pos hz
  rw [e] at h1
  simp only [sgn, Bool.false_eq_true, if_false, Nat.cast_zero, zero_mul, zero_sub, abs_neg] at h1
  unfold dValue at h1
  by_cases hn : dNeg u
  · simp only [hn, true_iff]
    rw [if_pos hn] at h1
    by_contra hc
    have hq' : 0 < q := lt_of_le_of_ne (not_lt.mp hc) (Ne.symm hq)
    rw [abs_of_neg (by linarith), abs_of_pos hq'] at h1
    linarith
  · simp only [hn, false_iff]
    rw [if_neg hn] at h1
    intro hc
    rw [abs_of_pos (by linarith), abs_of_neg hc] at h1
    linarith

/-- The nearest double to a number between `2^-10` and `2^47`: normal, with an ulp of at most `2^-5`, and the number is between the
ends of its interval. -/
theorem nearest_interval {q : ℚ} {u : UInt64} (h : NearestEven q u) (hlo : (2 : ℚ) ^ (-10 : ℤ) ≤ |q|) (hhi : |q| < 2 ^ (47 : ℤ)) :
    ¬ DZero u ∧ 2 ^ 52 ≤ dSig u ∧ dUlpExp u ≤ -5 ∧ lowB u ≤ |q| ∧ |q| ≤ highB u := by
  have hov : ∀ {a : ℕ} {c : ℤ}, a < 2 ^ 53 → c ≤ 0 → (a : ℚ) * 2 ^ c < dOverflow := by
    intro a c ha hc
    refine small_overflow (lt_of_le_of_lt ?_ (show (a : ℚ) < 2 ^ 53 by exact_mod_cast ha))
    have : (2 : ℚ) ^ c ≤ 2 ^ (0 : ℤ) := zpow_mono hc
    rw [zpow_zero] at this
    calc (a : ℚ) * 2 ^ c ≤ a * 1 := mul_le_mul_of_nonneg_left this (by positivity)
      _ = a := mul_one _
  have hge : (2 : ℚ) ^ (-10 : ℤ) ≤ dMag u := by
    have := nearest_mag h 1 (-10) (by norm_num) (by norm_num) (hov (by norm_num) (by norm_num))
    rw [Nat.cast_one, one_mul, abs_of_nonpos (sub_nonpos.mpr hlo)] at this
    have := (abs_le.mp this).1
    linarith
  have hle : dMag u ≤ 2 ^ (47 : ℤ) := by
    have := nearest_mag h (2 ^ 47) 0 (by norm_num) (by norm_num) (hov (by norm_num) le_rfl)
    rw [zpow_zero, mul_one] at this
    have e : (((2 ^ 47 : ℕ) : ℕ) : ℚ) = 2 ^ (47 : ℤ) := by norm_num
    rw [e, abs_of_pos (sub_pos.mpr hhi)] at this
    have := (abs_le.mp this).2
    linarith
  have hz : ¬ DZero u := fun hz => by
    rw [dMag_zero hz] at hge
    exact absurd hge (by norm_num)
  have hnorm : 2 ^ 52 ≤ dSig u := by
    by_contra hc
    have hE : dUlpExp u = -1074 := by
      unfold dUlpExp
      unfold dSig at hc
      split at hc
      · rename_i h0; rw [if_pos h0]
      · omega
    have h1 : (dSig u : ℚ) ≤ 2 ^ 52 := by exact_mod_cast (not_le.mp hc).le
    have h2 : dMag u ≤ 2 ^ 52 * 2 ^ (-1074 : ℤ) := by
      unfold dMag
      rw [hE]
      exact mul_le_mul_of_nonneg_right h1 (by positivity)
    have h3 : (2 : ℚ) ^ 52 * 2 ^ (-1074 : ℤ) < 2 ^ (-10 : ℤ) := by
      rw [show (2 : ℚ) ^ 52 = 2 ^ (52 : ℤ) by norm_num, ← zpow_add₀ (by norm_num)]
      exact zpow_lt_zpow_right₀ (by norm_num) (by norm_num)
    linarith
  have hze := zp (dUlpExp u)
  have hE : dUlpExp u ≤ -5 := by
    by_contra hc
    have h1 : (2 : ℚ) ^ 52 ≤ dSig u := by exact_mod_cast hnorm
    have h2 : (2 : ℚ) ^ (-4 : ℤ) ≤ 2 ^ dUlpExp u := zpow_mono (by omega)
    have h3 : (2 : ℚ) ^ 52 * 2 ^ (-4 : ℤ) ≤ dMag u := mul_le_mul h1 h2 (by positivity) (by positivity)
    have h4 : (2 : ℚ) ^ (47 : ℤ) < 2 ^ 52 * 2 ^ (-4 : ℤ) := by norm_num
    linarith
  have hE' : -1074 ≤ dUlpExp u - 1 := by
    by_contra hc
    have hs := DiyFp.dSig_lt u
    have h1 : (dSig u : ℚ) ≤ 2 ^ 53 := by exact_mod_cast hs.le
    have h2 : (2 : ℚ) ^ dUlpExp u ≤ 2 ^ (-1074 : ℤ) := zpow_mono (by omega)
    have h3 : dMag u ≤ 2 ^ 53 * 2 ^ (-1074 : ℤ) := mul_le_mul h1 h2 (by positivity) (by positivity)
    have h4 : (2 : ℚ) ^ 53 * 2 ^ (-1074 : ℤ) < 2 ^ (-10 : ℤ) := by
      rw [show (2 : ℚ) ^ 53 = 2 ^ (53 : ℤ) by norm_num, ← zpow_add₀ (by norm_num)]
      exact zpow_lt_zpow_right₀ (by norm_num) (by norm_num)
    linarith
  have e1 : (2 : ℚ) ^ (dUlpExp u - 1) = 2 ^ dUlpExp u / 2 := by rw [zpow_sub₀ (by norm_num)]; norm_num
  have e2 : (2 : ℚ) ^ (dUlpExp u - 2) = 2 ^ dUlpExp u / 4 := by rw [zpow_sub₀ (by norm_num)]; norm_num
  refine ⟨hz, hnorm, hE, ?_, ?_⟩
  · -- the double below
    obtain ⟨a, c, ha, hc, hc0, hv⟩ : ∃ (a : ℕ) (c : ℤ), a < 2 ^ 53 ∧ -1074 ≤ c ∧ c ≤ 0 ∧ (a : ℚ) * 2 ^ c = dMag u - 2 * lowGap u := by
      unfold lowGap
      by_cases h52 : dSig u = 2 ^ 52
      · refine ⟨2 ^ 53 - 1, dUlpExp u - 1, by norm_num, hE', by omega, ?_⟩
        rw [if_pos h52, e2, e1]
        unfold dMag
        rw [h52]
        push_cast
        ring
      · refine ⟨dSig u - 1, dUlpExp u, by have := DiyFp.dSig_lt u; omega, by omega, by omega, ?_⟩
        rw [if_neg h52, e1, Nat.cast_sub (by omega)]
        unfold dMag
        push_cast
        ring
    have hn := nearest_mag h a c ha hc (hov ha hc0)
    rw [hv] at hn
    rw [lowB_eq u hz]
    have hg := lowGap_pos u
    by_contra hcon
    rw [not_le] at hcon
    rw [abs_of_pos (show 0 < dMag u - |q| by linarith)] at hn
    rcases le_or_gt (|q|) (dMag u - 2 * lowGap u) with h' | h'
    · rw [abs_of_nonneg (show 0 ≤ dMag u - 2 * lowGap u - |q| by linarith)] at hn
      linarith
    · rw [abs_of_neg (show dMag u - 2 * lowGap u - |q| < 0 by linarith)] at hn
      linarith
  · obtain ⟨a, c, ha, hc, hc0, hv⟩ : ∃ (a : ℕ) (c : ℤ), a < 2 ^ 53 ∧ -1074 ≤ c ∧ c ≤ 0 ∧ (a : ℚ) * 2 ^ c = dMag u + 2 ^ dUlpExp u := by
      by_cases h53 : dSig u + 1 = 2 ^ 53
      · refine ⟨2 ^ 52, dUlpExp u + 1, by norm_num, by omega, by omega, ?_⟩
        unfold dMag
        have : (dSig u : ℚ) = 2 ^ 53 - 1 := by
          have : ((dSig u + 1 : ℕ) : ℚ) = ((2 ^ 53 : ℕ) : ℚ) := by rw [h53]
          push_cast at this
          linarith
        rw [this, zpow_add₀ (by norm_num)]
        push_cast
        norm_num
        ring
      · refine ⟨dSig u + 1, dUlpExp u, by have := DiyFp.dSig_lt u; omega, by omega, by omega, ?_⟩
        unfold dMag
        push_cast
        ring
    have hn := nearest_mag h a c ha hc (hov ha hc0)
    rw [hv] at hn
    rw [highB_eq, e1]
    by_contra hcon
    rw [not_le] at hcon
    rw [abs_of_neg (show dMag u - |q| < 0 by linarith)] at hn
    rcases le_or_gt (|q|) (dMag u + 2 ^ dUlpExp u) with h' | h'
    · rw [abs_of_nonneg (show 0 ≤ dMag u + 2 ^ dUlpExp u - |q| by linarith)] at hn
      linarith
    · rw [abs_of_neg (show dMag u + 2 ^ dUlpExp u - |q| < 0 by linarith)] at hn
      linarith

/-- Thousandths are never within `1/256` ulp of the ends of an interval: multiplied by `1000 * 2^g` number and end are integers which
differ modulo 4, or modulo 16. -/
theorem thousandths_inside {u : UInt64} (hnorm : 2 ^ 52 ≤ dSig u) (hE : dUlpExp u ≤ -5) {N : ℕ} {q : ℚ} (hq : q * 1000 = N)
    (hlo : lowB u ≤ q) (hhi : q ≤ highB u) :
    lowB u + 2 ^ (dUlpExp u - 8) < q ∧ q < highB u - 2 ^ (dUlpExp u - 8) := by
  obtain ⟨g, hg⟩ : ∃ g : ℕ, dUlpExp u = -(g : ℤ) - 5 := ⟨(-(dUlpExp u) - 5).toNat, by omega⟩
  -- the unit
  obtain ⟨z, hz, hzg⟩ : ∃ z : ℚ, 0 < z ∧ (2 : ℚ) ^ (dUlpExp u) = 512 * z ∧ z * 2 ^ g * 16384 = 1 := by
    refine ⟨2 ^ (-(g : ℤ) - 14), by positivity, ?_, ?_⟩
    · rw [hg, show (512 : ℚ) = 2 ^ (9 : ℤ) by norm_num, ← zpow_add₀ (by norm_num)]
      congr 1; ring
    · rw [show (16384 : ℚ) = 2 ^ (14 : ℤ) by norm_num, ← zpow_natCast, ← zpow_add₀ (by norm_num), ← zpow_add₀ (by norm_num)]
      rw [show -(g : ℤ) - 14 + g + 14 = 0 by ring, zpow_zero]
  obtain ⟨hzu, hzg⟩ := hzg
  have e1 : (2 : ℚ) ^ (dUlpExp u - 1) = 256 * z := by rw [zpow_sub₀ (by norm_num), hzu]; norm_num; ring
  have e2 : (2 : ℚ) ^ (dUlpExp u - 2) = 128 * z := by rw [zpow_sub₀ (by norm_num), hzu]; norm_num; ring
  have e8 : (2 : ℚ) ^ (dUlpExp u - 8) = 2 * z := by rw [zpow_sub₀ (by norm_num), hzu]; norm_num; ring
  -- q in that unit
  have hqz : q * 1000 = N * (2 ^ g * 16384) * z := by
    rw [hq]
    calc (N : ℚ) = N * 1 := (mul_one _).symm
      _ = N * (z * 2 ^ g * 16384) := by rw [hzg]
      _ = _ := by ring
  have scale : ∀ {A B : ℤ}, (A : ℚ) * z ≤ B * z → A ≤ B := by
    intro A B h
    exact_mod_cast le_of_mul_le_mul_right h hz
  have scale' : ∀ {A B : ℤ}, A < B → (A : ℚ) * z < B * z := by
    intro A B h
    exact mul_lt_mul_of_pos_right (by exact_mod_cast h) hz
  set P : ℤ := (N : ℤ) * 2 ^ g with hP
  have hPq : q * 1000 = ((P * 16384 : ℤ) : ℚ) * z := by rw [hqz, hP]; push_cast; ring
  rw [e8]
  constructor
  · unfold lowB at hlo ⊢
    split at hlo <;> rename_i h52
    · rw [if_pos h52]
      rw [e2, Nat.cast_sub (by omega)] at hlo
      rw [e2, Nat.cast_sub (by omega)]
      push_cast at hlo ⊢
      have h1 := scale (A := (4 * dSig u - 1) * 128000) (B := P * 16384) (by
        rw [← hPq]; push_cast; linarith)
      have h2 := scale' (A := (4 * dSig u - 1) * 128000 + 2000) (B := P * 16384) (by
        rw [h52] at h1 ⊢
        norm_num at h1 ⊢
        omega)
      rw [← hPq] at h2
      push_cast at h2
      linarith
    · rw [if_neg h52]
      rw [e1, Nat.cast_sub (by omega)] at hlo
      rw [e1, Nat.cast_sub (by omega)]
      push_cast at hlo ⊢
      have h1 := scale (A := (2 * dSig u - 1) * 256000) (B := P * 16384) (by
        rw [← hPq]; push_cast; linarith)
      have h2 := scale' (A := (2 * dSig u - 1) * 256000 + 2000) (B := P * 16384) (by omega)
      rw [← hPq] at h2
      push_cast at h2
      linarith
  · unfold highB at hhi ⊢
    rw [e1] at hhi ⊢
    push_cast at hhi ⊢
    have h1 := scale (A := P * 16384) (B := (2 * dSig u + 1) * 256000) (by
      rw [← hPq]; push_cast; linarith)
    have h2 := scale' (A := P * 16384) (B := (2 * dSig u + 1) * 256000 - 2000) (by omega)
    rw [← hPq] at h2
    push_cast at h2
    linarith

end Lexi
