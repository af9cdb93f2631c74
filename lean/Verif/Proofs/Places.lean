import Verif.Props.Amount

/-!
# Lemmas for C112: decimals of any number of places, and doubles that equal them
-/

namespace Lexi
open Spec Soft Dtoa DiyFp

/-! ## Texts -/

theorem places_zero (t : ℕ) : placeDigits t 0 = List.replicate t 48 := by
  induction t with
  | zero => rfl
  | succ t ih => rw [placeDigits, Nat.zero_div, ih, List.replicate_succ']; rfl

theorem places_pad (t r i : ℕ) : placeDigits (t + i) (r * 10 ^ i) = placeDigits t r ++ List.replicate i 48 := by
  induction i with
  | zero => simp
  | succ i ih =>
    have e : r * 10 ^ (i + 1) = r * 10 ^ i * 10 := by rw [pow_succ, mul_assoc]
    rw [← Nat.add_assoc, placeDigits, e, Nat.mul_div_cancel _ (by norm_num), ih, Nat.mul_mod_left, List.replicate_succ', ← List.append_assoc]
    rfl

theorem places_small (t D : ℕ) (h0 : 0 < D) (h : D < 10 ^ t) :
    placeDigits t D = List.replicate (t - (decN D).length) 48 ++ decN D := by
  induction t generalizing D with
  | zero => rw [pow_zero] at h; omega
  | succ t ih =>
    rw [placeDigits, dig_eq]
    by_cases h10 : D < 10
    · rw [Nat.div_eq_of_lt h10, places_zero, Nat.mod_eq_of_lt h10, decN, dif_pos h10]
      simp
    · have hp : D / 10 < 10 ^ t := by
        rw [pow_succ] at h
        omega
      rw [ih (D / 10) (by omega) hp, decN_ge10 D (by omega), List.length_append, List.append_assoc]
      congr 2
      simp

theorem withoutZeros_pad (l : List UInt8) (i : ℕ) : withoutZeros (l ++ List.replicate i 48) = withoutZeros l := by
  induction i with
  | zero => simp
  | succ i ih =>
    rw [← ih, List.replicate_succ', ← List.append_assoc]
    unfold withoutZeros
    rw [List.reverse_append]
    simp

theorem withoutZeros_last (l : List UInt8) (c : UInt8) (h : c ≠ 48) : withoutZeros (l ++ [c]) = l ++ [c] := by
  unfold withoutZeros
  have e : (l ++ [c]).reverse.dropWhile (· == 48) = (l ++ [c]).reverse := by
    rw [List.reverse_append]
    simp [h]
  rw [e, List.reverse_reverse]
  cases l <;> rfl

theorem dig_ne_48 {r : ℕ} (h : r % 10 ≠ 0) : dig (r % 10) ≠ 48 := by
  have key : ∀ k : Fin 10, k.val ≠ 0 → dig k.val ≠ 48 := by decide
  exact key ⟨r % 10, Nat.mod_lt _ (by norm_num)⟩ h

theorem withoutZeros_of (t i r : ℕ) (ht : 1 ≤ t) (h10 : r % 10 ≠ 0) : withoutZeros (placeDigits (t + i) (r * 10 ^ i)) = placeDigits t r := by
  rw [places_pad, withoutZeros_pad]
  obtain ⟨s, rfl⟩ : ∃ s, t = s + 1 := ⟨t - 1, by omega⟩
  rw [placeDigits, dig_eq]
  exact withoutZeros_last _ _ (dig_ne_48 h10)

theorem withoutZeros_none (j : ℕ) : withoutZeros (placeDigits j 0) = [48] := by
  rw [places_zero, show List.replicate j (48 : UInt8) = [] ++ List.replicate j 48 from rfl, withoutZeros_pad]
  rfl

theorem decN_lt_pow (n : ℕ) : n < 10 ^ (decN n).length := by
  induction n using Nat.strongRecOn with
  | ind n ih =>
    by_cases h : n < 10
    · rw [decN, dif_pos h]
      simpa using h
    · rw [decN_ge10 n (by omega), List.length_append, pow_add]
      have := ih (n / 10) (by omega)
      simp only [List.length_singleton, pow_one]
      omega

/-- Fixed notation from `10^-6` on. -/
theorem pretty_fixed {D t : ℕ} (ht : 1 ≤ t) (hD : 0 < D) (h17 : D < 10 ^ 17) (hs : 10 ^ t ≤ D * 10 ^ 6) :
    prettyText (decN D) (-(t : ℤ)) = decN (D / 10 ^ t) ++ 46 :: placeDigits t (D % 10 ^ t) := by
  have hl := decN_length_le 17 D h17 (by omega)
  by_cases h : 10 ^ t ≤ D
  · have e := decN_places t D h
    have hne := decN_ne_nil (D / 10 ^ t)
    have hpos : 0 < (decN (D / 10 ^ t)).length := List.length_pos_iff.mpr hne
    have hlen : (decN D).length = (decN (D / 10 ^ t)).length + t := by rw [e, List.length_append, placeDigits_length]
    unfold prettyText
    dsimp only
    rw [if_neg (by omega), if_pos (by omega)]
    have hk : (((decN D).length : ℤ) + -(t : ℤ)).toNat = (decN (D / 10 ^ t)).length := by omega
    rw [hk, e, List.take_left, List.drop_left]
  · rw [not_le] at h
    have hle : (decN D).length ≤ t := decN_length_le t D h (by omega)
    have hge : t < (decN D).length + 6 := by
      have h1 : D < 10 ^ (decN D).length := decN_lt_pow D
      have h2 : 10 ^ t < 10 ^ ((decN D).length + 6) := by
        rw [pow_add]
        exact lt_of_le_of_lt hs (Nat.mul_lt_mul_of_pos_right h1 (by norm_num))
      exact (Nat.pow_lt_pow_iff_right (by norm_num)).mp h2
    have e0 : decN 0 = [48] := by decide +kernel
    unfold prettyText
    dsimp only
    rw [if_neg (by omega), if_neg (by omega), if_pos (by omega), Nat.div_eq_of_lt h, Nat.mod_eq_of_lt h, places_small t D hD h, e0]
    have hk : (-(((decN D).length : ℤ) + -(t : ℤ))).toNat = t - (decN D).length := by omega
    rw [hk]; rfl

theorem amountText_quot {n : ℤ} {j D t : ℕ} (ht1 : 1 ≤ t) (htj : t ≤ j) (hD : D * 10 ^ (j - t) = n.natAbs)
    (h10 : D % 10 ≠ 0) (h17 : D < 10 ^ 17) (hs : 10 ^ t ≤ D * 10 ^ 6) :
    signed (n < 0) (prettyText (decN D) (-(t : ℤ))) = amountText n j := by
  have hp : 0 < 10 ^ (j - t) := by positivity
  have ej : 10 ^ j = 10 ^ t * 10 ^ (j - t) := by rw [← pow_add]; congr 1; omega
  have hm : D % 10 ^ t % 10 ≠ 0 := by
    rw [Nat.mod_mod_of_dvd _ (dvd_pow_self 10 (by omega))]; exact h10
  have ejj : placeDigits j = placeDigits (t + (j - t)) := by rw [show t + (j - t) = j by omega]
  unfold amountText
  rw [pretty_fixed ht1 (by omega) h17 hs, ← hD, ej, Nat.mul_div_mul_right _ _ hp, Nat.mul_mod_mul_right, ejj,
    withoutZeros_of t (j - t) _ ht1 hm, decimalText_nonneg _ (Int.natCast_nonneg _), Int.natAbs_natCast]
  unfold signed
  split <;> simp

/-- The number of places written down does not matter. -/
theorem amountText_pad (n : ℤ) (j i : ℕ) : amountText (n * 10 ^ i) (j + i) = amountText n j := by
  have hp : 0 < 10 ^ i := by positivity
  have ha : (n * 10 ^ i).natAbs = n.natAbs * 10 ^ i := by rw [Int.natAbs_mul, Int.natAbs_pow]; rfl
  have hs : (n * 10 ^ i < 0) = (n < 0) := by
    apply propext
    constructor
    · intro h
      by_contra hc
      exact absurd (mul_nonneg (not_lt.mp hc) (by positivity : (0 : ℤ) ≤ 10 ^ i)) (not_le.mpr h)
    · intro h
      exact mul_neg_of_neg_of_pos h (by positivity)
  unfold amountText
  simp only [hs]
  rw [ha, pow_add, Nat.mul_div_mul_right _ _ hp, Nat.mul_mod_mul_right, places_pad, withoutZeros_pad]

theorem amountText_int (z : ℤ) (j : ℕ) : amountText (z * 10 ^ j) j = decimalText z ++ ascii ".0" := by
  have h := amountText_pad z 0 j
  rw [Nat.zero_add] at h
  rw [h, ← amountText_whole (j := 0) (by norm_num), pow_zero, mul_one]

/-- Leaving out zeros. -/
theorem places_reduce (j r : ℕ) (h0 : 0 < r) (h : r < 10 ^ j) :
    ∃ t r', 1 ≤ t ∧ t ≤ j ∧ r = r' * 10 ^ (j - t) ∧ r' % 10 ≠ 0 ∧ r' < 10 ^ t := by
  induction j generalizing r with
  | zero => rw [pow_zero] at h; omega
  | succ j ih =>
    by_cases hr : r % 10 = 0
    · obtain ⟨t, r', h1, h2, h3, h4, h5⟩ := ih (r / 10) (by omega) (by rw [pow_succ] at h; omega)
      refine ⟨t, r', h1, by omega, ?_, h4, h5⟩
      rw [show j + 1 - t = j - t + 1 by omega, pow_succ, ← mul_assoc, ← h3]
      omega
    · exact ⟨j + 1, r, by omega, le_rfl, by simp, hr, h⟩

theorem digitsValue_places (t r : ℕ) (h : r < 10 ^ t) : digitsValue (placeDigits t r) = r := by
  induction t generalizing r with
  | zero => rw [pow_zero] at h; obtain rfl : r = 0 := by omega
            rfl
  | succ t ih =>
    rw [placeDigits, digitsValue_append_singleton, ih (r / 10) (by rw [pow_succ] at h; omega)]
    have key : ∀ k : Fin 10, (UInt8.ofNat (48 + k.val)).toNat - 48 = k.val := by decide
    have := key ⟨r % 10, Nat.mod_lt _ (by norm_num)⟩
    simp only at this
    rw [this]
    omega

theorem places_digits (t r : ℕ) : ∀ b ∈ placeDigits t r, IsDigit b := by
  induction t generalizing r with
  | zero => intro b hb; cases hb
  | succ t ih =>
    intro b hb
    rw [placeDigits, List.mem_append, List.mem_singleton] at hb
    rcases hb with hb | rfl
    · exact ih _ b hb
    · rw [dig_eq]
      exact isDigit_dig (Nat.mod_lt _ (by norm_num))

end Lexi
