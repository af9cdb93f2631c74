import Verif.Proofs.FloatFmt
import Mathlib.Tactic.NormNum

/-! # Reading printed text back through `strtold` -/

namespace Lexi
open Spec Soft Dtoa DiyFp

/-- A finite magnitude below the overflow threshold stays finite. -/
theorem round_finite (F : FpFormat) (neg : Bool) (q : ℚ) (hmax : 1024 ≤ F.emax)
    (h : roundRat F.p F.emin q < 2 ^ (1024 : ℤ)) : F.round neg q = .fin neg (roundRat F.p F.emin q) := by
  unfold FpFormat.round
  dsimp only
  rw [if_neg]
  rw [not_le]
  refine h.trans_le ?_
  push_cast
  rw [← zpow_natCast]
  exact zpow_mono (by exact_mod_cast hmax)

theorem highB_lt_top {u : UInt64} (hfin : DFinite u) : highB u < 2 ^ (1024 : ℤ) := by
  refine (highB_lt hfin).trans_lt ?_
  have : (2 : ℚ) ^ (1024 : ℤ) = 2 ^ 54 * 2 ^ (970 : ℤ) := by
    rw [← zpow_natCast, ← zpow_add₀ (by norm_num)]; norm_num
  rw [this]
  exact mul_lt_mul_of_pos_right (by norm_num) (zp _)

/-- The text of a positive or negative double, parsed. -/
theorem parse_signed (F : FpFormat) {u : UInt64} {D : ℕ} {k : ℤ} (hnz : ¬ DZero u) (hP : Printed u D k)
    (neg : Prop) [Decidable neg] :
    strtold F (signed neg (prettyText (decN D) k)) = F.round (decide neg) ((D : ℚ) * 10 ^ k) := by
  rw [signed_text, strtold_number F _ (hP.WF hnz _), prettyNumber_neg, pretty_mag]

/-- Rounding to a format with at least one bit more than a double keeps the value in the closed rounding
interval. -/
theorem Dtoa.Printed.round_closed {u : UInt64} {D : ℕ} {k : ℤ} (hfin : DFinite u) (hnz : ¬ DZero u)
    (hP : Printed u D k) (F : FpFormat) (hp : 54 ≤ F.p) (he : F.emin ≤ -1076) :
    lowB u ≤ roundRat F.p F.emin ((D : ℚ) * 10 ^ k) ∧ roundRat F.p F.emin ((D : ℚ) * 10 ^ k) ≤ highB u := by
  have hV : 0 < (D : ℚ) * 10 ^ k := (lowB_pos hnz).trans hP.lower
  have hs := dSig_lt u
  have hs0 := dSig_pos hnz
  have hb := ulpExp_bounds u hfin
  have hpow : 2 ^ 54 ≤ 2 ^ F.p := Nat.pow_le_pow_right (by omega) hp
  constructor
  · unfold lowB
    have h1 := hP.lower
    unfold lowB at h1
    split at h1 <;> rename_i h52
    · rw [if_pos h52]
      exact le_roundRat (by omega) hV _ _ (by omega) (by omega) h1.le
    · rw [if_neg h52]
      exact le_roundRat (by omega) hV _ _ (by omega) (by omega) h1.le
  · exact roundRat_le hV _ _ (by omega) (by omega) hP.upper.le

theorem highB_mul (u : UInt64) : highB u = ((dSig u : ℚ) + 1 / 2) * 2 ^ dUlpExp u := by
  rw [highB_eq, zpow_sub_one₀ (by norm_num)]; unfold dMag; ring

theorem lowB_mul (u : UInt64) (hnz : ¬ DZero u) :
    lowB u = ((dSig u : ℚ) - (if dSig u = 2 ^ 52 then 1 / 4 else 1 / 2)) * 2 ^ dUlpExp u := by
  rw [lowB_eq u hnz]; unfold dMag lowGap
  split
  · rw [zpow_sub₀ (by norm_num)]; norm_num; ring
  · rw [zpow_sub_one₀ (by norm_num)]; ring

/-- Strictly inside the interval. -/
theorem interval_open {u : UInt64} (hnz : ¬ DZero u) {q : ℚ} (h1 : lowB u ≤ q) (h2 : q < highB u)
    (h3 : lowB u < q ∨ dSig u = 2 ^ 52) : InInterval 53 (-1074) (dSig u) (dUlpExp u) q := by
  rw [highB_mul] at h2
  rw [lowB_mul u hnz] at h1 h3
  have hz := zp (dUlpExp u)
  by_cases h52 : dSig u = 2 ^ 52
  · rw [if_pos h52] at h1
    refine ⟨Or.inl h2, Or.inl ?_, fun _ _ => h1⟩
    refine lt_of_lt_of_le ?_ h1
    exact mul_lt_mul_of_pos_right (by linarith) hz
  · rw [if_neg h52] at h1 h3
    rcases h3 with h3 | h3
    · exact ⟨Or.inl h2, Or.inl h3, fun h => absurd h h52⟩
    · exact absurd h3 h52

/-- In the closed interval, even significand. -/
theorem interval_even {u : UInt64} (hnz : ¬ DZero u) {q : ℚ} (h1 : lowB u ≤ q) (h2 : q ≤ highB u)
    (hev : dSig u % 2 = 0) : InInterval 53 (-1074) (dSig u) (dUlpExp u) q := by
  rw [highB_mul] at h2
  rw [lowB_mul u hnz] at h1
  have hz := zp (dUlpExp u)
  refine ⟨Or.inr ⟨hev, h2⟩, Or.inr ⟨hev, ?_⟩, fun h52 _ => ?_⟩
  · refine le_trans (mul_le_mul_of_nonneg_right ?_ hz.le) h1
    split <;> linarith
  · have h52' : dSig u = 2 ^ 52 := h52
    rw [if_pos h52'] at h1; exact h1

theorem toNat_succ (u : UInt64) (h : u.toNat + 1 < 2 ^ 64) : (u + 1).toNat = u.toNat + 1 := by
  rw [UInt64.toNat_add]; exact Nat.mod_eq_of_lt h

theorem toNat_pred (u : UInt64) (h : 1 ≤ u.toNat) : (u - 1).toNat = u.toNat - 1 := by
  rw [UInt64.toNat_sub_of_le _ _ (by rw [UInt64.le_iff_toNat_le]; exact h)]; rfl

/-- The next bit pattern: same sign, next magnitude. -/
theorem succ_fields (u : UInt64) (hfin : DFinite u) (hodd : dSig u % 2 = 1) (hfin' : DFinite (u + 1)) :
    (dNeg (u + 1) ↔ dNeg u) ∧ dSig (u + 1) % 2 = 0 ∧
      ((dSig (u + 1) = dSig u + 1 ∧ dUlpExp (u + 1) = dUlpExp u ∧ (dSig u + 1 = 2 ^ 52 → dUlpExp u = -1074)) ∨
       (dSig u + 1 = 2 ^ 53 ∧ dSig (u + 1) = 2 ^ 52 ∧ dUlpExp (u + 1) = dUlpExp u + 1)) := by
  have hu := u.toNat_lt
  have hf : dFrac u % 2 = 1 := by unfold dSig at hodd; split at hodd <;> omega
  have hE := dExp_lt u
  have hE' : dExp u ≤ 2046 := by unfold DFinite at hfin; omega
  have hs1 : (u + 1).toNat = u.toNat + 1 := by
    apply toNat_succ
    unfold dExp at hE'; omega
  unfold DFinite at hfin'
  have eE : dExp (u + 1) = (u.toNat + 1) / 2 ^ 52 % 2 ^ 11 := by unfold dExp; rw [hs1]
  have eF : dFrac (u + 1) = (u.toNat + 1) % 2 ^ 52 := by unfold dFrac; rw [hs1]
  have eN : dNeg (u + 1) ↔ 2 ^ 63 ≤ u.toNat + 1 := by unfold dNeg; rw [hs1]
  by_cases hc : dFrac u + 1 = 2 ^ 52
  · have h1 : dExp (u + 1) = dExp u + 1 := by
      rw [eE]; unfold dExp dFrac at *; omega
    have h2 : dFrac (u + 1) = 0 := by
      rw [eF]; unfold dFrac at *; omega
    refine ⟨?_, ?_, ?_⟩
    · rw [eN]; unfold dNeg; unfold dExp dFrac at *; omega
    · unfold dSig; rw [h1, h2, if_neg (by omega)]; norm_num
    · unfold dSig dUlpExp
      rw [h1, h2]
      by_cases h0 : dExp u = 0
      · left
        rw [if_pos h0, if_pos h0, if_neg (by omega), if_neg (by omega), h0]
        refine ⟨by omega, by norm_num, fun _ => rfl⟩
      · right
        rw [if_neg h0, if_neg h0, if_neg (by omega), if_neg (by omega)]
        refine ⟨by omega, rfl, by push_cast; omega⟩
  · have hfl := dFrac_lt u
    have h1 : dExp (u + 1) = dExp u := by
      rw [eE]; unfold dExp dFrac at *; omega
    have h2 : dFrac (u + 1) = dFrac u + 1 := by
      rw [eF]; unfold dFrac at *; omega
    refine ⟨?_, ?_, Or.inl ⟨?_, ?_, ?_⟩⟩
    · rw [eN]; unfold dNeg; unfold dExp dFrac at *; omega
    · unfold dSig; rw [h1, h2]; split <;> omega
    · unfold dSig; rw [h1, h2]; split <;> omega
    · unfold dUlpExp; rw [h1]
    · unfold dSig dUlpExp
      split
      · intro _; rfl
      · intro h; omega

/-- The previous bit pattern of an odd significand: same exponent. -/
theorem pred_fields (u : UInt64) (hfin : DFinite u) (hodd : dSig u % 2 = 1) :
    DFinite (u - 1) ∧ (dNeg (u - 1) ↔ dNeg u) ∧ dSig (u - 1) + 1 = dSig u ∧ dUlpExp (u - 1) = dUlpExp u := by
  have hu := u.toNat_lt
  have hf : dFrac u % 2 = 1 := by unfold dSig at hodd; split at hodd <;> omega
  have hs1 : (u - 1).toNat = u.toNat - 1 := by
    apply toNat_pred
    unfold dFrac at hf; omega
  have h1 : dExp (u - 1) = dExp u := by
    unfold dExp; rw [hs1]; unfold dFrac at hf; omega
  have h2 : dFrac (u - 1) + 1 = dFrac u := by
    unfold dFrac; rw [hs1]; unfold dFrac at hf; omega
  refine ⟨?_, ?_, ?_, ?_⟩
  · unfold DFinite; rw [h1]; exact hfin
  · unfold dNeg; rw [hs1]; unfold dFrac at hf; omega
  · unfold dSig; rw [h1]; split <;> omega
  · unfold dUlpExp; rw [h1]

/-- The printed text of the largest finite doubles stays clear of the overflow threshold. -/
theorem Dtoa.Printed.top {u : UInt64} {D : ℕ} {k : ℤ} (hP : Printed u D k) (htop : dSig u = 2 ^ 53 - 1)
    (he : dUlpExp u = 971) : (D : ℚ) * 10 ^ k ≤ (2 ^ 64 - 2 ^ 10 - 1 : ℕ) * 2 ^ (960 : ℤ) := by
  have h17 := hP.lt17
  have hup := hP.upper
  unfold highB at hup
  rw [htop, he] at hup
  have z960 : (2 : ℚ) ^ (960 : ℤ) = ((2 ^ 960 : ℕ) : ℚ) := by
    rw [show (960 : ℤ) = ((960 : ℕ) : ℤ) by norm_num, zpow_natCast]; push_cast; rfl
  have z970 : (2 : ℚ) ^ ((971 : ℤ) - 1) = ((2 ^ 970 : ℕ) : ℚ) := by
    rw [show (971 : ℤ) - 1 = ((970 : ℕ) : ℤ) by norm_num, zpow_natCast]; push_cast; rfl
  rw [z970] at hup
  rw [z960]
  rcases le_or_gt (292 : ℤ) k with hk | hk
  · obtain ⟨n, hn⟩ : ∃ n : ℕ, (D : ℚ) * 10 ^ k = ((n * 10 ^ 292 : ℕ) : ℚ) := by
      refine ⟨D * 10 ^ (k - 292).toNat, ?_⟩
      have : k = ((k - 292).toNat : ℤ) + ((292 : ℕ) : ℤ) := by push_cast; omega
      conv_lhs => rw [this]
      rw [zpow_add₀ (by norm_num), zpow_natCast, zpow_natCast]
      push_cast; ring
    rw [hn] at hup ⊢
    have h1 : n * 10 ^ 292 < (2 * (2 ^ 53 - 1) + 1) * 2 ^ 970 := by exact_mod_cast hup
    have h2 : n ≤ 17976931348623158 := by
      by_contra hc
      push Not at hc
      have h3 : 17976931348623159 * 10 ^ 292 ≤ n * 10 ^ 292 := Nat.mul_le_mul_right _ hc
      have h4 : (2 * (2 ^ 53 - 1) + 1) * 2 ^ 970 < 17976931348623159 * 10 ^ 292 := by decide +kernel
      omega
    have h3 : n * 10 ^ 292 ≤ 17976931348623158 * 10 ^ 292 := Nat.mul_le_mul_right _ h2
    have h4 : 17976931348623158 * 10 ^ 292 ≤ (2 ^ 64 - 2 ^ 10 - 1) * 2 ^ 960 := by decide +kernel
    exact_mod_cast h3.trans h4
  · have h1 : (10 : ℚ) ^ k ≤ 10 ^ (291 : ℤ) := zpow_le_zpow_right₀ (by norm_num) (by omega)
    have h2 : (D : ℚ) ≤ ((10 ^ 17 : ℕ) : ℚ) := by exact_mod_cast h17.le
    have h3 : (D : ℚ) * 10 ^ k ≤ ((10 ^ 17 : ℕ) : ℚ) * 10 ^ (291 : ℤ) :=
      mul_le_mul h2 h1 (by positivity) (by positivity)
    have z : (10 : ℚ) ^ (291 : ℤ) = ((10 ^ 291 : ℕ) : ℚ) := by
      rw [show (291 : ℤ) = ((291 : ℕ) : ℤ) by norm_num, zpow_natCast]; push_cast; rfl
    rw [z] at h3
    refine h3.trans ?_
    have h4 : 10 ^ 17 * 10 ^ 291 ≤ (2 ^ 64 - 2 ^ 10 - 1) * 2 ^ 960 := by decide +kernel
    exact_mod_cast h4

theorem top_lt_highB {u : UInt64} (htop : dSig u = 2 ^ 53 - 1) (he : dUlpExp u = 971) :
    ((2 ^ 64 - 2 ^ 10 - 1 : ℕ) : ℚ) * 2 ^ (960 : ℤ) < highB u := by
  unfold highB
  rw [htop, he]
  have z : (2 : ℚ) ^ ((971 : ℤ) - 1) = 2 ^ 10 * 2 ^ (960 : ℤ) := by
    rw [← zpow_natCast, ← zpow_add₀ (by norm_num)]; norm_num
  rw [z, ← mul_assoc]
  exact mul_lt_mul_of_pos_right (by norm_num) (zp _)

/-- Reading back through a wider `long double`: the double itself or an adjacent bit pattern. -/
theorem readBack_neighbour {u : UInt64} {D : ℕ} {k : ℤ} (hfin : DFinite u) (hnz : ¬ DZero u)
    (hP : Printed u D k) (F : FpFormat) (hp : 64 ≤ F.p) (he : F.emin ≤ -1076) (hmax : 1024 ≤ F.emax) :
    (dSig u % 2 = 0 → (F.round (decide (dNeg u)) ((D : ℚ) * 10 ^ k)).toDouble = u) ∧
    ((F.round (decide (dNeg u)) ((D : ℚ) * 10 ^ k)).toDouble = u ∨
     (F.round (decide (dNeg u)) ((D : ℚ) * 10 ^ k)).toDouble = u + 1 ∨
     (F.round (decide (dNeg u)) ((D : ℚ) * 10 ^ k)).toDouble = u - 1) := by
  obtain ⟨hlo, hhi⟩ := hP.round_closed hfin hnz F (by omega) he
  have hV : 0 < (D : ℚ) * 10 ^ k := (lowB_pos hnz).trans hP.lower
  rw [round_finite F _ _ hmax (lt_of_le_of_lt hhi (highB_lt_top hfin))]
  set r := roundRat F.p F.emin ((D : ℚ) * 10 ^ k) with hr
  have hr0 : 0 < r := (lowB_pos hnz).trans_le hlo
  have hev : dSig u % 2 = 0 → (LVal.fin (decide (dNeg u)) r).toDouble = u := fun h =>
    toDouble_interval u hfin r hr0 (interval_even hnz hlo hhi h)
  refine ⟨hev, ?_⟩
  rcases Nat.mod_two_eq_zero_or_one (dSig u) with h2 | hodd
  · exact Or.inl (hev h2)
  have h52 : dSig u ≠ 2 ^ 52 := by intro h; rw [h] at hodd; norm_num at hodd
  have hz := zp (dUlpExp u)
  rcases eq_or_lt_of_le hhi with heq | hlt
  · -- tie at the upper end
    have hnt : ¬ (dSig u = 2 ^ 53 - 1 ∧ dUlpExp u = 971) := by
      rintro ⟨t1, t2⟩
      have hle : r ≤ (2 ^ 64 - 2 ^ 10 - 1 : ℕ) * 2 ^ (960 : ℤ) := by
        rw [hr]
        refine roundRat_le hV _ _ (by omega) ?_ (hP.top t1 t2)
        have : 2 ^ 64 ≤ 2 ^ F.p := Nat.pow_le_pow_right (by omega) hp
        omega
      have := top_lt_highB t1 t2
      rw [heq] at hle
      exact absurd hle (not_le.mpr this)
    have hfin' : DFinite (u + 1) := by
      have hu := u.toNat_lt
      have hE := dExp_lt u
      have hE' : dExp u ≤ 2046 := by unfold DFinite at hfin; omega
      have hs1 : (u + 1).toNat = u.toNat + 1 := by
        apply toNat_succ
        unfold dExp at hE'; omega
      have hfl := dFrac_lt u
      unfold DFinite dExp
      rw [hs1]
      intro hc
      apply hnt
      have h1 : dExp u = 2046 ∧ dFrac u = 2 ^ 52 - 1 := by
        unfold dExp dFrac at *; omega
      unfold dSig dUlpExp
      rw [h1.1, h1.2]
      exact ⟨by norm_num, by norm_num⟩
    obtain ⟨hn, hev', hcase⟩ := succ_fields u hfin hodd hfin'
    right; left
    have hd : decide (dNeg u) = decide (dNeg (u + 1)) := by simp [hn]
    rw [hd]
    apply toDouble_interval (u + 1) hfin' r hr0
    rw [highB_mul] at heq
    rcases hcase with ⟨c1, c2, c3⟩ | ⟨c1, c2, c3⟩
    · rw [c1, c2, heq]
      refine ⟨Or.inl ?_, Or.inr ⟨by rw [← c1]; exact hev', ?_⟩, fun h52' hg => ?_⟩
      · push_cast; exact mul_lt_mul_of_pos_right (by linarith) hz
      · push_cast; exact mul_le_mul_of_nonneg_right (by linarith) hz.le
      · have := c3 h52'; omega
    · rw [c2, c3, heq]
      have hcast : (dSig u : ℚ) = 2 ^ 53 - 1 := by
        have : ((dSig u + 1 : ℕ) : ℚ) = ((2 ^ 53 : ℕ) : ℚ) := by rw [c1]
        push_cast at this
        linarith
      rw [hcast]
      have e2 : ∀ a : ℚ, a * 2 ^ (dUlpExp u + 1) = a * 2 * 2 ^ dUlpExp u := fun a => by
        rw [zpow_add_one₀ (by norm_num)]; ring
      refine ⟨Or.inl ?_, Or.inl ?_, fun _ _ => ?_⟩
      · rw [e2]; push_cast; exact mul_lt_mul_of_pos_right (by norm_num) hz
      · rw [e2]; push_cast; exact mul_lt_mul_of_pos_right (by norm_num) hz
      · rw [e2]; push_cast; exact mul_le_mul_of_nonneg_right (by norm_num) hz.le
  · rcases eq_or_lt_of_le hlo with heq | hlt'
    · -- tie at the lower end
      right; right
      obtain ⟨hfin', hn, c1, c2⟩ := pred_fields u hfin hodd
      have hd : decide (dNeg u) = decide (dNeg (u - 1)) := by simp [hn]
      rw [hd]
      apply toDouble_interval (u - 1) hfin' r hr0
      rw [lowB_mul u hnz, if_neg h52] at heq
      have hcast : (dSig u : ℚ) = dSig (u - 1) + 1 := by rw [← c1]; push_cast; ring
      rw [c2, ← heq, hcast]
      refine ⟨Or.inr ⟨by omega, ?_⟩, Or.inl ?_, fun _ _ => ?_⟩
      · exact mul_le_mul_of_nonneg_right (by linarith) hz.le
      · exact mul_lt_mul_of_pos_right (by linarith) hz
      · exact mul_le_mul_of_nonneg_right (by linarith) hz.le
    · left
      exact toDouble_interval u hfin r hr0 (interval_open hnz hlo hlt (Or.inl hlt'))

end Lexi
