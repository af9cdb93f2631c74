import Verif.Proofs.ReadBack
import Verif.Spec.Single

/-! # binary32 -/

namespace Lexi
open Spec Soft Dtoa DiyFp

theorem fFrac_lt (u : UInt32) : fFrac u < 2 ^ 23 := Nat.mod_lt _ (by norm_num)
theorem fExp_lt (u : UInt32) : fExp u < 2 ^ 8 := Nat.mod_lt _ (by norm_num)
theorem fSig_lt (u : UInt32) : fSig u < 2 ^ 24 := by
  have := fFrac_lt u
  unfold fSig; split <;> omega
theorem fSig_pos {u : UInt32} (h : ¬ FZero u) : 0 < fSig u := by
  unfold fSig FZero at *
  split <;> omega

theorem fUlpExp_bounds (u : UInt32) (h : FFinite u) : -149 ≤ fUlpExp u ∧ fUlpExp u ≤ 104 := by
  have := fExp_lt u
  unfold FFinite at h
  unfold fUlpExp
  split <;> omega

theorem fExp_normal (u : UInt32) (h : -149 < fUlpExp u) : 2 ^ 23 ≤ fSig u := by
  unfold fUlpExp at h
  unfold fSig
  split at h <;> split <;> omega

theorem fMag_pos {u : UInt32} (hnz : ¬ FZero u) : 0 < fMag u := by
  have h : (0 : ℚ) < fSig u := by exact_mod_cast fSig_pos hnz
  unfold fMag; positivity

theorem fencode_eq (u : UInt32) (hfin : FFinite u) :
    (fUlpExp u - (-149)).toNat * 2 ^ (24 - 1) + fSig u = u.toNat % 2 ^ 31 := by
  have hu := u.toNat_lt
  have hm : u.toNat % 2 ^ 31 = fExp u * 2 ^ 23 + fFrac u := by unfold fExp fFrac; omega
  rw [hm]
  have := fExp_lt u
  unfold FFinite at hfin
  unfold fUlpExp fSig
  split
  · rename_i h; rw [h]; simp
  · have e : ((fExp u : ℤ) - 150 - -149).toNat = fExp u - 1 := by omega
    rw [e]
    have : fExp u = fExp u - 1 + 1 := by omega
    conv_rhs => rw [this]
    rw [Nat.add_mul]; omega

theorem fencode_lt (u : UInt32) (hfin : FFinite u) : u.toNat % 2 ^ 31 < 255 * 2 ^ 23 := by
  have hu := u.toNat_lt
  have hm : u.toNat % 2 ^ 31 = fExp u * 2 ^ 23 + fFrac u := by unfold fExp fFrac; omega
  have := fExp_lt u
  have := fFrac_lt u
  unfold FFinite at hfin
  omega

/-- Any magnitude in the rounding interval of a float converts to it. -/
theorem toFloat_interval (u : UInt32) (hfin : FFinite u) (q : ℚ) (hq : 0 < q)
    (h : InInterval 24 (-149) (fSig u) (fUlpExp u) q) :
    (LVal.fin (decide (fNeg u)) q).toFloat = u := by
  have henc := encodeMag_interval (p := 24) (by omega) hq (fSig u) (fUlpExp u) (fSig_lt u)
    (fUlpExp_bounds u hfin).1 (fExp_normal u) h (255 * 2 ^ 23)
    (by rw [fencode_eq u hfin]; exact (fencode_lt u hfin).le)
  rw [fencode_eq u hfin] at henc
  have hu := u.toNat_lt
  apply UInt32.toNat_inj.mp
  simp only [LVal.toFloat, henc]
  rw [UInt32.toNat_ofNat']
  by_cases hn : fNeg u
  · simp only [hn, decide_true, if_true]; unfold fNeg at hn; omega
  · simp only [hn, decide_false, Bool.false_eq_true, if_false]; unfold fNeg at hn; omega

theorem ofFloat_finite (u : UInt32) (hfin : FFinite u) :
    LVal.ofFloat u = .fin (decide (fNeg u)) (fMag u) := by
  unfold FFinite fExp at hfin
  unfold LVal.ofFloat
  dsimp only
  rw [if_neg hfin]
  have hd : (decide (2 ^ 31 ≤ u.toNat)) = decide (fNeg u) := rfl
  unfold fMag fSig fUlpExp fExp fFrac
  split
  · rw [scale_eq, hd]
  · rw [scale_eq, hd]

/-- A double with given fields. -/
theorem exists_double (neg : Prop) (s : ℕ) (g : ℤ) (h1 : 2 ^ 52 ≤ s) (h2 : s < 2 ^ 53) (h3 : -1074 ≤ g) (h4 : g ≤ 971) :
    ∃ d : UInt64, DFinite d ∧ ¬ DZero d ∧ (dNeg d ↔ neg) ∧ dSig d = s ∧ dUlpExp d = g := by
  classical
  obtain ⟨E, hE⟩ : ∃ E : ℕ, (E : ℤ) = g + 1075 := ⟨(g + 1075).toNat, by omega⟩
  have hE1 : 1 ≤ E := by omega
  have hE2 : E ≤ 2046 := by omega
  set n := (if neg then 2 ^ 63 else 0) + E * 2 ^ 52 + (s - 2 ^ 52) with hn
  have hEle : E * 2 ^ 52 ≤ 2046 * 2 ^ 52 := Nat.mul_le_mul_right _ hE2
  have hlt : n < 2 ^ 64 := by rw [hn]; split <;> omega
  have ht : (UInt64.ofNat n).toNat = n := toNat_ofNat_lt n hlt
  have e1 : dExp (UInt64.ofNat n) = E := by
    unfold dExp; rw [ht, hn]; split <;> omega
  have e2 : dFrac (UInt64.ofNat n) = s - 2 ^ 52 := by
    unfold dFrac; rw [ht, hn]; split <;> omega
  refine ⟨UInt64.ofNat n, ?_, ?_, ?_, ?_, ?_⟩
  · unfold DFinite; omega
  · unfold DZero; omega
  · unfold dNeg; rw [ht, hn]; split
    · rename_i h; simp only [h, iff_true]; omega
    · rename_i h; simp only [h, iff_false]; omega
  · unfold dSig; rw [e1, e2, if_neg (by omega)]; omega
  · unfold dUlpExp; rw [e1, if_neg (by omega)]; omega

/-- Widening a finite non-zero float to a double: exact, and with 29 bits to spare. -/
theorem widen (u : UInt32) (hfin : FFinite u) (hnz : ¬ FZero u) :
    ∃ d : UInt64, (LVal.ofFloat u).toDouble = d ∧ DFinite d ∧ ¬ DZero d ∧ (dNeg d ↔ fNeg u) ∧
      dMag d = fMag u ∧ dUlpExp d ≤ fUlpExp u - 29 := by
  have hs := fSig_lt u
  have hs0 := fSig_pos hnz
  have hb := fUlpExp_bounds u hfin
  set l := (fSig u).log2 with hl
  have hl24 : l < 24 := (Nat.log2_lt (by omega)).2 hs
  have h1 := Nat.log2_self_le (show fSig u ≠ 0 by omega)
  have h2 := Nat.lt_log2_self (n := fSig u)
  rw [← hl] at h1 h2
  have b1 : 2 ^ 52 ≤ fSig u * 2 ^ (52 - l) := by
    calc 2 ^ 52 = 2 ^ l * 2 ^ (52 - l) := by rw [← pow_add]; congr 1; omega
      _ ≤ _ := Nat.mul_le_mul_right _ h1
  have b2 : fSig u * 2 ^ (52 - l) < 2 ^ 53 := by
    calc _ < 2 ^ (l + 1) * 2 ^ (52 - l) := Nat.mul_lt_mul_of_pos_right h2 (by positivity)
      _ = 2 ^ 53 := by rw [← pow_add]; congr 1; omega
  obtain ⟨d, df, dz, dn, ds, de⟩ := exists_double (fNeg u) (fSig u * 2 ^ (52 - l))
    (fUlpExp u - ((52 - l : ℕ) : ℤ)) b1 b2 (by omega) (by omega)
  have hm : dMag d = fMag u := by
    unfold dMag fMag
    rw [ds, de, zpow_sub₀ (by norm_num), zpow_natCast]
    push_cast
    field_simp
  refine ⟨d, ?_, df, dz, dn, hm, by omega⟩
  rw [ofFloat_finite u hfin, ← hm]
  have := toDouble_interval d df (dMag d) (dMag_pos dz) (inInterval_self _ _)
  have hdec : decide (fNeg u) = decide (dNeg d) := by simp [dn]
  rw [hdec]; exact this

/-- Any correctly rounding `long double` at least as wide as a double reads the printed text of the widened
float back to the float. -/
theorem readBack_float {u : UInt32} {d : UInt64} {D : ℕ} {k : ℤ} (hfin : FFinite u) (hnz : ¬ FZero u)
    (hd : dMag d = fMag u) (hde : dUlpExp d ≤ fUlpExp u - 29) (hdz : ¬ DZero d)
    (hP : Printed d D k) (F : FpFormat) (hp : 53 ≤ F.p) (he : F.emin ≤ -1074) (hmax : 1024 ≤ F.emax) :
    (F.round (decide (fNeg u)) ((D : ℚ) * 10 ^ k)).toFloat = u := by
  have hV : 0 < (D : ℚ) * 10 ^ k := (lowB_pos hdz).trans hP.lower
  have hs := fSig_lt u
  have hs0 := fSig_pos hnz
  have hb := fUlpExp_bounds u hfin
  have h1 := hP.lower
  have h2 := hP.upper
  rw [lowB_eq d hdz, hd] at h1
  rw [highB_eq, hd] at h2
  have hg := lowGap_le d
  have hgap : (2 : ℚ) ^ (dUlpExp d - 1) ≤ 2 ^ (fUlpExp u - 3) := zpow_mono (by omega)
  have hz3 := zp (fUlpExp u - 3)
  have e8 : (2 : ℚ) ^ fUlpExp u = 8 * 2 ^ (fUlpExp u - 3) := by
    rw [show (8 : ℚ) = 2 ^ (3 : ℤ) by norm_num, ← zpow_add₀ (by norm_num)]; congr 1; ring
  have hm : fMag u = (fSig u : ℚ) * 8 * 2 ^ (fUlpExp u - 3) := by unfold fMag; rw [e8]; ring
  have hpow : 2 ^ 53 ≤ 2 ^ F.p := Nat.pow_le_pow_right (by omega) hp
  have hup : roundRat F.p F.emin ((D : ℚ) * 10 ^ k) ≤ ((fSig u * 8 + 1 : ℕ) : ℚ) * 2 ^ (fUlpExp u - 3) := by
    apply roundRat_le hV _ _ (by omega) (by omega)
    push_cast; rw [hm] at h2; linarith
  have hlo : ((fSig u * 8 - 1 : ℕ) : ℚ) * 2 ^ (fUlpExp u - 3) ≤ roundRat F.p F.emin ((D : ℚ) * 10 ^ k) := by
    apply le_roundRat (by omega) hV _ _ (by omega) (by omega)
    rw [Nat.cast_sub (by omega)]
    push_cast; rw [hm] at h1; linarith
  rw [Nat.cast_sub (by omega)] at hlo
  push_cast at hup hlo
  set r := roundRat F.p F.emin ((D : ℚ) * 10 ^ k) with hr
  have hsq : (1 : ℚ) ≤ fSig u := by exact_mod_cast hs0
  have hsq2 : (fSig u : ℚ) ≤ 2 ^ 24 := by exact_mod_cast hs.le
  have hr0 : 0 < r := lt_of_lt_of_le (mul_pos (by linarith) hz3) hlo
  have htop : r < 2 ^ (1024 : ℤ) := by
    refine lt_of_le_of_lt hup ?_
    have a1 : (2 : ℚ) ^ (fUlpExp u - 3) ≤ 2 ^ (101 : ℤ) := zpow_mono (by omega)
    have a2 : ((fSig u : ℚ) * 8 + 1) ≤ 2 ^ (28 : ℤ) := by norm_num; linarith
    have a3 : ((fSig u : ℚ) * 8 + 1) * 2 ^ (fUlpExp u - 3) ≤ 2 ^ (28 : ℤ) * 2 ^ (101 : ℤ) :=
      mul_le_mul a2 a1 hz3.le (by positivity)
    refine lt_of_le_of_lt a3 ?_
    rw [← zpow_add₀ (by norm_num)]
    exact zpow_lt_zpow_right₀ (by norm_num) (by norm_num)
  rw [round_finite F _ _ hmax htop, ← hr]
  apply toFloat_interval u hfin r hr0
  refine ⟨Or.inl ?_, Or.inl ?_, fun _ _ => ?_⟩
  · rw [e8]; linarith
  · rw [e8]; linarith
  · rw [e8]; linarith

end Lexi
