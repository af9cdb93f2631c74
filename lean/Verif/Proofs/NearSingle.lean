import Verif.Proofs.Single
import Verif.Proofs.ReadNear

/-! # Correct rounding to binary32 (as Proofs/Nearest and Proofs/ReadNear for binary64) -/

namespace Lexi
open Spec Soft Dtoa

/-- A float of every representable magnitude. -/
theorem exists_float (neg : Prop) (s : ℕ) (g : ℤ) (h2 : s < 2 ^ 24) (h3 : -149 ≤ g) (h4 : g ≤ 104)
    (h1 : -149 < g → 2 ^ 23 ≤ s) :
    ∃ d : UInt32, FFinite d ∧ (fNeg d ↔ neg) ∧ fSig d = s ∧ fUlpExp d = g := by
  classical
  obtain ⟨E, hE⟩ : ∃ E : ℕ, (E : ℤ) = g + 149 := ⟨(g + 149).toNat, by omega⟩
  have hEle : E * 2 ^ 23 ≤ 253 * 2 ^ 23 := Nat.mul_le_mul_right _ (by omega)
  have hpos : 2 ^ 23 ≤ s ∨ E = 0 := by
    by_cases h : -149 < g
    · exact Or.inl (h1 h)
    · right; omega
  set n := (if neg then 2 ^ 31 else 0) + (E * 2 ^ 23 + s) with hn
  have hlt : n < 2 ^ 32 := by rw [hn]; split <;> omega
  have ht : (UInt32.ofNat n).toNat = n := by rw [UInt32.toNat_ofNat', Nat.mod_eq_of_lt hlt]
  have e1 : fExp (UInt32.ofNat n) = if 2 ^ 23 ≤ s then E + 1 else 0 := by
    unfold fExp; rw [ht, hn]; split <;> split <;> omega
  have e2 : fFrac (UInt32.ofNat n) = if 2 ^ 23 ≤ s then s - 2 ^ 23 else s := by
    unfold fFrac; rw [ht, hn]; split <;> split <;> omega
  refine ⟨UInt32.ofNat n, ?_, ?_, ?_, ?_⟩
  · unfold FFinite; rw [e1]; split <;> omega
  · unfold fNeg; rw [ht, hn]; split
    · rename_i h; simp only [h, iff_true]; omega
    · rename_i h; simp only [h, iff_false]; omega
  · unfold fSig; rw [e1, e2]; split <;> split <;> omega
  · unfold fUlpExp; rw [e1]; split <;> split <;> omega

theorem fMag_zero {u : UInt32} (hz : FZero u) : fMag u = 0 := by
  unfold fMag fSig
  rw [if_pos hz.1, hz.2]; simp

theorem fqsig_le_top {q : ℚ} (hq : 0 < q) : qsig 24 (-149) q ≤ 2 ^ 24 := by
  apply qsig_le hq
  have h1 := (lg_spec hq).2
  have hqe := qexp_eq (p := 24) (emin := -149) (q := q)
  have h2 : ((2 ^ 24 : ℕ) : ℚ) * 2 ^ qexp 24 (-149) q = 2 ^ (24 + qexp 24 (-149) q) := by
    rw [zpow_add₀ (by norm_num)]; norm_num
  rw [h2]
  exact h1.le.trans (zpow_mono (by omega))

theorem fqsig_ge_bot {q : ℚ} (hq : 0 < q) (h : -149 < qexp 24 (-149) q) : 2 ^ 23 ≤ qsig 24 (-149) q := by
  apply le_qsig hq
  have h1 := (lg_spec hq).1
  have hqe := qexp_eq (p := 24) (emin := -149) (q := q)
  have h2 : ((2 ^ 23 : ℕ) : ℚ) * 2 ^ qexp 24 (-149) q = 2 ^ (23 + qexp 24 (-149) q) := by
    rw [zpow_add₀ (by norm_num)]; norm_num
  rw [h2]
  exact le_trans (zpow_mono (by omega)) h1

theorem fOverflow_eq : fOverflow = (2 ^ 24 - 1 / 2) * 2 ^ (104 : ℤ) := by
  unfold fOverflow
  rw [show (104 : ℤ) = 1 + ((103 : ℕ) : ℤ) by norm_num, zpow_add₀ (by norm_num), zpow_natCast]
  ring

/-- At the largest exponent, the significand rounds up to `2^24` exactly from the overflow threshold. -/
theorem fqsig_overflow {q : ℚ} (hq : 0 < q) (hg : qexp 24 (-149) q = 104) :
    qsig 24 (-149) q = 2 ^ 24 ↔ fOverflow ≤ q := by
  have hz := zp 104
  have herr := qsig_err (p := 24) (emin := -149) hq
  rw [hg] at herr
  rw [fOverflow_eq]
  constructor
  · intro h
    rw [h] at herr
    have := (abs_le.mp herr).2
    push_cast at this
    linarith
  · intro h
    apply qsig_eq hq
    rw [hg]
    refine Or.inr ⟨by norm_num, ?_⟩
    have hlt : q < 2 ^ (128 : ℤ) := by
      have h1 := (lg_spec hq).2
      have hqe := qexp_eq (p := 24) (emin := -149) (q := q)
      exact lt_of_lt_of_le h1 (zpow_mono (by omega))
    have e : (2 : ℚ) ^ (128 : ℤ) = 2 ^ 24 * 2 ^ (104 : ℤ) := by
      rw [show (128 : ℤ) = (24 : ℕ) + 104 by norm_num, zpow_add₀ (by norm_num), zpow_natCast]
    rw [e] at hlt
    have h1 : q / 2 ^ (104 : ℤ) < 2 ^ 24 := by rwa [div_lt_iff₀ hz]
    have h2 : 2 ^ 24 - 1 / 2 ≤ q / 2 ^ (104 : ℤ) := by rwa [le_div_iff₀ hz]
    rw [abs_of_pos (by push_cast; linarith)]
    push_cast; linarith

theorem flt_overflow_lt {q : ℚ} (h : q < fOverflow) : q < 2 ^ (128 : ℤ) := by
  refine h.trans_le ?_
  rw [fOverflow_eq, show (128 : ℤ) = (24 : ℕ) + 104 by norm_num, zpow_add₀ (by norm_num), zpow_natCast]
  exact mul_le_mul_of_nonneg_right (by norm_num) (zp 104).le

theorem feq_ofNat_of (u : UInt32) (neg : Bool) (m : ℕ) (hn : fNeg u ↔ neg = true) (hm : u.toNat % 2 ^ 31 = m) :
    UInt32.ofNat ((if neg then 2 ^ 31 else 0) + m) = u := by
  have hu := u.toNat_lt
  apply UInt32.toNat_inj.mp
  unfold fNeg at hn
  rw [UInt32.toNat_ofNat']
  cases neg <;> simp at hn ⊢ <;> omega

/-- Conversion of a positive rational below the overflow threshold. -/
theorem toFloat_pos (neg : Bool) {q : ℚ} (hq : 0 < q) (h : q < fOverflow) :
    FFinite (LVal.fin neg q).toFloat ∧ (fNeg (LVal.fin neg q).toFloat ↔ neg = true) ∧
      fMag (LVal.fin neg q).toFloat = roundRat 24 (-149) q ∧
      (qsig 24 (-149) q % 2 = 0 → fSig (LVal.fin neg q).toFloat % 2 = 0) := by
  have h0 : 0 < q.num := Rat.num_pos.mpr hq
  have hlg := lg_lt hq (flt_overflow_lt h)
  have hqe := qexp_eq (p := 24) (emin := -149) (q := q)
  have htop := fqsig_le_top hq
  have hbot := fqsig_ge_bot hq
  have hov := fqsig_overflow hq
  have key : ∃ d : UInt32, FFinite d ∧ (fNeg d ↔ neg = true) ∧
      (d.toNat % 2 ^ 31 = (qexp 24 (-149) q + 149).toNat * 2 ^ 23 + qsig 24 (-149) q) ∧
      fMag d = roundRat 24 (-149) q ∧ (qsig 24 (-149) q % 2 = 0 → fSig d % 2 = 0) := by
    rw [roundRat_pos hq]
    set g := qexp 24 (-149) q with hg
    set s := qsig 24 (-149) q with hs
    by_cases hs24 : s = 2 ^ 24
    · have hg2 : g ≤ 103 := by
        by_contra hc
        have : g = 104 := by omega
        exact absurd ((hov this).mp hs24) (not_le.mpr h)
      obtain ⟨d, d1, d2, d3, d4⟩ := exists_float (neg = true) (2 ^ 23) (g + 1) (by norm_num) (by omega) (by omega)
        (fun _ => le_rfl)
      refine ⟨d, d1, d2, ?_, ?_, fun _ => by rw [d3]; norm_num⟩
      · have := fencode_eq d d1
        rw [d3, d4] at this
        omega
      · unfold fMag
        rw [d3, d4, hs24, zpow_add₀ (by norm_num)]
        push_cast; ring
    · obtain ⟨d, d1, d2, d3, d4⟩ := exists_float (neg = true) s g (by omega) (by omega) (by omega) hbot
      refine ⟨d, d1, d2, ?_, ?_, fun h => by rw [d3]; exact h⟩
      · have := fencode_eq d d1
        rw [d3, d4] at this
        omega
      · unfold fMag
        rw [d3, d4]
  obtain ⟨d, d1, d2, d3, d4, d5⟩ := key
  have : (LVal.fin neg q).toFloat = d := by
    show UInt32.ofNat ((if neg then 2 ^ 31 else 0) + encodeMag 24 (-149) (255 * 2 ^ 23) q) = d
    apply feq_ofNat_of d neg _ d2
    rw [encodeMag, if_neg (by omega), roundPos_eq]
    simp only
    have := fencode_lt d d1
    rw [sub_neg_eq_add]
    omega
  rw [this]
  exact ⟨d1, d2, d4, d5⟩

/-- From the overflow threshold on the conversion yields an infinity. -/
theorem toFloat_overflow (neg : Bool) {q : ℚ} (h : fOverflow ≤ q) :
    (LVal.fin neg q).toFloat = if neg then 0xFF800000 else 0x7F800000 := by
  have hq : 0 < q := lt_of_lt_of_le (by unfold fOverflow; norm_num) h
  have h0 : 0 < q.num := Rat.num_pos.mpr hq
  have hqe := qexp_eq (p := 24) (emin := -149) (q := q)
  have hbot := fqsig_ge_bot hq
  have hov := fqsig_overflow hq
  have hge : (2 : ℚ) ^ (127 : ℤ) ≤ q := by
    refine le_trans ?_ h
    rw [fOverflow_eq, show (127 : ℤ) = (23 : ℕ) + 104 by norm_num, zpow_add₀ (by norm_num), zpow_natCast]
    exact mul_le_mul_of_nonneg_right (by norm_num) (zp 104).le
  have hlg := le_lg hq hge
  show UInt32.ofNat ((if neg then 2 ^ 31 else 0) + encodeMag 24 (-149) (255 * 2 ^ 23) q) = _
  have : encodeMag 24 (-149) (255 * 2 ^ 23) q = 255 * 2 ^ 23 := by
    rw [encodeMag, if_neg (by omega), roundPos_eq]
    simp only
    by_cases hg : qexp 24 (-149) q = 104
    · rw [(hov hg).mpr h, hg]; decide +kernel
    · have := hbot (by omega)
      omega
  rw [this]
  cases neg <;> rfl

theorem toFloat_zero (neg : Bool) :
    FFinite (LVal.fin neg 0).toFloat ∧ (fNeg (LVal.fin neg 0).toFloat ↔ neg = true) ∧
      fMag (LVal.fin neg 0).toFloat = 0 ∧ fSig (LVal.fin neg 0).toFloat = 0 := by
  cases neg
  · have : (LVal.fin false 0).toFloat = 0 := by decide +kernel
    rw [this]
    refine ⟨by decide +kernel, by decide +kernel, ?_, by decide +kernel⟩
    exact fMag_zero (by decide +kernel)
  · have : (LVal.fin true 0).toFloat = 0x80000000 := by decide +kernel
    rw [this]
    refine ⟨by decide +kernel, by decide +kernel, ?_, by decide +kernel⟩
    exact fMag_zero (by decide +kernel)

theorem toFloat_value (neg : Bool) {q : ℚ} (hq : 0 ≤ q) (h : q < fOverflow) :
    FFinite (LVal.fin neg q).toFloat ∧ (fNeg (LVal.fin neg q).toFloat ↔ neg = true) ∧
      fValue (LVal.fin neg q).toFloat = sgn neg (roundRat 24 (-149) q) := by
  have : FFinite (LVal.fin neg q).toFloat ∧ (fNeg (LVal.fin neg q).toFloat ↔ neg = true) ∧
      fMag (LVal.fin neg q).toFloat = roundRat 24 (-149) q := by
    rcases hq.lt_or_eq with hq | rfl
    · obtain ⟨a, b, c, -⟩ := toFloat_pos neg hq h; exact ⟨a, b, c⟩
    · obtain ⟨a, b, c, -⟩ := toFloat_zero neg
      exact ⟨a, b, by rw [c, roundRat_zero]⟩
  obtain ⟨a, b, c⟩ := this
  refine ⟨a, b, ?_⟩
  unfold fValue sgn
  rw [c]
  by_cases hn : neg = true
  · rw [if_pos (b.mpr hn), if_pos hn]
  · rw [if_neg (fun h => hn (b.mp h)), if_neg hn]

theorem fMag_nonneg (u : UInt32) : 0 ≤ fMag u := by unfold fMag; positivity

/-- Conversion to `float` is correct rounding. -/
theorem toFloat_nearest (neg : Bool) {q : ℚ} (hq : 0 ≤ q) (h : q < fOverflow) :
    FNearestEven (sgn neg q) (LVal.fin neg q).toFloat := by
  rcases hq.lt_or_eq with hq | rfl
  · obtain ⟨a, b, c, d⟩ := toFloat_pos neg hq h
    obtain ⟨-, -, hv⟩ := toFloat_value neg hq.le h
    refine ⟨a, fun y hy => ?_⟩
    have hn := roundRat_nearest (p := 24) (emin := -149) (by norm_num) hq (fSig y) (fUlpExp y)
      (fUlpExp_bounds y hy).1 (fSig_lt y)
    have hz := (roundRat_nearest (p := 24) (emin := -149) (by norm_num) hq 0 0 (by norm_num) (by norm_num)).1
    simp only [Nat.cast_zero, zero_mul] at hz
    rw [show (fSig y : ℚ) * 2 ^ fUlpExp y = fMag y from rfl] at hn
    have hm := fMag_nonneg y
    rw [hv]
    set r := roundRat 24 (-149) q
    -- distance of the sgn values
    have hl : |sgn neg r - sgn neg q| = |r - q| := by
      unfold sgn; cases neg
      · simp
      · simp only [if_true]; rw [show -r - -q = -(r - q) by ring, abs_neg]
    rw [hl]
    by_cases hs : (fNeg y ↔ neg = true)
    · have hyv : fValue y = sgn neg (fMag y) := by
        unfold fValue sgn
        by_cases hn' : neg = true
        · rw [if_pos (hs.mpr hn'), if_pos hn']
        · rw [if_neg (fun h => hn' (hs.mp h)), if_neg hn']
      have hd : |sgn neg (fMag y) - sgn neg q| = |fMag y - q| := by
        unfold sgn; cases neg
        · simp
        · simp only [if_true]; rw [show -fMag y - -q = -(fMag y - q) by ring, abs_neg]
      rw [hyv, hd]
      refine ⟨hn.1, fun he => ?_⟩
      rcases hn.2 he with h1 | h1
      · left; rw [h1]
      · exact Or.inr (d h1)
    · have hyv : fValue y = -sgn neg (fMag y) := by
        unfold fValue sgn
        cases neg
        · have : fNeg y := by by_contra hc; exact hs (by simp [hc])
          simp [this]
        · have : ¬ fNeg y := by intro hc; exact hs (by simp [hc])
          simp [this]
      have hd : |(-sgn neg (fMag y)) - sgn neg q| = fMag y + q := by
        unfold sgn; cases neg
        · simp only [Bool.false_eq_true, if_false]
          rw [abs_of_nonpos (by linarith)]; ring
        · simp only [if_true]
          rw [abs_of_nonneg (by linarith)]; ring
      rw [hyv, hd]
      have hz' : |r - q| ≤ q := by
        rwa [zero_sub, abs_neg, abs_of_pos hq] at hz
      refine ⟨by linarith, fun he => ?_⟩
      have hm0 : fMag y = 0 := by linarith
      have he' : |fMag y - q| = |r - q| := by
        rw [hm0, zero_sub, abs_neg, abs_of_pos hq]; linarith
      rcases hn.2 he' with h1 | h1
      · left; rw [← h1, hm0]; simp [sgn]
      · exact Or.inr (d h1)
  · obtain ⟨a, b, c, d⟩ := toFloat_zero neg
    refine ⟨a, fun y hy => ?_⟩
    have hv : fValue (LVal.fin neg 0).toFloat = 0 := by unfold fValue; rw [c]; simp
    have hs : sgn neg 0 = 0 := by simp [sgn]
    rw [hv, hs, sub_zero, abs_zero]
    exact ⟨abs_nonneg _, fun _ => Or.inr (by rw [d])⟩

/-- Converting the rounded value is converting the value. -/
theorem toFloat_round (neg : Bool) {q : ℚ} (hq : 0 ≤ q) (h : q < fOverflow) :
    (LVal.fin neg (roundRat 24 (-149) q)).toFloat = (LVal.fin neg q).toFloat := by
  rcases hq.lt_or_eq with hq | rfl
  swap
  · rw [roundRat_zero]
  obtain ⟨a, b, c, -⟩ := toFloat_pos neg hq h
  set u := (LVal.fin neg q).toFloat with hu
  have h2 : decide (fNeg u) = neg := by
    cases neg
    · simpa using b
    · simpa using b
  rw [← c]
  by_cases hz : FZero u
  · rw [fMag_zero hz, ← h2]
    have hm : u.toNat % 2 ^ 31 = 0 := by
      obtain ⟨z1, z2⟩ := hz
      unfold fExp at z1; unfold fFrac at z2; omega
    exact feq_ofNat_of u _ 0 (by simp) hm
  · have := toFloat_interval u a (fMag u) (fMag_pos hz) (inInterval_self _ _)
    rwa [h2] at this

theorem froundRat_lt_iff {q : ℚ} (hq : 0 ≤ q) : roundRat 24 (-149) q < 2 ^ 128 ↔ q < fOverflow := by
  have hbig : (2 : ℚ) ^ (128 : ℤ) = 2 ^ 24 * 2 ^ (104 : ℤ) := by
    rw [show (128 : ℤ) = (24 : ℕ) + 104 by norm_num, zpow_add₀ (by norm_num), zpow_natCast]
  have e1 : (2 : ℚ) ^ 128 = 2 ^ (128 : ℤ) := (zpow_natCast (2 : ℚ) 128).symm
  rcases hq.lt_or_eq with hq | rfl
  swap
  · rw [roundRat_zero]
    exact ⟨fun _ => by unfold fOverflow; norm_num, fun _ => by positivity⟩
  constructor
  · intro h
    by_contra hc
    push Not at hc
    have h1 : (2 : ℚ) ^ (128 : ℤ) ≤ roundRat 24 (-149) fOverflow := by
      have hpos : 0 < fOverflow := by unfold fOverflow; norm_num
      have hlg : lg fOverflow = 127 := by
        have h1 := lg_lt hpos (a := 128) (by
          rw [fOverflow_eq, hbig]; exact mul_lt_mul_of_pos_right (by norm_num) (zp 104))
        have h2 := le_lg hpos (a := 127) (by
          rw [fOverflow_eq, show (127 : ℤ) = (23 : ℕ) + 104 by norm_num, zpow_add₀ (by norm_num), zpow_natCast]
          exact mul_le_mul_of_nonneg_right (by norm_num) (zp 104).le)
        omega
      have hqe := qexp_eq (p := 24) (emin := -149) (q := fOverflow)
      have hg : qexp 24 (-149) fOverflow = 104 := by rw [hqe, hlg]; norm_num
      rw [roundRat_pos hpos, (fqsig_overflow hpos hg).mpr le_rfl, hg, hbig]
      push_cast; rfl
    have h2 := roundRat_mono (p := 24) (emin := -149) (by norm_num)
      (by unfold fOverflow; norm_num : (0 : ℚ) ≤ fOverflow) hc
    rw [e1] at h
    linarith
  · intro h
    obtain ⟨a, b, c, -⟩ := toFloat_pos false hq h
    rw [← c, e1]
    have hs : (fSig (LVal.fin false q).toFloat : ℚ) < 2 ^ 24 := by exact_mod_cast fSig_lt _
    calc fMag (LVal.fin false q).toFloat < 2 ^ 24 * 2 ^ fUlpExp (LVal.fin false q).toFloat :=
          mul_lt_mul_of_pos_right hs (zp _)
      _ ≤ 2 ^ 24 * 2 ^ (104 : ℤ) :=
          mul_le_mul_of_nonneg_left (zpow_mono (fUlpExp_bounds _ a).2) (by positivity)
      _ = _ := hbig.symm

end Lexi
