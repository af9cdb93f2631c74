import Verif.Proofs.Single
import Verif.Spec.Nearest

/-!
# `toDouble` rounds correctly
-/

namespace Lexi
open Spec Soft Dtoa

namespace Soft
variable {p : Nat} {emin : Int} {q : ℚ}

/-- No representable number is nearer than the rounding, and in a tie the significand is even. -/
theorem roundRat_nearest (hp : 1 ≤ p) (hq : 0 < q) (a : ℕ) (c : ℤ) (hc : emin ≤ c) (ha : a < 2 ^ p) :
    |roundRat p emin q - q| ≤ |a * 2 ^ c - q| ∧
      (|a * 2 ^ c - q| = |roundRat p emin q - q| → (a : ℚ) * 2 ^ c = roundRat p emin q ∨ qsig p emin q % 2 = 0) := by
  have hqe := qexp_eq (p := p) (emin := emin) (q := q)
  have herr := qsig_err (p := p) (emin := emin) hq
  obtain ⟨n, d, hd, he, hr⟩ := qsig_ratio (p := p) (emin := emin) hq
  have htie := (rneDiv_spec n d hd).2
  rw [← he, hr] at htie
  rw [roundRat_pos hq]
  set g := qexp p emin q with hg
  set s := qsig p emin q with hs
  have hz := zp g
  -- grid points
  have grid : ∀ k : ℕ, |(s : ℚ) * 2 ^ g - q| ≤ |(k : ℚ) * 2 ^ g - q| ∧
      (|(k : ℚ) * 2 ^ g - q| = |(s : ℚ) * 2 ^ g - q| → (k : ℚ) * 2 ^ g = s * 2 ^ g ∨ s % 2 = 0) := by
    intro k
    by_cases hks : k = s
    · subst hks; exact ⟨le_rfl, fun _ => Or.inl rfl⟩
    have hdist : (2 : ℚ) ^ g ≤ |(k : ℚ) * 2 ^ g - s * 2 ^ g| := by
      rw [← sub_mul, abs_mul, abs_of_pos hz]
      have : (1 : ℚ) ≤ |(k : ℚ) - s| := by
        have h1 : (1 : ℤ) ≤ |(k : ℤ) - s| := Int.one_le_abs (by omega)
        exact_mod_cast h1
      nlinarith
    have htri : |(k : ℚ) * 2 ^ g - s * 2 ^ g| ≤ |(k : ℚ) * 2 ^ g - q| + |(s : ℚ) * 2 ^ g - q| := by
      have := abs_sub_le ((k : ℚ) * 2 ^ g) q (s * 2 ^ g)
      rwa [abs_sub_comm q] at this
    refine ⟨by linarith, fun heq => Or.inr (htie ?_)⟩
    have h2 : |(s : ℚ) * 2 ^ g - q| = 2 ^ g / 2 := by linarith
    have h3 : (s : ℚ) * 2 ^ g - q = (s - q / 2 ^ g) * 2 ^ g := by
      rw [sub_mul, div_mul_cancel₀ _ hz.ne']
    rw [h3, abs_mul, abs_of_pos hz] at h2
    have h4 : |(s : ℚ) - q / 2 ^ g| = 2 ^ g / 2 / 2 ^ g := by
      rw [eq_div_iff hz.ne']; exact h2
    rw [h4]; field_simp
  rcases le_or_gt g c with hgc | hgc
  · obtain ⟨m, hm⟩ : ∃ m : ℕ, c = g + m := ⟨(c - g).toNat, by omega⟩
    have : (a : ℚ) * 2 ^ c = ((a * 2 ^ m : ℕ) : ℚ) * 2 ^ g := by
      rw [hm, zpow_add₀ (by norm_num), zpow_natCast]; push_cast; ring
    rw [this]
    exact grid _
  · -- below the binade of `q`
    have hlg : g = lg q - p + 1 := by omega
    have h1 : ((2 ^ (p - 1) : ℕ) : ℚ) * 2 ^ g = 2 ^ lg q := by
      push_cast
      rw [← zpow_natCast, ← zpow_add₀ (by norm_num)]
      congr 1; omega
    have h2 : (2 : ℚ) ^ lg q ≤ q := (lg_spec hq).1
    have h3 : (a : ℚ) * 2 ^ c < 2 ^ lg q := by
      have ha' : (a : ℚ) < 2 ^ p := by exact_mod_cast ha
      calc (a : ℚ) * 2 ^ c < 2 ^ p * 2 ^ c := mul_lt_mul_of_pos_right ha' (zp c)
        _ ≤ 2 ^ p * 2 ^ (g - 1) := mul_le_mul_of_nonneg_left (zpow_mono (by omega)) (by positivity)
        _ = 2 ^ lg q := by
          rw [← zpow_natCast, ← zpow_add₀ (by norm_num)]; congr 1; omega
    have h4 := (grid (2 ^ (p - 1))).1
    rw [h1] at h4
    rw [abs_of_nonpos (by linarith : (2 : ℚ) ^ lg q - q ≤ 0)] at h4
    have h5 : |(s : ℚ) * 2 ^ g - q| < |(a : ℚ) * 2 ^ c - q| := by
      rw [abs_of_neg (by linarith : (a : ℚ) * 2 ^ c - q < 0)]; linarith
    exact ⟨h5.le, fun h => absurd h h5.ne'⟩

end Soft

/-- A double of every representable magnitude. -/
theorem exists_double' (neg : Prop) (s : ℕ) (g : ℤ) (h2 : s < 2 ^ 53) (h3 : -1074 ≤ g) (h4 : g ≤ 971)
    (h1 : -1074 < g → 2 ^ 52 ≤ s) :
    ∃ d : UInt64, DFinite d ∧ (dNeg d ↔ neg) ∧ dSig d = s ∧ dUlpExp d = g := by
  by_cases hs : 2 ^ 52 ≤ s
  · obtain ⟨d, a, _, b, c, e⟩ := exists_double neg s g hs h2 h3 h4
    exact ⟨d, a, b, c, e⟩
  · classical
    have hg : g = -1074 := by
      by_contra h; exact hs (h1 (by omega))
    subst hg
    have hlt : (if neg then 2 ^ 63 else 0) + s < 2 ^ 64 := by split <;> omega
    refine ⟨UInt64.ofNat ((if neg then 2 ^ 63 else 0) + s), ?_⟩
    have ht : (UInt64.ofNat ((if neg then 2 ^ 63 else 0) + s)).toNat = (if neg then 2 ^ 63 else 0) + s := by
      rw [UInt64.toNat_ofNat', Nat.mod_eq_of_lt hlt]
    have e1 : dExp (UInt64.ofNat ((if neg then 2 ^ 63 else 0) + s)) = 0 := by
      unfold dExp; rw [ht]; split <;> omega
    have e2 : dFrac (UInt64.ofNat ((if neg then 2 ^ 63 else 0) + s)) = s := by
      unfold dFrac; rw [ht]; split <;> omega
    refine ⟨by unfold DFinite; rw [e1]; omega, ?_, ?_, ?_⟩
    · unfold dNeg; rw [ht]
      by_cases hn : neg <;> simp only [hn, if_true, if_false] <;> simp; omega
    · unfold dSig; rw [if_pos e1, e2]
    · unfold dUlpExp; rw [if_pos e1]


theorem qsig_le_top {q : ℚ} (hq : 0 < q) : qsig 53 (-1074) q ≤ 2 ^ 53 := by
  apply qsig_le hq
  have h1 := (lg_spec hq).2
  have hqe := qexp_eq (p := 53) (emin := -1074) (q := q)
  have h2 : ((2 ^ 53 : ℕ) : ℚ) * 2 ^ qexp 53 (-1074) q = 2 ^ (53 + qexp 53 (-1074) q) := by
    rw [zpow_add₀ (by norm_num)]; norm_num
  rw [h2]
  exact h1.le.trans (zpow_mono (by omega))

theorem qsig_ge_bot {q : ℚ} (hq : 0 < q) (h : -1074 < qexp 53 (-1074) q) : 2 ^ 52 ≤ qsig 53 (-1074) q := by
  apply le_qsig hq
  have h1 := (lg_spec hq).1
  have hqe := qexp_eq (p := 53) (emin := -1074) (q := q)
  have h2 : ((2 ^ 52 : ℕ) : ℚ) * 2 ^ qexp 53 (-1074) q = 2 ^ (52 + qexp 53 (-1074) q) := by
    rw [zpow_add₀ (by norm_num)]; norm_num
  rw [h2]
  exact le_trans (zpow_mono (by omega)) h1

theorem dOverflow_eq : dOverflow = (2 ^ 53 - 1 / 2) * 2 ^ (971 : ℤ) := by
  unfold dOverflow
  rw [show (971 : ℤ) = 1 + ((970 : ℕ) : ℤ) by norm_num, zpow_add₀ (by norm_num), zpow_natCast]
  ring

/-- At the largest exponent, the significand rounds up to `2^53` exactly from the overflow threshold. -/
theorem qsig_overflow {q : ℚ} (hq : 0 < q) (hg : qexp 53 (-1074) q = 971) :
    qsig 53 (-1074) q = 2 ^ 53 ↔ dOverflow ≤ q := by
  have hz := zp 971
  have herr := qsig_err (p := 53) (emin := -1074) hq
  rw [hg] at herr
  rw [dOverflow_eq]
  constructor
  · intro h
    rw [h] at herr
    have := (abs_le.mp herr).2
    push_cast at this
    linarith
  · intro h
    apply qsig_eq hq
    rw [hg]
    refine Or.inr ⟨by norm_num, ?_⟩
    have hlt : q < 2 ^ (1024 : ℤ) := by
      have h1 := (lg_spec hq).2
      have hqe := qexp_eq (p := 53) (emin := -1074) (q := q)
      exact lt_of_lt_of_le h1 (zpow_mono (by omega))
    have e : (2 : ℚ) ^ (1024 : ℤ) = 2 ^ 53 * 2 ^ (971 : ℤ) := by
      rw [show (1024 : ℤ) = (53 : ℕ) + 971 by norm_num, zpow_add₀ (by norm_num), zpow_natCast]
    rw [e] at hlt
    have h1 : q / 2 ^ (971 : ℤ) < 2 ^ 53 := by rwa [div_lt_iff₀ hz]
    have h2 : 2 ^ 53 - 1 / 2 ≤ q / 2 ^ (971 : ℤ) := by rwa [le_div_iff₀ hz]
    rw [abs_of_pos (by push_cast; linarith)]
    push_cast; linarith

theorem lt_overflow_lt {q : ℚ} (h : q < dOverflow) : q < 2 ^ (1024 : ℤ) := by
  refine h.trans_le ?_
  rw [dOverflow_eq, show (1024 : ℤ) = (53 : ℕ) + 971 by norm_num, zpow_add₀ (by norm_num), zpow_natCast]
  exact mul_le_mul_of_nonneg_right (by norm_num) (zp 971).le

theorem eq_ofNat_of (u : UInt64) (neg : Bool) (m : ℕ) (hn : dNeg u ↔ neg = true) (hm : u.toNat % 2 ^ 63 = m) :
    UInt64.ofNat ((if neg then 2 ^ 63 else 0) + m) = u := by
  have hu := u.toNat_lt
  apply UInt64.toNat_inj.mp
  unfold dNeg at hn
  rw [UInt64.toNat_ofNat']
  cases neg <;> simp at hn ⊢ <;> omega

/-- Conversion of a positive rational below the overflow threshold. -/
theorem toDouble_pos (neg : Bool) {q : ℚ} (hq : 0 < q) (h : q < dOverflow) :
    DFinite (LVal.fin neg q).toDouble ∧ (dNeg (LVal.fin neg q).toDouble ↔ neg = true) ∧
      dMag (LVal.fin neg q).toDouble = roundRat 53 (-1074) q ∧
      (qsig 53 (-1074) q % 2 = 0 → dSig (LVal.fin neg q).toDouble % 2 = 0) := by
  have h0 : 0 < q.num := Rat.num_pos.mpr hq
  have hlg := lg_lt hq (lt_overflow_lt h)
  have hqe := qexp_eq (p := 53) (emin := -1074) (q := q)
  have htop := qsig_le_top hq
  have hbot := qsig_ge_bot hq
  have hov := qsig_overflow hq
  have key : ∃ d : UInt64, DFinite d ∧ (dNeg d ↔ neg = true) ∧
      (d.toNat % 2 ^ 63 = (qexp 53 (-1074) q + 1074).toNat * 2 ^ 52 + qsig 53 (-1074) q) ∧
      dMag d = roundRat 53 (-1074) q ∧ (qsig 53 (-1074) q % 2 = 0 → dSig d % 2 = 0) := by
    rw [roundRat_pos hq]
    set g := qexp 53 (-1074) q with hg
    set s := qsig 53 (-1074) q with hs
    by_cases hs53 : s = 2 ^ 53
    · have hg2 : g ≤ 970 := by
        by_contra hc
        have : g = 971 := by omega
        exact absurd ((hov this).mp hs53) (not_le.mpr h)
      obtain ⟨d, d1, d2, d3, d4⟩ := exists_double' (neg = true) (2 ^ 52) (g + 1) (by norm_num) (by omega) (by omega)
        (fun _ => le_rfl)
      refine ⟨d, d1, d2, ?_, ?_, fun _ => by rw [d3]; norm_num⟩
      · have := encode_eq d d1
        rw [d3, d4] at this
        omega
      · unfold dMag
        rw [d3, d4, hs53, zpow_add₀ (by norm_num)]
        push_cast; ring
    · obtain ⟨d, d1, d2, d3, d4⟩ := exists_double' (neg = true) s g (by omega) (by omega) (by omega) hbot
      refine ⟨d, d1, d2, ?_, ?_, fun h => by rw [d3]; exact h⟩
      · have := encode_eq d d1
        rw [d3, d4] at this
        omega
      · unfold dMag
        rw [d3, d4]
  obtain ⟨d, d1, d2, d3, d4, d5⟩ := key
  have : (LVal.fin neg q).toDouble = d := by
    show UInt64.ofNat ((if neg then 2 ^ 63 else 0) + encodeMag 53 (-1074) (2047 * 2 ^ 52) q) = d
    apply eq_ofNat_of d neg _ d2
    rw [encodeMag, if_neg (by omega), roundPos_eq]
    simp only
    have := encode_lt d d1
    rw [sub_neg_eq_add]
    omega
  rw [this]
  exact ⟨d1, d2, d4, d5⟩

/-- From the overflow threshold on the conversion yields an infinity. -/
theorem toDouble_overflow (neg : Bool) {q : ℚ} (h : dOverflow ≤ q) :
    (LVal.fin neg q).toDouble = if neg then 0xFFF0000000000000 else 0x7FF0000000000000 := by
  have hq : 0 < q := lt_of_lt_of_le (by unfold dOverflow; norm_num) h
  have h0 : 0 < q.num := Rat.num_pos.mpr hq
  have hqe := qexp_eq (p := 53) (emin := -1074) (q := q)
  have hbot := qsig_ge_bot hq
  have hov := qsig_overflow hq
  have hge : (2 : ℚ) ^ (1023 : ℤ) ≤ q := by
    refine le_trans ?_ h
    rw [dOverflow_eq, show (1023 : ℤ) = (52 : ℕ) + 971 by norm_num, zpow_add₀ (by norm_num), zpow_natCast]
    exact mul_le_mul_of_nonneg_right (by norm_num) (zp 971).le
  have hlg := le_lg hq hge
  show UInt64.ofNat ((if neg then 2 ^ 63 else 0) + encodeMag 53 (-1074) (2047 * 2 ^ 52) q) = _
  have : encodeMag 53 (-1074) (2047 * 2 ^ 52) q = 2047 * 2 ^ 52 := by
    rw [encodeMag, if_neg (by omega), roundPos_eq]
    simp only
    by_cases hg : qexp 53 (-1074) q = 971
    · rw [(hov hg).mpr h, hg]; decide +kernel
    · have := hbot (by omega)
      omega
  rw [this]
  cases neg <;> rfl

theorem toDouble_zero (neg : Bool) :
    DFinite (LVal.fin neg 0).toDouble ∧ (dNeg (LVal.fin neg 0).toDouble ↔ neg = true) ∧
      dMag (LVal.fin neg 0).toDouble = 0 ∧ dSig (LVal.fin neg 0).toDouble = 0 := by
  cases neg
  · have : (LVal.fin false 0).toDouble = 0 := by decide +kernel
    rw [this]
    refine ⟨by decide +kernel, by decide +kernel, ?_, by decide +kernel⟩
    exact dMag_zero (by decide +kernel)
  · have : (LVal.fin true 0).toDouble = 0x8000000000000000 := by decide +kernel
    rw [this]
    refine ⟨by decide +kernel, by decide +kernel, ?_, by decide +kernel⟩
    exact dMag_zero (by decide +kernel)

/-- Signed value. -/
def sgn (neg : Bool) (q : ℚ) : ℚ := if neg then -q else q

theorem toDouble_value (neg : Bool) {q : ℚ} (hq : 0 ≤ q) (h : q < dOverflow) :
    DFinite (LVal.fin neg q).toDouble ∧ (dNeg (LVal.fin neg q).toDouble ↔ neg = true) ∧
      dValue (LVal.fin neg q).toDouble = sgn neg (roundRat 53 (-1074) q) := by
  have : DFinite (LVal.fin neg q).toDouble ∧ (dNeg (LVal.fin neg q).toDouble ↔ neg = true) ∧
      dMag (LVal.fin neg q).toDouble = roundRat 53 (-1074) q := by
    rcases hq.lt_or_eq with hq | rfl
    · obtain ⟨a, b, c, -⟩ := toDouble_pos neg hq h; exact ⟨a, b, c⟩
    · obtain ⟨a, b, c, -⟩ := toDouble_zero neg
      exact ⟨a, b, by rw [c, roundRat_zero]⟩
  obtain ⟨a, b, c⟩ := this
  refine ⟨a, b, ?_⟩
  unfold dValue sgn
  rw [c]
  by_cases hn : neg = true
  · rw [if_pos (b.mpr hn), if_pos hn]
  · rw [if_neg (fun h => hn (b.mp h)), if_neg hn]

theorem dMag_nonneg (u : UInt64) : 0 ≤ dMag u := by unfold dMag; positivity

/-- Conversion to `double` is correct rounding. -/
theorem toDouble_nearest (neg : Bool) {q : ℚ} (hq : 0 ≤ q) (h : q < dOverflow) :
    NearestEven (sgn neg q) (LVal.fin neg q).toDouble := by
  rcases hq.lt_or_eq with hq | rfl
  · obtain ⟨a, b, c, d⟩ := toDouble_pos neg hq h
    obtain ⟨-, -, hv⟩ := toDouble_value neg hq.le h
    refine ⟨a, fun y hy => ?_⟩
    have hn := roundRat_nearest (p := 53) (emin := -1074) (by norm_num) hq (dSig y) (dUlpExp y)
      (ulpExp_bounds y hy).1 (DiyFp.dSig_lt y)
    have hz := (roundRat_nearest (p := 53) (emin := -1074) (by norm_num) hq 0 0 (by norm_num) (by norm_num)).1
    simp only [Nat.cast_zero, zero_mul] at hz
    rw [show (dSig y : ℚ) * 2 ^ dUlpExp y = dMag y from rfl] at hn
    have hm := dMag_nonneg y
    rw [hv]
    set r := roundRat 53 (-1074) q
    -- distance of the sgn values
    have hl : |sgn neg r - sgn neg q| = |r - q| := by
      unfold sgn; cases neg
      · simp
      · simp only [if_true]; rw [show -r - -q = -(r - q) by ring, abs_neg]
    rw [hl]
    by_cases hs : (dNeg y ↔ neg = true)
    · have hyv : dValue y = sgn neg (dMag y) := by
        unfold dValue sgn
        by_cases hn' : neg = true
        · rw [if_pos (hs.mpr hn'), if_pos hn']
        · rw [if_neg (fun h => hn' (hs.mp h)), if_neg hn']
      have hd : |sgn neg (dMag y) - sgn neg q| = |dMag y - q| := by
        unfold sgn; cases neg
        · simp
        · simp only [if_true]; rw [show -dMag y - -q = -(dMag y - q) by ring, abs_neg]
      rw [hyv, hd]
      refine ⟨hn.1, fun he => ?_⟩
      rcases hn.2 he with h1 | h1
      · left; rw [h1]
      · exact Or.inr (d h1)
    · have hyv : dValue y = -sgn neg (dMag y) := by
        unfold dValue sgn
        cases neg
        · have : dNeg y := by by_contra hc; exact hs (by simp [hc])
          simp [this]
        · have : ¬ dNeg y := by intro hc; exact hs (by simp [hc])
          simp [this]
      have hd : |(-sgn neg (dMag y)) - sgn neg q| = dMag y + q := by
        unfold sgn; cases neg
        · simp only [Bool.false_eq_true, if_false]
          rw [abs_of_nonpos (by linarith)]; ring
        · simp only [if_true]
          rw [abs_of_nonneg (by linarith)]; ring
      rw [hyv, hd]
      have hz' : |r - q| ≤ q := by
        rwa [zero_sub, abs_neg, abs_of_pos hq] at hz
      refine ⟨by linarith, fun he => ?_⟩
      have hm0 : dMag y = 0 := by linarith
      have he' : |dMag y - q| = |r - q| := by
        rw [hm0, zero_sub, abs_neg, abs_of_pos hq]; linarith
      rcases hn.2 he' with h1 | h1
      · left; rw [← h1, hm0]; simp [sgn]
      · exact Or.inr (d h1)
  · obtain ⟨a, b, c, d⟩ := toDouble_zero neg
    refine ⟨a, fun y hy => ?_⟩
    have hv : dValue (LVal.fin neg 0).toDouble = 0 := by unfold dValue; rw [c]; simp
    have hs : sgn neg 0 = 0 := by simp [sgn]
    rw [hv, hs, sub_zero, abs_zero]
    exact ⟨abs_nonneg _, fun _ => Or.inr (by rw [d])⟩

end Lexi
