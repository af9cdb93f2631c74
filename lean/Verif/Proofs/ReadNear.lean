import Verif.Proofs.Nearest
import Verif.Proofs.Strtold

/-!
# Rounding once and twice: idempotence, monotonicity, faithfulness
-/

namespace Lexi
open Spec Soft Dtoa

namespace Soft
variable {p : Nat} {emin : Int} {q : ℚ}

/-- The rounding is representable. -/
theorem roundRat_repr (hp : 1 ≤ p) (hq : 0 < q) :
    ∃ (a : ℕ) (c : ℤ), a < 2 ^ p ∧ emin ≤ c ∧ roundRat p emin q = a * 2 ^ c := by
  have hqe := qexp_eq (p := p) (emin := emin) (q := q)
  have hle : qsig p emin q ≤ 2 ^ p := by
    apply qsig_le hq
    have h1 := (lg_spec hq).2
    have h2 : ((2 ^ p : ℕ) : ℚ) * 2 ^ qexp p emin q = 2 ^ (p + qexp p emin q) := by
      rw [zpow_add₀ (by norm_num), zpow_natCast]; push_cast; rfl
    rw [h2]
    exact h1.le.trans (zpow_mono (by omega))
  rw [roundRat_pos hq]
  by_cases h : qsig p emin q = 2 ^ p
  · refine ⟨2 ^ (p - 1), qexp p emin q + 1, Nat.pow_lt_pow_right (by norm_num) (by omega), by omega, ?_⟩
    rw [h, zpow_add₀ (by norm_num)]
    have hpp : 2 ^ p = 2 * 2 ^ (p - 1) := by
      rw [← pow_succ']; congr 1; omega
    rw [hpp]; push_cast; ring
  · exact ⟨_, _, by omega, by omega, rfl⟩

theorem roundRat_nonneg (hq : 0 ≤ q) : 0 ≤ roundRat p emin q := by
  rcases hq.lt_or_eq with h | rfl
  · rw [roundRat_pos h]; positivity
  · rw [roundRat_zero]

/-- Rounding is monotone. -/
theorem roundRat_mono (hp : 1 ≤ p) {x y : ℚ} (hx : 0 ≤ x) (hxy : x ≤ y) :
    roundRat p emin x ≤ roundRat p emin y := by
  rcases hx.lt_or_eq with hx | rfl
  swap
  · rw [roundRat_zero]; exact roundRat_nonneg hxy
  have hy : 0 < y := hx.trans_le hxy
  obtain ⟨a, c, ha, hc, hr1⟩ := roundRat_repr (p := p) (emin := emin) hp hx
  obtain ⟨b, e, hb, he, hr2⟩ := roundRat_repr (p := p) (emin := emin) hp hy
  by_contra hlt
  push Not at hlt
  have n1 := (roundRat_nearest (p := p) (emin := emin) hp hx b e he hb).1
  have n2 := (roundRat_nearest (p := p) (emin := emin) hp hy a c hc ha).1
  rw [← hr2] at n1
  rw [← hr1] at n2
  by_cases h1 : roundRat p emin x ≤ y
  · have := le_roundRat (p := p) (emin := emin) hp hy a c hc ha (by rw [← hr1]; exact h1)
    rw [← hr1] at this
    exact absurd this (not_le.mpr hlt)
  push Not at h1
  rw [abs_of_pos (by linarith : 0 < roundRat p emin x - x)] at n1
  rw [abs_of_pos (by linarith : 0 < roundRat p emin x - y)] at n2
  rcases le_or_gt x (roundRat p emin y) with h2 | h2
  · rw [abs_of_nonneg (by linarith)] at n1; linarith
  · rw [abs_of_neg (by linarith)] at n1
    rw [abs_of_neg (by linarith)] at n2
    have : x = y := by linarith
    subst this
    exact absurd hlt (lt_irrefl _)

end Soft

/-- Converting the rounded value is converting the value. -/
theorem toDouble_round (neg : Bool) {q : ℚ} (hq : 0 ≤ q) (h : q < dOverflow) :
    (LVal.fin neg (roundRat 53 (-1074) q)).toDouble = (LVal.fin neg q).toDouble := by
  rcases hq.lt_or_eq with hq | rfl
  swap
  · rw [roundRat_zero]
  obtain ⟨a, b, c, -⟩ := toDouble_pos neg hq h
  set u := (LVal.fin neg q).toDouble with hu
  have h1 := ofDouble_finite u a
  rw [c] at h1
  have h2 : decide (dNeg u) = neg := by
    cases neg
    · simpa using b
    · simpa using b
  rw [h2] at h1
  rw [← h1]
  exact toDouble_ofDouble u (fun hn => a hn.1)

theorem roundRat_lt_iff {q : ℚ} (hq : 0 ≤ q) : roundRat 53 (-1074) q < 2 ^ 1024 ↔ q < dOverflow := by
  have hbig : (2 : ℚ) ^ (1024 : ℤ) = 2 ^ 53 * 2 ^ (971 : ℤ) := by
    rw [show (1024 : ℤ) = (53 : ℕ) + 971 by norm_num, zpow_add₀ (by norm_num), zpow_natCast]
  have e1 : (2 : ℚ) ^ 1024 = 2 ^ (1024 : ℤ) := (zpow_natCast (2 : ℚ) 1024).symm
  rcases hq.lt_or_eq with hq | rfl
  swap
  · rw [roundRat_zero]
    exact ⟨fun _ => by unfold dOverflow; norm_num, fun _ => by positivity⟩
  constructor
  · intro h
    by_contra hc
    push Not at hc
    have h1 : (2 : ℚ) ^ (1024 : ℤ) ≤ roundRat 53 (-1074) dOverflow := by
      have hpos : 0 < dOverflow := by unfold dOverflow; norm_num
      have hlg : lg dOverflow = 1023 := by
        have h1 := lg_lt hpos (a := 1024) (by
          rw [dOverflow_eq, hbig]; exact mul_lt_mul_of_pos_right (by norm_num) (zp 971))
        have h2 := le_lg hpos (a := 1023) (by
          rw [dOverflow_eq, show (1023 : ℤ) = (52 : ℕ) + 971 by norm_num, zpow_add₀ (by norm_num), zpow_natCast]
          exact mul_le_mul_of_nonneg_right (by norm_num) (zp 971).le)
        omega
      have hqe := qexp_eq (p := 53) (emin := -1074) (q := dOverflow)
      have hg : qexp 53 (-1074) dOverflow = 971 := by rw [hqe, hlg]; norm_num
      rw [roundRat_pos hpos, (qsig_overflow hpos hg).mpr le_rfl, hg, hbig]
      push_cast; rfl
    have h2 := roundRat_mono (p := 53) (emin := -1074) (by norm_num)
      (by unfold dOverflow; norm_num : (0 : ℚ) ≤ dOverflow) hc
    rw [e1] at h
    linarith
  · intro h
    obtain ⟨a, b, c, -⟩ := toDouble_pos false hq h
    rw [← c, e1]
    have hs : (dSig (LVal.fin false q).toDouble : ℚ) < 2 ^ 53 := by exact_mod_cast DiyFp.dSig_lt _
    calc dMag (LVal.fin false q).toDouble < 2 ^ 53 * 2 ^ dUlpExp (LVal.fin false q).toDouble :=
          mul_lt_mul_of_pos_right hs (zp _)
      _ ≤ 2 ^ 53 * 2 ^ (971 : ℤ) :=
          mul_le_mul_of_nonneg_left (zpow_mono (ulpExp_bounds _ a).2) (by positivity)
      _ = _ := hbig.symm

end Lexi
