import Verif.Proofs.Cached
import Verif.Proofs.Round
import Mathlib.Tactic.NormNum

/-! # The floating computation in getCachedPower -/

namespace Lexi.Dtoa
open Soft

/-- `r` is an evaluation of the real expression value `q` with relative error at most `2^-40`. -/
def RelOk (r q : ℚ) : Prop := |r - q| ≤ |q| / 2 ^ 40

theorem roundRat_relOk (q : ℚ) (h : q = 0 ∨ (2 : ℚ) ^ (-1022 : ℤ) ≤ |q|) : RelOk (roundRat 53 (-1074) q) q := by
  have pos : ∀ q : ℚ, 0 < q → (2 : ℚ) ^ (-1022 : ℤ) ≤ q → |roundRat 53 (-1074) q - q| ≤ q / 2 ^ 40 := by
    intro q hq hb
    rw [roundRat_pos hq]
    refine (qsig_err hq).trans ?_
    have hl := le_lg hq hb
    have he : qexp 53 (-1074) q = lg q + (-52) := by rw [qexp_eq]; omega
    have h1 := (lg_spec hq).1
    rw [he, zpow_add₀ (by norm_num)]
    have h2 : (0 : ℚ) < 2 ^ lg q := zp _
    have h3 : (2 : ℚ) ^ (-52 : ℤ) = 1 / 2 ^ 52 := by norm_num
    rw [h3]
    have h4 : (2 : ℚ) ^ lg q * (1 / 2 ^ 52) / 2 = 2 ^ lg q / 2 ^ 53 := by ring
    rw [h4]
    have h5 : (2 : ℚ) ^ lg q / 2 ^ 53 ≤ 2 ^ lg q / 2 ^ 40 :=
      div_le_div_of_nonneg_left h2.le (by norm_num) (by norm_num)
    have h6 : (2 : ℚ) ^ lg q / 2 ^ 40 ≤ q / 2 ^ 40 := div_le_div_of_nonneg_right h1 (by norm_num)
    exact h5.trans h6
  unfold RelOk
  rcases lt_trichotomy q 0 with hn | rfl | hp
  · have hb : (2 : ℚ) ^ (-1022 : ℤ) ≤ -q := by
      rcases h with h | h
      · exact absurd h hn.ne
      · rwa [abs_of_neg hn] at h
    have := pos (-q) (by linarith) hb
    have e : roundRat 53 (-1074) q = -roundRat 53 (-1074) (-q) := by
      have := roundRat_neg (p := 53) (emin := -1074) (q := -q) (by linarith)
      rwa [_root_.neg_neg] at this
    rw [e, abs_of_neg hn, show -roundRat 53 (-1074) (-q) - q = -(roundRat 53 (-1074) (-q) - -q) by ring, abs_neg]
    exact this
  · rw [roundRat_zero]; simp
  · have hb : (2 : ℚ) ^ (-1022 : ℤ) ≤ q := by
      rcases h with h | h
      · exact absurd h hp.ne'
      · rwa [abs_of_pos hp] at h
    have := pos q hp hb
    rwa [abs_of_pos hp]

/-- The decimal literal of src/detail/dtoa.cpp:196, exactly. -/
def LITERAL : ℚ := 30102999566398114 / 10 ^ 17

/-- Any evaluation of the expression of src/detail/dtoa.cpp:196 with the given operation results. -/
structure DkEval (dk : Int → ℚ) : Prop where
  eval : ∃ l : ℚ, RelOk l LITERAL ∧ ∀ e : Int, -1137 ≤ e → e ≤ 960 →
    ∃ m : ℚ, RelOk m (((-61 - e : Int) : ℚ) * l) ∧ RelOk (dk e) (m + 347)

theorem DkEval.ok {dk : Int → ℚ} (h : DkEval dk) : DkOk dk := by
  obtain ⟨l, hl, h⟩ := h.eval
  intro e h1 h2
  obtain ⟨m, hm, hd⟩ := h e h1 h2
  set n : ℚ := ((-61 - e : Int) : ℚ) with hn
  have hn1 : |n| ≤ 1100 := by
    rw [hn, ← Int.cast_abs]
    have : |-61 - e| ≤ 1100 := by rw [abs_le]; omega
    exact_mod_cast this
  have hE : dkExact e = n * LITERAL + 347 := rfl
  unfold RelOk at hl hm hd
  have hL : |LITERAL| ≤ 1 := by unfold LITERAL; rw [abs_of_nonneg (by norm_num)]; norm_num
  have e40 : (2 : ℚ) ^ 40 = 1099511627776 := by norm_num
  rw [e40] at hl hm hd
  -- l
  have hl1 : |l - LITERAL| ≤ 1 / 1099511627776 := hl.trans (by linarith)
  have hl2 : |l| ≤ 2 := by
    have := abs_sub_abs_le_abs_sub l LITERAL
    linarith
  have hnl : |n * l| ≤ 2200 := by
    rw [abs_mul]
    have := abs_nonneg n
    have := abs_nonneg l
    nlinarith
  have hm1 : |m - n * l| ≤ 2200 / 1099511627776 := hm.trans (by linarith)
  have hm2 : |m + 347| ≤ 2600 := by
    have h3 := abs_sub_abs_le_abs_sub m (n * l)
    have h4 := abs_add_le m 347
    rw [abs_of_nonneg (show (0 : ℚ) ≤ 347 by norm_num)] at h4
    linarith
  have hd1 : |dk e - (m + 347)| ≤ 2600 / 1099511627776 := hd.trans (by linarith)
  have hnd : |n * l - n * LITERAL| ≤ 1100 / 1099511627776 := by
    rw [← mul_sub, abs_mul]
    have := abs_nonneg n
    have := abs_nonneg (l - LITERAL)
    nlinarith
  rw [hE]
  have tri : |dk e - (n * LITERAL + 347)| ≤ |dk e - (m + 347)| + |m - n * l| + |n * l - n * LITERAL| := by
    have := abs_add_le (dk e - (m + 347) + (m - n * l)) (n * l - n * LITERAL)
    have h5 := abs_add_le (dk e - (m + 347)) (m - n * l)
    have e5 : dk e - (m + 347) + (m - n * l) + (n * l - n * LITERAL) = dk e - (n * LITERAL + 347) := by ring
    rw [e5] at this
    linarith
  linarith

theorem small_bound : (2 : ℚ) ^ (-1022 : ℤ) ≤ 1 / 10 := by
  have : (2 : ℚ) ^ (-1022 : ℤ) ≤ 2 ^ (-4 : ℤ) := zpow_mono (by norm_num)
  refine this.trans ?_
  norm_num

theorem LOG10_2_relOk : RelOk LOG10_2 LITERAL := by
  apply roundRat_relOk
  right
  have : |((30102999566398114 : ℚ) / 10 ^ 17)| = 30102999566398114 / 10 ^ 17 := abs_of_nonneg (by norm_num)
  rw [this]
  exact small_bound.trans (by norm_num)

theorem LOG10_2_bounds : 3 / 10 ≤ LOG10_2 ∧ LOG10_2 ≤ 303 / 1000 := by
  have h := LOG10_2_relOk
  unfold RelOk LITERAL at h
  rw [abs_of_nonneg (show (0 : ℚ) ≤ 30102999566398114 / 10 ^ 17 by norm_num)] at h
  have := abs_le.mp h
  norm_num at this
  constructor <;> linarith [this.1, this.2]

theorem prod_big (n : ℤ) : (n : ℚ) * LOG10_2 = 0 ∨ (2 : ℚ) ^ (-1022 : ℤ) ≤ |(n : ℚ) * LOG10_2| := by
  rcases eq_or_ne n 0 with rfl | hn
  · left; simp
  · right
    have h1 : (1 : ℚ) ≤ |(n : ℚ)| := by
      rw [← Int.cast_abs]
      exact_mod_cast Int.one_le_abs hn
    have hb := LOG10_2_bounds
    have h2 : (3 / 10 : ℚ) ≤ |LOG10_2| := by rw [abs_of_nonneg (by linarith)]; exact hb.1
    rw [abs_mul]
    have := small_bound
    nlinarith

theorem sum_big (n : ℤ) (h : -1021 ≤ n) (m : ℚ) (hm : RelOk m (n * LOG10_2)) :
    (2 : ℚ) ^ (-1022 : ℤ) ≤ |m + 347| := by
  have hb := LOG10_2_bounds
  have hn : (-1021 : ℚ) ≤ n := by exact_mod_cast h
  unfold RelOk at hm
  have e40 : (2 : ℚ) ^ 40 = 1099511627776 := by norm_num
  rw [e40] at hm
  have hmr : 1 ≤ m + 347 := by
    have h1 := (abs_le.mp hm).1
    rcases le_total 0 (n * LOG10_2) with h0 | h0
    · rw [abs_of_nonneg h0] at h1
      linarith
    · rw [abs_of_nonpos h0] at h1
      have : (-1021 : ℚ) * (303 / 1000) ≤ n * LOG10_2 := by nlinarith
      linarith
  rw [abs_of_nonneg (by linarith)]
  have := small_bound
  linarith

theorem dkDouble_eval : DkEval dkDouble := by
  refine ⟨LOG10_2, LOG10_2_relOk, fun e h1 h2 => ?_⟩
  have hm := roundRat_relOk _ (prod_big (-61 - e))
  exact ⟨_, hm, roundRat_relOk _ (Or.inr (sum_big _ (by omega) _ hm))⟩

theorem dkFma_eval : DkEval dkFma := by
  refine ⟨LOG10_2, LOG10_2_relOk, fun e h1 h2 => ?_⟩
  have hm : RelOk (((-61 - e : Int) : ℚ) * LOG10_2) (((-61 - e : Int) : ℚ) * LOG10_2) := by
    unfold RelOk; rw [sub_self, abs_zero]; positivity
  exact ⟨_, hm, roundRat_relOk _ (Or.inr (sum_big _ (by omega) _ hm))⟩

theorem dkDouble_ok : DkOk dkDouble := dkDouble_eval.ok
theorem dkFma_ok : DkOk dkFma := dkFma_eval.ok

end Lexi.Dtoa
