import Verif.Proofs.Twice
import Verif.Props.Json
import Verif.Props.LongDouble
import Verif.Props.ReadSingle
import Verif.Props.Strtod

/-!
# Numbers rounded twice: C85 (reading) and C86 (decimal scaling with excess precision)
-/

namespace Lexi
open Spec Soft Dtoa Strtod

/-- Equal roundings give equal doubles. -/
theorem toDouble_congr (neg : Bool) {x q : ℚ} (hx : 0 ≤ x) (hq : 0 ≤ q) (h : q < dOverflow)
    (e : roundRat 53 (-1074) x = roundRat 53 (-1074) q) : (LVal.fin neg x).toDouble = (LVal.fin neg q).toDouble := by
  have h' : x < dOverflow := (roundRat_lt_iff hx).mp (by rw [e]; exact (roundRat_lt_iff hq).mpr h)
  rw [← toDouble_round neg hx h', e, toDouble_round neg hq h]

theorem toFloat_congr (neg : Bool) {x q : ℚ} (hx : 0 ≤ x) (hq : 0 ≤ q) (h : q < fOverflow)
    (e : roundRat 24 (-149) x = roundRat 24 (-149) q) : (LVal.fin neg x).toFloat = (LVal.fin neg q).toFloat := by
  have h' : x < fOverflow := (froundRat_lt_iff hx).mp (by rw [e]; exact (froundRat_lt_iff hq).mpr h)
  rw [← toFloat_round neg hx h', e, toFloat_round neg hq h]

theorem sgn_dist (neg : Bool) (x y : ℚ) : |sgn neg x - sgn neg y| = |x - y| := by
  cases neg
  · rfl
  · simp only [sgn, if_true]; rw [show -x - -y = -(x - y) by ring, abs_neg]

/-- Nothing of the format is strictly nearer than the neighbour on the right side of the middle. -/
theorem wrong_side {m G q : ℚ} {odd : Prop} (hG : 0 < G) (c : q < (m + 1 / 2) * G ∧ odd ∨ (m + 1 / 2) * G < q ∧ ¬ odd)
    {v w : ℚ} (hv : odd → v = (m + 1) * G ∧ w = m * G) (hw : ¬ odd → v = m * G ∧ w = (m + 1) * G) :
    |w - q| < |v - q| := by
  have e1 : (m + 1 / 2) * G = m * G + G / 2 := by ring
  have e2 : (m + 1) * G = m * G + G := by ring
  rw [e1] at c
  rcases c with ⟨c1, c2⟩ | ⟨c1, c2⟩
  · obtain ⟨rfl, rfl⟩ := hv c2
    rw [e2]
    rcases abs_cases (m * G - q) with ⟨a, b⟩ | ⟨a, b⟩ <;> rcases abs_cases (m * G + G - q) with ⟨a', b'⟩ | ⟨a', b'⟩ <;>
      linarith
  · obtain ⟨rfl, rfl⟩ := hw c2
    rw [e2]
    rcases abs_cases (m * G - q) with ⟨a, b⟩ | ⟨a, b⟩ <;> rcases abs_cases (m * G + G - q) with ⟨a', b'⟩ | ⟨a', b'⟩ <;>
      linarith

/-- Rounding to a format of at least 54 bits and then to `double` is correct exactly when the first rounding does not
move the number onto a middle whose even side is the wrong one. -/
theorem twice_double (F : FpFormat) (hp : 54 ≤ F.p) (he : F.emin ≤ -1075) (hmax : 1024 ≤ F.emax) (neg : Bool) {q : ℚ}
    (hq : 0 ≤ q) (ho : q < dOverflow) :
    ∃ r, F.round neg q = .fin neg r ∧ NearestIn F.p F.emin q r ∧
      (NearestEven (sgn neg q) (F.round neg q).toDouble ↔ ¬ Misplaced q r) := by
  have hx0 : 0 ≤ roundRat F.p F.emin q := roundRat_nonneg hq
  have hov : dOverflow = ((2 ^ 54 - 1 : ℕ) : ℚ) * 2 ^ (970 : ℤ) := by
    unfold dOverflow
    rw [show (970 : ℤ) = ((970 : ℕ) : ℤ) by norm_num, zpow_natCast]
    norm_num only
  have hxo : roundRat F.p F.emin q ≤ dOverflow := by
    rcases hq.lt_or_eq with h | h
    · rw [hov] at ho ⊢
      refine roundRat_le h _ _ (by omega) ?_ ho.le
      have : 2 ^ 54 ≤ 2 ^ F.p := Nat.pow_le_pow_right (by omega) hp
      omega
    · rw [← h, roundRat_zero]; unfold dOverflow; norm_num
  have hfin : F.round neg q = .fin neg (roundRat F.p F.emin q) := by
    refine round_finite F neg q hmax (lt_of_le_of_lt hxo ?_)
    rw [hov, show (1024 : ℤ) = (54 : ℕ) + 970 by norm_num, zpow_add₀ (by norm_num), zpow_natCast]
    exact mul_lt_mul_of_pos_right (by norm_num) (zp 970)
  refine ⟨_, hfin, roundRat_nearestIn (by omega) hq, ?_⟩
  rw [hfin]
  have hnear := toDouble_nearest neg hq ho
  constructor
  · -- a misplaced number is not rounded correctly
    rintro ⟨hf, hn⟩ ⟨a, af, ha, hc⟩
    have hz := zp (dUlpExp a)
    have hb := (ulpExp_bounds a af).1
    have hs := DiyFp.dSig_lt a
    have hnorm : -1074 < dUlpExp a → 2 ^ 52 ≤ dSig a := uExp_normal a
    generalize roundRat F.p F.emin q = x at *
    unfold dHalf at ha
    by_cases hxlt : x < dOverflow
    swap
    · rw [toDouble_overflow neg (not_lt.mp hxlt)] at hf
      exact absurd hf (fun h => h (inf_facts neg).1.1)
    have hval := (toDouble_value neg hx0 hxlt).2.2
    have near : ∀ (s : ℕ) (v : ℚ), s < 2 ^ 53 → (-1074 < dUlpExp a → 2 ^ 52 ≤ s) → v = s * 2 ^ dUlpExp a →
        ¬ |v - q| < |roundRat 53 (-1074) x - q| := by
      intro s v h1 h2 hv hlt
      obtain ⟨y, y1, y2, y3, y4⟩ := exists_double' (neg = true) s (dUlpExp a) h1 hb (ulpExp_bounds a af).2 h2
      have yv : dValue y = sgn neg v := by
        unfold dValue dMag sgn; rw [y3, y4, hv]; simp only [y2]
      have := (hn y y1).1
      rw [hval, yv, sgn_dist, sgn_dist] at this
      exact absurd hlt (not_lt.mpr this)
    rcases Nat.mod_two_eq_zero_or_one (dSig a) with h2 | h2
    · have hr := round_down (p := 53) (emin := -1074) (by norm_num) hb hs hnorm (y := x)
        (by rw [ha]; exact mul_le_mul_of_nonneg_right (by linarith) hz.le) (Or.inr ⟨h2, ha.le⟩)
      refine near (dSig a + 1) ((dSig a + 1) * 2 ^ dUlpExp a) (by omega) (fun h => by have := hnorm h; omega)
        (by push_cast; rfl) ?_
      rw [hr]
      refine wrong_side (odd := dSig a % 2 = 1) hz (m := dSig a) ?_ (fun h => by omega) (fun _ => ⟨rfl, rfl⟩)
      rw [← ha]
      rcases hc with ⟨_, hc⟩ | ⟨hc, _⟩
      · omega
      · exact Or.inr ⟨hc, by omega⟩
    · have hr := round_up (p := 53) (emin := -1074) (by norm_num) hb hs hnorm (y := x)
        (by rw [ha]; exact mul_le_mul_of_nonneg_right (by linarith) hz.le) (Or.inr ⟨h2, ha.ge⟩)
      refine near (dSig a) (dSig a * 2 ^ dUlpExp a) hs hnorm rfl ?_
      rw [hr]
      refine wrong_side (odd := dSig a % 2 = 1) hz (m := dSig a) ?_ (fun _ => ⟨rfl, rfl⟩) (fun h => absurd h2 h)
      rw [← ha]
      rcases hc with ⟨hc, _⟩ | ⟨_, hc⟩
      · exact Or.inl ⟨hc, h2⟩
      · omega
  · intro hm
    rcases hq.lt_or_eq with hq | h
    swap
    · have : roundRat F.p F.emin q = q := by rw [← h, roundRat_zero]
      rw [this]; exact hnear
    obtain ⟨n, g, hc, h⟩ := twice (p := 53) (P := F.p) (emin := -1074) (E := F.emin) (by norm_num) (by omega) (by omega) hq
    have same : roundRat 53 (-1074) (roundRat F.p F.emin q) = roundRat 53 (-1074) q := by
      rcases h with ⟨-, h⟩ | ⟨h1, h2, h3, h4⟩
      · exact h
      have hg : g ≤ 971 := by
        by_contra hg
        have := hc.normal (by omega)
        have h5 : dOverflow ≤ n * 2 ^ g := by
          have h6 : ((2 ^ 52 : ℕ) : ℚ) * 2 ^ (972 : ℤ) ≤ n * 2 ^ g :=
            mul_le_mul (by exact_mod_cast this) (zpow_mono (by omega)) (zp _).le (by positivity)
          refine le_trans ?_ h6
          rw [dOverflow_eq, show (972 : ℤ) = 1 + 971 by norm_num, zpow_add₀ (by norm_num), ← mul_assoc]
          exact mul_le_mul_of_nonneg_right (by norm_num) (zp 971).le
        have := hc.low
        linarith
      obtain ⟨a, a1, -, a3, a4⟩ := exists_double' False n g hc.prec hc.least hg hc.normal
      have hh : roundRat F.p F.emin q = dHalf a := by unfold dHalf; rw [a3, a4, h1]
      rcases lt_trichotomy q (roundRat F.p F.emin q) with hl | hl | hl
      · have : n % 2 = 0 := by
          by_contra hn
          exact hm ⟨a, a1, hh, Or.inl ⟨hl, by omega⟩⟩
        rw [h2, h3 hl, if_pos this]
      · rw [← hl]
      · have : n % 2 ≠ 0 := fun hn => hm ⟨a, a1, hh, Or.inr ⟨hl, by omega⟩⟩
        rw [h2, h4 hl, if_neg this]
    rw [toDouble_congr neg hx0 hq.le ho same]
    exact hnear

theorem fround_finite (F : FpFormat) (neg : Bool) (q : ℚ) (hmax : 128 ≤ F.emax)
    (h : roundRat F.p F.emin q < 2 ^ (128 : ℤ)) : F.round neg q = .fin neg (roundRat F.p F.emin q) := by
  unfold FpFormat.round
  refine if_neg (not_le.mpr (h.trans_le ?_))
  rw [show (128 : ℤ) = ((128 : ℕ) : ℤ) by norm_num, zpow_natCast]
  push_cast
  exact pow_le_pow_right₀ (by norm_num) hmax

/-- Rounding to a format of at least 25 bits and then to `float` is correct exactly when the first rounding does not
move the number onto a middle whose even side is the wrong one. -/
theorem twice_float (F : FpFormat) (hp : 25 ≤ F.p) (he : F.emin ≤ -150) (hmax : 128 ≤ F.emax) (neg : Bool) {q : ℚ}
    (hq : 0 ≤ q) (ho : q < fOverflow) :
    ∃ r, F.round neg q = .fin neg r ∧ NearestIn F.p F.emin q r ∧
      (FNearestEven (sgn neg q) (F.round neg q).toFloat ↔ ¬ FMisplaced q r) := by
  have hx0 : 0 ≤ roundRat F.p F.emin q := roundRat_nonneg hq
  have hov : fOverflow = ((2 ^ 25 - 1 : ℕ) : ℚ) * 2 ^ (103 : ℤ) := by
    unfold fOverflow
    rw [show (103 : ℤ) = ((103 : ℕ) : ℤ) by norm_num, zpow_natCast]
    norm_num only
  have hxo : roundRat F.p F.emin q ≤ fOverflow := by
    rcases hq.lt_or_eq with h | h
    · rw [hov] at ho ⊢
      refine roundRat_le h _ _ (by omega) ?_ ho.le
      have : 2 ^ 25 ≤ 2 ^ F.p := Nat.pow_le_pow_right (by omega) hp
      omega
    · rw [← h, roundRat_zero]; unfold fOverflow; norm_num
  have hfin : F.round neg q = .fin neg (roundRat F.p F.emin q) := by
    refine fround_finite F neg q hmax (lt_of_le_of_lt hxo ?_)
    rw [hov, show (128 : ℤ) = (25 : ℕ) + 103 by norm_num, zpow_add₀ (by norm_num), zpow_natCast]
    exact mul_lt_mul_of_pos_right (by norm_num) (zp 103)
  refine ⟨_, hfin, roundRat_nearestIn (by omega) hq, ?_⟩
  rw [hfin]
  have hnear := toFloat_nearest neg hq ho
  constructor
  · -- a misplaced number is not rounded correctly
    rintro ⟨hf, hn⟩ ⟨a, af, ha, hc⟩
    have hz := zp (fUlpExp a)
    have hb := (fUlpExp_bounds a af).1
    have hs := fSig_lt a
    have hnorm : -149 < fUlpExp a → 2 ^ 23 ≤ fSig a := fExp_normal a
    generalize roundRat F.p F.emin q = x at *
    unfold fHalf at ha
    by_cases hxlt : x < fOverflow
    swap
    · rw [toFloat_overflow neg (not_lt.mp hxlt)] at hf
      exact absurd hf (fun h => h (finf_facts neg).1.1)
    have hval := (toFloat_value neg hx0 hxlt).2.2
    have near : ∀ (s : ℕ) (v : ℚ), s < 2 ^ 24 → (-149 < fUlpExp a → 2 ^ 23 ≤ s) → v = s * 2 ^ fUlpExp a →
        ¬ |v - q| < |roundRat 24 (-149) x - q| := by
      intro s v h1 h2 hv hlt
      obtain ⟨y, y1, y2, y3, y4⟩ := exists_float (neg = true) s (fUlpExp a) h1 hb (fUlpExp_bounds a af).2 h2
      have yv : fValue y = sgn neg v := by
        unfold fValue fMag sgn; rw [y3, y4, hv]; simp only [y2]
      have := (hn y y1).1
      rw [hval, yv, sgn_dist, sgn_dist] at this
      exact absurd hlt (not_lt.mpr this)
    rcases Nat.mod_two_eq_zero_or_one (fSig a) with h2 | h2
    · have hr := round_down (p := 24) (emin := -149) (by norm_num) hb hs hnorm (y := x)
        (by rw [ha]; exact mul_le_mul_of_nonneg_right (by linarith) hz.le) (Or.inr ⟨h2, ha.le⟩)
      refine near (fSig a + 1) ((fSig a + 1) * 2 ^ fUlpExp a) (by omega) (fun h => by have := hnorm h; omega)
        (by push_cast; rfl) ?_
      rw [hr]
      refine wrong_side (odd := fSig a % 2 = 1) hz (m := fSig a) ?_ (fun h => by omega) (fun _ => ⟨rfl, rfl⟩)
      rw [← ha]
      rcases hc with ⟨_, hc⟩ | ⟨hc, _⟩
      · omega
      · exact Or.inr ⟨hc, by omega⟩
    · have hr := round_up (p := 24) (emin := -149) (by norm_num) hb hs hnorm (y := x)
        (by rw [ha]; exact mul_le_mul_of_nonneg_right (by linarith) hz.le) (Or.inr ⟨h2, ha.ge⟩)
      refine near (fSig a) (fSig a * 2 ^ fUlpExp a) hs hnorm rfl ?_
      rw [hr]
      refine wrong_side (odd := fSig a % 2 = 1) hz (m := fSig a) ?_ (fun _ => ⟨rfl, rfl⟩) (fun h => absurd h2 h)
      rw [← ha]
      rcases hc with ⟨hc, _⟩ | ⟨_, hc⟩
      · exact Or.inl ⟨hc, h2⟩
      · omega
  · intro hm
    rcases hq.lt_or_eq with hq | h
    swap
    · have : roundRat F.p F.emin q = q := by rw [← h, roundRat_zero]
      rw [this]; exact hnear
    obtain ⟨n, g, hc, h⟩ := twice (p := 24) (P := F.p) (emin := -149) (E := F.emin) (by norm_num) (by omega) (by omega) hq
    have same : roundRat 24 (-149) (roundRat F.p F.emin q) = roundRat 24 (-149) q := by
      rcases h with ⟨-, h⟩ | ⟨h1, h2, h3, h4⟩
      · exact h
      have hg : g ≤ 104 := by
        by_contra hg
        have := hc.normal (by omega)
        have h5 : fOverflow ≤ n * 2 ^ g := by
          have h6 : ((2 ^ 23 : ℕ) : ℚ) * 2 ^ (105 : ℤ) ≤ n * 2 ^ g :=
            mul_le_mul (by exact_mod_cast this) (zpow_mono (by omega)) (zp _).le (by positivity)
          refine le_trans ?_ h6
          rw [fOverflow_eq, show (105 : ℤ) = 1 + 104 by norm_num, zpow_add₀ (by norm_num), ← mul_assoc]
          exact mul_le_mul_of_nonneg_right (by norm_num) (zp 104).le
        have := hc.low
        linarith
      obtain ⟨a, a1, -, a3, a4⟩ := exists_float False n g hc.prec hc.least hg hc.normal
      have hh : roundRat F.p F.emin q = fHalf a := by unfold fHalf; rw [a3, a4, h1]
      rcases lt_trichotomy q (roundRat F.p F.emin q) with hl | hl | hl
      · have : n % 2 = 0 := by
          by_contra hn
          exact hm ⟨a, a1, hh, Or.inl ⟨hl, by omega⟩⟩
        rw [h2, h3 hl, if_pos this]
      · rw [← hl]
      · have : n % 2 ≠ 0 := fun hn => hm ⟨a, a1, hh, Or.inr ⟨hl, by omega⟩⟩
        rw [h2, h4 hl, if_neg this]
    rw [toFloat_congr neg hx0 hq.le ho same]
    exact hnear

theorem round_fin_eq {F : FpFormat} {neg : Bool} {q r : ℚ} (h : F.round neg q = .fin neg r) :
    r = roundRat F.p F.emin q := by
  unfold FpFormat.round at h
  dsimp only at h
  split at h
  · cases h
  · exact (LVal.fin.inj h).2.symm

theorem not_misplaced {F : FpFormat} (hp : 54 ≤ F.p) (he : F.emin + F.p ≤ -1021) {q : ℚ} (hq : 0 ≤ q)
    (hlt : q < 2 ^ 53) (k m : ℕ) (hk : 10 ^ k < 2 ^ (F.p - 52)) (hm : q * 10 ^ k = m) :
    ¬ Misplaced q (roundRat F.p F.emin q) := by
  rintro ⟨a, af, ha, hc⟩
  have hx : roundRat F.p F.emin q = q := by
    rcases hq.lt_or_eq with hq | h
    · exact few_places (p := 53) (emin := -1074) (by norm_num) (by omega) (by push_cast; omega) (by norm_num) hq hlt k m
        (by rwa [show F.p - 53 + 1 = F.p - 52 by omega]) hm (ulpExp_bounds a af).1 (DiyFp.dSig_lt a) (uExp_normal a) ha
    · rw [← h, roundRat_zero]
  rw [hx] at hc
  rcases hc with ⟨h, _⟩ | ⟨h, _⟩ <;> exact absurd h (lt_irrefl _)

theorem fnot_misplaced {F : FpFormat} (hp : 25 ≤ F.p) (he : F.emin + F.p ≤ -125) {q : ℚ} (hq : 0 ≤ q)
    (hlt : q < 2 ^ 24) (k m : ℕ) (hk : 10 ^ k < 2 ^ (F.p - 23)) (hm : q * 10 ^ k = m) :
    ¬ FMisplaced q (roundRat F.p F.emin q) := by
  rintro ⟨a, af, ha, hc⟩
  have hx : roundRat F.p F.emin q = q := by
    rcases hq.lt_or_eq with hq | h
    · exact few_places (p := 24) (emin := -149) (by norm_num) (by omega) (by push_cast; omega) (by norm_num) hq hlt k m
        (by rwa [show F.p - 24 + 1 = F.p - 23 by omega]) hm (fUlpExp_bounds a af).1 (fSig_lt a) (fExp_normal a) ha
    · rw [← h, roundRat_zero]
  rw [hx] at hc
  rcases hc with ⟨h, _⟩ | ⟨h, _⟩ <;> exact absurd h (lt_irrefl _)

theorem small_overflow {q : ℚ} (h : q < 2 ^ 53) : q < dOverflow :=
  small_lt_overflow (h.trans (by norm_num))

/-! ## C85 -/

/-- C85.  Where `long double` has at least 54 bits: `strtold` gives the `long double` `r` nearest to the number, and
`lexi<double>` gives the double nearest to the number exactly when `r` has not moved onto a middle between two doubles
whose even side is the wrong one. -/
theorem C85_double (F : FpFormat) (hp : 54 ≤ F.p) (he : F.emin ≤ -1075) (hmax : 1024 ≤ F.emax) (n : JNumber)
    (hn : n.WF) (ho : n.mag < dOverflow) :
    ∃ r, strtold F n.text = .fin n.neg r ∧ NearestIn F.p F.emin n.mag r ∧
      (NearestEven n.value (lexiDouble F n.text) ↔ ¬ Misplaced n.mag r) := by
  rw [lexi_eq F n hn, strtold_number F n hn, value_sgn]
  exact twice_double F hp he hmax n.neg (mag_nonneg n) ho

/-- C85 for `lexi<float>`, where `long double` has at least 25 bits: every platform. -/
theorem C85_float (F : FpFormat) (hp : 25 ≤ F.p) (he : F.emin ≤ -150) (hmax : 128 ≤ F.emax) (n : JNumber)
    (hn : n.WF) (ho : n.mag < fOverflow) :
    ∃ r, strtold F n.text = .fin n.neg r ∧ NearestIn F.p F.emin n.mag r ∧
      (FNearestEven n.value (lexiFloat F n.text) ↔ ¬ FMisplaced n.mag r) := by
  rw [flexi_eq F n hn, strtold_number F n hn, value_sgn]
  exact twice_float F hp he hmax n.neg (mag_nonneg n) ho

/-- C85, everyday numbers.  A number below `2^53` of at most `k` decimal places is read as the nearest double where
`10^k < 2^(p-52)`: up to three places on x86, up to eighteen on platforms with binary128. -/
theorem C85_places_double (F : FpFormat) (hp : 54 ≤ F.p) (he : F.emin + F.p ≤ -1021) (hmax : 1024 ≤ F.emax)
    (n : JNumber) (hn : n.WF) (hlt : n.mag < 2 ^ 53) (k m : ℕ) (hk : 10 ^ k < 2 ^ (F.p - 52)) (hm : n.mag * 10 ^ k = m) :
    NearestEven n.value (lexiDouble F n.text) := by
  have h0 := mag_nonneg n
  obtain ⟨r, h1, -, h3⟩ := C85_double F hp (by omega) hmax n hn (small_overflow hlt)
  rw [strtold_number F n hn] at h1
  rw [h3, round_fin_eq h1]
  exact not_misplaced hp he h0 hlt k m hk hm

/-- C85, everyday numbers read as floats.  A number below `2^24` of at most `k` decimal places is read as the nearest
float where `10^k < 2^(p-23)`: up to nine places where `long double` is a double, up to twelve on x86. -/
theorem C85_places_float (F : FpFormat) (hp : 25 ≤ F.p) (he : F.emin + F.p ≤ -125) (hmax : 128 ≤ F.emax)
    (n : JNumber) (hn : n.WF) (hlt : n.mag < 2 ^ 24) (k m : ℕ) (hk : 10 ^ k < 2 ^ (F.p - 23)) (hm : n.mag * 10 ^ k = m) :
    FNearestEven n.value (lexiFloat F n.text) := by
  have h0 := mag_nonneg n
  obtain ⟨r, h1, -, h3⟩ := C85_float F hp (by omega) hmax n hn (hlt.trans (by unfold fOverflow; norm_num))
  rw [strtold_number F n hn] at h1
  rw [h3, round_fin_eq h1]
  exact fnot_misplaced hp he h0 hlt k m hk hm

/-- `A + 1/2 + 10^-k`, written with an exponent. -/
def aboveMiddle (A k : ℕ) : JNumber :=
  ⟨false, decN (A * 10 ^ k + 5 * 10 ^ (k - 1) + 1), none, some ⟨101, [45], decN k⟩⟩

theorem aboveMiddle_wf (A k : ℕ) : (aboveMiddle A k).WF := by
  refine ⟨decN_ne_nil _, decN_digits _, fun _ => decN_head _ (by omega), fun f h => ?_, fun e h => ?_⟩
  · exact absurd h (by simp [aboveMiddle])
  · have : e = ⟨101, [45], decN k⟩ := by simpa [aboveMiddle] using h.symm
    subst this
    exact ⟨Or.inl rfl, Or.inr (Or.inl rfl), decN_ne_nil _, decN_digits _⟩

theorem aboveMiddle_mag (A k : ℕ) (hk : 1 ≤ k) : (aboveMiddle A k).mag = A + 1 / 2 + (10 ^ k)⁻¹ := by
  have h10 : (10 : ℚ) ^ k ≠ 0 := by positivity
  have h5 : (5 : ℚ) * 10 ^ (k - 1) = 10 ^ k / 2 := by
    obtain ⟨j, rfl⟩ : ∃ j, k = j + 1 := ⟨k - 1, by omega⟩
    rw [show j + 1 - 1 = j by omega, pow_succ]; ring
  have e : (aboveMiddle A k).expValue - (aboveMiddle A k).fracDigits.length = -(k : ℤ) := by
    show -(digitsValue (decN k) : ℤ) - (([] : List UInt8).length : ℤ) = _
    rw [digitsValue_decN]; simp
  unfold JNumber.mag
  rw [e, zpow_neg, zpow_natCast]
  show ((digitsValue (decN (A * 10 ^ k + 5 * 10 ^ (k - 1) + 1) ++ []) : ℕ) : ℚ) * _ = _
  rw [List.append_nil, digitsValue_decN]
  push_cast
  rw [h5]
  field_simp

theorem two_pow_mod5 (j : ℕ) : 2 ^ j % 5 ≠ 0 := by
  induction j with
  | zero => norm_num
  | succ j ih => rw [pow_succ]; omega

/-- C85, the limit is exact.  In every format, numbers below `2^53` of `k` decimal places are all read as the nearest
double exactly when `10^k < 2^(p-52)`. -/
theorem C85_places_double_exact (F : FpFormat) (hp : 54 ≤ F.p) (he : F.emin + F.p ≤ -1021) (hmax : 1024 ≤ F.emax) (k : ℕ) :
    (∀ n : JNumber, n.WF → n.mag < 2 ^ 53 → (∃ m : ℕ, n.mag * 10 ^ k = m) → NearestEven n.value (lexiDouble F n.text)) ↔
      10 ^ k < 2 ^ (F.p - 52) := by
  refine ⟨fun h => ?_, fun hk n hn hlt ⟨m, hm⟩ => C85_places_double F hp he hmax n hn hlt k m hk hm⟩
  by_contra hk
  have h4 : 2 ^ 2 ≤ 2 ^ (F.p - 52) := Nat.pow_le_pow_right (by norm_num) (by omega)
  have hk1 : 1 ≤ k := by
    by_contra h0
    rw [show k = 0 by omega, pow_zero] at hk
    omega
  have hne : 10 ^ k ≠ 2 ^ (F.p - 52) := by
    obtain ⟨j, rfl⟩ : ∃ j, k = j + 1 := ⟨k - 1, by omega⟩
    have := two_pow_mod5 (F.p - 52)
    rw [pow_succ]; omega
  have hlt : (2 : ℚ) ^ (F.p - 52) < 10 ^ k := by exact_mod_cast (show 2 ^ (F.p - 52) < 10 ^ k by omega)
  have h10 : (0 : ℚ) < 10 ^ k := by positivity
  have hmag := aboveMiddle_mag (2 ^ 52) k hk1
  rw [Nat.cast_pow, Nat.cast_ofNat] at hmag
  have hsmall : ((10 : ℚ) ^ k)⁻¹ * 2 ^ (F.p - 53 + 1) < 1 := by
    rw [show F.p - 53 + 1 = F.p - 52 by omega, inv_mul_lt_iff₀ h10, mul_one]; exact hlt
  have hd0 : (0 : ℚ) < (10 ^ k)⁻¹ := by positivity
  have hd1 : ((10 : ℚ) ^ k)⁻¹ ≤ 1 / 10 := by
    rw [one_div]
    refine inv_anti₀ (by norm_num) ?_
    calc (10 : ℚ) = 10 ^ 1 := (pow_one _).symm
      _ ≤ 10 ^ k := pow_le_pow_right₀ (by norm_num) hk1
  have hmid := round_to_middle (p := 53) (P := F.p) (E := F.emin) (by norm_num) (by omega) (by push_cast; omega) hd0 hsmall
  rw [show 53 - 1 = 52 by norm_num, ← hmag] at hmid
  have hwf := aboveMiddle_wf (2 ^ 52) k
  have hb : (aboveMiddle (2 ^ 52) k).mag < 2 ^ 53 := by rw [hmag]; norm_num at hd1 ⊢; linarith
  have hplaces : ∃ m : ℕ, (aboveMiddle (2 ^ 52) k).mag * 10 ^ k = m := by
    refine ⟨2 ^ 52 * 10 ^ k + 5 * 10 ^ (k - 1) + 1, ?_⟩
    obtain ⟨j, rfl⟩ : ∃ j, k = j + 1 := ⟨k - 1, by omega⟩
    rw [hmag, show j + 1 - 1 = j by omega]
    push_cast
    have : ((10 : ℚ) ^ (j + 1))⁻¹ * 10 ^ (j + 1) = 1 := by field_simp
    rw [add_mul, this, pow_succ]; ring
  have hread := h _ hwf hb hplaces
  obtain ⟨r, h1, -, h3⟩ := C85_double F hp (by omega) hmax _ hwf (small_overflow hb)
  rw [strtold_number F _ hwf] at h1
  refine h3.mp hread ⟨0x4330000000000000, by decide +kernel, ?_, Or.inr ⟨?_, by decide +kernel⟩⟩
  · have a : dSig 0x4330000000000000 = 2 ^ 52 := by decide +kernel
    have b : dUlpExp 0x4330000000000000 = 0 := by decide +kernel
    rw [round_fin_eq h1, hmid]
    unfold dHalf
    rw [a, b]; push_cast; ring
  · rw [round_fin_eq h1, hmid, hmag]; linarith

/-- C85, the limit is exact.  In every format, numbers below `2^24` of `k` decimal places are all read as the nearest
float exactly when `10^k < 2^(p-23)`. -/
theorem C85_places_float_exact (F : FpFormat) (hp : 25 ≤ F.p) (he : F.emin + F.p ≤ -125) (hmax : 128 ≤ F.emax) (k : ℕ) :
    (∀ n : JNumber, n.WF → n.mag < 2 ^ 24 → (∃ m : ℕ, n.mag * 10 ^ k = m) → FNearestEven n.value (lexiFloat F n.text)) ↔
      10 ^ k < 2 ^ (F.p - 23) := by
  refine ⟨fun h => ?_, fun hk n hn hlt ⟨m, hm⟩ => C85_places_float F hp he hmax n hn hlt k m hk hm⟩
  by_contra hk
  have h4 : 2 ^ 2 ≤ 2 ^ (F.p - 23) := Nat.pow_le_pow_right (by norm_num) (by omega)
  have hk1 : 1 ≤ k := by
    by_contra h0
    rw [show k = 0 by omega, pow_zero] at hk
    omega
  have hne : 10 ^ k ≠ 2 ^ (F.p - 23) := by
    obtain ⟨j, rfl⟩ : ∃ j, k = j + 1 := ⟨k - 1, by omega⟩
    have := two_pow_mod5 (F.p - 23)
    rw [pow_succ]; omega
  have hlt : (2 : ℚ) ^ (F.p - 23) < 10 ^ k := by exact_mod_cast (show 2 ^ (F.p - 23) < 10 ^ k by omega)
  have h10 : (0 : ℚ) < 10 ^ k := by positivity
  have hmag := aboveMiddle_mag (2 ^ 23) k hk1
  rw [Nat.cast_pow, Nat.cast_ofNat] at hmag
  have hsmall : ((10 : ℚ) ^ k)⁻¹ * 2 ^ (F.p - 24 + 1) < 1 := by
    rw [show F.p - 24 + 1 = F.p - 23 by omega, inv_mul_lt_iff₀ h10, mul_one]; exact hlt
  have hd0 : (0 : ℚ) < (10 ^ k)⁻¹ := by positivity
  have hd1 : ((10 : ℚ) ^ k)⁻¹ ≤ 1 / 10 := by
    rw [one_div]
    refine inv_anti₀ (by norm_num) ?_
    calc (10 : ℚ) = 10 ^ 1 := (pow_one _).symm
      _ ≤ 10 ^ k := pow_le_pow_right₀ (by norm_num) hk1
  have hmid := round_to_middle (p := 24) (P := F.p) (E := F.emin) (by norm_num) (by omega) (by push_cast; omega) hd0 hsmall
  rw [show 24 - 1 = 23 by norm_num, ← hmag] at hmid
  have hwf := aboveMiddle_wf (2 ^ 23) k
  have hb : (aboveMiddle (2 ^ 23) k).mag < 2 ^ 24 := by rw [hmag]; norm_num at hd1 ⊢; linarith
  have hplaces : ∃ m : ℕ, (aboveMiddle (2 ^ 23) k).mag * 10 ^ k = m := by
    refine ⟨2 ^ 23 * 10 ^ k + 5 * 10 ^ (k - 1) + 1, ?_⟩
    obtain ⟨j, rfl⟩ : ∃ j, k = j + 1 := ⟨k - 1, by omega⟩
    rw [hmag, show j + 1 - 1 = j by omega]
    push_cast
    have : ((10 : ℚ) ^ (j + 1))⁻¹ * 10 ^ (j + 1) = 1 := by field_simp
    rw [add_mul, this, pow_succ]; ring
  have hread := h _ hwf hb hplaces
  obtain ⟨r, h1, -, h3⟩ := C85_float F hp (by omega) hmax _ hwf (hb.trans (by unfold fOverflow; norm_num))
  rw [strtold_number F _ hwf] at h1
  refine h3.mp hread ⟨0x4B000000, by decide +kernel, ?_, Or.inr ⟨?_, by decide +kernel⟩⟩
  · have a : fSig 0x4B000000 = 2 ^ 23 := by decide +kernel
    have b : fUlpExp 0x4B000000 = 0 := by decide +kernel
    rw [round_fin_eq h1, hmid]
    unfold fHalf
    rw [a, b]; push_cast; ring
  · rw [round_fin_eq h1, hmid, hmag]; linarith

/-! ## C86 -/

theorem fmulIn_pos (F : FpFormat) (a b : UInt64) (ha : DFinite a) (hb : DFinite b) (na : ¬ dNeg a) (nb : ¬ dNeg b) :
    fmulIn F a b = (F.round false (dMag a * dMag b)).toDouble := by
  unfold fmulIn
  rw [ofDouble_pos' a ha na, ofDouble_pos' b hb nb]
  rfl

theorem fdivIn_pos (F : FpFormat) (a b : UInt64) (ha : DFinite a) (hb : DFinite b) (na : ¬ dNeg a) (nb : ¬ dNeg b)
    (hz : dMag b ≠ 0) : fdivIn F a b = (F.round false (dMag a / dMag b)).toDouble := by
  unfold fdivIn
  rw [ofDouble_pos' a ha na, ofDouble_pos' b hb nb]
  simp only [if_neg hz]
  rfl

theorem fastPathIn_eq (F : FpFormat) (d : UInt64) (hf : DFinite d) (hs : ¬ dNeg d) (p : ℤ) (h1 : -22 ≤ p) (h2 : p ≤ 22) :
    fastPathIn F d p = .ok (F.round false (dMag d * 10 ^ p)).toDouble := by
  unfold fastPathIn
  rw [if_neg (by omega)]
  by_cases hp : 0 ≤ p
  · obtain ⟨k, rfl⟩ : ∃ k : ℕ, p = k := ⟨p.toNat, by omega⟩
    rw [if_pos hp, pow10_ok _ hp (by omega)]
    obtain ⟨e1, e2, e3⟩ := power10_exact k (by omega)
    simp only [Int.toNat_natCast, Res.ok_bind, Res.pure_eq]
    rw [fmulIn_pos F d _ hf e1 hs e2, e3, zpow_natCast]
  · obtain ⟨k, hk⟩ : ∃ k : ℕ, p = -k := ⟨(-p).toNat, by omega⟩
    subst hk
    rw [if_neg hp, _root_.neg_neg, pow10_ok _ (by omega) (by omega)]
    obtain ⟨e1, e2, e3⟩ := power10_exact k (by omega)
    simp only [Int.toNat_natCast, Res.ok_bind, Res.pure_eq]
    rw [fdivIn_pos F d _ hf e1 hs e2 (by rw [e3]; positivity), e3, zpow_neg, zpow_natCast, ← div_eq_mul_inv]

/-- Converting the rounding to binary64 is converting the value. -/
theorem round64_toDouble (neg : Bool) {q : ℚ} (hq : 0 ≤ q) :
    (FpFormat.binary64.round neg q).toDouble = (LVal.fin neg q).toDouble := by
  have hlt := roundRat_lt_iff hq
  have hcast : (((2 ^ FpFormat.binary64.emax : ℕ) : ℚ) ≤ roundRat FpFormat.binary64.p FpFormat.binary64.emin q)
      ↔ dOverflow ≤ q := by
    rw [← not_lt, ← not_lt, not_iff_not, ← hlt]
    show roundRat 53 (-1074) q < ((2 ^ 1024 : ℕ) : ℚ) ↔ _
    rw [Nat.cast_pow]; rfl
  rcases lt_or_ge q dOverflow with h | h
  · have e : (FpFormat.binary64.round neg q) = .fin neg (roundRat 53 (-1074) q) := by
      unfold FpFormat.round
      exact if_neg (fun hc => absurd (hcast.mp hc) (not_le.mpr h))
    rw [e, toDouble_round neg hq h]
  · have e : (FpFormat.binary64.round neg q) = .inf neg := by
      unfold FpFormat.round
      exact if_pos (hcast.mpr h)
    rw [e, toDouble_overflow neg h]
    rfl

theorem fmulIn_binary64 (a b : UInt64) : fmulIn .binary64 a b = fmul a b := by
  unfold fmulIn fmul
  cases ha : LVal.ofDouble a with
  | fin s x =>
    cases hb : LVal.ofDouble b with
    | fin t y => exact round64_toDouble _ (mul_nonneg (ofDouble_nonneg ha) (ofDouble_nonneg hb))
    | _ => rfl
  | _ => rfl

theorem fdivIn_binary64 (a b : UInt64) : fdivIn .binary64 a b = fdiv a b := by
  unfold fdivIn fdiv
  cases ha : LVal.ofDouble a with
  | fin s x =>
    cases hb : LVal.ofDouble b with
    | fin t y =>
      dsimp only
      split
      · rfl
      · exact round64_toDouble _ (div_nonneg (ofDouble_nonneg ha) (ofDouble_nonneg hb))
    | _ => rfl
  | _ => rfl

/-- C86, the two models agree: evaluating in binary64 is `fast`, for every double and every exponent. -/
theorem C86_binary64 (d : UInt64) (p : ℤ) : fastIn .binary64 d p = fast d p := by
  have h : ∀ d p, fastPathIn .binary64 d p = fastPath d p := fun d p => by
    unfold fastPathIn fastPath
    simp only [fmulIn_binary64, fdivIn_binary64]
  unfold fastIn fast
  simp only [fmulIn_binary64, h]

theorem fastIn_cases (F : FpFormat) (hF : 54 ≤ F.p) (he : F.emin ≤ -1075) (hmax : 1024 ≤ F.emax)
    (d : UInt64) (n : ℕ) (hn : n ≤ 2 ^ 53 - 1) (hf : DFinite d) (hs : ¬ dNeg d) (hd : dValue d = n)
    (p : ℤ) (h1 : -22 ≤ p) (h2 : p ≤ 37) :
    (fastIn F d p = .ok none ∧ 22 < p ∧ 2 ^ 53 - 1 < n * 10 ^ (p - 22).toNat) ∨
    (∃ r, fastIn F d p = .ok (some r) ∧ (22 < p → n * 10 ^ (p - 22).toNat ≤ 2 ^ 53 - 1) ∧
      Faithful ((n : ℚ) * 10 ^ p) r ∧ ¬ dNeg r ∧
      (NearestEven ((n : ℚ) * 10 ^ p) r ↔ ¬ Misplaced ((n : ℚ) * 10 ^ p) (roundRat F.p F.emin ((n : ℚ) * 10 ^ p)))) := by
  have hm : dMag d = n := by rw [← hd]; unfold dValue; rw [if_neg hs]
  have hnq : (n : ℚ) ≤ 2 ^ 53 - 1 := by
    have h' : (n : ℚ) + 1 ≤ 2 ^ 53 := by exact_mod_cast (show n + 1 ≤ 2 ^ 53 by omega)
    linarith
  -- one operation, rounded twice
  have last : ∀ q : ℚ, 0 ≤ q → q < 2 ^ 128 → 
      Faithful q (F.round false q).toDouble ∧ ¬ dNeg (F.round false q).toDouble ∧
      (NearestEven q (F.round false q).toDouble ↔ ¬ Misplaced q (roundRat F.p F.emin q)) := by
    intro q h0 h128
    have hmaxq : q ≤ dMax := by
      refine h128.le.trans ?_
      unfold dMax
      calc (2 : ℚ) ^ 128 ≤ 1 * 2 ^ 971 := by rw [one_mul]; exact pow_le_pow_right₀ (by norm_num) (by norm_num)
        _ ≤ (2 ^ 53 - 1) * 2 ^ 971 := mul_le_mul_of_nonneg_right (by norm_num) (by positivity)
    obtain ⟨x, x1, -, x3⟩ := twice_double F hF he hmax false h0 (small_lt_overflow h128)
    obtain ⟨f1, -, f3⟩ := round_faithful F (by omega) (by omega) hmax false h0
    rw [round_fin_eq x1] at x3
    exact ⟨f1 hmaxq, by simpa using f3, x3⟩
  by_cases hp : 22 < p
  · obtain ⟨k, hk⟩ : ∃ k : ℕ, p = k + 22 := ⟨(p - 22).toNat, by omega⟩
    have hk22 : p - 22 = k := by omega
    obtain ⟨e1, e2, e3⟩ := power10_exact k (by omega)
    set N : ℕ := n * 10 ^ k with hN
    have hmul : fmulIn F d (LVal.fin false ((10 ^ k : Nat) : Rat)).toDouble = (F.round false (N : ℚ)).toDouble := by
      rw [fmulIn_pos F d _ hf e1 hs e2, e3, hm, hN]; push_cast; rfl
    have hN128 : (N : ℚ) < 2 ^ 128 := by
      have : N ≤ 2 ^ 53 * 10 ^ 15 := Nat.mul_le_mul (by omega) (Nat.pow_le_pow_right (by norm_num) (by omega))
      exact_mod_cast lt_of_le_of_lt this (by norm_num)
    obtain ⟨hfa, hneg, -⟩ := last N (by positivity) hN128
    set u := (F.round false (N : ℚ)).toDouble with hu
    have hrun : fastIn F d p = (if fle u MAX_SIG = true then do
        let r ← fastPathIn F u 22
        pure (some r) else pure none) := by
      unfold fastIn
      rw [if_pos (by omega), hk22, pow10_ok _ (by omega) (by omega)]
      simp only [Int.toNat_natCast, Res.ok_bind, Res.pure_eq]
      rw [hmul]
      simp
    rw [hrun, hk22, Int.toNat_natCast, ← hN]
    have hle := fle_pos u hfa.1 hneg
    have hval : dValue u = dMag u := by unfold dValue; rw [if_neg hneg]
    by_cases hNle : N ≤ 2 ^ 53 - 1
    · right
      -- the scaled significand is exact
      have hx := toDouble_exact false N 0 (by omega) (by rw [pow_zero, mul_one]; exact small_lt_overflow hN128)
      rw [pow_zero, mul_one] at hx
      have hy : dValue (LVal.fin false (N : ℚ)).toDouble = N := by
        unfold dValue; rw [if_neg (by simpa using hx.2.1), hx.2.2]
      have hb := hfa.2 _ hx.1
      rw [hy] at hb
      have hex : dMag u = N := by rw [← hval]; exact le_antisymm (hb.1 le_rfl) (hb.2 le_rfl)
      have hNq : (N : ℚ) ≤ 2 ^ 53 - 1 := by
        have h' : (N : ℚ) + 1 ≤ 2 ^ 53 := by exact_mod_cast (show N + 1 ≤ 2 ^ 53 by omega)
        linarith
      have e : (n : ℚ) * 10 ^ p = (N : ℚ) * 10 ^ (22 : ℤ) := by
        rw [hk, zpow_add₀ (by norm_num), zpow_natCast, hN]; push_cast; ring
      have hq128 : (n : ℚ) * 10 ^ p < 2 ^ 128 := by
        rw [e]
        calc (N : ℚ) * 10 ^ (22 : ℤ) ≤ 2 ^ 53 * 10 ^ (22 : ℤ) :=
              mul_le_mul_of_nonneg_right (by linarith) (by positivity)
          _ < 2 ^ 128 := by norm_num
      obtain ⟨x2, x3, x4⟩ := last ((n : ℚ) * 10 ^ p) (by positivity) hq128
      refine ⟨_, ?_, fun _ => hNle, x2, x3, x4⟩
      rw [if_pos (hle.mpr (by rw [hex]; exact hNq)), fastPathIn_eq F u hfa.1 hneg 22 (by omega) (by omega), hex, ← e]
      rfl
    · left
      refine ⟨?_, hp, by omega⟩
      rw [if_neg]
      · rfl
      intro hc
      have h3 := hle.mp hc
      have hv : dValue 0x4340000000000000 = 2 ^ 53 := by
        have a : dSig 0x4340000000000000 = 2 ^ 52 := by decide +kernel
        have b : dUlpExp 0x4340000000000000 = 1 := by decide +kernel
        have c : ¬ dNeg 0x4340000000000000 := by decide +kernel
        unfold dValue dMag; rw [a, b, if_neg c]; norm_num
      have h4 := (hfa.2 0x4340000000000000 (by decide +kernel)).2 (by
        rw [hv]; exact_mod_cast (show 2 ^ 53 ≤ N by omega))
      rw [hv, hval] at h4
      linarith
  · right
    have hq128 : (n : ℚ) * 10 ^ p < 2 ^ 128 := by
      have : (10 : ℚ) ^ p ≤ 10 ^ (22 : ℤ) := zpow_le_zpow_right₀ (by norm_num) (by omega)
      calc (n : ℚ) * 10 ^ p ≤ 2 ^ 53 * 10 ^ (22 : ℤ) := mul_le_mul (by linarith) this (by positivity) (by positivity)
        _ < 2 ^ 128 := by norm_num
    obtain ⟨x2, x3, x4⟩ := last ((n : ℚ) * 10 ^ p) (by positivity) hq128
    refine ⟨_, ?_, fun h => absurd h hp, x2, x3, x4⟩
    have hle := fle_pos d hf hs
    unfold fastIn
    rw [if_neg (by omega)]
    simp only [Res.pure_eq, Res.ok_bind]
    rw [if_pos ⟨h1, by omega, hle.mpr (by rw [hm]; exact hnq)⟩, fastPathIn_eq F d hf hs p h1 (by omega), hm]
    rfl

/-- C86.  With intermediate results in a format of at least 54 bits (x87 has 64), for every integral significand up to
`2^53 - 1` and exponent between -22 and 37: the fast path declines in the same cases as in plain double arithmetic; when it
accepts, the product or quotient is first rounded to the number `x` of the wider format nearest to `n * 10^p`, the
result is one of the two doubles next to `n * 10^p`, and it is the nearest one exactly when `x` is not a middle whose
even side is the wrong one. -/
theorem C86_fast (F : FpFormat) (hF : 54 ≤ F.p) (he : F.emin ≤ -1075) (hmax : 1024 ≤ F.emax)
    (d : UInt64) (n : ℕ) (hn : n ≤ 2 ^ 53 - 1) (hf : DFinite d) (hs : ¬ dNeg d) (hd : dValue d = n)
    (p : ℤ) (h1 : -22 ≤ p) (h2 : p ≤ 37) :
    (fastIn F d p = .ok none ∧ 22 < p ∧ 2 ^ 53 - 1 < n * 10 ^ (p - 22).toNat) ∨
    (∃ r x, fastIn F d p = .ok (some r) ∧ (22 < p → n * 10 ^ (p - 22).toNat ≤ 2 ^ 53 - 1) ∧
      NearestIn F.p F.emin ((n : ℚ) * 10 ^ p) x ∧ Faithful ((n : ℚ) * 10 ^ p) r ∧ ¬ dNeg r ∧
      (NearestEven ((n : ℚ) * 10 ^ p) r ↔ ¬ Misplaced ((n : ℚ) * 10 ^ p) x)) := by
  rcases fastIn_cases F hF he hmax d n hn hf hs hd p h1 h2 with h | ⟨r, a, b, c, e, g⟩
  · exact Or.inl h
  · exact Or.inr ⟨r, _, a, b, roundRat_nearestIn (by omega) (by positivity), c, e, g⟩

/-- C86, sufficient conditions.  The nearest double comes out when the product is exact in the wider format, and for
quotients by `10^k` while `10^k < 2^(p-52)`: up to three places on x87. -/
theorem C86_nearest (F : FpFormat) (hF : 54 ≤ F.p) (he : F.emin + F.p ≤ -1021) (hmax : 1024 ≤ F.emax)
    (d : UInt64) (n : ℕ) (hn : n ≤ 2 ^ 53 - 1) (hf : DFinite d) (hs : ¬ dNeg d) (hd : dValue d = n) (k : ℕ) (hk : k ≤ 22) :
    (n * 5 ^ k < 2 ^ F.p → ∃ r, fastIn F d k = .ok (some r) ∧ NearestEven ((n : ℚ) * 10 ^ k) r) ∧
    (10 ^ k < 2 ^ (F.p - 52) → ∃ r, fastIn F d (-k) = .ok (some r) ∧ NearestEven ((n : ℚ) / 10 ^ k) r) := by
  have hnq : (n : ℚ) < 2 ^ 53 := by exact_mod_cast (show n < 2 ^ 53 by omega)
  constructor
  · intro h
    rcases fastIn_cases F hF (by omega) hmax d n hn hf hs hd k (by omega) (by omega) with ⟨-, h', -⟩ | ⟨r, h1, -, -, -, h6⟩
    · omega
    rw [zpow_natCast] at h6
    refine ⟨r, h1, h6.mpr ?_⟩
    have hx : roundRat F.p F.emin ((n : ℚ) * 10 ^ k) = (n : ℚ) * 10 ^ k := by
      rcases Nat.eq_zero_or_pos n with h0 | h0
      · rw [h0, Nat.cast_zero, zero_mul, roundRat_zero]
      · have hpos : (0 : ℚ) < n := by exact_mod_cast h0
        refine roundRat_exact (by omega) (by positivity) (n * 5 ^ k) k (by omega) h ?_
        rw [zpow_natCast, show (10 : ℚ) = 5 * 2 by norm_num, mul_pow]; push_cast; ring
    rw [hx]
    rintro ⟨a, -, -, h | h⟩ <;> exact absurd h.1 (lt_irrefl _)
  · intro h
    rcases fastIn_cases F hF (by omega) hmax d n hn hf hs hd (-k) (by omega) (by omega) with ⟨-, h', -⟩ | ⟨r, h1, -, -, -, h6⟩
    · omega
    rw [zpow_neg, zpow_natCast, ← div_eq_mul_inv] at h6
    refine ⟨r, h1, h6.mpr ?_⟩
    have h10 : (1 : ℚ) ≤ 10 ^ k := one_le_pow₀ (by norm_num)
    exact not_misplaced hF he (by positivity) (lt_of_le_of_lt (div_le_self (by positivity) h10) hnq) k n h
      (div_mul_cancel₀ _ (by positivity))

/-- C86, the difference is real.  `3053 / 10^22` comes out one unit in the last place off with x87
evaluation. -/
theorem C86_not_nearest :
    fastIn .x87 0x40A7DA0000000000 (-22) = .ok (some 0x3C1686F435FE6B6C) ∧
    fast 0x40A7DA0000000000 (-22) = .ok (some 0x3C1686F435FE6B6B) ∧
    ¬ NearestEven (3053 * 10 ^ (-22 : ℤ)) 0x3C1686F435FE6B6C := by
  refine ⟨by decide +kernel, by decide +kernel, fun hc => ?_⟩
  have h := (hc.2 0x3C1686F435FE6B6B (by decide +kernel)).1
  have v1 : dValue 0x3C1686F435FE6B6C = 0x1686F435FE6B6C * 2 ^ (-114 : ℤ) := by
    have a : dSig 0x3C1686F435FE6B6C = 0x1686F435FE6B6C := by decide +kernel
    have b : dUlpExp 0x3C1686F435FE6B6C = -114 := by decide +kernel
    have c : ¬ dNeg 0x3C1686F435FE6B6C := by decide +kernel
    unfold dValue dMag; rw [a, b, if_neg c]; norm_num
  have v2 : dValue 0x3C1686F435FE6B6B = 0x1686F435FE6B6B * 2 ^ (-114 : ℤ) := by
    have a : dSig 0x3C1686F435FE6B6B = 0x1686F435FE6B6B := by decide +kernel
    have b : dUlpExp 0x3C1686F435FE6B6B = -114 := by decide +kernel
    have c : ¬ dNeg 0x3C1686F435FE6B6B := by decide +kernel
    unfold dValue dMag; rw [a, b, if_neg c]; norm_num
  rw [v1, v2] at h
  norm_num [abs_of_pos, abs_of_neg] at h

/-! ### Inhabited hypotheses -/

/-- The three formats meet the hypotheses. -/
example : (54 ≤ FpFormat.x87.p ∧ FpFormat.x87.emin + FpFormat.x87.p ≤ -1021 ∧ 1024 ≤ FpFormat.x87.emax) ∧
    (25 ≤ FpFormat.binary64.p ∧ FpFormat.binary64.emin + FpFormat.binary64.p ≤ -125 ∧ 128 ≤ FpFormat.binary64.emax) ∧
    (54 ≤ FpFormat.binary128.p ∧ FpFormat.binary128.emin + FpFormat.binary128.p ≤ -1021) := by decide +kernel
/-- Three places on x86, nine for floats where `long double` is a double; one more is too many. -/
example : 10 ^ 3 < 2 ^ (FpFormat.x87.p - 52) ∧ ¬ 10 ^ 4 < 2 ^ (FpFormat.x87.p - 52) ∧
    10 ^ 9 < 2 ^ (FpFormat.binary64.p - 23) ∧ ¬ 10 ^ 10 < 2 ^ (FpFormat.binary64.p - 23) ∧
    10 ^ 18 < 2 ^ (FpFormat.binary128.p - 52) ∧ ¬ 10 ^ 19 < 2 ^ (FpFormat.binary128.p - 52) := by decide +kernel
/-- `2^52 + 0.5001` read on x86 and where `long double` is a double. -/
example : (aboveMiddle (2 ^ 52) 4).text = ascii "45035996273704965001e-4" ∧
    lexiDouble .x87 (ascii "4503599627370496.5001") = 0x4330000000000000 ∧
    lexiDouble .binary64 (ascii "4503599627370496.5001") = 0x4330000000000001 := by decide +kernel
/-- 123 * 10^-4 and 123 * 10^35 with x87 evaluation. -/
example : fastIn .x87 0x405EC00000000000 (-4) = .ok (some 0x3F8930BE0DED288D) ∧
    fastIn .x87 0x405EC00000000000 35 = .ok (some 0x47A281C9A44B847B) ∧
    fastIn .x87 0x433FFFFFFFFFFFFF 23 = .ok none := by decide +kernel

end Lexi
