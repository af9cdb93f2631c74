import Verif.Props.RoundTrip

/-!
# Text of one floating type read as another: C80, C81
-/

namespace Lexi
open Spec Soft Dtoa DiyFp

/-- No number with 53 significant bits lies strictly between a double and the upper end of its rounding interval. -/
theorem highB_lt_of_lt {u : UInt64} (a : ℕ) (c : ℤ) (ha : a < 2 ^ 53) (hc : -1074 ≤ c)
    (h : dMag u < a * 2 ^ c) : highB u < a * 2 ^ c := by
  rw [highB_mul]
  unfold dMag at h
  have hz := zp (dUlpExp u)
  rcases le_or_gt (dUlpExp u) c with hle | hlt
  · obtain ⟨j, hj⟩ : ∃ j : ℕ, c = dUlpExp u + j := ⟨(c - dUlpExp u).toNat, by omega⟩
    have e : (a : ℚ) * 2 ^ c = ((a * 2 ^ j : ℕ) : ℚ) * 2 ^ dUlpExp u := by
      rw [hj, zpow_add₀ (by norm_num), zpow_natCast]; push_cast; ring
    rw [e] at h ⊢
    have h1 : dSig u < a * 2 ^ j := by exact_mod_cast lt_of_mul_lt_mul_right h hz.le
    have h2 : (dSig u : ℚ) + 1 ≤ ((a * 2 ^ j : ℕ) : ℚ) := by exact_mod_cast h1
    exact mul_lt_mul_of_pos_right (by linarith) hz
  · exfalso
    have h52 := uExp_normal u (by omega)
    have h1 : (a : ℚ) * 2 ^ c ≤ 2 ^ 53 * 2 ^ (dUlpExp u - 1) :=
      mul_le_mul (by exact_mod_cast ha.le) (zpow_mono (by omega)) (zp _).le (by norm_num)
    rw [zpow_sub_one₀ (by norm_num)] at h1
    have h2 : (2 : ℚ) ^ 52 * 2 ^ dUlpExp u ≤ dSig u * 2 ^ dUlpExp u :=
      mul_le_mul_of_nonneg_right (by exact_mod_cast h52) hz.le
    linarith

/-- The same below. -/
theorem lt_lowB_of_lt {u : UInt64} (hnz : ¬ DZero u) (a : ℕ) (c : ℤ) (ha : a < 2 ^ 53)
    (h : a * 2 ^ c < dMag u) (hc : -1074 ≤ c) : a * 2 ^ c < lowB u := by
  rw [lowB_mul u hnz]
  unfold dMag at h
  have hz := zp (dUlpExp u)
  rcases le_or_gt (dUlpExp u) c with hle | hlt
  · obtain ⟨j, hj⟩ : ∃ j : ℕ, c = dUlpExp u + j := ⟨(c - dUlpExp u).toNat, by omega⟩
    have e : (a : ℚ) * 2 ^ c = ((a * 2 ^ j : ℕ) : ℚ) * 2 ^ dUlpExp u := by
      rw [hj, zpow_add₀ (by norm_num), zpow_natCast]; push_cast; ring
    rw [e] at h ⊢
    have h1 : a * 2 ^ j < dSig u := by exact_mod_cast lt_of_mul_lt_mul_right h hz.le
    have h2 : ((a * 2 ^ j : ℕ) : ℚ) + 1 ≤ dSig u := by exact_mod_cast h1
    refine mul_lt_mul_of_pos_right ?_ hz
    split <;> linarith
  · have h52 := uExp_normal u (by omega)
    have h1 : (a : ℚ) * 2 ^ c ≤ (2 ^ 53 - 1) * 2 ^ (dUlpExp u - 1) := by
      refine mul_le_mul ?_ (zpow_mono (by omega)) (zp _).le (by norm_num)
      have : ((a + 1 : ℕ) : ℚ) ≤ ((2 ^ 53 : ℕ) : ℚ) := by exact_mod_cast ha
      push_cast at this; linarith
    rw [zpow_sub_one₀ (by norm_num)] at h1
    have h3 : ((2 : ℚ) ^ 53 - 1) * (2 ^ dUlpExp u * 2⁻¹) = (2 ^ 52 - 1 / 2) * 2 ^ dUlpExp u := by ring
    rw [h3] at h1
    refine lt_of_le_of_lt h1 (mul_lt_mul_of_pos_right ?_ hz)
    split
    · rename_i h; rw [h]; norm_num
    · have : ((2 ^ 52 + 1 : ℕ) : ℚ) ≤ dSig u := by exact_mod_cast (by omega : 2 ^ 52 + 1 ≤ dSig u)
      push_cast at this; linarith

/-- Rounding to binary32 a number of the rounding interval of a double is as good as rounding the double. -/
theorem narrow_near {u : UInt64} (hnz : ¬ DZero u) {r : ℚ} (hlo : lowB u ≤ r) (hhi : r ≤ highB u) :
    |roundRat 24 (-149) r - dMag u| ≤ |roundRat 24 (-149) (dMag u) - dMag u| := by
  have hd : 0 < dMag u := by
    have := dSig_pos hnz
    have h : (0 : ℚ) < dSig u := by exact_mod_cast this
    unfold dMag; positivity
  have hr : 0 < r := (lowB_pos hnz).trans_le hlo
  set d := dMag u with hdd
  set s := qsig 24 (-149) d with hs
  set e := qexp 24 (-149) d with he
  have hee : -149 ≤ e := by rw [he, qexp_eq]; exact le_max_left _ _
  have hz := zp e
  have herr := qsig_err (p := 24) (emin := -149) hd
  have hrd : roundRat 24 (-149) d = s * 2 ^ e := roundRat_pos hd
  have htop : s ≤ 2 ^ 24 := fqsig_le_top hd
  have hbot : -149 < e → 2 ^ 23 ≤ s := fqsig_ge_bot hd
  rw [← hs, ← he] at herr
  have ehalf : (2 : ℚ) ^ e = 2 * 2 ^ (e - 1) := by rw [zpow_sub_one₀ (by norm_num)]; ring
  have e4 : (2 : ℚ) ^ e = 4 * 2 ^ (e - 2) := by
    rw [zpow_sub₀ (by norm_num)]; norm_num; ring
  have pHi : (2 * (s : ℚ) + 1) * 2 ^ (e - 1) = (s + 1 / 2) * 2 ^ e := by rw [ehalf]; ring
  have pLo : (2 * (s : ℚ) - 1) * 2 ^ (e - 1) = (s - 1 / 2) * 2 ^ e := by rw [ehalf]; ring
  rcases herr.lt_or_eq with hlt | heq
  · -- no tie: the same float
    rw [abs_lt] at hlt
    have hup : r < (s + 1 / 2) * 2 ^ e := by
      have h := highB_lt_of_lt (u := u) (2 * s + 1) (e - 1) (by omega) (by omega)
        (by push_cast; rw [← hdd, pHi]; linarith)
      push_cast at h
      linarith
    have hdn : (s - 1 / 2) * 2 ^ e < r := by
      rcases Nat.eq_zero_or_pos s with h0 | hpos
      · rw [h0]; push_cast; linarith
      · have h := lt_lowB_of_lt hnz (2 * s - 1) (e - 1) (by omega)
          (by rw [Nat.cast_sub (by omega)]; push_cast; rw [← hdd, pLo]; linarith) (by omega)
        rw [Nat.cast_sub (by omega)] at h; push_cast at h
        linarith
    have : roundRat 24 (-149) r = s * 2 ^ e := by
      rcases htop.lt_or_eq with h24 | h24
      · refine roundRat_interval (by norm_num) hr s e h24 hee hbot ⟨Or.inl hup, Or.inl hdn, fun h23 hem => ?_⟩
        have hlg := (lg_spec hd).1
        have hq := qexp_eq (p := 24) (emin := -149) (q := d)
        have hl : lg d = e + 23 := by omega
        rw [hl, zpow_add₀ (by norm_num)] at hlg
        have h := lt_lowB_of_lt hnz (2 ^ 25 - 1) (e - 2) (by norm_num)
          (by push_cast; rw [← hdd]; norm_num at hlg ⊢; linarith [zp (e - 2)]) (by omega)
        push_cast at h
        have h' : ((s : ℚ) - 1 / 4) * 2 ^ e < lowB u := by
          rw [h23, e4]; push_cast; norm_num at h ⊢; linarith
        linarith
      · have e1 : (2 : ℚ) ^ (e + 1) = 2 * 2 ^ e := by rw [zpow_add_one₀ (by norm_num)]; ring
        rw [roundRat_interval (p := 24) (emin := -149) (by norm_num) hr (2 ^ 23) (e + 1) (by norm_num) (by omega) (fun _ => by norm_num)
          ⟨Or.inl ?_, Or.inl ?_, fun _ _ => ?_⟩]
        · rw [h24, e1]; push_cast; ring
        · rw [e1]; rw [h24] at hup; push_cast at hup ⊢; linarith
        · rw [e1]; rw [h24] at hdn; push_cast at hdn ⊢; linarith
        · rw [e1]; rw [h24] at hdn; push_cast at hdn ⊢; linarith
    rw [this, hrd]
  · -- a tie: both neighbours are nearest
    rw [hrd, heq]
    have key : ∀ t : ℕ, t < 2 ^ 24 → d = (t + 1 / 2) * 2 ^ e → |roundRat 24 (-149) r - d| ≤ 2 ^ e / 2 := by
      intro t ht hdt
      have h1 : ((t + 1 : ℕ) : ℚ) * 2 ^ e > r := by
        have := highB_lt_of_lt (u := u) (t + 1) e (by omega) (by omega)
          (by rw [← hdd, hdt]; push_cast; exact mul_lt_mul_of_pos_right (by linarith) hz)
        linarith
      have h2 : (t : ℚ) * 2 ^ e < r := by
        have := lt_lowB_of_lt hnz t e (by omega)
          (by rw [← hdd, hdt]; exact mul_lt_mul_of_pos_right (by linarith) hz) (by omega)
        linarith
      have h3 := le_roundRat (p := 24) (emin := -149) (by norm_num) hr t e hee ht h2.le
      have h4 : roundRat 24 (-149) r ≤ ((t + 1 : ℕ) : ℚ) * 2 ^ e := by
        by_cases h24 : t + 1 < 2 ^ 24
        · exact roundRat_le hr (t + 1) e hee h24 h1.le
        · have e1 : (2 : ℚ) ^ (e + 1) = 2 * 2 ^ e := by rw [zpow_add_one₀ (by norm_num)]; ring
          have ht' : t + 1 = 2 ^ 24 := by omega
          have := roundRat_le (p := 24) (emin := -149) hr (2 ^ 23) (e + 1) (by omega) (by norm_num)
            (by rw [e1]; rw [ht'] at h1; push_cast at h1 ⊢; linarith)
          rw [e1] at this; rw [ht']; push_cast at this ⊢; linarith
      rw [hdt, abs_le]
      push_cast at h4
      constructor <;> linarith
    rcases abs_cases ((s : ℚ) * 2 ^ e - d) with ⟨h1, -⟩ | ⟨h1, -⟩
    · have hs0 : 0 < s := by
        rcases Nat.eq_zero_or_pos s with h0 | hpos
        · exfalso; rw [h0] at h1 heq; push_cast at h1; linarith
        · exact hpos
      refine key (s - 1) (by omega) ?_
      rw [Nat.cast_sub hs0]; push_cast; linarith
    · have h24 : s < 2 ^ 24 := by
        rcases htop.lt_or_eq with h | h
        · exact h
        · exfalso
          have hlg := (lg_spec hd).2
          have hq := qexp_eq (p := 24) (emin := -149) (q := d)
          have hl : lg d + 1 ≤ e + 24 := by omega
          have h5 : d < 2 ^ (e + 24) := lt_of_lt_of_le hlg (zpow_mono hl)
          rw [zpow_add₀ (by norm_num)] at h5
          rw [h] at h1 heq
          push_cast at h1
          norm_num at h5 h1
          linarith
      refine key s h24 ?_
      linarith

theorem dMag_pos' {u : UInt64} (hnz : ¬ DZero u) : 0 < dMag u := by
  have h : (0 : ℚ) < dSig u := by exact_mod_cast dSig_pos hnz
  unfold dMag; positivity

/-- How the text of a double is read by `strtold`: the double itself where `long double` is `double`, otherwise a number of
its rounding interval. -/
theorem readBack_value {u : UInt64} {D : ℕ} {k : ℤ} (hfin : DFinite u) (hnz : ¬ DZero u) (hP : Printed u D k) (F : FpFormat)
    (hF : F = .binary64 ∨ 54 ≤ F.p ∧ F.emin ≤ -1076 ∧ 1024 ≤ F.emax) :
    ∃ r, F.round (decide (dNeg u)) ((D : ℚ) * 10 ^ k) = .fin (decide (dNeg u)) r ∧ lowB u ≤ r ∧ r ≤ highB u ∧
      (F = .binary64 → r = dMag u) := by
  have hV : 0 < (D : ℚ) * 10 ^ k := (lowB_pos hnz).trans hP.lower
  rcases hF with rfl | ⟨hp, he, hmax⟩
  · have hr := roundRat_interval (p := 53) (by norm_num) hV (dSig u) (dUlpExp u) (dSig_lt u)
      (ulpExp_bounds u hfin).1 (uExp_normal u) (hP.interval hnz)
    have h1 := highB_mul u
    have h2 := lowB_mul u hnz
    have hz := zp (dUlpExp u)
    have hlo : lowB u ≤ dMag u := by
      rw [h2]; unfold dMag; refine mul_le_mul_of_nonneg_right ?_ hz.le; split <;> linarith
    have hhi : dMag u ≤ highB u := by
      rw [h1]; unfold dMag; exact mul_le_mul_of_nonneg_right (by linarith) hz.le
    refine ⟨dMag u, ?_, hlo, hhi, fun _ => rfl⟩
    have e : roundRat FpFormat.binary64.p FpFormat.binary64.emin ((D : ℚ) * 10 ^ k) = dMag u := hr
    rw [round_finite .binary64 _ _ (by decide) (by rw [e]; exact lt_of_le_of_lt hhi (highB_lt_top hfin)), e]
  · obtain ⟨hlo, hhi⟩ := hP.round_closed hfin hnz F hp he
    refine ⟨_, round_finite F _ _ hmax (lt_of_le_of_lt hhi (highB_lt_top hfin)), hlo, hhi, ?_⟩
    rintro rfl
    exact absurd hp (by decide)

theorem overflow_double : fOverflow = ((2 ^ 25 - 1 : ℕ) : ℚ) * 2 ^ (103 : ℤ) := by
  unfold fOverflow
  rw [show (103 : ℤ) = ((103 : ℕ) : ℤ) by norm_num, zpow_natCast]
  norm_num only

theorem dValue_sgn (u : UInt64) : dValue u = sgn (decide (dNeg u)) (dMag u) := by
  unfold dValue sgn
  by_cases h : dNeg u <;> simp [h]

/-! ## C80 -/

/-- C80.  The text of a finite `float` read as `double` is that float's value exactly, where `long double` is `double` and
where it has at least 64 bits (the second rounding, which changes some doubles on x86, changes none of these). -/
theorem C80_float_as_double (F : FpFormat) (hF : F = .binary64 ∨ 64 ≤ F.p ∧ F.emin ≤ -1076 ∧ 1024 ≤ F.emax)
    (env : Env) (henv : EnvOk env) (L : Literals) (junk : Bytes) (hj : junk.length = FLOAT_SIZE)
    (u : UInt32) (hfin : FFinite u) (hnz : ¬ FZero u) :
    ∃ t, stringFloat L env junk u = .ok t ∧ DFinite (lexiDouble F t) ∧ dValue (lexiDouble F t) = fValue u := by
  obtain ⟨d, hd, hdf, hdz, hneg, hmag, hexp⟩ := widen u hfin hnz
  obtain ⟨D, k, hP, h⟩ := formatLd_finite env henv d hdf hdz
  have h1 := h (.ofFloat u) (by rw [hd]) L junk hj
  refine ⟨signed (dNeg d) (prettyText (decN D) k), ?_, ?_⟩
  · unfold stringFloat formatFloat
    rw [h1, Res.ok_bind, hd]
    exact readN_prefix _ _
  have hv : dValue d = fValue u := by
    unfold dValue fValue
    simp only [hneg, hmag]
  suffices hread : lexiDouble F (signed (dNeg d) (prettyText (decN D) k)) = d by rw [hread]; exact ⟨hdf, hv⟩
  have hV : 0 < (D : ℚ) * 10 ^ k := (lowB_pos hdz).trans hP.lower
  unfold lexiDouble extractLongDouble
  rw [parse_signed _ hdz hP]
  rcases hF with rfl | ⟨hp, he, hmax⟩
  · obtain ⟨r, hr, -, -, hr'⟩ := readBack_value hdf hdz hP .binary64 (Or.inl rfl)
    rw [hr, hr' rfl, ← ofDouble_finite d hdf]
    exact toDouble_ofDouble d (fun hn => hdf hn.1)
  · refine (readBack_neighbour hdf hdz hP F hp he hmax).1 ?_
    -- the significand has trailing zeros
    have e : (dSig d : ℚ) = ((fSig u * 2 ^ (fUlpExp u - dUlpExp d).toNat : ℕ) : ℚ) := by
      have hz := zp (dUlpExp d)
      apply mul_right_cancel₀ hz.ne'
      have : (dSig d : ℚ) * 2 ^ dUlpExp d = fSig u * 2 ^ fUlpExp u := hmag
      rw [this]
      push_cast
      rw [mul_assoc, ← zpow_natCast, ← zpow_add₀ (by norm_num)]
      congr 2
      omega
    have e' : dSig d = fSig u * 2 ^ (fUlpExp u - dUlpExp d).toNat := by exact_mod_cast e
    have : (fUlpExp u - dUlpExp d).toNat = (fUlpExp u - dUlpExp d).toNat - 1 + 1 := by omega
    rw [e', this, pow_succ, ← mul_assoc]
    omega

/-- A float whose shortest decimal digits differ from its double's: 0.1f. -/
example : stringFloat .default sampleEnv (List.replicate 30 0) 0x3DCCCCCD = .ok (ascii "0.10000000149011612") ∧
    lexiDouble .x87 (ascii "0.10000000149011612") = 0x3FB99999A0000000 ∧ FFinite 0x3DCCCCCD ∧ ¬ FZero 0x3DCCCCCD := by
  decide +kernel

/-! ## C81 -/

/-- C81.  The text of a finite `double` read as `float`: a float nearest to the double, with its sign, or the infinity beyond
the range.  It is the float that converting the double gives (nearest, ties to even) where `long double` is `double`, and
elsewhere unless the double lies half-way between two floats. -/
theorem C81_double_as_float (F : FpFormat) (hF : F = .binary64 ∨ 54 ≤ F.p ∧ F.emin ≤ -1076 ∧ 1024 ≤ F.emax)
    (env : Env) (henv : EnvOk env) (L : Literals) (junk : Bytes) (hj : junk.length = FLOAT_SIZE)
    (u : UInt64) (hfin : DFinite u) (hnz : ¬ DZero u) :
    ∃ t, stringDouble L env junk u = .ok t ∧ (fNeg (lexiFloat F t) ↔ dNeg u) ∧
      (dMag u < fOverflow → FNearest (dValue u) (lexiFloat F t) ∧
        (F = .binary64 ∨ (∀ y z, FNearest (dValue u) y → FNearest (dValue u) z → fValue y = fValue z) →
          FNearestEven (dValue u) (lexiFloat F t))) ∧
      (fOverflow < dMag u ∨ fOverflow = dMag u ∧ F = .binary64 → FInfinite (lexiFloat F t)) ∧
      (fOverflow = dMag u → FInfinite (lexiFloat F t) ∨ |fValue (lexiFloat F t)| = fMax) := by
  obtain ⟨D, k, hP, h⟩ := stringDouble_finite env henv u hfin hnz
  refine ⟨_, h u rfl L junk hj, ?_⟩
  obtain ⟨r, hr, hlo, hhi, hr'⟩ := readBack_value hfin hnz hP F hF
  have hlex : lexiFloat F (signed (dNeg u) (prettyText (decN D) k)) = (LVal.fin (decide (dNeg u)) r).toFloat := by
    unfold lexiFloat extractLongDouble
    rw [parse_signed _ hnz hP, hr]
  rw [hlex]
  have hd0 := dMag_pos' hnz
  have hr0 : 0 < r := (lowB_pos hnz).trans_le hlo
  have hov : dMag u < fOverflow → r < fOverflow := fun h => by
    rw [overflow_double] at h ⊢
    exact lt_of_le_of_lt hhi (highB_lt_of_lt _ _ (by norm_num) (by norm_num) h)
  have hov' : fOverflow < dMag u → fOverflow < r := fun h => by
    rw [overflow_double] at h ⊢
    exact lt_of_lt_of_le (lt_lowB_of_lt hnz _ _ (by norm_num) h (by norm_num)) hlo
  obtain ⟨i1, i2⟩ := finf_facts (decide (dNeg u))
  have hsign : fNeg (LVal.fin (decide (dNeg u)) r).toFloat ↔ dNeg u := by
    by_cases h1 : r < fOverflow
    · rw [(toFloat_value _ hr0.le h1).2.1, decide_eq_true_eq]
    · rw [toFloat_overflow _ (not_lt.mp h1), i2, decide_eq_true_eq]
  have hinf : fOverflow ≤ r → FInfinite (LVal.fin (decide (dNeg u)) r).toFloat := fun h1 => by
    rw [toFloat_overflow _ h1]; exact i1
  refine ⟨hsign, fun hlt => ?_, ?_, fun heq => ?_⟩
  · obtain ⟨f1, -, f3⟩ := toFloat_value (decide (dNeg u)) hr0.le (hov hlt)
    obtain ⟨g1, -, g3⟩ := toFloat_value (decide (dNeg u)) hd0.le hlt
    have hbest := toFloat_nearest (decide (dNeg u)) hd0.le hlt
    rw [← dValue_sgn] at hbest
    have hnear : FNearest (dValue u) (LVal.fin (decide (dNeg u)) r).toFloat := by
      refine ⟨f1, fun y hy => le_trans ?_ (hbest.2 y hy).1⟩
      rw [f3, g3, dValue_sgn]
      have := narrow_near hnz hlo hhi
      unfold sgn
      split
      · rw [← neg_sub', ← neg_sub', abs_neg, abs_neg]; exact this
      · exact this
    refine ⟨hnear, ?_⟩
    rintro (hF | huniq)
    · rw [hr' hF]; exact hbest
    · exact ⟨f1, fun y hy => ⟨hnear.2 y hy, fun he => Or.inl (huniq y _ ⟨hy, fun z hz => he ▸ hnear.2 z hz⟩ hnear)⟩⟩
  · rintro (h1 | ⟨h1, h2⟩)
    · exact hinf (hov' h1).le
    · exact hinf (by rw [hr' h2, h1])
  · by_cases h1 : r < fOverflow
    · right
      have h2 := toFloat_value (decide (dNeg u)) hr0.le h1
      have h3 : fMax ≤ r := by
        refine le_trans ?_ hlo
        rw [fMax_eq]
        refine (lt_lowB_of_lt hnz _ _ (by norm_num) ?_ (by norm_num)).le
        rw [← heq, ← fMax_eq]; exact fMax_lt
      have h4 : fMax ≤ roundRat 24 (-149) r := by
        rw [fMax_eq] at h3 ⊢
        exact le_roundRat (by norm_num) hr0 _ _ (by norm_num) (by norm_num) h3
      have h5 : |fValue (LVal.fin (decide (dNeg u)) r).toFloat| = fMag (LVal.fin (decide (dNeg u)) r).toFloat := by
        unfold fValue
        split
        · rw [abs_neg, abs_of_nonneg (fMag_nonneg _)]
        · rw [abs_of_nonneg (fMag_nonneg _)]
      refine le_antisymm (h5 ▸ fMag_le_fMax _ h2.1) ?_
      rw [h2.2.2]
      refine h4.trans ?_
      unfold sgn
      split
      · rw [abs_neg]; exact le_abs_self _
      · exact le_abs_self _
    · exact Or.inl (hinf (not_lt.mp h1))

/-- A double half-way between two floats. -/
def tieWitness : UInt64 := 0x3CF0000130000000

theorem tie_text : formatDouble .default (strictEnv sampleEnv) (List.replicate 30 0) tieWitness >>= FloatObj.string
    = .ok (ascii "3.552717702207e-15") := by decide +kernel

theorem tie_read : lexiFloat .x87 (ascii "3.552717702207e-15") = 0x27800009 ∧
    lexiFloat .binary128 (ascii "3.552717702207e-15") = 0x27800009 ∧
    lexiFloat .binary64 (ascii "3.552717702207e-15") = 0x2780000A := by decide +kernel

/-- C81, the exception is real.  On every platform this double, half-way between two floats and converted to the upper one,
prints as `3.552717702207e-15`; where `long double` has the 80-bit or the binary128 format that text reads as the lower float. -/
theorem C81_tie_differs : DFinite tieWitness ∧ ¬ DZero tieWitness ∧
    dValue tieWitness = (fValue 0x27800009 + fValue 0x2780000A) / 2 ∧
    (LVal.ofDouble tieWitness).toFloat = 0x2780000A ∧
    ∀ env, EnvOk env → ∀ L junk, junk.length = FLOAT_SIZE → ∃ t, stringDouble L env junk tieWitness = .ok t ∧
      lexiFloat .x87 t = 0x27800009 ∧ lexiFloat .binary128 t = 0x27800009 ∧ lexiFloat .binary64 t = 0x2780000A := by
  have hf : DFinite tieWitness := by decide +kernel
  have hz : ¬ DZero tieWitness := by decide +kernel
  refine ⟨hf, hz, ?_, by decide +kernel, fun env henv L junk hj => ⟨ascii "3.552717702207e-15", ?_, tie_read⟩⟩
  · have e1 : dValue tieWitness = (4503604727644160 : ℕ) * 2 ^ (-100 : ℤ) := by
      rw [dValue, if_neg (by decide +kernel), dMag, show dSig tieWitness = 4503604727644160 by decide +kernel,
        show dUlpExp tieWitness = -100 by decide +kernel]
    have e2 : fValue 0x27800009 = (8388617 : ℕ) * 2 ^ (-71 : ℤ) := by
      rw [fValue, if_neg (by decide +kernel), fMag, show fSig 0x27800009 = 8388617 by decide +kernel,
        show fUlpExp 0x27800009 = -71 by decide +kernel]
    have e3 : fValue 0x2780000A = (8388618 : ℕ) * 2 ^ (-71 : ℤ) := by
      rw [fValue, if_neg (by decide +kernel), fMag, show fSig 0x2780000A = 8388618 by decide +kernel,
        show fUlpExp 0x2780000A = -71 by decide +kernel]
    rw [e1, e2, e3, show (-71 : ℤ) = 29 + -100 by norm_num, zpow_add₀ (by norm_num)]
    norm_num
  · obtain ⟨D, k, -, h⟩ := stringDouble_finite env henv tieWitness hf hz
    obtain ⟨o, ho, hs⟩ := bind_ok tie_text
    have h0 := strict_transfer sampleEnv_ok.dk henv.dk _ _ _ _ ho
    have h1 : stringDouble .default env (List.replicate 30 0) tieWitness = .ok (ascii "3.552717702207e-15") := by
      unfold stringDouble formatDouble
      rw [h0, Res.ok_bind]; exact hs
    rw [h _ rfl _ _ (by rfl)] at h1
    rw [h _ rfl L junk hj]; exact h1

/-! Non-vacuity of C81: 0.1, an ordinary double, reads as 0.1f; 1e39 is beyond the range. -/
example : DFinite 0x3FB999999999999A ∧ ¬ DZero 0x3FB999999999999A ∧ dMag 0x3FB999999999999A < fOverflow ∧
    stringDouble .default sampleEnv (List.replicate 30 0) 0x3FB999999999999A = .ok (ascii "0.1") ∧
    lexiFloat .x87 (ascii "0.1") = 0x3DCCCCCD ∧ lexiFloat .x87 (ascii "1e39") = 0x7F800000 := by
  refine ⟨by decide +kernel, by decide +kernel, ?_, by decide +kernel, by decide +kernel, by decide +kernel⟩
  rw [dMag, show dSig 0x3FB999999999999A = 7205759403792794 by decide +kernel,
    show dUlpExp 0x3FB999999999999A = -56 by decide +kernel, fOverflow]
  norm_num

end Lexi
