import Verif.Proofs.Strict
import Verif.Proofs.Twice
import Verif.Props.Strtod

/-!
# Which doubles the fast path accepts: C87
-/

namespace Lexi
open Spec Soft Dtoa Strtod

theorem dclass (u : UInt64) : DFinite u ∨ DInfinite u ∨ DNaN u := by
  unfold DFinite DInfinite DNaN
  by_cases h : dExp u = 2047 <;> by_cases h' : dFrac u = 0 <;> simp [h, h']

/-- The comparison with the largest 53-bit integer, for every double. -/
theorem fle_max (a : UInt64) :
    fle a MAX_SIG = true ↔ ¬ DNaN a ∧ (dNeg a ∨ DFinite a ∧ dMag a ≤ 2 ^ 53 - 1) := by
  obtain ⟨h1, h2, h3⟩ := maxSig_val
  have hm := dMag_nonneg a
  unfold fle
  rw [ofDouble_pos' _ h1 h2, h3]
  rcases dclass a with h | h | h
  · have hn : ¬ DNaN a := fun c => h c.1
    rw [ofDouble_finite a h]
    by_cases hs : dNeg a
    · simp only [hs, decide_true, if_true, decide_eq_true_eq, Bool.false_eq_true, if_false, true_or, and_true]
      exact ⟨fun _ => hn, fun _ => by norm_num; linarith⟩
    · simp [hs, hn, h]
  · have hn : ¬ DNaN a := fun c => c.2 h.2
    have hf : ¬ DFinite a := fun c => c h.1
    rw [ofDouble_inf a h]
    by_cases hs : dNeg a <;> simp [hs, hn, hf]
  · rw [ofDouble_nan a h]
    simp [h]

/-- What rounds to at most `2^53 - 1`. -/
theorem round_max {q : ℚ} (hq : 0 ≤ q) : roundRat 53 (-1074) q ≤ 2 ^ 53 - 1 ↔ q < 2 ^ 53 - 1 / 2 := by
  rcases hq.lt_or_eq with hp | rfl
  swap
  · rw [roundRat_zero]; norm_num
  constructor
  · intro h
    by_contra hc
    rcases le_or_gt q (2 ^ 53) with h2 | h2
    · have := round_up (p := 53) (emin := -1074) (by norm_num) (n := 2 ^ 53 - 1) (g := 0) (by norm_num) (by norm_num)
        (fun _ => by norm_num) (y := q) (by norm_num at h2 ⊢; exact h2)
        (Or.inr ⟨by norm_num, by norm_num at hc ⊢; exact hc⟩)
      rw [this] at h
      norm_num at h
    · have := le_roundRat (p := 53) (emin := -1074) (by norm_num) hp 1 53 (by norm_num) (by norm_num)
        (by norm_num at h2 ⊢; exact h2.le)
      norm_num at this h
      linarith
  · intro h
    rcases le_or_gt q (2 ^ 53 - 1) with h2 | h2
    · have := roundRat_le (p := 53) (emin := -1074) hp (2 ^ 53 - 1) 0 (by norm_num) (by norm_num)
        (by norm_num at h2 ⊢; exact h2)
      norm_num at this ⊢
      exact this
    · have := round_down (p := 53) (emin := -1074) (by norm_num) (n := 2 ^ 53 - 1) (g := 0) (by norm_num) (by norm_num)
        (fun _ => by norm_num) (y := q) (by norm_num at h2 ⊢; exact h2.le)
        (Or.inl (by norm_num at h ⊢; exact h))
      rw [this]; norm_num

/-- The product with an exact power of ten, compared with the largest 53-bit integer. -/
theorem fle_product (d : UInt64) (k : ℕ) (hk : k ≤ 22) :
    fle (fmul d (LVal.fin false ((10 ^ k : Nat) : Rat)).toDouble) MAX_SIG = true ↔
      ¬ DNaN d ∧ (dNeg d ∨ DFinite d ∧ dMag d * 10 ^ k < 2 ^ 53 - 1 / 2) := by
  obtain ⟨e1, e2, e3⟩ := power10_exact k hk
  have hm := dMag_nonneg d
  have h10 : (10 : ℚ) ^ k ≠ 0 := by positivity
  rw [fle_max]
  unfold fmul
  rw [ofDouble_pos' _ e1 e2, e3]
  rcases dclass d with h | h | h
  · have hn : ¬ DNaN d := fun c => h c.1
    rw [ofDouble_finite d h]
    dsimp only
    rw [Bool.xor_false]
    have hq : 0 ≤ dMag d * 10 ^ k := by positivity
    rcases lt_or_ge (dMag d * 10 ^ k) dOverflow with ho | ho
    · obtain ⟨t1, t2, t3⟩ := toDouble_value (decide (dNeg d)) hq ho
      have t0 : ¬ DNaN (LVal.fin (decide (dNeg d)) (dMag d * 10 ^ k)).toDouble := fun c => t1 c.1
      by_cases hs : dNeg d
      · have : dNeg (LVal.fin (decide (dNeg d)) (dMag d * 10 ^ k)).toDouble := t2.mpr (by simp [hs])
        exact ⟨fun _ => ⟨hn, .inl hs⟩, fun _ => ⟨t0, .inl this⟩⟩
      · have tn : ¬ dNeg (LVal.fin (decide (dNeg d)) (dMag d * 10 ^ k)).toDouble := fun c => by
          have := t2.mp c; simp [hs] at this
        have tm : dMag (LVal.fin (decide (dNeg d)) (dMag d * 10 ^ k)).toDouble = roundRat 53 (-1074) (dMag d * 10 ^ k) := by
          have := t3
          unfold dValue at this
          rw [if_neg tn] at this
          rw [this]; simp [sgn, hs]
        rw [tm, round_max hq]
        exact ⟨fun c => ⟨hn, .inr ⟨h, (c.2.resolve_left tn).2⟩⟩, fun c => ⟨t0, .inr ⟨t1, (c.2.resolve_left hs).2⟩⟩⟩
    · rw [toDouble_overflow _ ho]
      have hbig : ¬ dMag d * 10 ^ k < 2 ^ 53 - 1 / 2 := by
        intro c
        have h1 : (2 : ℚ) ^ 53 - 1 / 2 < dOverflow := small_lt_overflow (by norm_num)
        linarith
      by_cases hs : dNeg d
      · simp only [hs, decide_true, if_true]
        exact ⟨fun _ => ⟨hn, .inl trivial⟩, fun _ => ⟨by decide +kernel, .inl (by decide +kernel)⟩⟩
      · simp only [hs, decide_false, Bool.false_eq_true, if_false]
        refine ⟨fun c => ?_, fun c => ?_⟩
        · rcases c.2 with c | c
          · exact absurd c (by decide +kernel)
          · exact absurd c.1 (by decide +kernel)
        · rcases c.2 with c | c
          · exact absurd c id
          · exact absurd c.2 hbig
  · have hn : ¬ DNaN d := fun c => c.2 h.2
    have hf : ¬ DFinite d := fun c => c h.1
    rw [ofDouble_inf d h]
    dsimp only
    rw [if_neg h10, Bool.xor_false]
    by_cases hs : dNeg d
    · simp only [hs, decide_true]
      exact ⟨fun _ => ⟨hn, .inl trivial⟩, fun _ => ⟨by decide +kernel, .inl (by decide +kernel)⟩⟩
    · simp only [hs, decide_false]
      refine ⟨fun c => ?_, fun c => ?_⟩
      · rcases c.2 with c | c
        · exact absurd c (by decide +kernel)
        · exact absurd c.1 (by decide +kernel)
      · rcases c.2 with c | c
        · exact absurd c id
        · exact absurd c.1 hf
  · rw [ofDouble_nan d h]
    dsimp only
    refine ⟨fun c => absurd (by decide +kernel) c.1, fun c => absurd h c.1⟩

/-- C87.  For every double and every exponent: the fast path accepts exactly the exponents from -22 to 37 with a
significand that is no NaN and is either negative (whatever its size, minus infinity included), or finite and at
most `2^53 - 1`; above 22 the bound is on the significand times `10^(p-22)` before rounding. -/
theorem C87_accepts (d : UInt64) (p : ℤ) :
    (∃ r, fast d p = .ok (some r)) ↔ -22 ≤ p ∧ p ≤ 37 ∧ ¬ DNaN d ∧
      (dNeg d ∨ DFinite d ∧ (p ≤ 22 → dMag d ≤ 2 ^ 53 - 1) ∧
        (22 < p → dMag d * 10 ^ (p - 22).toNat < 2 ^ 53 - 1 / 2)) := by
  unfold fast
  by_cases h : p > 22 ∧ p < 22 + 16
  · rw [if_pos h, pow10_ok (p - 22) (by omega) (by omega)]
    simp only [Res.ok_bind, Res.pure_eq]
    have hle := fle_product d (p - 22).toNat (by omega)
    obtain ⟨r, hr⟩ := (C50_fastPath_defined
      (fmul d (LVal.fin false ((10 ^ (p - 22).toNat : Nat) : Rat)).toDouble) 22).mpr (by omega)
    have hc : ((-22 : ℤ) ≤ 22 ∧ (22 : ℤ) ≤ 22) := by omega
    by_cases hg : fle (fmul d (LVal.fin false ((10 ^ (p - 22).toNat : Nat) : Rat)).toDouble) MAX_SIG = true
    · rw [if_pos ⟨by omega, by omega, hg⟩, hr]
      obtain ⟨g1, g2⟩ := hle.mp hg
      refine ⟨fun _ => ⟨by omega, by omega, g1, g2.imp id fun g => ⟨g.1, fun _ => by omega, fun _ => g.2⟩⟩, fun _ => ⟨r, rfl⟩⟩
    · rw [if_neg fun c => hg c.2.2]
      refine ⟨fun ⟨_, c⟩ => (by cases c), fun c => absurd (hle.mpr ⟨c.2.2.1, ?_⟩) hg⟩
      exact c.2.2.2.imp id fun g => ⟨g.1, g.2.2 (by omega)⟩
  · rw [if_neg h]
    simp only [Res.ok_bind, Res.pure_eq]
    have hle := fle_max d
    by_cases hp : p ≥ -22 ∧ p ≤ 22
    · obtain ⟨r, hr⟩ := (C50_fastPath_defined d p).mpr (by omega)
      by_cases hg : fle d MAX_SIG = true
      · rw [if_pos ⟨hp.1, hp.2, hg⟩, hr]
        obtain ⟨g1, g2⟩ := hle.mp hg
        exact ⟨fun _ => ⟨by omega, by omega, g1, g2.imp id fun g => ⟨g.1, fun _ => g.2, fun _ => by omega⟩⟩,
          fun _ => ⟨r, rfl⟩⟩
      · rw [if_neg fun c => hg c.2.2]
        refine ⟨fun ⟨_, c⟩ => (by cases c), fun c => absurd (hle.mpr ⟨c.2.2.1, ?_⟩) hg⟩
        exact c.2.2.2.imp id fun g => ⟨g.1, g.2.1 (by omega)⟩
    · rw [if_neg fun c => hp ⟨c.1, c.2.1⟩]
      exact ⟨fun ⟨_, c⟩ => (by cases c), fun c => absurd ⟨c.1, by omega⟩ hp⟩

/-- `fastPath` with an exact power is one rounded operation, for a finite significand of either sign. -/
theorem fastPath_eq (d : UInt64) (hf : DFinite d) (p : ℤ) (h1 : -22 ≤ p) (h2 : p ≤ 22) :
    fastPath d p = .ok (LVal.fin (decide (dNeg d)) (dMag d * 10 ^ p)).toDouble := by
  unfold fastPath
  rw [if_neg (by omega)]
  by_cases hp : 0 ≤ p
  · obtain ⟨k, rfl⟩ : ∃ k : ℕ, p = k := ⟨p.toNat, by omega⟩
    rw [if_pos hp, pow10_ok _ hp (by omega)]
    obtain ⟨e1, e2, e3⟩ := power10_exact k (by omega)
    simp only [Int.toNat_natCast, Res.ok_bind, Res.pure_eq]
    unfold fmul
    rw [ofDouble_finite d hf, ofDouble_pos' _ e1 e2, e3, zpow_natCast]
    dsimp only
    rw [Bool.xor_false]
  · obtain ⟨k, hk⟩ : ∃ k : ℕ, p = -k := ⟨(-p).toNat, by omega⟩
    subst hk
    rw [if_neg hp, _root_.neg_neg, pow10_ok _ (by omega) (by omega)]
    obtain ⟨e1, e2, e3⟩ := power10_exact k (by omega)
    simp only [Int.toNat_natCast, Res.ok_bind, Res.pure_eq]
    unfold fdiv
    rw [ofDouble_finite d hf, ofDouble_pos' _ e1 e2, e3, zpow_neg, zpow_natCast, ← div_eq_mul_inv]
    dsimp only
    rw [if_neg (by positivity), Bool.xor_false]

theorem sgn_mag (d : UInt64) (c : ℚ) : sgn (decide (dNeg d)) (dMag d * c) = dValue d * c := by
  unfold sgn dValue
  by_cases h : dNeg d <;> simp [h]

theorem fast_small (d : UInt64) (p : ℤ) (h : p ≤ 22) (r : UInt64) (hr : fast d p = .ok (some r)) :
    fastPath d p = .ok r := by
  unfold fast at hr
  rw [if_neg (by omega)] at hr
  simp only [Res.ok_bind, Res.pure_eq] at hr
  split at hr
  · obtain ⟨x, hx, hy⟩ := bind_ok hr
    cases hy; exact hx
  · cases hr

/-- C87, results: whatever finite significand is accepted, up to exponent 22 the result is the double nearest to
the exact product (ties to even) with the sign of the significand, or the infinity of that sign when the product
overflows. -/
theorem C87_nearest (d : UInt64) (hf : DFinite d) (p : ℤ) (h1 : -22 ≤ p) (h2 : p ≤ 22) (r : UInt64)
    (hr : fast d p = .ok (some r)) :
    (dMag d * 10 ^ p < dOverflow → NearestEven (dValue d * 10 ^ p) r) ∧
    (dOverflow ≤ dMag d * 10 ^ p → DInfinite r) ∧ (dNeg r ↔ dNeg d) := by
  have hm := dMag_nonneg d
  have hq : 0 ≤ dMag d * 10 ^ p := by positivity
  have := fast_small d p h2 r hr
  rw [fastPath_eq d hf p h1 h2] at this
  injection this with this
  subst this
  rcases lt_or_ge (dMag d * 10 ^ p) dOverflow with ho | ho
  · refine ⟨fun _ => ?_, fun c => absurd ho (not_lt.mpr c), ?_⟩
    · rw [← sgn_mag]; exact toDouble_nearest _ hq ho
    · rw [(toDouble_value _ hq ho).2.1, decide_eq_true_eq]
  · refine ⟨fun c => absurd ho (not_le.mpr c), fun _ => ?_, ?_⟩ <;> rw [toDouble_overflow _ ho] <;>
      by_cases hs : dNeg d <;> simp only [hs, decide_true, decide_false, if_true, Bool.false_eq_true, if_false] <;>
      decide +kernel

theorem fast_large (d : UInt64) (p : ℤ) (h1 : 22 < p) (h2 : p ≤ 37) (r : UInt64) (hr : fast d p = .ok (some r)) :
    fast (fmul d (LVal.fin false ((10 ^ (p - 22).toNat : Nat) : Rat)).toDouble) 22 = .ok (some r) := by
  unfold fast at hr ⊢
  rw [if_pos (by omega), pow10_ok (p - 22) (by omega) (by omega)] at hr
  rw [if_neg (by omega)]
  exact hr

/-- C87, results above exponent 22: the significand is first multiplied by `10^(p-22)` and rounded to nearest, and
the outcome is then scaled by `10^22` as above: two roundings. -/
theorem C87_two_steps (d : UInt64) (hf : DFinite d) (p : ℤ) (h1 : 22 < p) (h2 : p ≤ 37) (r : UInt64)
    (hr : fast d p = .ok (some r)) (ho : dMag d * 10 ^ (p - 22) < dOverflow) :
    ∃ y, NearestEven (dValue d * 10 ^ (p - 22)) y ∧ (dNeg y ↔ dNeg d) ∧ fast y 22 = .ok (some r) := by
  obtain ⟨k, hk⟩ : ∃ k : ℕ, p - 22 = k := ⟨(p - 22).toNat, by omega⟩
  have hl := fast_large d p h1 h2 r hr
  obtain ⟨e1, e2, e3⟩ := power10_exact k (by omega)
  have hm := dMag_nonneg d
  rw [hk] at ho hl ⊢
  rw [zpow_natCast] at ho ⊢
  have hq : 0 ≤ dMag d * 10 ^ k := by positivity
  rw [Int.toNat_natCast] at hl
  refine ⟨_, ?_, ?_, hl⟩
  · unfold fmul
    rw [ofDouble_finite d hf, ofDouble_pos' _ e1 e2, e3]
    dsimp only
    rw [Bool.xor_false, ← sgn_mag]
    exact toDouble_nearest _ hq ho
  · unfold fmul
    rw [ofDouble_finite d hf, ofDouble_pos' _ e1 e2, e3]
    dsimp only
    rw [Bool.xor_false, (toDouble_value _ hq ho).2.1, decide_eq_true_eq]

/-- C87: when the first product is itself a double the result is the nearest one. -/
theorem C87_exact_step (d : UInt64) (hf : DFinite d) (p : ℤ) (h1 : 22 < p) (h2 : p ≤ 37) (r : UInt64)
    (hr : fast d p = .ok (some r)) (x : UInt64) (hx : DFinite x) (hv : dValue x = dValue d * 10 ^ (p - 22))
    (ho : dMag d * 10 ^ p < dOverflow) : NearestEven (dValue d * 10 ^ p) r := by
  have hm := dMag_nonneg d
  have e : (10 : ℚ) ^ p = 10 ^ (p - 22) * 10 ^ (22 : ℤ) := by
    rw [← zpow_add₀ (by norm_num)]; congr 1; omega
  have hz : (0 : ℚ) < 10 ^ (p - 22) := by positivity
  have ho' : dMag d * 10 ^ (p - 22) < dOverflow := by
    refine lt_of_le_of_lt ?_ ho
    rw [e, ← mul_assoc]
    exact le_mul_of_one_le_right (by positivity) (by norm_num)
  obtain ⟨y, y1, y2, y3⟩ := C87_two_steps d hf p h1 h2 r hr ho'
  have hy : dValue y = dValue d * 10 ^ (p - 22) := by
    have := (y1.2 x hx).1
    rw [hv, sub_self, abs_zero] at this
    exact sub_eq_zero.mp (abs_nonpos_iff.mp this)
  have hmy : dMag y = dMag d * 10 ^ (p - 22) := by
    unfold dValue at hy
    by_cases hs : dNeg d
    · rw [if_pos hs, if_pos (y2.mpr hs)] at hy; linarith
    · rwa [if_neg hs, if_neg fun c => hs (y2.mp c)] at hy
  have := (C87_nearest y y1.1 22 (by norm_num) (by norm_num) r y3).1 (by rw [hmy, mul_assoc, ← e]; exact ho)
  rwa [hy, mul_assoc, ← e] at this

/-- C87, minus infinity is accepted as a significand and returned. -/
theorem C87_infinite (p : ℤ) (h1 : -22 ≤ p) (h2 : p ≤ 37) :
    fast 0xFFF0000000000000 p = .ok (some 0xFFF0000000000000) := by
  have : ∀ k : Fin 60, fast 0xFFF0000000000000 ((k.val : ℤ) - 22) = .ok (some 0xFFF0000000000000) := by decide +kernel
  have := this ⟨(p + 22).toNat, by omega⟩
  rwa [show ((((⟨(p + 22).toNat, by omega⟩ : Fin 60).val : ℕ) : ℤ) - 22) = p by simp; omega] at this

/-- C87: acceptance does not mean a correctly rounded result.  The negative integer `-(2^53 + 2)` and the positive
number `1.5 + 2^-52`, at exponent 37, are accepted although another double is strictly nearer. -/
theorem C87_accepted_not_nearest :
    (∃ d p r y, dNeg d ∧ DFinite d ∧ DFinite y ∧ fast d p = .ok (some r) ∧
      |dValue y - dValue d * 10 ^ p| < |dValue r - dValue d * 10 ^ p|) ∧
    (∃ d p r y, ¬ dNeg d ∧ DFinite d ∧ DFinite y ∧ fast d p = .ok (some r) ∧
      |dValue y - dValue d * 10 ^ p| < |dValue r - dValue d * 10 ^ p|) := by
  constructor
  · refine ⟨0xC340000000000001, (37 : ℕ), 14622651120289802526, 14622651120289802525, by decide +kernel, by decide +kernel, by decide +kernel,
      by decide +kernel, ?_⟩
    rw [zpow_natCast]
    decide +kernel
  · refine ⟨0x3FF8000000000001, (37 : ℕ), 5162974320443625174, 5162974320443625173, by decide +kernel, by decide +kernel, by decide +kernel,
      by decide +kernel, ?_⟩
    rw [zpow_natCast]
    decide +kernel

/-! ### Inhabited hypotheses -/

/-- `-1e300` and `3.5` are accepted, a NaN, plus infinity and `2^53` are not. -/
example : fast 0xFE37E43C8800759C 22 = .ok (some 0xFFF0000000000000) := by decide +kernel
example : fast 0x400C000000000000 (-3) = .ok (some 0x3F6CAC083126E979) := by decide +kernel
example : fast 0x7FF8000000000000 0 = .ok none ∧ fast 0xFFF8000000000000 30 = .ok none ∧
    fast 0x7FF0000000000000 5 = .ok none ∧ fast 0x4340000000000000 0 = .ok none ∧
    fast 0x3FF0000000000000 38 = .ok none ∧ fast 0x3FF0000000000000 (-23) = .ok none := by decide +kernel
/-- `2.5` at exponent 23: the first product is 25. -/
example : fast 0x4004000000000000 23 = .ok (some 0x44CA784379D99DB4) ∧ DFinite 0x4039000000000000 := by decide +kernel

end Lexi
