import Verif.Model.Strtod
import Verif.Proofs.ReadNear

/-!
# Decimal scaling helpers: C50
-/

namespace Lexi
open Spec Soft Dtoa Strtod

/-- A representable number is its own conversion. -/
theorem toDouble_exact (neg : Bool) (a : ℕ) (c : ℕ) (ha : a < 2 ^ 53) (hc : (a : ℚ) * 2 ^ c < dOverflow) :
    DFinite (LVal.fin neg ((a : ℚ) * 2 ^ c)).toDouble ∧
      (dNeg (LVal.fin neg ((a : ℚ) * 2 ^ c)).toDouble ↔ neg = true) ∧
      dMag (LVal.fin neg ((a : ℚ) * 2 ^ c)).toDouble = (a : ℚ) * 2 ^ c := by
  have h0 : (0 : ℚ) ≤ (a : ℚ) * 2 ^ c := by positivity
  rcases h0.lt_or_eq with h | h
  · obtain ⟨h1, h2, h3, -⟩ := toDouble_pos neg h hc
    refine ⟨h1, h2, ?_⟩
    have := (roundRat_nearest (p := 53) (emin := -1074) (by norm_num) h a c (by omega) ha).1
    rw [zpow_natCast, sub_self, abs_zero] at this
    rw [h3]
    exact sub_eq_zero.mp (abs_nonpos_iff.mp this)
  · rw [← h]
    obtain ⟨h1, h2, h3, -⟩ := toDouble_zero neg
    exact ⟨h1, h2, h3⟩

theorem small_lt_overflow {q : ℚ} (h : q < 2 ^ 128) : q < dOverflow :=
  by
  refine h.trans_le ?_
  have h1 : (1 : ℚ) ≤ 2 ^ 54 - 1 := by norm_num
  calc (2 : ℚ) ^ 128 ≤ 2 ^ 970 := pow_le_pow_right₀ (by norm_num) (by norm_num)
    _ ≤ (2 ^ 54 - 1) * 2 ^ 970 := le_mul_of_one_le_left (by positivity) h1

theorem pow10_ok (n : Int) (h0 : 0 ≤ n) (h1 : n ≤ 308) :
    pow10 n = .ok (LVal.fin false ((10 ^ n.toNat : Nat) : Rat)).toDouble := by
  have hl : n.toNat < Strtod.POWER10.length := by simp [Strtod.POWER10]; omega
  have e : Strtod.POWER10[n.toNat]? = some (LVal.fin false ((10 ^ n.toNat : Nat) : Rat)).toDouble := by
    rw [List.getElem?_eq_getElem hl]
    simp [Strtod.POWER10]
  rw [pow10, if_neg (by omega), e]

theorem pow10_ub (n : Int) (h : n < 0 ∨ 308 < n) : pow10 n = .ub := by
  rcases h with h | h
  · rw [pow10, if_pos h]
  · have e : Strtod.POWER10[n.toNat]? = none := by
      rw [List.getElem?_eq_none_iff]; simp [Strtod.POWER10]; omega
    rw [pow10, if_neg (by omega), e]

/-- The table entries up to `10^22` are exact. -/
theorem power10_exact (k : ℕ) (hk : k ≤ 22) :
    DFinite (LVal.fin false ((10 ^ k : Nat) : Rat)).toDouble ∧
      ¬ dNeg (LVal.fin false ((10 ^ k : Nat) : Rat)).toDouble ∧
      dMag (LVal.fin false ((10 ^ k : Nat) : Rat)).toDouble = 10 ^ k := by
  have e : ((10 ^ k : Nat) : Rat) = ((5 ^ k : ℕ) : ℚ) * 2 ^ k := by
    push_cast; rw [← mul_pow]; norm_num
  have h5 : 5 ^ k < 2 ^ 53 := lt_of_le_of_lt (Nat.pow_le_pow_right (by norm_num) hk) (by norm_num)
  have hlt : ((5 ^ k : ℕ) : ℚ) * 2 ^ k < dOverflow := by
    apply small_lt_overflow
    rw [← e]
    exact_mod_cast lt_of_le_of_lt (Nat.pow_le_pow_right (by norm_num : 0 < 10) hk) (by norm_num)
  obtain ⟨h1, h2, h3⟩ := toDouble_exact false (5 ^ k) k h5 hlt
  rw [e]
  refine ⟨h1, by simpa using h2, ?_⟩
  rw [h3, ← e]; push_cast; rfl

theorem ofDouble_pos' (u : UInt64) (h : DFinite u) (hn : ¬ dNeg u) : LVal.ofDouble u = .fin false (dMag u) := by
  rw [ofDouble_finite u h]; simp [hn]

theorem fmul_pos (a b : UInt64) (ha : DFinite a) (hb : DFinite b) (na : ¬ dNeg a) (nb : ¬ dNeg b) :
    fmul a b = (LVal.fin false (dMag a * dMag b)).toDouble := by
  unfold fmul
  rw [ofDouble_pos' a ha na, ofDouble_pos' b hb nb]
  rfl

theorem fdiv_pos (a b : UInt64) (ha : DFinite a) (hb : DFinite b) (na : ¬ dNeg a) (nb : ¬ dNeg b) (hz : dMag b ≠ 0) :
    fdiv a b = (LVal.fin false (dMag a / dMag b)).toDouble := by
  unfold fdiv
  rw [ofDouble_pos' a ha na, ofDouble_pos' b hb nb]
  simp only [if_neg hz]
  rfl

theorem maxSig_val : DFinite MAX_SIG ∧ ¬ dNeg MAX_SIG ∧ dMag MAX_SIG = 2 ^ 53 - 1 := by
  refine ⟨by decide +kernel, by decide +kernel, ?_⟩
  have h1 : dSig MAX_SIG = 2 ^ 53 - 1 := by decide +kernel
  have h2 : dUlpExp MAX_SIG = 0 := by decide +kernel
  unfold dMag
  rw [h1, h2]; norm_num

theorem fle_pos (a : UInt64) (ha : DFinite a) (na : ¬ dNeg a) : fle a MAX_SIG = true ↔ dMag a ≤ 2 ^ 53 - 1 := by
  obtain ⟨h1, h2, h3⟩ := maxSig_val
  unfold fle
  rw [ofDouble_pos' a ha na, ofDouble_pos' _ h1 h2, h3]
  simp

/-- `fastPath` on an exact significand and an exact power is one correctly rounded operation. -/
theorem fastPath_nearest (d : UInt64) (hf : DFinite d) (hs : ¬ dNeg d) (hv : dMag d ≤ 2 ^ 53) (p : ℤ)
    (h1 : -22 ≤ p) (h2 : p ≤ 22) :
    ∃ r, fastPath d p = .ok r ∧ NearestEven (dMag d * 10 ^ p) r ∧ ¬ dNeg r := by
  have hm := dMag_nonneg d
  unfold fastPath
  rw [if_neg (by omega)]
  by_cases hp : 0 ≤ p
  · obtain ⟨k, rfl⟩ : ∃ k : ℕ, p = k := ⟨p.toNat, by omega⟩
    rw [if_pos hp, pow10_ok _ hp (by omega)]
    obtain ⟨e1, e2, e3⟩ := power10_exact k (by omega)
    simp only [Int.toNat_natCast]
    refine ⟨_, rfl, ?_⟩
    rw [fmul_pos d _ hf e1 hs e2, e3, zpow_natCast]
    have hlt : dMag d * 10 ^ k < dOverflow := by
      apply small_lt_overflow
      have : (10 : ℚ) ^ k ≤ 10 ^ 22 := pow_le_pow_right₀ (by norm_num) (by omega)
      calc dMag d * 10 ^ k ≤ 2 ^ 53 * 10 ^ 22 := mul_le_mul hv this (by positivity) (by positivity)
        _ < 2 ^ 128 := by norm_num
    exact ⟨toDouble_nearest false (by positivity) hlt, by simpa using (toDouble_value false (by positivity) hlt).2.1⟩
  · obtain ⟨k, hk⟩ : ∃ k : ℕ, p = -k := ⟨(-p).toNat, by omega⟩
    subst hk
    rw [if_neg hp, _root_.neg_neg, pow10_ok _ (by omega) (by omega)]
    obtain ⟨e1, e2, e3⟩ := power10_exact k (by omega)
    simp only [Int.toNat_natCast]
    refine ⟨_, rfl, ?_⟩
    rw [fdiv_pos d _ hf e1 hs e2 (by rw [e3]; positivity), e3, zpow_neg, zpow_natCast, ← div_eq_mul_inv]
    have hlt : dMag d / 10 ^ k < dOverflow := by
      apply small_lt_overflow
      have : (1 : ℚ) ≤ 10 ^ k := one_le_pow₀ (by norm_num)
      calc dMag d / 10 ^ k ≤ dMag d := div_le_self hm this
        _ ≤ 2 ^ 53 := hv
        _ < 2 ^ 128 := by norm_num
    exact ⟨toDouble_nearest false (by positivity) hlt, by simpa using (toDouble_value false (by positivity) hlt).2.1⟩

/-- C50.  For every integral significand up to `2^53 - 1` and exponent between -22 and 37 the fast path either
accepts and returns the double nearest to `n * 10^p` (ties to even), or declines; it declines exactly when the
exponent is above 22 and the significand times `10^(p-22)` no longer fits 53 bits. -/
theorem C50_fast (d : UInt64) (n : ℕ) (hn : n ≤ 2 ^ 53 - 1) (hf : DFinite d) (hs : ¬ dNeg d) (hd : dValue d = n)
    (p : ℤ) (h1 : -22 ≤ p) (h2 : p ≤ 37) :
    (fast d p = .ok none ∧ 22 < p ∧ 2 ^ 53 - 1 < n * 10 ^ (p - 22).toNat) ∨
    (∃ r, fast d p = .ok (some r) ∧ (22 < p → n * 10 ^ (p - 22).toNat ≤ 2 ^ 53 - 1) ∧
      NearestEven ((n : ℚ) * 10 ^ p) r ∧ ¬ dNeg r) := by
  have hm : dMag d = n := by rw [← hd]; unfold dValue; rw [if_neg hs]
  by_cases hp : 22 < p
  · obtain ⟨k, hk⟩ : ∃ k : ℕ, p = k + 22 := ⟨(p - 22).toNat, by omega⟩
    have hk22 : p - 22 = k := by omega
    obtain ⟨e1, e2, e3⟩ := power10_exact k (by omega)
    have hmul : fmul d (LVal.fin false ((10 ^ k : Nat) : Rat)).toDouble
        = (LVal.fin false ((n * 10 ^ k : ℕ) : ℚ)).toDouble := by
      rw [fmul_pos d _ hf e1 hs e2, e3, hm]; push_cast; rfl
    have hlt : ((n * 10 ^ k : ℕ) : ℚ) < dOverflow := by
      apply small_lt_overflow
      have : n * 10 ^ k ≤ 2 ^ 53 * 10 ^ 15 :=
        Nat.mul_le_mul (by omega) (Nat.pow_le_pow_right (by norm_num) (by omega))
      exact_mod_cast lt_of_le_of_lt this (by norm_num)
    have hrun : fast d p = (if fle (LVal.fin false ((n * 10 ^ k : ℕ) : ℚ)).toDouble MAX_SIG = true then do
        let r ← fastPath (LVal.fin false ((n * 10 ^ k : ℕ) : ℚ)).toDouble 22
        pure (some r) else pure none) := by
      unfold fast
      rw [if_pos (by omega), hk22, pow10_ok _ (by omega) (by omega)]
      simp only [Int.toNat_natCast, Res.ok_bind, Res.pure_eq]
      rw [hmul]
      simp
    rw [hrun, hk22, Int.toNat_natCast]
    obtain ⟨t1, t2, t3⟩ := toDouble_value false (q := ((n * 10 ^ k : ℕ) : ℚ)) (by positivity) hlt
    have t2' : ¬ dNeg (LVal.fin false ((n * 10 ^ k : ℕ) : ℚ)).toDouble := by simpa using t2
    have hle := fle_pos _ t1 t2'
    by_cases hN : n * 10 ^ k ≤ 2 ^ 53 - 1
    · right
      have hx := toDouble_exact false (n * 10 ^ k) 0 (by omega) (by rw [pow_zero, mul_one]; exact hlt)
      rw [pow_zero, mul_one] at hx
      have hNq : ((n * 10 ^ k : ℕ) : ℚ) ≤ 2 ^ 53 - 1 := by
        have : n * 10 ^ k + 1 ≤ 2 ^ 53 := by omega
        have h' : ((n * 10 ^ k : ℕ) : ℚ) + 1 ≤ 2 ^ 53 := by exact_mod_cast this
        linarith
      rw [if_pos (hle.mpr (by rw [hx.2.2]; exact hNq))]
      obtain ⟨r, r1, r2, r3⟩ := fastPath_nearest _ t1 t2' (by rw [hx.2.2]; linarith) 22 (by omega) (by omega)
      rw [r1]
      refine ⟨r, rfl, fun _ => hN, ?_, r3⟩
      rw [hx.2.2] at r2
      have e : (n : ℚ) * 10 ^ p = ((n * 10 ^ k : ℕ) : ℚ) * 10 ^ (22 : ℤ) := by
        rw [hk, zpow_add₀ (by norm_num), zpow_natCast]; push_cast; ring
      rw [e]; exact r2
    · left
      refine ⟨?_, hp, by omega⟩
      rw [if_neg]
      · rfl
      intro hc
      have h3 := hle.mp hc
      have hpos : (0 : ℚ) < ((n * 10 ^ k : ℕ) : ℚ) := by
        have : 0 < n * 10 ^ k := by omega
        exact_mod_cast this
      have h4 := le_roundRat (p := 53) (emin := -1074) (by norm_num) hpos 1 53 (by norm_num) (by norm_num) (by
        have : 2 ^ 53 ≤ n * 10 ^ k := by omega
        have h5 : (2 : ℚ) ^ 53 ≤ ((n * 10 ^ k : ℕ) : ℚ) := by exact_mod_cast this
        rw [show (53 : ℤ) = ((53 : ℕ) : ℤ) by norm_num, zpow_natCast]; simpa using h5)
      have h6 : dMag (LVal.fin false ((n * 10 ^ k : ℕ) : ℚ)).toDouble = roundRat 53 (-1074) ((n * 10 ^ k : ℕ) : ℚ) :=
        (toDouble_pos false hpos hlt).2.2.1
      rw [← h6, show (53 : ℤ) = ((53 : ℕ) : ℤ) by norm_num, zpow_natCast] at h4
      norm_num at h3 h4
      linarith
  · right
    have hle := fle_pos d hf hs
    have hnq : (n : ℚ) ≤ 2 ^ 53 - 1 := by
      have h' : (n : ℚ) + 1 ≤ 2 ^ 53 := by exact_mod_cast (show n + 1 ≤ 2 ^ 53 by omega)
      linarith
    obtain ⟨r, r1, r2, r3⟩ := fastPath_nearest d hf hs (by rw [hm]; linarith) p h1 (by omega)
    refine ⟨r, ?_, fun h => absurd h hp, by rw [← hm]; exact r2, r3⟩
    unfold fast
    rw [if_neg (by omega)]
    simp only [Res.pure_eq, Res.ok_bind]
    rw [if_pos ⟨h1, by omega, hle.mpr (by rw [hm]; exact hnq)⟩, r1]
    rfl

/-- C50, the table: read inside its 309 entries exactly for indices 0 to 308, so `fastPath` and
`StrtodNormalPrecision` are defined exactly for exponents up to 308, and `fast` for every `double` and every
exponent. -/
theorem C50_table (n : ℤ) : (∃ r, pow10 n = .ok r) ↔ 0 ≤ n ∧ n ≤ 308 := by
  constructor
  · rintro ⟨r, h⟩
    by_contra hc
    rw [pow10_ub n (by omega)] at h
    cases h
  · rintro ⟨h0, h1⟩
    exact ⟨_, pow10_ok n h0 h1⟩

theorem C50_fastPath_defined (d : UInt64) (p : ℤ) : (∃ r, fastPath d p = .ok r) ↔ p ≤ 308 := by
  unfold fastPath
  by_cases h1 : p < -308
  · rw [if_pos h1]; exact ⟨fun _ => by omega, fun _ => ⟨_, rfl⟩⟩
  rw [if_neg h1]
  by_cases h2 : 0 ≤ p
  · rw [if_pos h2]
    by_cases h3 : p ≤ 308
    · rw [pow10_ok p h2 h3]; exact ⟨fun _ => h3, fun _ => ⟨_, rfl⟩⟩
    · rw [pow10_ub p (by omega)]
      refine ⟨fun ⟨r, h⟩ => ?_, fun h => absurd h h3⟩
      cases h
  · rw [if_neg h2, pow10_ok (-p) (by omega) (by omega)]
    exact ⟨fun _ => by omega, fun _ => ⟨_, rfl⟩⟩

theorem C50_normal_defined (d : UInt64) (p : ℤ) : (∃ r, normalPrecision d p = .ok r) ↔ p ≤ 308 := by
  unfold normalPrecision
  by_cases h1 : p < -308
  · rw [if_pos h1]
    obtain ⟨r, hr⟩ := (C50_fastPath_defined d (-308)).mpr (by omega)
    rw [hr]
    exact ⟨fun _ => by omega, fun _ => (C50_fastPath_defined r (p + 308)).mpr (by omega)⟩
  · rw [if_neg h1]; exact C50_fastPath_defined d p

theorem C50_fast_defined (d : UInt64) (p : ℤ) : ∃ r, fast d p = .ok r := by
  unfold fast
  by_cases h : p > 22 ∧ p < 22 + 16
  · rw [if_pos h, pow10_ok (p - 22) (by omega) (by omega)]
    simp only [Res.ok_bind, Res.pure_eq]
    split
    · obtain ⟨r, hr⟩ := (C50_fastPath_defined
        (fmul d (LVal.fin false ((10 ^ (p - 22).toNat : Nat) : Rat)).toDouble) 22).mpr (by omega)
      rw [hr]; exact ⟨_, rfl⟩
    · exact ⟨_, rfl⟩
  · rw [if_neg h]
    simp only [Res.ok_bind, Res.pure_eq]
    split
    · obtain ⟨r, hr⟩ := (C50_fastPath_defined d p).mpr (by omega)
      rw [hr]; exact ⟨_, rfl⟩
    · exact ⟨_, rfl⟩

/-! ### Inhabited hypotheses -/

/-- 123 * 10^-4 and the "disguised" case 123 * 10^35. -/
example : fast 0x405EC00000000000 (-4) = .ok (some 0x3F8930BE0DED288D) := by decide +kernel
example : dSig 0x405EC00000000000 = 123 * 2 ^ 46 ∧ dUlpExp 0x405EC00000000000 = -46 := by decide +kernel
example : fast 0x405EC00000000000 35 = .ok (some 0x47A281C9A44B847B) := by decide +kernel
example : fast 0x433FFFFFFFFFFFFF 23 = .ok none := by decide +kernel

end Lexi
