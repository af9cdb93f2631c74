import Verif.Proofs.Strict

/-! # Consequences of the inner margin and of shortness -/

namespace Lexi
open Spec Soft Dtoa DiyFp

theorem innerExp_range (u : UInt64) (hfin : DFinite u) (hnz : ¬ DZero u) : -1146 ≤ innerExp u ∧ innerExp u ≤ 951 := by
  have := boundary_range u hfin hnz
  unfold innerExp; omega

/-- The upper end minus the margin, as an integer multiple of a power of two. -/
theorem highB_inner (u : UInt64) (hnz : ¬ DZero u) :
    ∃ n : ℕ, n < 2 ^ 73 ∧ highB u - 2 ^ innerExp u = n * 2 ^ innerExp u := by
  have hlt := dSig_lt u
  have hpos := dSig_pos hnz
  have hl : (dSig u).log2 < 53 := (Nat.log2_lt (by omega)).2 hlt
  have hself := Nat.lt_log2_self (n := dSig u)
  obtain ⟨t, ht⟩ : ∃ t, t = 62 - (dSig u).log2 + 9 := ⟨_, rfl⟩
  have hlt73 : (2 * dSig u + 1) * 2 ^ t < 2 ^ 73 := by
    calc _ < 2 ^ ((dSig u).log2 + 2) * 2 ^ t :=
          Nat.mul_lt_mul_of_pos_right (by rw [pow_succ]; omega) (by positivity)
      _ = 2 ^ 73 := by rw [← pow_add]; congr 1; omega
  have h1 : 1 ≤ (2 * dSig u + 1) * 2 ^ t := Nat.mul_pos (by omega) (by positivity)
  refine ⟨(2 * dSig u + 1) * 2 ^ t - 1, by omega, ?_⟩
  rw [Nat.cast_sub h1]
  unfold highB
  have e : (2 : ℚ) ^ (dUlpExp u - 1) = 2 ^ t * 2 ^ innerExp u := by
    rw [← zpow_natCast (2 : ℚ) t, ← zpow_add₀ (by norm_num)]
    congr 1; unfold innerExp; omega
  rw [e]; push_cast; ring

/-- The lower end plus the margin. -/
theorem lowB_inner (u : UInt64) (hnz : ¬ DZero u) :
    ∃ n : ℕ, n < 2 ^ 73 ∧ lowB u + 2 ^ innerExp u = n * 2 ^ innerExp u := by
  have hlt := dSig_lt u
  have hpos := dSig_pos hnz
  have hl : (dSig u).log2 < 53 := (Nat.log2_lt (by omega)).2 hlt
  have hself := Nat.lt_log2_self (n := dSig u)
  unfold lowB
  split
  · obtain ⟨t, ht⟩ : ∃ t, t = 61 - (dSig u).log2 + 9 := ⟨_, rfl⟩
    have hlt73 : (4 * dSig u) * 2 ^ t < 2 ^ 73 := by
      calc _ < 2 ^ ((dSig u).log2 + 3) * 2 ^ t :=
            Nat.mul_lt_mul_of_pos_right (by rw [pow_succ, pow_succ]; omega) (by positivity)
        _ = 2 ^ 73 := by rw [← pow_add]; congr 1; omega
    have h2 : (4 * dSig u - 1) * 2 ^ t + 1 ≤ (4 * dSig u) * 2 ^ t := by
      have : 1 ≤ 2 ^ t := Nat.one_le_two_pow
      have e : (4 * dSig u) * 2 ^ t = (4 * dSig u - 1) * 2 ^ t + 2 ^ t := by
        rw [← Nat.succ_mul]; congr 1; omega
      omega
    refine ⟨(4 * dSig u - 1) * 2 ^ t + 1, by omega, ?_⟩
    have e : (2 : ℚ) ^ (dUlpExp u - 2) = 2 ^ t * 2 ^ innerExp u := by
      rw [← zpow_natCast (2 : ℚ) t, ← zpow_add₀ (by norm_num)]
      congr 1; unfold innerExp; omega
    rw [e]; push_cast; ring
  · obtain ⟨t, ht⟩ : ∃ t, t = 62 - (dSig u).log2 + 9 := ⟨_, rfl⟩
    have hlt73 : (2 * dSig u) * 2 ^ t < 2 ^ 73 := by
      calc _ < 2 ^ ((dSig u).log2 + 2) * 2 ^ t :=
            Nat.mul_lt_mul_of_pos_right (by rw [pow_succ]; omega) (by positivity)
        _ = 2 ^ 73 := by rw [← pow_add]; congr 1; omega
    have h2 : (2 * dSig u - 1) * 2 ^ t + 1 ≤ (2 * dSig u) * 2 ^ t := by
      have : 1 ≤ 2 ^ t := Nat.one_le_two_pow
      have e : (2 * dSig u) * 2 ^ t = (2 * dSig u - 1) * 2 ^ t + 2 ^ t := by
        rw [← Nat.succ_mul]; congr 1; omega
      omega
    refine ⟨(2 * dSig u - 1) * 2 ^ t + 1, by omega, ?_⟩
    have e : (2 : ℚ) ^ (dUlpExp u - 1) = 2 ^ t * 2 ^ innerExp u := by
      rw [← zpow_natCast (2 : ℚ) t, ← zpow_add₀ (by norm_num)]
      congr 1; unfold innerExp; omega
    rw [e]; push_cast; ring

/-- Rounding a printed value to 73 bits or more keeps it strictly inside the rounding interval. -/
theorem Dtoa.Printed.round_open {u : UInt64} {D : ℕ} {k : ℤ} (hfin : DFinite u) (hnz : ¬ DZero u)
    (hP : Printed u D k) (F : FpFormat) (hp : 73 ≤ F.p) (he : F.emin ≤ -1146) :
    lowB u < roundRat F.p F.emin ((D : ℚ) * 10 ^ k) ∧ roundRat F.p F.emin ((D : ℚ) * 10 ^ k) < highB u := by
  have hV : 0 < (D : ℚ) * 10 ^ k := (lowB_pos hnz).trans hP.lower
  have hr := innerExp_range u hfin hnz
  have hz := zp (innerExp u)
  have hpow : 2 ^ 73 ≤ 2 ^ F.p := Nat.pow_le_pow_right (by omega) hp
  obtain ⟨n, hn, en⟩ := highB_inner u hnz
  obtain ⟨m, hm, em⟩ := lowB_inner u hnz
  have h1 := hP.inLower
  have h2 := hP.inUpper
  rw [em] at h1
  rw [en] at h2
  have a := le_roundRat (p := F.p) (by omega) hV m (innerExp u) (by omega : F.emin ≤ innerExp u) (by omega) h1
  have b := roundRat_le (p := F.p) hV n (innerExp u) (by omega : F.emin ≤ innerExp u) (by omega) h2
  rw [← em] at a
  rw [← en] at b
  constructor <;> linarith

/-- Reading back through a `long double` of at least 73 bits is exact. -/
theorem readBack_exact {u : UInt64} {D : ℕ} {k : ℤ} (hfin : DFinite u) (hnz : ¬ DZero u)
    (hP : Printed u D k) (F : FpFormat) (hp : 73 ≤ F.p) (he : F.emin ≤ -1146) (hmax : 1024 ≤ F.emax) :
    (F.round (decide (dNeg u)) ((D : ℚ) * 10 ^ k)).toDouble = u := by
  obtain ⟨hlo, hhi⟩ := hP.round_open hfin hnz F hp he
  rw [round_finite F _ _ hmax (hhi.trans (highB_lt_top hfin))]
  exact toDouble_interval u hfin _ ((lowB_pos hnz).trans hlo) (interval_open hnz hlo.le hhi (Or.inl hlo))

theorem lowB_half (u : UInt64) (hnz : ¬ DZero u) : dMag u / 2 ≤ lowB u := by
  rw [lowB_eq u hnz]
  have h := lowGap_le u
  have hpos : (1 : ℚ) ≤ dSig u := by exact_mod_cast dSig_pos hnz
  have hz := zp (dUlpExp u - 1)
  have e : dMag u / 2 = dSig u * 2 ^ (dUlpExp u - 1) := by
    unfold dMag; rw [zpow_sub_one₀ (by norm_num)]; ring
  have : (2 : ℚ) ^ (dUlpExp u - 1) ≤ dSig u * 2 ^ (dUlpExp u - 1) := le_mul_of_one_le_left hz.le hpos
  linarith

/-- The scaled lower end is at least one. -/
theorem one_le_scaled (u : UInt64) (hfin : DFinite u) (hnz : ¬ DZero u) : 1 ≤ lowB u * 10 ^ cachedK u := by
  have hr := boundary_range u hfin hnz
  obtain ⟨f, ce, K, -, hK, -, htop, r1, r2, ht⟩ := getCachedPower_eq ⟨⟨.gnu128, .gnu, .generic⟩, dkDouble, strict⟩ dkDouble_ok _ hr.1 hr.2
  have hKc : K = cachedK u := hK
  rw [hKc] at ht
  have h1 := (abs_le.1 ht).2
  have h2ce := zp ce
  have hcq : (2 : ℚ) ^ 63 ≤ f.toNat := by exact_mod_cast htop
  have h2 : (2 : ℚ) ^ 63 * 2 ^ ce ≤ f.toNat * 2 ^ ce := mul_le_mul_of_nonneg_right hcq h2ce.le
  have h3 : (2 : ℚ) ^ 62 * 2 ^ ce ≤ 10 ^ cachedK u := by
    have : (2 : ℚ) ^ 63 * 2 ^ ce = 2 ^ 62 * 2 ^ ce + 2 ^ 62 * 2 ^ ce := by ring
    have : 255 / 512 * (2 : ℚ) ^ ce ≤ 2 ^ 62 * 2 ^ ce := mul_le_mul_of_nonneg_right (by norm_num) h2ce.le
    linarith
  have hpos := dSig_pos hnz
  have hl : (dSig u).log2 < 53 := (Nat.log2_lt (by omega)).2 (dSig_lt u)
  have hself : 2 ^ (dSig u).log2 ≤ dSig u := Nat.log2_self_le (by omega)
  have h4 : (2 : ℚ) ^ (((dSig u).log2 : ℤ) + dUlpExp u - 1) ≤ lowB u := by
    refine le_trans ?_ (lowB_half u hnz)
    have hq : (2 : ℚ) ^ (dSig u).log2 ≤ dSig u := by exact_mod_cast hself
    have e : (2 : ℚ) ^ (((dSig u).log2 : ℤ) + dUlpExp u - 1) = 2 ^ (dSig u).log2 * 2 ^ dUlpExp u / 2 := by
      rw [zpow_sub_one₀ (by norm_num), zpow_add₀ (by norm_num), zpow_natCast]; ring
    rw [e]; unfold dMag
    have := mul_le_mul_of_nonneg_right hq (zp (dUlpExp u)).le
    linarith
  have h5 := mul_le_mul h4 h3 (by positivity) ((lowB_pos hnz).le)
  refine le_trans ?_ h5
  rw [← zpow_natCast (2 : ℚ) 62, ← zpow_add₀ (by norm_num), ← zpow_add₀ (by norm_num)]
  exact one_le_zpow₀ (by norm_num) (by push_cast; omega)

/-- A decimal of at most ten digits in the interval has a large exponent. -/
theorem short_exponent {u : UInt64} (hfin : DFinite u) (hnz : ¬ DZero u) {m : ℕ} {j : ℤ} (hm : m < 10 ^ 10)
    (h : lowB u < (m : ℚ) * 10 ^ j) : -cachedK u - 9 ≤ j := by
  by_contra hcon
  have h1 := one_le_scaled u hfin hnz
  have h2 : lowB u * 10 ^ cachedK u < (m : ℚ) * 10 ^ j * 10 ^ cachedK u := mul_lt_mul_of_pos_right h (by positivity)
  have h3 : (m : ℚ) * 10 ^ j * 10 ^ cachedK u ≤ 10 ^ 10 * 10 ^ (-10 : ℤ) := by
    rw [mul_assoc, ← zpow_add₀ (by norm_num)]
    refine mul_le_mul (by exact_mod_cast hm.le) (zpow_le_zpow_right₀ (by norm_num) (by omega)) (by positivity) (by positivity)
  have h4 : (10 : ℚ) ^ 10 * 10 ^ (-10 : ℤ) = 1 := by norm_num
  linarith

/-- The printed exponent is at least that of any decimal well inside the interval. -/
theorem Dtoa.Printed.exponent_ge {u : UInt64} {D : ℕ} {k : ℤ} (hP : Printed u D k) {m : ℕ} {j : ℤ}
    (h1 : lowB u + 2 ^ (dUlpExp u - 8) < (m : ℚ) * 10 ^ j) (h2 : (m : ℚ) * 10 ^ j < highB u - 2 ^ (dUlpExp u - 8)) :
    j ≤ k := by
  by_contra hcon
  exact hP.short m j (by omega) ⟨h1, h2⟩

/-- A decimal of at most 15 digits well inside the interval of a normal double is what is printed. -/
theorem Dtoa.Printed.decimal {u : UInt64} {D : ℕ} {k : ℤ} (hnz : ¬ DZero u) (hP : Printed u D k)
    (hn : 2 ^ 52 ≤ dSig u) {m : ℕ} {j : ℤ} (hm : m < 10 ^ 15)
    (h1 : lowB u + 2 ^ (dUlpExp u - 8) < (m : ℚ) * 10 ^ j) (h2 : (m : ℚ) * 10 ^ j < highB u - 2 ^ (dUlpExp u - 8)) :
    (D : ℚ) * 10 ^ k = m * 10 ^ j := by
  have hjk := hP.exponent_ge h1 h2
  obtain ⟨t, ht⟩ : ∃ t : ℕ, k = j + t := ⟨(k - j).toNat, by omega⟩
  have hz8 := zp (dUlpExp u - 8)
  have hze := zp (dUlpExp u)
  have hzj : (0 : ℚ) < 10 ^ j := by positivity
  -- the place value exceeds the width of the interval
  have hwide : 2 ^ dUlpExp u < (10 : ℚ) ^ j := by
    have hl : lowB u < m * 10 ^ j := by linarith
    have hg := lowB_half u hnz
    have hq : (2 : ℚ) ^ 52 ≤ dSig u := by exact_mod_cast hn
    have h3 : (2 : ℚ) ^ 52 * 2 ^ dUlpExp u ≤ dMag u := mul_le_mul_of_nonneg_right hq hze.le
    have hmq : (m : ℚ) < 10 ^ 15 := by exact_mod_cast hm
    have h4 : (m : ℚ) * 10 ^ j ≤ 10 ^ 15 * 10 ^ j := mul_le_mul_of_nonneg_right hmq.le hzj.le
    have h5 : (2 : ℚ) ^ 51 * 2 ^ dUlpExp u < 10 ^ 15 * 10 ^ j := by
      have : (2 : ℚ) ^ 52 * 2 ^ dUlpExp u = 2 * (2 ^ 51 * 2 ^ dUlpExp u) := by ring
      linarith
    by_contra hcon
    rw [not_lt] at hcon
    have : (10 : ℚ) ^ 15 * 10 ^ j ≤ 2 ^ 51 * 2 ^ dUlpExp u :=
      mul_le_mul (by norm_num) hcon hzj.le (by positivity)
    linarith
  have hw : highB u - lowB u ≤ 2 ^ dUlpExp u := by
    rw [highB_eq, lowB_eq u hnz]
    have := lowGap_le u
    have e : (2 : ℚ) ^ dUlpExp u = 2 * 2 ^ (dUlpExp u - 1) := by rw [zpow_sub_one₀ (by norm_num)]; ring
    linarith
  have hD : (D : ℚ) * 10 ^ k = ((D * 10 ^ t : ℕ) : ℚ) * 10 ^ j := by
    rw [ht, zpow_add₀ (by norm_num), zpow_natCast]; push_cast; ring
  have hlo := hP.lower
  have hhi := hP.upper
  rw [hD] at hlo hhi ⊢
  have key : ∀ a b : ℕ, (a : ℚ) * 10 ^ j < highB u → lowB u < (b : ℚ) * 10 ^ j → a ≤ b := by
    intro a b ha hb
    by_contra hcon
    have : ((b + 1 : ℕ) : ℚ) ≤ a := by exact_mod_cast (by omega : b + 1 ≤ a)
    have h6 := mul_le_mul_of_nonneg_right this hzj.le
    push_cast at h6
    linarith
  have e : D * 10 ^ t = m := le_antisymm (key _ _ hhi (by linarith)) (key _ _ (by linarith) hlo)
  rw [e]

end Lexi
