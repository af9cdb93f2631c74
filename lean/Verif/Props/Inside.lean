import Verif.Props.Whole
import Verif.Proofs.Nearest

/-!
# Everyday numbers and the tables: C84

Which doubles are formatted without the out-of-range read of C26: integers, amounts with few decimal places, and whole
ranges of magnitudes.
-/

namespace Lexi
open Spec Soft Dtoa DiyFp

theorem idx_anti {a b : ℤ} (h : a ≤ b) : idx b ≤ idx a := by
  unfold idx
  have : dkScaled b ≤ dkScaled a := by unfold dkScaled; nlinarith
  have := Int.ediv_le_ediv (show (0 : ℤ) < 8 * 10 ^ 17 by norm_num) this
  omega

/-- The exponent of the leading bit. -/
def topExp (u : UInt64) : ℤ := dUlpExp u + (dSig u).log2

theorem topExp_spec {u : UInt64} (hnz : ¬ DZero u) :
    (2 : ℚ) ^ topExp u ≤ dMag u ∧ dMag u < 2 ^ (topExp u + 1) := by
  have hs := dSig_pos hnz
  have hze := zp (dUlpExp u)
  have h1 : 2 ^ (dSig u).log2 ≤ dSig u := Nat.log2_self_le (by omega)
  have h2 : dSig u < 2 ^ ((dSig u).log2 + 1) := Nat.lt_log2_self
  have q1 : (2 : ℚ) ^ (dSig u).log2 ≤ dSig u := by exact_mod_cast h1
  have q2 : (dSig u : ℚ) < 2 ^ ((dSig u).log2 + 1) := by exact_mod_cast h2
  unfold topExp dMag
  constructor
  · rw [zpow_add₀ (by norm_num), zpow_natCast, mul_comm]
    exact mul_le_mul_of_nonneg_right q1 hze.le
  · rw [show dUlpExp u + ((dSig u).log2 : ℤ) + 1 = dUlpExp u + (((dSig u).log2 + 1 : ℕ) : ℤ) by push_cast; ring,
      zpow_add₀ (by norm_num), zpow_natCast, mul_comm (_ ^ dUlpExp u)]
    exact mul_lt_mul_of_pos_right q2 hze

theorem dSig_log2 (u : UInt64) : (dSig u).log2 ≤ 63 := by
  have h := dSig_lt u
  by_cases h0 : dSig u = 0
  · rw [h0]; decide
  · have := (Nat.log2_lt h0).mpr (show dSig u < 2 ^ 63 from lt_of_lt_of_le h (by norm_num))
    omega

theorem cachedK_top (u : UInt64) : cachedK u = -348 + 8 * idx (topExp u - 63) := by
  unfold cachedK topExp
  have := dSig_log2 u
  rw [Nat.cast_sub this]
  congr 3
  push_cast
  ring

theorem topExp_lt {u : UInt64} (hnz : ¬ DZero u) {a : ℤ} (h : dMag u < 2 ^ a) : topExp u < a :=
  (zpow_lt_zpow_iff_right₀ (by norm_num)).mp (lt_of_le_of_lt (topExp_spec hnz).1 h)

theorem le_topExp {u : UInt64} (hnz : ¬ DZero u) {a : ℤ} (h : (2 : ℚ) ^ a ≤ dMag u) : a ≤ topExp u := by
  have := (zpow_lt_zpow_iff_right₀ (show (1 : ℚ) < 2 by norm_num)).mp (lt_of_le_of_lt h (topExp_spec hnz).2)
  omega

theorem cachedK_ge {u : UInt64} (hnz : ¬ DZero u) {a : ℤ} (h : dMag u < 2 ^ a) : -348 + 8 * idx (a - 64) ≤ cachedK u := by
  rw [cachedK_top]
  have := idx_anti (show topExp u - 63 ≤ a - 64 by have := topExp_lt hnz h; omega)
  omega

theorem cachedK_le {u : UInt64} (hnz : ¬ DZero u) {a : ℤ} (h : (2 : ℚ) ^ a ≤ dMag u) :
    cachedK u ≤ -348 + 8 * idx (a - 63) := by
  rw [cachedK_top]
  have := idx_anti (show a - 63 ≤ topExp u - 63 by have := le_topExp hnz h; omega)
  omega

/-- Zeros are printed from a literal. -/
theorem strict_zero (env : Env) (L : Literals) (junk : Bytes) (hj : junk.length = FLOAT_SIZE) (u : UInt64) (hz : DZero u) :
    ∃ o, formatDouble L (strictEnv env) junk u = .ok o := by
  have hn := toDouble_ofDouble u (fun h => by have := h.1; unfold DZero at hz; omega)
  unfold formatDouble
  exact ⟨_, formatLd_zero _ _ (by rw [hn]; exact hz) _ _ hj⟩

/-- The condition of C26 for a value near a decimal with a known last place. -/
theorem strict_near (env : Env) (henv : EnvOk env) (L : Literals) (junk : Bytes) (hj : junk.length = FLOAT_SIZE)
    (u : UInt64) (hfin : DFinite u) (hnz : ¬ DZero u) (m : ℕ) (j : ℤ) (h : NearMag u (m * 10 ^ j))
    (hk : -cachedK u - 9 ≤ j) : ∃ o, formatDouble L (strictEnv env) junk u = .ok o := by
  have hn := toDouble_ofDouble u (fun h => hfin h.1)
  obtain ⟨D, k, hP, hs⟩ := formatLd_strict env henv u hfin hnz
  obtain ⟨h1, h2, -⟩ := hs (.ofDouble u) (by rw [hn]) L junk hj
  obtain ⟨hlo, hhi⟩ := h.inside hnz
  have hjk := hP.exponent_ge hlo hhi
  exact ⟨_, (h2 (by omega)).trans h1⟩

theorem near_self {u : UInt64} {m : ℕ} {j : ℤ} (h : dMag u = m * 10 ^ j) : NearMag u (m * 10 ^ j) := by
  have hze := zp (dUlpExp u)
  unfold NearMag
  rw [h, sub_self, abs_zero]
  split <;> positivity

/-- C84.  Decimal places: a double below 2^42 in magnitude near (in the sense of `NearMag`) a decimal with at most five
places, or below 2^16 with at most thirteen, is formatted inside the tables. -/
theorem C84_places (env : Env) (henv : EnvOk env) (L : Literals) (junk : Bytes) (hj : junk.length = FLOAT_SIZE)
    (u : UInt64) (hfin : DFinite u) (m : ℕ) :
    (dMag u < 2 ^ 42 → NearMag u (m / 10 ^ 5) → ∃ o, formatDouble L (strictEnv env) junk u = .ok o) ∧
    (dMag u < 2 ^ 16 → NearMag u (m / 10 ^ 13) → ∃ o, formatDouble L (strictEnv env) junk u = .ok o) := by
  by_cases hz : DZero u
  · exact ⟨fun _ _ => strict_zero env L junk hj u hz, fun _ _ => strict_zero env L junk hj u hz⟩
  constructor
  · intro hb hm
    have hK := cachedK_ge hz (a := 42) (by exact_mod_cast hb)
    have e : idx (42 - 64) = 43 := by decide
    refine strict_near env henv L junk hj u hfin hz m (-5) ?_ (by omega)
    rw [zpow_neg, ← div_eq_mul_inv]
    exact_mod_cast hm
  · intro hb hm
    have hK := cachedK_ge hz (a := 16) (by exact_mod_cast hb)
    have e : idx (16 - 64) = 44 := by decide
    refine strict_near env henv L junk hj u hfin hz m (-13) ?_ (by omega)
    rw [zpow_neg, ← div_eq_mul_inv]
    exact_mod_cast hm

/-- C84.  Integers below 2^42 in magnitude are formatted inside the tables; those from 2^42 to 2^53 exactly when they
are multiples of 1000, and the others read `POWER10` out of range. -/
theorem C84_integers (env : Env) (henv : EnvOk env) (L : Literals) (junk : Bytes) (hj : junk.length = FLOAT_SIZE)
    (u : UInt64) (hfin : DFinite u) (n : ℤ) (hn : dValue u = n) (hb : n.natAbs ≤ 2 ^ 53) :
    ((∃ o, formatDouble L (strictEnv env) junk u = .ok o) ↔ n.natAbs < 2 ^ 42 ∨ 1000 ∣ n) ∧
    (formatDouble L (strictEnv env) junk u = .ub ↔ ¬ (n.natAbs < 2 ^ 42 ∨ 1000 ∣ n)) := by
  have hM : dMag u = (n.natAbs : ℕ) := by
    have habs : |dValue u| = dMag u := by
      unfold dValue
      split
      · rw [abs_neg, abs_of_nonneg (dMag_nonneg u)]
      · rw [abs_of_nonneg (dMag_nonneg u)]
    rw [← habs, hn]
    rw [Nat.cast_natAbs]; push_cast; rfl
  have hdvd : (1000 : ℤ) ∣ n ↔ 1000 ∣ n.natAbs := by
    rw [show (1000 : ℤ) = ((1000 : ℕ) : ℤ) by norm_num, Int.natCast_dvd]
  rw [hdvd]
  generalize n.natAbs = M at *
  by_cases hz : DZero u
  · obtain ⟨o, ho⟩ := strict_zero env L junk hj u hz
    have : M = 0 := by
      have h0 := dMag_zero hz
      rw [hM] at h0; exact_mod_cast h0
    subst this
    rw [ho]
    simp
  have h53 : dMag u < 2 ^ (54 : ℤ) := by
    rw [hM]
    have : M < 2 ^ 54 := by omega
    exact_mod_cast this
  have hnn := toDouble_ofDouble u (fun h => hfin h.1)
  obtain ⟨D, k, hP, hs⟩ := formatLd_strict env henv u hfin hz
  obtain ⟨h1, h2, h3⟩ := hs (.ofDouble u) (by rw [hnn]) L junk hj
  have key : -cachedK u - 9 ≤ k ↔ M < 2 ^ 42 ∨ 1000 ∣ M := by
    obtain ⟨t, ht, hD⟩ := hP.whole hz hM (by omega)
    by_cases hlt : M < 2 ^ 42
    · have hK := cachedK_ge hz (a := 42) (by rw [hM]; exact_mod_cast hlt)
      have e : idx (42 - 64) = 43 := by decide
      exact ⟨fun _ => .inl hlt, fun _ => by omega⟩
    · have hK := cachedK_le hz (a := 42) (by rw [hM]; exact_mod_cast (not_lt.mp hlt))
      have hK' := cachedK_ge hz (a := 54) h53
      have e : idx (42 - 63) = 42 := by decide
      have e' : idx (54 - 64) = 42 := by decide
      have hK'' : cachedK u = -12 := by omega
      rw [hK'']
      constructor
      · intro hk
        right
        rw [← hD]
        exact Dvd.dvd.mul_left (pow_dvd_pow 10 (show 3 ≤ t by omega)) D
      · rintro (h | ⟨m, hm⟩)
        · exact absurd h hlt
        · have hn3 : NearMag u ((m : ℚ) * 10 ^ (3 : ℤ)) := near_self (by
            rw [hM, hm]; push_cast; ring)
          obtain ⟨g1, g2⟩ := hn3.inside hz
          have := hP.exponent_ge g1 g2
          omega
  unfold formatDouble
  constructor
  · rw [← key]
    constructor
    · rintro ⟨o, ho⟩
      by_contra hk
      rw [h3 (by omega)] at ho; exact absurd ho (by simp)
    · intro hk
      exact ⟨_, (h2 hk).trans h1⟩
  · rw [← key]
    constructor
    · intro ho hk
      rw [h2 hk, h1] at ho; exact absurd ho (by simp)
    · intro hk
      exact h3 (by omega)

/-- C84.  Of all the doubles from 2^42 up to 2^53, with or without a fraction, exactly the multiples of 1000 are formatted
inside the tables. -/
theorem C84_thousands (env : Env) (henv : EnvOk env) (L : Literals) (junk : Bytes) (hj : junk.length = FLOAT_SIZE)
    (u : UInt64) (hfin : DFinite u) (hlo : 2 ^ 42 ≤ dMag u) (hhi : dMag u < 2 ^ 53) :
    ((∃ o, formatDouble L (strictEnv env) junk u = .ok o) ↔ ∃ m : ℕ, dMag u = 1000 * m) ∧
    (formatDouble L (strictEnv env) junk u = .ub ↔ ¬ ∃ m : ℕ, dMag u = 1000 * m) := by
  have hpos : 0 < dMag u := lt_of_lt_of_le (by norm_num) hlo
  have hz : ¬ DZero u := fun hz => by rw [dMag_zero hz] at hpos; exact lt_irrefl _ hpos
  have hlo' : (2 : ℚ) ^ (42 : ℤ) ≤ dMag u := by exact_mod_cast hlo
  have hhi' : dMag u < 2 ^ (53 : ℤ) := by exact_mod_cast hhi
  have hK : cachedK u = -12 := by
    have h1 := cachedK_le hz hlo'
    have h2 := cachedK_ge hz hhi'
    have e : idx (42 - 63) = 42 := by decide
    have e' : idx (53 - 64) = 42 := by decide
    omega
  have hulp : dUlpExp u ≤ 0 := by
    by_contra hc
    have hn : 2 ^ 52 ≤ dSig u := by
      unfold dUlpExp at hc
      unfold dSig
      split at hc
      · omega
      · rename_i h; rw [if_neg h]; omega
    have hq : (2 : ℚ) ^ 52 ≤ dSig u := by exact_mod_cast hn
    have h4 : (2 : ℚ) ^ (1 : ℤ) ≤ 2 ^ dUlpExp u := zpow_mono (by omega)
    have h5 : (2 : ℚ) ^ 52 * 2 ^ (1 : ℤ) ≤ dMag u := mul_le_mul hq h4 (by positivity) (by positivity)
    norm_num at h5 hhi
    linarith
  have hnn := toDouble_ofDouble u (fun h => hfin h.1)
  obtain ⟨D, k, hP, hs⟩ := formatLd_strict env henv u hfin hz
  obtain ⟨h1, h2, h3⟩ := hs (.ofDouble u) (by rw [hnn]) L junk hj
  have key : -cachedK u - 9 ≤ k ↔ ∃ m : ℕ, dMag u = 1000 * m := by
    rw [hK]
    constructor
    · intro hk
      obtain ⟨t, rfl⟩ : ∃ t : ℕ, k = ((3 + t : ℕ) : ℤ) := ⟨(k - 3).toNat, by omega⟩
      obtain ⟨s, hs⟩ : ∃ s : ℕ, dUlpExp u = -(s : ℤ) := ⟨(-dUlpExp u).toNat, by omega⟩
      have hlo := hP.lower
      have hhi := hP.upper
      have hg := lowGap_le u
      rw [lowB_eq u hz] at hlo
      rw [highB_eq] at hhi
      have hze := zp (dUlpExp u)
      have e1 : (2 : ℚ) ^ (dUlpExp u - 1) = 2 ^ dUlpExp u / 2 := by rw [zpow_sub₀ (by norm_num)]; norm_num
      rw [e1] at hhi hg
      have hinv : (2 : ℚ) ^ dUlpExp u * 2 ^ s = 1 := by
        rw [hs, zpow_neg, zpow_natCast]; field_simp
      have hp2 : (0 : ℚ) < 2 ^ s := by positivity
      rw [zpow_natCast] at hlo hhi
      -- on the grid of the double
      have hm : dMag u * 2 ^ s = dSig u := by unfold dMag; rw [mul_assoc, hinv, mul_one]
      have a : (dSig u : ℚ) - 1 < (D * 10 ^ (3 + t) * 2 ^ s : ℕ) := by
        have := mul_lt_mul_of_pos_right (lt_of_le_of_lt (sub_le_sub_left hg (dMag u)) hlo) hp2
        push_cast
        rw [sub_mul, hm] at this
        nlinarith
      have b : ((D * 10 ^ (3 + t) * 2 ^ s : ℕ) : ℚ) < dSig u + 1 := by
        have := mul_lt_mul_of_pos_right hhi hp2
        push_cast
        rw [add_mul, hm] at this
        nlinarith
      have a' : dSig u < D * 10 ^ (3 + t) * 2 ^ s + 1 := by
        have : (dSig u : ℚ) < ((D * 10 ^ (3 + t) * 2 ^ s : ℕ) : ℚ) + 1 := by linarith
        exact_mod_cast this
      have b' : D * 10 ^ (3 + t) * 2 ^ s < dSig u + 1 := by exact_mod_cast b
      have e : dSig u = D * 10 ^ (3 + t) * 2 ^ s := by omega
      refine ⟨D * 10 ^ t, ?_⟩
      unfold dMag
      rw [e]
      push_cast
      rw [mul_assoc, mul_comm (2 ^ s : ℚ), hinv, pow_add]
      ring
    · rintro ⟨m, hm⟩
      have hn3 : NearMag u ((m : ℚ) * 10 ^ (3 : ℤ)) := near_self (by rw [hm]; ring)
      obtain ⟨g1, g2⟩ := hn3.inside hz
      have := hP.exponent_ge g1 g2
      omega
  unfold formatDouble
  constructor
  · rw [← key]
    constructor
    · rintro ⟨o, ho⟩
      by_contra hk
      rw [h3 (by omega)] at ho; exact absurd ho (by simp)
    · intro hk
      exact ⟨_, (h2 hk).trans h1⟩
  · rw [← key]
    constructor
    · intro ho hk
      rw [h2 hk, h1] at ho; exact absurd ho (by simp)
    · intro hk
      exact h3 (by omega)

/-- Some decimal with the given last place is near whenever the double's spacing is at least that wide. -/
theorem near_exists {u : UInt64} (h52 : dSig u ≠ 2 ^ 52) {j : ℤ} (h : (10 : ℚ) ^ j / 2 ≤ 49 / 100 * 2 ^ dUlpExp u) :
    ∃ m : ℕ, NearMag u (m * 10 ^ j) := by
  have hp : (0 : ℚ) < 10 ^ j := by positivity
  have hm := dMag_nonneg u
  set q := dMag u / 10 ^ j with hq
  have hq0 : 0 ≤ q := div_nonneg hm hp.le
  have hr := abs_sub_round q
  have hr0 : 0 ≤ round q := by
    rw [round_eq]
    exact Int.floor_nonneg.mpr (by linarith)
  obtain ⟨m, hm'⟩ := Int.eq_ofNat_of_zero_le hr0
  refine ⟨m, ?_⟩
  unfold NearMag
  rw [if_neg h52]
  refine le_trans ?_ h
  have e : dMag u = q * 10 ^ j := by rw [hq]; field_simp
  rw [hm'] at hr
  rw [e, ← sub_mul, abs_mul, abs_of_pos hp, abs_sub_comm]
  push_cast at hr
  have := mul_le_mul_of_nonneg_right hr hp.le
  linarith

/-- C84.  Whole ranges: every double from 2^9 up to 2^16 and from 2^36 up to 2^42 is formatted inside the tables. -/
theorem C84_ranges (env : Env) (henv : EnvOk env) (L : Literals) (junk : Bytes) (hj : junk.length = FLOAT_SIZE)
    (u : UInt64) (hfin : DFinite u) (h : 2 ^ 9 ≤ dMag u ∧ dMag u < 2 ^ 16 ∨ 2 ^ 36 ≤ dMag u ∧ dMag u < 2 ^ 42) :
    ∃ o, formatDouble L (strictEnv env) junk u = .ok o := by
  have hpos : 0 < dMag u := by rcases h with ⟨h, -⟩ | ⟨h, -⟩ <;> exact lt_of_lt_of_le (by norm_num) h
  have hz : ¬ DZero u := fun hz => by rw [dMag_zero hz] at hpos; exact lt_irrefl _ hpos
  have h9 : 9 ≤ topExp u := by
    refine le_topExp hz ?_
    rcases h with ⟨h, -⟩ | ⟨h, -⟩
    · exact_mod_cast h
    · exact le_trans (by norm_num) h
  have hnormal : dUlpExp u = topExp u - 52 := by
    unfold topExp at h9 ⊢
    have hlog := dSig_log2 u
    have hl52 : (dSig u).log2 = 52 := by
      unfold dUlpExp at h9
      by_cases he : dExp u = 0
      · rw [if_pos he] at h9; omega
      · have h1 : 2 ^ 52 ≤ dSig u := by unfold dSig; rw [if_neg he]; omega
        have h2 : dSig u < 2 ^ 53 := dSig_lt u
        exact (Nat.log2_eq_iff (by omega)).mpr ⟨h1, h2⟩
    omega
  by_cases h52 : dSig u = 2 ^ 52
  · -- a power of two, an integer
    obtain ⟨s, hs⟩ : ∃ s : ℕ, topExp u = s := ⟨(topExp u).toNat, by omega⟩
    have hM : dMag u = ((2 ^ s : ℕ) : ℚ) * 10 ^ (0 : ℤ) := by
      unfold dMag
      rw [h52, hnormal, hs, zpow_zero, mul_one]
      push_cast
      rw [zpow_sub₀ (by norm_num), zpow_natCast]
      norm_num
      ring
    have hlt : dMag u < 2 ^ (42 : ℤ) := by
      rcases h with ⟨-, h⟩ | ⟨-, h⟩
      · exact lt_trans h (by norm_num)
      · exact_mod_cast h
    have hK := cachedK_ge hz hlt
    have e : idx (42 - 64) = 43 := by decide
    exact strict_near env henv L junk hj u hfin hz _ 0 (near_self hM) (by omega)
  · rcases h with ⟨hlo, hhi⟩ | ⟨hlo, hhi⟩
    · have hK := cachedK_ge hz (a := 16) (by exact_mod_cast hhi)
      have e : idx (16 - 64) = 44 := by decide
      obtain ⟨m, hm⟩ := near_exists h52 (j := -13) (by
        have : (2 : ℚ) ^ (-43 : ℤ) ≤ 2 ^ dUlpExp u := zpow_mono (by omega)
        refine le_trans ?_ (mul_le_mul_of_nonneg_left this (by norm_num))
        norm_num)
      exact strict_near env henv L junk hj u hfin hz m _ hm (by omega)
    · have hK := cachedK_ge hz (a := 42) (by exact_mod_cast hhi)
      have h36 : 36 ≤ topExp u := le_topExp hz (by exact_mod_cast hlo)
      have e : idx (42 - 64) = 43 := by decide
      obtain ⟨m, hm⟩ := near_exists h52 (j := -5) (by
        have : (2 : ℚ) ^ (-16 : ℤ) ≤ 2 ^ dUlpExp u := zpow_mono (by omega)
        refine le_trans ?_ (mul_le_mul_of_nonneg_left this (by norm_num))
        norm_num)
      exact strict_near env henv L junk hj u hfin hz m _ hm (by omega)

/-- The biased exponents whose doubles are spaced at least as wide as the last decimal place that the tables reach. -/
def wideExp (b : ℕ) : Bool :=
  let j := 339 - 8 * idx (b - 1086)
  let e := (b : ℤ) - 1075
  decide (50 * 10 ^ j.toNat * 2 ^ (-e).toNat ≤ 49 * 2 ^ e.toNat * 10 ^ (-j).toNat)

/-- C84.  All doubles of the exponents `wideExp`, powers of two aside, are formatted inside the tables. -/
theorem C84_wide (env : Env) (henv : EnvOk env) (L : Literals) (junk : Bytes) (hj : junk.length = FLOAT_SIZE)
    (u : UInt64) (hfin : DFinite u) (h0 : dExp u ≠ 0) (hf : dFrac u ≠ 0) (h : wideExp (dExp u) = true) :
    ∃ o, formatDouble L (strictEnv env) junk u = .ok o := by
  have hz : ¬ DZero u := fun hz => h0 (by
    have := dMag_zero hz
    by_contra hc
    unfold dMag dSig at this
    rw [if_neg hc] at this
    have hze := zp (dUlpExp u)
    rcases mul_eq_zero.mp this with h | h
    · have : 2 ^ 52 + dFrac u = 0 := by exact_mod_cast h
      omega
    · exact absurd h hze.ne')
  have hs : dSig u = 2 ^ 52 + dFrac u := by unfold dSig; rw [if_neg h0]
  have he : dUlpExp u = (dExp u : ℤ) - 1075 := by unfold dUlpExp; rw [if_neg h0]
  have hl52 : (dSig u).log2 = 52 :=
    (Nat.log2_eq_iff (by omega)).mpr ⟨by omega, dSig_lt u⟩
  have hK : cachedK u = -348 + 8 * idx ((dExp u : ℤ) - 1086) := by
    rw [cachedK_top, topExp, he, hl52]
    congr 3
    push_cast; ring
  unfold wideExp at h
  rw [decide_eq_true_eq] at h
  set j := 339 - 8 * idx ((dExp u : ℤ) - 1086) with hjd
  obtain ⟨m, hm⟩ := near_exists (u := u) (by omega) (j := j) (by
    have split : ∀ (b : ℚ) (_ : b ≠ 0) (z : ℤ), b ^ z = b ^ z.toNat / b ^ (-z).toNat := by
      intro b hb z
      rcases le_total 0 z with hz | hz
      · obtain ⟨n, rfl⟩ := Int.eq_ofNat_of_zero_le hz
        simp
      · obtain ⟨n, hn⟩ := Int.eq_ofNat_of_zero_le (show 0 ≤ -z by omega)
        obtain rfl : z = -(n : ℤ) := by omega
        simp
    rw [he, split 10 (by norm_num) j, split 2 (by norm_num) ((dExp u : ℤ) - 1075)]
    have hq : (50 : ℚ) * 10 ^ j.toNat * 2 ^ (-((dExp u : ℤ) - 1075)).toNat ≤
        49 * 2 ^ ((dExp u : ℤ) - 1075).toNat * 10 ^ (-j).toNat := by exact_mod_cast h
    generalize (10 : ℚ) ^ j.toNat = a at hq ⊢
    have hb : (0 : ℚ) < 10 ^ (-j).toNat := by positivity
    have hc : (0 : ℚ) < 2 ^ (-((dExp u : ℤ) - 1075)).toNat := by positivity
    generalize (10 : ℚ) ^ (-j).toNat = b at hq hb ⊢
    generalize (2 : ℚ) ^ (-((dExp u : ℤ) - 1075)).toNat = c at hq hc ⊢
    generalize (2 : ℚ) ^ ((dExp u : ℤ) - 1075).toNat = d at hq ⊢
    rw [div_div, ← mul_div_assoc, div_le_div_iff₀ (by positivity) hc]
    linarith)
  exact strict_near env henv L junk hj u hfin hz m _ hm (by omega)

/-- C84.  These are 496 of the 2046 exponents of normal numbers. -/
theorem C84_share : ((List.range 2046).countP fun i => wideExp (i + 1)) = 496 := by decide +kernel

/-! Non-vacuity: 2^42 + 1 is not formatted inside the tables, 2^42 - 1 and 4398046512000 are; so are 19.99 and
1000.123456789. -/
example : dValue 0x4290000000000400 = ((2 ^ 42 + 1 : ℤ) : ℚ) ∧ ¬ ((2 ^ 42 + 1 : ℤ).natAbs < 2 ^ 42 ∨ (1000 : ℤ) ∣ 2 ^ 42 + 1) := by
  constructor
  · decide +kernel
  · decide
example : formatDouble .default (strictEnv sampleEnv) (List.replicate 30 7) 0x4290000000000400 = .ub := by decide +kernel
example : (formatDouble .default (strictEnv sampleEnv) (List.replicate 30 7) 0x428FFFFFFFFFF800 >>= FloatObj.string) =
    .ok (ascii "4398046511103.0") := by decide +kernel
example : (formatDouble .default (strictEnv sampleEnv) (List.replicate 30 7) 0x4033FD70A3D70A3D >>= FloatObj.string) =
    .ok (ascii "19.99") := by decide +kernel

end Lexi
