import Verif.Props.FloatRead

/-!
# The printed decimal is the nearest one: C71
-/

namespace Lexi
open Spec Soft Dtoa DiyFp

/-- The distance of a number in the rounding interval from the double. -/
theorem half_ulp {u : UInt64} {q : ℚ} (hlo : lowB u < q) (hhi : q < highB u) (hnz : ¬ DZero u) :
    |q - dMag u| < 2 ^ (dUlpExp u - 1) := by
  have hpos := dSig_pos hnz
  have hze := zp (dUlpExp u)
  have e1 : (2 : ℚ) ^ (dUlpExp u - 1) = 2 ^ dUlpExp u / 2 := by rw [zpow_sub₀ (by norm_num)]; norm_num
  have e2 : (2 : ℚ) ^ (dUlpExp u - 2) = 2 ^ dUlpExp u / 4 := by rw [zpow_sub₀ (by norm_num)]; norm_num
  have hh : highB u = dMag u + 2 ^ (dUlpExp u - 1) := by
    unfold highB dMag; rw [e1]; push_cast; ring
  have hl : dMag u - 2 ^ (dUlpExp u - 1) ≤ lowB u := by
    unfold lowB dMag
    split
    · rw [e1, e2, Nat.cast_sub (by omega)]; push_cast; nlinarith
    · rw [e1, Nat.cast_sub (by omega)]; push_cast; nlinarith
  rw [abs_lt]; constructor <;> linarith

/-- A number at or beyond an end of the shrunk rounding interval is far from the double, unless the double is a power of
two (where the lower end is nearer). -/
theorem far_outside {u : UInt64} {q : ℚ} (hnz : ¬ DZero u)
    (h : highB u - 2 ^ (dUlpExp u - 8) ≤ q ∨ (dSig u ≠ 2 ^ 52 ∧ q ≤ lowB u + 2 ^ (dUlpExp u - 8))) :
    2 ^ (dUlpExp u - 1) ≤ |q - dMag u| + 2 ^ (dUlpExp u - 8) := by
  have hpos := dSig_pos hnz
  have hze := zp (dUlpExp u)
  have e1 : (2 : ℚ) ^ (dUlpExp u - 1) = 2 ^ dUlpExp u / 2 := by rw [zpow_sub₀ (by norm_num)]; norm_num
  have hh : highB u = dMag u + 2 ^ (dUlpExp u - 1) := by
    unfold highB dMag; rw [e1]; push_cast; ring
  rcases h with h | ⟨h, h'⟩
  · have := le_abs_self (q - dMag u); linarith
  · have hl : lowB u = dMag u - 2 ^ (dUlpExp u - 1) := by
      unfold lowB dMag; rw [if_neg h, e1, Nat.cast_sub (by omega)]; push_cast; ring
    have := neg_abs_le (q - dMag u); linarith

/-- Digits that are nearest among the multiples in the shrunk rounding interval are nearest among all. -/
theorem Dtoa.Printed.nearest_of {u : UInt64} {D : ℕ} {k : ℤ} (hnz : ¬ DZero u) (h : Printed u D k) (m : ℕ)
    (hc : lowB u + 2 ^ (dUlpExp u - 8) < (m : ℚ) * 10 ^ k → (m : ℚ) * 10 ^ k < highB u - 2 ^ (dUlpExp u - 8) →
      |(D : ℚ) * 10 ^ k - dMag u| ≤ |(m : ℚ) * 10 ^ k - dMag u| + 2 ^ (dUlpExp u - 8))
    (hm : dSig u ≠ 2 ^ 52 ∨ NearMag u (m * 10 ^ k)) :
    |(D : ℚ) * 10 ^ k - dMag u| ≤ |(m : ℚ) * 10 ^ k - dMag u| + 2 ^ (dUlpExp u - 8) := by
  by_cases h1 : lowB u + 2 ^ (dUlpExp u - 8) < (m : ℚ) * 10 ^ k ∧ (m : ℚ) * 10 ^ k < highB u - 2 ^ (dUlpExp u - 8)
  · exact hc h1.1 h1.2
  · have h2 := half_ulp h.lower h.upper hnz
    have h3 : highB u - 2 ^ (dUlpExp u - 8) ≤ (m : ℚ) * 10 ^ k ∨
        (dSig u ≠ 2 ^ 52 ∧ (m : ℚ) * 10 ^ k ≤ lowB u + 2 ^ (dUlpExp u - 8)) := by
      rcases hm with hm | hm
      · rw [not_and_or, not_lt, not_lt] at h1
        exact h1.elim (fun h => Or.inr ⟨hm, h⟩) Or.inl
      · exact absurd (hm.inside hnz) h1
    exact h2.le.trans (far_outside hnz h3)

/-- The digits printed by a formatting that stays inside the tables are the nearest ones. -/
theorem Dtoa.Printed.nearest {u : UInt64} {D : ℕ} {k : ℤ} (hnz : ¬ DZero u) (h : Printed u D k)
    (hk : -cachedK u - 9 ≤ k) (m : ℕ) (hm : dSig u ≠ 2 ^ 52 ∨ NearMag u (m * 10 ^ k)) :
    |(D : ℚ) * 10 ^ k - dMag u| ≤ |(m : ℚ) * 10 ^ k - dMag u| + 2 ^ (dUlpExp u - 8) :=
  h.nearest_of hnz m (h.close hk m) hm

/-- C71.  Shortest and nearest: if formatting stays inside its tables, the printed magnitude is `D * 10^k`, no multiple of a
higher power of ten is near the double, and no other multiple of `10^k` is nearer by more than 1/256 of a unit in the last
place.  For a power of two the comparison is with the multiples within 0.24 units. -/
theorem C71_nearest (env : Env) (henv : EnvOk env) (L : Literals) (junk : Bytes) (hj : junk.length = FLOAT_SIZE)
    (u : UInt64) (hfin : DFinite u) (hnz : ¬ DZero u)
    (hsafe : ∃ o, formatDouble L (strictEnv env) junk u = .ok o) :
    ∃ (t : Bytes) (D : ℕ) (k : ℤ), stringDouble L env junk u = .ok t ∧
      IsJsonNumber t (if dNeg u then -(D * 10 ^ k) else D * 10 ^ k) ∧ D < 10 ^ 17 ∧
      (∀ (m : ℕ) (j : ℤ), NearMag u (m * 10 ^ j) → j ≤ k) ∧
      (∀ m : ℕ, dSig u ≠ 2 ^ 52 ∨ NearMag u (m * 10 ^ k) →
        |(D : ℚ) * 10 ^ k - dMag u| ≤ |(m : ℚ) * 10 ^ k - dMag u| + 2 ^ dUlpExp u / 256) := by
  have hn := toDouble_ofDouble u (fun h => hfin h.1)
  obtain ⟨D, k, hP, h⟩ := formatLd_strict env henv u hfin hnz
  obtain ⟨h1, h2, h3⟩ := h (.ofDouble u) (by rw [hn]) L junk hj
  have hk : -cachedK u - 9 ≤ k := by
    by_contra hc
    obtain ⟨o, ho⟩ := hsafe
    unfold formatDouble at ho
    rw [h3 (by omega)] at ho
    exact absurd ho (by simp)
  rw [hn] at h1
  have e8 : (2 : ℚ) ^ (dUlpExp u - 8) = 2 ^ dUlpExp u / 256 := by rw [zpow_sub₀ (by norm_num)]; norm_num
  refine ⟨_, D, k, ?_, ⟨prettyNumber (decide (dNeg u)) (decN D) k, hP.WF hnz _, (signed_text _ _ _).symm,
    pretty_value (dNeg u) D k⟩, hP.lt17, fun m j hm => ?_, fun m hm => ?_⟩
  · unfold stringDouble formatDouble
    rw [h1, Res.ok_bind]
    exact readN_prefix _ _
  · obtain ⟨g1, g2⟩ := hm.inside hnz
    exact hP.exponent_ge g1 g2
  · rw [← e8]; exact hP.nearest hnz hk m hm

/-- C71.  Hence the error is at most half a unit of the last printed decimal place, plus 1/256 of a unit in the last place of
the double. -/
theorem C71_half_digit (env : Env) (henv : EnvOk env) (L : Literals) (junk : Bytes) (hj : junk.length = FLOAT_SIZE)
    (u : UInt64) (hfin : DFinite u) (hnz : ¬ DZero u) (h52 : dSig u ≠ 2 ^ 52)
    (hsafe : ∃ o, formatDouble L (strictEnv env) junk u = .ok o) :
    ∃ (t : Bytes) (D : ℕ) (k : ℤ), stringDouble L env junk u = .ok t ∧
      IsJsonNumber t (if dNeg u then -(D * 10 ^ k) else D * 10 ^ k) ∧ D < 10 ^ 17 ∧
      |(D : ℚ) * 10 ^ k - dMag u| ≤ 10 ^ k / 2 + 2 ^ dUlpExp u / 256 := by
  obtain ⟨t, D, k, h1, h2, h3, -, h5⟩ := C71_nearest env henv L junk hj u hfin hnz hsafe
  refine ⟨t, D, k, h1, h2, h3, ?_⟩
  have h10 : (0 : ℚ) < 10 ^ k := by positivity
  have hmag : 0 ≤ dMag u := by unfold dMag; positivity
  set x := dMag u / 10 ^ k with hx
  have hx0 : 0 ≤ x := by positivity
  have hxe : dMag u = x * 10 ^ k := by rw [hx]; field_simp
  have hr : |((⌊x + 1 / 2⌋₊ : ℕ) : ℚ) - x| ≤ 1 / 2 := by
    have g1 := Nat.floor_le (show 0 ≤ x + 1 / 2 by positivity)
    have g2 := Nat.lt_floor_add_one (x + 1 / 2)
    rw [abs_le]; constructor <;> linarith
  refine (h5 ⌊x + 1 / 2⌋₊ (Or.inl h52)).trans ?_
  rw [hxe, ← sub_mul, abs_mul, abs_of_pos h10]
  nlinarith

/-- C71 needs the hypothesis: with zeros behind the `POWER10` table this double prints as 456.39035566757897, although
456.39035566757894 (as many digits) is five times nearer. -/
theorem C71_unsafe_not_nearest : ∃ (u : UInt64) (env : Env), DFinite u ∧ EnvOk env ∧ (∀ i, ∃ w, env.oob i = .ok w ∧ w.toNat < 2 ^ 32) ∧
    (∀ junk, junk.length = FLOAT_SIZE → stringDouble .default env junk u = .ok (ascii "456.39035566757897")) ∧
    5 * |45639035566757894 * 10 ^ (-14 : ℤ) - dMag u| < |45639035566757897 * 10 ^ (-14 : ℤ) - dMag u| := by
  have hf : DFinite 4646736520237392117 := by decide +kernel
  have hz : ¬ DZero 4646736520237392117 := by decide +kernel
  refine ⟨4646736520237392117, ⟨sampleEnv.v, dkDouble, fun _ => .ok 0⟩, hf, ⟨dkDouble_ok, fun _ _ _ => ⟨_, rfl⟩⟩,
    fun _ => ⟨0, rfl, by decide⟩, fun junk hj => ?_, ?_⟩
  · obtain ⟨D, k, -, hs⟩ := stringDouble_finite ⟨sampleEnv.v, dkDouble, fun _ => .ok 0⟩
      ⟨dkDouble_ok, fun _ _ _ => ⟨_, rfl⟩⟩ 4646736520237392117 hf hz
    rw [hs _ rfl .default junk hj, ← hs _ rfl .default (List.replicate 30 0) rfl]
    decide +kernel
  · have h1 : dSig 4646736520237392117 = 8028904045781237 := by decide +kernel
    have h2 : dUlpExp 4646736520237392117 = -44 := by decide +kernel
    unfold dMag
    rw [h1, h2]
    norm_num [abs_of_neg, abs_of_pos]

/-- `0.1` stays inside the tables, and is not a power of two. -/
example : (∃ o, formatDouble .default (strictEnv sampleEnv) (List.replicate 30 0) 0x3FB999999999999A = .ok o) ∧
    DFinite 0x3FB999999999999A ∧ ¬ DZero 0x3FB999999999999A ∧ dSig 0x3FB999999999999A ≠ 2 ^ 52 := by
  have h : stringDouble .default (strictEnv sampleEnv) (List.replicate 30 0) 0x3FB999999999999A = .ok (ascii "0.1") := by
    decide +kernel
  obtain ⟨o, ho, -⟩ := bind_ok h
  exact ⟨⟨o, ho⟩, by decide +kernel, by decide +kernel, by decide +kernel⟩

end Lexi
