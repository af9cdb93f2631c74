import Verif.Proofs.FloatText
import Verif.Proofs.Encode
import Verif.Proofs.Strtold
import Verif.Proofs.Dk
import Verif.Props.Scalar

/-! # FormatFloat and ExtractFloat: the facts behind the properties -/

namespace Lexi
open Spec Soft Dtoa DiyFp

/-! ## Neighbouring doubles -/

/-- Half of the smaller of the two gaps assumed below a double. -/
def lowGap (u : UInt64) : ℚ := if dSig u = 2 ^ 52 then 2 ^ (dUlpExp u - 2) else 2 ^ (dUlpExp u - 1)

theorem highB_eq (u : UInt64) : highB u = dMag u + 2 ^ (dUlpExp u - 1) := by
  unfold highB dMag
  rw [zpow_sub_one₀ (by norm_num)]
  push_cast
  ring

theorem lowB_eq (u : UInt64) (hnz : ¬ DZero u) : lowB u = dMag u - lowGap u := by
  have := dSig_pos hnz
  unfold lowB dMag lowGap
  split
  · rw [Nat.cast_sub (by omega), zpow_sub₀ (by norm_num)]
    push_cast
    ring
  · rw [Nat.cast_sub (by omega), zpow_sub_one₀ (by norm_num)]
    push_cast
    ring

theorem lowGap_pos (u : UInt64) : 0 < lowGap u := by unfold lowGap; split <;> positivity

theorem lowGap_le (u : UInt64) : lowGap u ≤ 2 ^ (dUlpExp u - 1) := by
  unfold lowGap
  split
  · exact zpow_mono (by omega)
  · exact le_refl _

theorem mul_zpow_split (a : ℕ) (c e : ℤ) (h : e ≤ c) : (a : ℚ) * 2 ^ c = ((a * 2 ^ (c - e).toNat : ℕ) : ℚ) * 2 ^ e := by
  have : c = ((c - e).toNat : ℤ) + e := by omega
  conv_lhs => rw [this]
  rw [zpow_add₀ (by norm_num), zpow_natCast]
  push_cast
  ring

/-- A smaller exponent bounds the magnitude. -/
theorem mag_small {y u : UInt64} (h : dUlpExp y < dUlpExp u) :
    dMag y ≤ 2 ^ 52 * 2 ^ dUlpExp u - 2 ^ (dUlpExp u - 1) := by
  have hs := dSig_lt y
  have hu : (2 : ℚ) ^ dUlpExp u = 2 ^ (dUlpExp u - 1) * 2 := by
    rw [← zpow_add_one₀ (by norm_num)]; congr 1; ring
  unfold dMag
  have h1 : (dSig y : ℚ) ≤ 2 ^ 53 - 1 := by
    have : dSig y ≤ 2 ^ 53 - 1 := by omega
    have h2 : ((dSig y : ℕ) : ℚ) ≤ ((2 ^ 53 - 1 : ℕ) : ℚ) := by exact_mod_cast this
    norm_num at h2 ⊢
    exact h2
  have h2 : (2 : ℚ) ^ dUlpExp y ≤ 2 ^ (dUlpExp u - 1) := zpow_mono (by omega)
  have h3 : (dSig y : ℚ) * 2 ^ dUlpExp y ≤ (2 ^ 53 - 1) * 2 ^ (dUlpExp u - 1) :=
    mul_le_mul h1 h2 (by positivity) (by norm_num)
  rw [hu]
  have e : (2 : ℚ) ^ 52 * (2 ^ (dUlpExp u - 1) * 2) - 2 ^ (dUlpExp u - 1) = (2 ^ 53 - 1) * 2 ^ (dUlpExp u - 1) := by ring
  rw [e]; exact h3

theorem mag_gap_above {u y : UInt64} (hy : DFinite y) (h : dMag u < dMag y) :
    dMag u + 2 ^ dUlpExp u ≤ dMag y := by
  have hz := zp (dUlpExp u)
  rcases le_or_gt (dUlpExp u) (dUlpExp y) with hle | hlt
  · unfold dMag at h ⊢
    rw [mul_zpow_split (dSig y) _ _ hle] at h ⊢
    have h1 := lt_of_mul_lt_mul_right h hz.le
    have h2 : dSig u + 1 ≤ dSig y * 2 ^ (dUlpExp y - dUlpExp u).toNat := by
      have : dSig u < dSig y * 2 ^ (dUlpExp y - dUlpExp u).toNat := by exact_mod_cast h1
      omega
    have h3 : ((dSig u : ℚ) + 1) ≤ ((dSig y * 2 ^ (dUlpExp y - dUlpExp u).toNat : ℕ) : ℚ) := by exact_mod_cast h2
    have h4 := mul_le_mul_of_nonneg_right h3 hz.le
    linarith
  · exfalso
    have hy1 := (ulpExp_bounds y hy).1
    have hn := uExp_normal u (by omega)
    have hs := mag_small hlt
    have h1 : (2 : ℚ) ^ 52 ≤ dSig u := by exact_mod_cast hn
    have h2 := mul_le_mul_of_nonneg_right h1 hz.le
    have h3 : (0 : ℚ) < 2 ^ (dUlpExp u - 1) := zp _
    unfold dMag at h hs
    linarith

theorem mag_gap_below {u y : UInt64} (hy : DFinite y) (h : dMag y < dMag u) :
    dMag y ≤ dMag u - 2 * lowGap u := by
  have hz := zp (dUlpExp u)
  have hu : (2 : ℚ) ^ dUlpExp u = 2 ^ (dUlpExp u - 1) * 2 := by
    rw [← zpow_add_one₀ (by norm_num)]; congr 1; ring
  have hgap := lowGap_le u
  rcases le_or_gt (dUlpExp u) (dUlpExp y) with hle | hlt
  · have : dMag y ≤ dMag u - 2 ^ dUlpExp u := by
      unfold dMag at h ⊢
      rw [mul_zpow_split (dSig y) _ _ hle] at h ⊢
      have h1 := lt_of_mul_lt_mul_right h hz.le
      have h2 : dSig y * 2 ^ (dUlpExp y - dUlpExp u).toNat + 1 ≤ dSig u := by
        have : dSig y * 2 ^ (dUlpExp y - dUlpExp u).toNat < dSig u := by exact_mod_cast h1
        omega
      have h3 : ((dSig y * 2 ^ (dUlpExp y - dUlpExp u).toNat : ℕ) : ℚ) + 1 ≤ (dSig u : ℚ) := by exact_mod_cast h2
      have h4 := mul_le_mul_of_nonneg_right h3 hz.le
      linarith
    linarith
  · have hy1 := (ulpExp_bounds y hy).1
    have hn := uExp_normal u (by omega)
    have hs := mag_small hlt
    have h3 : (0 : ℚ) < 2 ^ (dUlpExp u - 1) := zp _
    by_cases h52 : dSig u = 2 ^ 52
    · have hg : lowGap u = 2 ^ (dUlpExp u - 1) / 2 := by
        unfold lowGap
        rw [if_pos h52, show dUlpExp u - 2 = dUlpExp u - 1 - 1 by ring, zpow_sub_one₀ (by norm_num)]
        ring
      rw [hg]
      unfold dMag at hs ⊢
      rw [h52]
      push_cast
      linarith
    · have h1 : (2 : ℚ) ^ 52 + 1 ≤ dSig u := by
        have : 2 ^ 52 + 1 ≤ dSig u := by omega
        exact_mod_cast this
      have h2 := mul_le_mul_of_nonneg_right h1 hz.le
      unfold dMag at hs ⊢
      linarith

/-- Every other finite double is at least the gap away. -/
theorem value_gap {u y : UInt64} (hnz : ¬ DZero u) (hpos : ¬ dNeg u) (hy : DFinite y)
    (hne : dValue y ≠ dMag u) : dMag u + 2 ^ dUlpExp u ≤ dValue y ∨ dValue y ≤ dMag u - 2 * lowGap u := by
  have hy0 : 0 ≤ dMag y := by unfold dMag; positivity
  unfold dValue at hne ⊢
  split at hne <;> rename_i hn
  · rw [if_pos hn]
    right
    have h1 : (1 : ℚ) ≤ dSig u := by exact_mod_cast dSig_pos hnz
    have h2 := mul_le_mul_of_nonneg_right h1 (zp (dUlpExp u)).le
    have h3 := lowGap_le u
    have hu : (2 : ℚ) ^ dUlpExp u = 2 ^ (dUlpExp u - 1) * 2 := by
      rw [← zpow_add_one₀ (by norm_num)]; congr 1; ring
    have h4 : (1 : ℚ) * 2 ^ dUlpExp u ≤ dMag u := h2
    linarith
  · rw [if_neg hn]
    rcases lt_or_gt_of_ne hne with h | h
    · exact Or.inr (mag_gap_below hy h)
    · exact Or.inl (mag_gap_above hy h)

theorem nearest_pos {u y : UInt64} (hnz : ¬ DZero u) (hpos : ¬ dNeg u) (hy : DFinite y)
    (hne : dValue y ≠ dMag u) {V : ℚ} (h1 : lowB u < V) (h2 : V < highB u) :
    |V - dMag u| < |V - dValue y| := by
  rw [lowB_eq u hnz] at h1
  rw [highB_eq] at h2
  have hu : (2 : ℚ) ^ dUlpExp u = 2 ^ (dUlpExp u - 1) * 2 := by
    rw [← zpow_add_one₀ (by norm_num)]; congr 1; ring
  have hg := lowGap_pos u
  have hg2 := lowGap_le u
  rcases value_gap hnz hpos hy hne with h | h
  · rw [abs_sub_comm V (dValue y), abs_of_pos (show 0 < dValue y - V by linarith), abs_lt]
    constructor <;> linarith
  · rw [abs_of_pos (show 0 < V - dValue y by linarith), abs_lt]
    constructor <;> linarith

/-! ## The rounding interval -/

theorem Dtoa.Printed.interval {u : UInt64} {D : ℕ} {k : ℤ} (hnz : ¬ DZero u) (h : Printed u D k) :
    InInterval 53 (-1074) (dSig u) (dUlpExp u) ((D : ℚ) * 10 ^ k) := by
  have h1 := h.lower
  have h2 := h.upper
  rw [lowB_eq u hnz] at h1
  rw [highB_eq] at h2
  have hu : (2 : ℚ) ^ dUlpExp u = 2 ^ (dUlpExp u - 1) * 2 := by
    rw [← zpow_add_one₀ (by norm_num)]; congr 1; ring
  have hg2 := lowGap_le u
  unfold dMag at h1 h2
  refine ⟨Or.inl ?_, Or.inl ?_, fun h52 _ => ?_⟩
  · rw [hu] at h2 ⊢; linarith
  · rw [hu] at h1 ⊢; linarith
  · have hg : lowGap u = 2 ^ dUlpExp u / 4 := by
      unfold lowGap
      rw [if_pos h52, zpow_sub₀ (by norm_num)]
      norm_num
    rw [hg] at h1
    linarith

theorem decN_pos_head {D : ℕ} (h : 0 < D) : (decN D).head? ≠ some 48 := decN_head D (by omega)

/-! ## FormatFloat -/

/-- Text of a numeral with sign. -/
def signed (neg : Prop) [Decidable neg] (t : Bytes) : Bytes := (if neg then [45] else []) ++ t

theorem at_zero (M ds : Bytes) : (at_ M 0 (ds ++ [0])).mem = ds ++ 0 :: M.drop (ds.length + 1) := by
  simp [at_]

/-- `FormatFloat::format` on anything that narrows to a finite non-zero double: the digits and exponent
depend on the magnitude only, the buffer is the text, a NUL and the untouched rest. -/
theorem formatLd_finite' (env : Env) (henv : EnvOk env) (u : UInt64) (hfin : DFinite u) (hnz : ¬ DZero u) :
    ∃ D k, Printed u D k ∧
      (∀ M base, base + 17 ≤ M.length → grisu2 env (dAbs u) ⟨M, base⟩ = .ok (at_ M base (decN D), k)) ∧
      ∀ x : LVal, dAbs x.toDouble = dAbs u → ∀ L junk, junk.length = FLOAT_SIZE →
      formatLd L env junk x =
        .ok ⟨signed (dNeg x.toDouble) (prettyText (decN D) k) ++
              0 :: junk.drop ((signed (dNeg x.toDouble) (prettyText (decN D) k)).length + 1), 0,
            (signed (dNeg x.toDouble) (prettyText (decN D) k)).length⟩ := by
  obtain ⟨D, k, hP, hd1, hd2, hg⟩ := dtoa_spec env henv (dAbs u) (finite_abs.mpr hfin) (fun h => hnz (zero_abs.mp h))
    (dAbs_not_neg u)
  have hP' : Printed u D k := printed_abs.mp hP
  refine ⟨D, k, hP', hg, fun x hx L junk hj => ?_⟩
  have hxf : Ieee.isFinite x.toDouble = true := by
    rw [isFinite_iff, ← finite_abs, hx, finite_abs]; exact hfin
  unfold formatLd
  rw [hxf]
  simp only [Bool.not_true, Bool.false_eq_true, if_false]
  unfold FLOAT_SIZE at hj
  by_cases hn : dNeg x.toDouble
  · have e : x.toDouble = Ieee.neg (dAbs u) := by rw [← hx, dAbs_of_neg hn, Dtoa.neg_neg]
    have := hd2 junk 0 (by omega)
    rw [← e] at this
    rw [this]
    have hs : signed (dNeg x.toDouble) (prettyText (decN D) k) = 45 :: prettyText (decN D) k := by
      simp [signed, hn]
    simp only [Res.ok_bind, Res.pure_eq, hs, at_zero, Nat.zero_add]
  · have e : x.toDouble = dAbs u := by rw [← hx, dAbs_of_not_neg hn]
    have := hd1 junk 0 (by omega)
    rw [← e] at this
    rw [this]
    have hs : signed (dNeg x.toDouble) (prettyText (decN D) k) = prettyText (decN D) k := by
      simp [signed, hn]
    simp only [Res.ok_bind, Res.pure_eq, hs, at_zero, Nat.zero_add]

theorem formatLd_finite (env : Env) (henv : EnvOk env) (u : UInt64) (hfin : DFinite u) (hnz : ¬ DZero u) :
    ∃ D k, Printed u D k ∧ ∀ x : LVal, dAbs x.toDouble = dAbs u → ∀ L junk, junk.length = FLOAT_SIZE →
      formatLd L env junk x =
        .ok ⟨signed (dNeg x.toDouble) (prettyText (decN D) k) ++
              0 :: junk.drop ((signed (dNeg x.toDouble) (prettyText (decN D) k)).length + 1), 0,
            (signed (dNeg x.toDouble) (prettyText (decN D) k)).length⟩ := by
  obtain ⟨D, k, hP, -, h⟩ := formatLd_finite' env henv u hfin hnz
  exact ⟨D, k, hP, h⟩

theorem formatLd_zero (env : Env) (x : LVal) (hz : DZero x.toDouble) (L : Literals) (junk : Bytes)
    (hj : junk.length = FLOAT_SIZE) :
    formatLd L env junk x = .ok ⟨[48, 46, 48] ++ 0 :: junk.drop 4, 0, 3⟩ := by
  unfold FLOAT_SIZE at hj
  have hxf : Ieee.isFinite x.toDouble = true := by
    rw [isFinite_iff]; unfold DFinite; rw [hz.1]; decide
  unfold formatLd
  rw [hxf]
  simp only [Bool.not_true, Bool.false_eq_true, if_false]
  rw [dtoa_zero env _ hz junk 0 (by omega)]
  simp only [Res.ok_bind, Res.pure_eq, at_zero]
  rfl

theorem formatLd_nan (env : Env) (x : LVal) (h : DNaN x.toDouble) (L : Literals) (junk : Bytes) :
    formatLd L env junk x = (strncpyLit junk L.nan >>= fun b => .ok ⟨b, 0, L.nan.length⟩) := by
  have h1 : Ieee.isFinite x.toDouble = false := by
    rw [Bool.eq_false_iff]; intro h'; exact (isFinite_iff _).mp h' h.1
  have h2 : Ieee.isNan x.toDouble = true := (isNan_iff _).mpr h
  unfold formatLd
  rw [h1, h2]
  rfl

theorem formatLd_inf (env : Env) (x : LVal) (h : DInfinite x.toDouble) (L : Literals) (junk : Bytes) :
    formatLd L env junk x =
      (strncpyLit junk (if dNeg x.toDouble then L.negInfinity else L.infinity) >>= fun b =>
        .ok ⟨b, 0, (if dNeg x.toDouble then L.negInfinity else L.infinity).length⟩) := by
  have h1 : Ieee.isFinite x.toDouble = false := by
    rw [Bool.eq_false_iff]; intro h'; exact (isFinite_iff _).mp h' h.1
  have h2 : Ieee.isNan x.toDouble = false := by
    rw [Bool.eq_false_iff]; intro h'; exact ((isNan_iff _).mp h').2 h.2
  unfold formatLd
  rw [h1, h2]
  by_cases hn : dNeg x.toDouble
  · have h3 : Ieee.isInfinity x.toDouble = false := by
      rw [Bool.eq_false_iff]; intro h'; exact ((isInfinity_iff _).mp h').2 hn
    rw [h3, if_pos hn]
    rfl
  · have h3 : Ieee.isInfinity x.toDouble = true := (isInfinity_iff _).mpr ⟨h, hn⟩
    rw [h3, if_neg hn]
    rfl

/-- The double a `long double` argument narrows to, for an argument that came from a double. -/
theorem ofDouble_class (u : UInt64) : (DNaN u → DNaN (LVal.ofDouble u).toDouble) ∧
    (¬ DNaN u → (LVal.ofDouble u).toDouble = u) := by
  refine ⟨fun h => ?_, toDouble_ofDouble u⟩
  rw [ofDouble_nan u h]
  decide +kernel

/-- The text of a finite double: existence, digits, and independence of everything but the bits. -/
theorem stringDouble_finite (env : Env) (henv : EnvOk env) (u : UInt64) (hfin : DFinite u) (hnz : ¬ DZero u) :
    ∃ D k, Printed u D k ∧ ∀ s, dAbs s = dAbs u → ∀ L junk, junk.length = FLOAT_SIZE →
      stringDouble L env junk s = .ok (signed (dNeg s) (prettyText (decN D) k)) := by
  obtain ⟨D, k, hP, h⟩ := formatLd_finite env henv u hfin hnz
  refine ⟨D, k, hP, fun s hs L junk hj => ?_⟩
  have hsn : ¬ DNaN s := by
    intro h'
    have : DFinite s := by rw [← finite_abs, hs, finite_abs]; exact hfin
    exact this h'.1
  have e := toDouble_ofDouble s hsn
  have := h (LVal.ofDouble s) (by rw [e]; exact hs) L junk hj
  rw [e] at this
  unfold stringDouble formatDouble
  rw [this]
  simp only [Res.ok_bind, FloatObj.string, FloatObj.data, FloatObj.c_str, FloatObj.size, Nat.sub_zero]
  exact readN_prefix _ _

theorem stringDouble_zero (env : Env) (u : UInt64) (hz : DZero u) (L : Literals) (junk : Bytes)
    (hj : junk.length = FLOAT_SIZE) : stringDouble L env junk u = .ok [48, 46, 48] := by
  have hsn : ¬ DNaN u := by
    intro h'; have h1 := h'.1; rw [hz.1] at h1; exact absurd h1 (by decide)
  have e := toDouble_ofDouble u hsn
  unfold stringDouble formatDouble
  rw [formatLd_zero env _ (by rw [e]; exact hz) L junk hj]
  simp only [Res.ok_bind, FloatObj.string, FloatObj.data, FloatObj.c_str, FloatObj.size, Nat.sub_zero]
  exact readN_prefix [48, 46, 48] _

/-! ## The parse tree of the text -/

theorem signed_text (neg : Prop) [Decidable neg] (ds : Bytes) (k : ℤ) :
    signed neg (prettyText ds k) = (prettyNumber (decide neg) ds k).text := by
  rw [prettyNumber_text]; simp [signed]

theorem Dtoa.Printed.WF {u : UInt64} {D : ℕ} {k : ℤ} (hnz : ¬ DZero u) (h : Printed u D k) (neg : Bool) :
    (prettyNumber neg (decN D) k).WF :=
  prettyNumber_WF neg _ k (decN_ne_nil _) (decN_digits _) (decN_pos_head (h.pos hnz))

theorem pretty_mag (neg : Bool) (D : ℕ) (k : ℤ) : (prettyNumber neg (decN D) k).mag = (D : ℚ) * 10 ^ k := by
  rw [prettyNumber_mag _ _ _ (decN_ne_nil _), digitsValue_decN]

theorem pretty_value (neg : Prop) [Decidable neg] (D : ℕ) (k : ℤ) :
    (prettyNumber (decide neg) (decN D) k).value = if neg then -((D : ℚ) * 10 ^ k) else (D : ℚ) * 10 ^ k := by
  unfold JNumber.value
  rw [prettyNumber_neg, pretty_mag]
  by_cases h : neg <;> simp [h]

/-- `0.0`. -/
def zeroNumber : JNumber := ⟨false, [48], some [48], none⟩

theorem zeroNumber_WF : zeroNumber.WF :=
  ⟨by decide, by decide, by decide, by rintro f h; cases h; exact ⟨by decide, by decide⟩, by rintro e h; cases h⟩

theorem zeroNumber_value : zeroNumber.value = 0 := by
  have h1 : zeroNumber.value = (digitsValue ([48] ++ [48]) : ℚ) * 10 ^ ((0 : ℤ) - ([48] : List UInt8).length) := rfl
  have h2 : digitsValue ([48] ++ [48]) = 0 := by decide
  rw [h1, h2]; simp

end Lexi
