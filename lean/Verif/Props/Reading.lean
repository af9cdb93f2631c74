import Verif.Proofs.ReadNear

/-!
# Reading numbers: C55, C58, C59

`lexi<double>` of an RFC 8259 number, for every `long double` format at least as wide as `double`.
-/

namespace Lexi
open Spec Soft Dtoa

theorem dMax_eq : dMax = ((2 ^ 53 - 1 : ℕ) : ℚ) * 2 ^ (971 : ℤ) := by
  unfold dMax
  rw [show (971 : ℤ) = ((971 : ℕ) : ℤ) by norm_num, zpow_natCast]
  norm_num only

theorem dMax_lt : dMax < dOverflow := by
  rw [dMax_eq, dOverflow_eq]
  exact mul_lt_mul_of_pos_right (by norm_num) (zp 971)

theorem mag_nonneg (n : JNumber) : 0 ≤ n.mag := by unfold JNumber.mag; positivity

theorem value_sgn (n : JNumber) : n.value = sgn n.neg n.mag := rfl

theorem dMag_le_dMax (u : UInt64) (h : DFinite u) : dMag u ≤ dMax := by
  rw [dMax_eq]
  have h1 : (dSig u : ℚ) ≤ (2 ^ 53 - 1 : ℕ) := by
    have := DiyFp.dSig_lt u
    exact_mod_cast (show dSig u ≤ 2 ^ 53 - 1 by omega)
  exact mul_le_mul h1 (zpow_mono (ulpExp_bounds u h).2) (zp _).le (by positivity)

/-- Rounding to `double` twice is rounding once. -/
theorem round_nearest (neg : Bool) {q : ℚ} (hm : 0 ≤ q) :
    (q < dOverflow → NearestEven (sgn neg q) (FpFormat.binary64.round neg q).toDouble ∧
      (dNeg (FpFormat.binary64.round neg q).toDouble ↔ neg = true)) ∧
    (dOverflow ≤ q → DInfinite (FpFormat.binary64.round neg q).toDouble ∧
      (dNeg (FpFormat.binary64.round neg q).toDouble ↔ neg = true)) := by
  have hlt := roundRat_lt_iff hm
  have hcast : (((2 ^ FpFormat.binary64.emax : ℕ) : ℚ) ≤ roundRat FpFormat.binary64.p FpFormat.binary64.emin q)
      ↔ dOverflow ≤ q := by
    rw [← not_lt, ← not_lt, not_iff_not, ← hlt]
    show roundRat 53 (-1074) q < ((2 ^ 1024 : ℕ) : ℚ) ↔ _
    rw [Nat.cast_pow]; rfl
  constructor
  · intro h
    have e : (FpFormat.binary64.round neg q) = .fin neg (roundRat 53 (-1074) q) := by
      unfold FpFormat.round
      exact if_neg (fun hc => absurd (hcast.mp hc) (not_le.mpr h))
    rw [e, toDouble_round neg hm h]
    exact ⟨toDouble_nearest neg hm h, (toDouble_value neg hm h).2.1⟩
  · intro h
    have e : (FpFormat.binary64.round neg q) = .inf neg := by
      unfold FpFormat.round
      exact if_pos (hcast.mpr h)
    rw [e]
    cases neg
    · exact ⟨by decide +kernel, by decide +kernel⟩
    · exact ⟨by decide +kernel, by decide +kernel⟩

/-- C55.  Where `long double` is a `double`, `lexi<double>` of a JSON number is the nearest double, ties to
even, with the sign of the text; numbers at or beyond the rounding threshold read as the infinity. -/
theorem C55_nearest (n : JNumber) (hn : n.WF) :
    (n.mag < dOverflow → NearestEven n.value (lexiDouble .binary64 n.text) ∧
      (dNeg (lexiDouble .binary64 n.text) ↔ n.neg = true)) ∧
    (dOverflow ≤ n.mag → DInfinite (lexiDouble .binary64 n.text) ∧
      (dNeg (lexiDouble .binary64 n.text) ↔ n.neg = true)) := by
  have hr : lexiDouble .binary64 n.text = (FpFormat.binary64.round n.neg n.mag).toDouble := by
    unfold lexiDouble extractLongDouble
    rw [strtold_number _ n hn]
  rw [hr, value_sgn]
  exact round_nearest n.neg (mag_nonneg n)

/-- The reading of a JSON number, as a double conversion of a `long double` rounding. -/
theorem lexi_eq (F : FpFormat) (n : JNumber) (hn : n.WF) :
    lexiDouble F n.text = (F.round n.neg n.mag).toDouble := by
  unfold lexiDouble extractLongDouble
  rw [strtold_number _ n hn]

/-- Rounding to the format and then to `double`: either the doubly rounded value or an infinity. -/
theorem read_cases (F : FpFormat) (neg : Bool) {q : ℚ} (hq : 0 ≤ q) :
    (∃ r, F.round neg q = .fin neg r ∧ r = roundRat F.p F.emin q ∧ r < 2 ^ F.emax ∧ r < dOverflow ∧
      DFinite (F.round neg q).toDouble ∧ (dNeg (F.round neg q).toDouble ↔ neg = true) ∧
      dValue (F.round neg q).toDouble = sgn neg (roundRat 53 (-1074) r)) ∨
    ((2 ^ F.emax ≤ roundRat F.p F.emin q ∨ dOverflow ≤ roundRat F.p F.emin q) ∧
      (F.round neg q).toDouble = if neg then 0xFFF0000000000000 else 0x7FF0000000000000) := by
  by_cases h : ((2 ^ F.emax : ℕ) : ℚ) ≤ roundRat F.p F.emin q
  · right
    have e : F.round neg q = .inf neg := by unfold FpFormat.round; exact if_pos h
    refine ⟨Or.inl (by push_cast at h; exact h), by rw [e]; rfl⟩
  · have e : F.round neg q = .fin neg (roundRat F.p F.emin q) := by unfold FpFormat.round; exact if_neg h
    push_cast at h
    by_cases ho : roundRat F.p F.emin q < dOverflow
    · left
      have := toDouble_value neg (roundRat_nonneg (p := F.p) (emin := F.emin) hq) ho
      rw [e]
      exact ⟨_, rfl, rfl, not_le.mp h, ho, this.1, this.2.1, this.2.2⟩
    · right
      push Not at ho
      refine ⟨Or.inr ho, ?_⟩
      rw [e]
      exact toDouble_overflow neg ho

theorem inf_facts (neg : Bool) :
    DInfinite (if neg then 0xFFF0000000000000 else 0x7FF0000000000000) ∧
      (dNeg (if neg then 0xFFF0000000000000 else 0x7FF0000000000000) ↔ neg = true) := by
  cases neg
  · exact ⟨by decide +kernel, by decide +kernel⟩
  · exact ⟨by decide +kernel, by decide +kernel⟩

/-- The rounding of a number up to the largest double stays there. -/
theorem round_le_dMax (F : FpFormat) (hp : 53 ≤ F.p) (he : F.emin ≤ -1074) {q : ℚ} (hq : 0 ≤ q) (h : q ≤ dMax) :
    roundRat F.p F.emin q ≤ dMax := by
  rcases hq.lt_or_eq with hq | rfl
  · rw [dMax_eq] at h ⊢
    refine roundRat_le hq (2 ^ 53 - 1) 971 (by omega) ?_ h
    calc 2 ^ 53 - 1 < 2 ^ 53 := by norm_num
      _ ≤ 2 ^ F.p := Nat.pow_le_pow_right (by norm_num) hp
  · rw [roundRat_zero]; unfold dMax; norm_num

/-- Rounding twice never crosses a double. -/
theorem double_round_between (F : FpFormat) (hp : 53 ≤ F.p) (he : F.emin ≤ -1074) {q : ℚ} (hq : 0 ≤ q)
    (y : UInt64) (hy : DFinite y) :
    (q ≤ dMag y → roundRat 53 (-1074) (roundRat F.p F.emin q) ≤ dMag y) ∧
      (dMag y ≤ q → dMag y ≤ roundRat 53 (-1074) (roundRat F.p F.emin q)) := by
  have hb := (ulpExp_bounds y hy).1
  have hs := DiyFp.dSig_lt y
  have hsF : dSig y < 2 ^ F.p := lt_of_lt_of_le hs (Nat.pow_le_pow_right (by norm_num) hp)
  have hm := dMag_nonneg y
  constructor
  · intro h
    rcases hq.lt_or_eq with hq | rfl
    swap
    · rw [roundRat_zero, roundRat_zero]; exact hm
    have h1 := roundRat_le (p := F.p) (emin := F.emin) hq (dSig y) (dUlpExp y) (by omega) hsF h
    rcases (roundRat_nonneg (p := F.p) (emin := F.emin) hq.le).lt_or_eq with hr | hr
    · exact roundRat_le hr (dSig y) (dUlpExp y) hb hs h1
    · rw [← hr, roundRat_zero]; exact hm
  · intro h
    rcases hq.lt_or_eq with hq | rfl
    swap
    · rw [roundRat_zero, roundRat_zero]; exact h
    have h1 := le_roundRat (p := F.p) (emin := F.emin) (by omega) hq (dSig y) (dUlpExp y) (by omega) hsF h
    rcases (roundRat_nonneg (p := F.p) (emin := F.emin) hq.le).lt_or_eq with hr | hr
    · exact le_roundRat (by norm_num) hr (dSig y) (dUlpExp y) hb hs h1
    · rw [← hr, roundRat_zero]; rw [← hr] at h1; exact h1

/-- Rounding to the format and then again is faithful. -/
theorem round_faithful (F : FpFormat) (hp : 53 ≤ F.p) (he : F.emin ≤ -1074) (hmax : 1024 ≤ F.emax)
    (neg : Bool) {q : ℚ} (hm : 0 ≤ q) :
    (q ≤ dMax → Faithful (sgn neg q) ((F.round neg q).toDouble)) ∧
    (dMax < q → DInfinite ((F.round neg q).toDouble) ∨
      DFinite ((F.round neg q).toDouble) ∧ |dValue ((F.round neg q).toDouble)| = dMax) ∧
    (dNeg ((F.round neg q).toDouble) ↔ neg = true) := by
  have hbig : dMax < 2 ^ F.emax := by
    calc dMax < 2 ^ (1024 : ℤ) := by
          rw [dMax_eq, show (1024 : ℤ) = (53 : ℕ) + 971 by norm_num, zpow_add₀ (by norm_num), zpow_natCast]
          exact mul_lt_mul_of_pos_right (by norm_num) (zp 971)
      _ ≤ 2 ^ F.emax := by
          rw [show (1024 : ℤ) = ((1024 : ℕ) : ℤ) by norm_num, zpow_natCast]
          exact pow_le_pow_right₀ (by norm_num) hmax
  rcases read_cases F neg hm with ⟨r, -, hr, -, hro, hfin, hneg, hval⟩ | ⟨hbigr, hinf⟩
  · refine ⟨fun h => ⟨hfin, fun y hy => ?_⟩, fun h => Or.inr ⟨hfin, ?_⟩, hneg⟩
    · rw [hval, hr]
      obtain ⟨b1, b2⟩ := double_round_between F hp he hm y hy
      have hnn : 0 ≤ roundRat 53 (-1074) (roundRat F.p F.emin q) := roundRat_nonneg (roundRat_nonneg hm)
      have hyn := dMag_nonneg y
      unfold dValue sgn
      cases neg <;> by_cases hy' : dNeg y <;>
        simp only [hy', if_true, if_false, Bool.false_eq_true]
      · constructor
        · intro h1
          have : q = 0 := by linarith
          have h2 := b1 (by linarith)
          rw [this, roundRat_zero, roundRat_zero]
          linarith
        · intro _; linarith
      · exact ⟨b1, b2⟩
      · exact ⟨fun h1 => neg_le_neg (b2 (neg_le_neg_iff.mp h1)), fun h1 => neg_le_neg (b1 (neg_le_neg_iff.mp h1))⟩
      · constructor
        · intro _; linarith
        · intro h1
          have : q = 0 := by linarith
          rw [this, roundRat_zero, roundRat_zero]
          linarith
    · -- beyond the largest double but finite
      obtain ⟨u, hu1, -, hu3, hu4⟩ := exists_double' False (2 ^ 53 - 1) 971 (by norm_num) (by norm_num) (by norm_num)
        (fun _ => by norm_num)
      have hum : dMag u = dMax := by unfold dMag; rw [hu3, hu4, dMax_eq]
      have h1 := (double_round_between F hp he hm u hu1).2 (by rw [hum]; exact h.le)
      have h2 : |dValue (F.round neg q).toDouble| ≤ dMax := by
        have := dMag_le_dMax _ hfin
        unfold dValue
        split
        · rw [abs_neg, abs_of_nonneg (dMag_nonneg _)]; exact this
        · rw [abs_of_nonneg (dMag_nonneg _)]; exact this
      refine le_antisymm h2 ?_
      rw [hval, hr]
      have h3 : |sgn neg (roundRat 53 (-1074) (roundRat F.p F.emin q))| =
          roundRat 53 (-1074) (roundRat F.p F.emin q) := by
        have := roundRat_nonneg (p := 53) (emin := -1074) (roundRat_nonneg (p := F.p) (emin := F.emin) hm)
        unfold sgn
        split
        · rw [abs_neg, abs_of_nonneg this]
        · rw [abs_of_nonneg this]
      rw [h3]
      linarith
  · obtain ⟨i1, i2⟩ := inf_facts neg
    rw [hinf]
    refine ⟨fun h => ?_, fun _ => Or.inl i1, i2⟩
    have := round_le_dMax F hp he hm h
    have := dMax_lt
    rcases hbigr with h1 | h1 <;> linarith

/-- C58.  On every platform whose `long double` contains the doubles, `lexi<double>` of a JSON number is one of
the two doubles next to it (the number itself when it is a double), with the sign of the text; a number beyond
the largest double reads as the largest double or the infinity. -/
theorem C58_faithful (F : FpFormat) (hp : 53 ≤ F.p) (he : F.emin ≤ -1074) (hmax : 1024 ≤ F.emax)
    (n : JNumber) (hn : n.WF) :
    (n.mag ≤ dMax → Faithful n.value (lexiDouble F n.text)) ∧
    (dMax < n.mag → DInfinite (lexiDouble F n.text) ∨
      DFinite (lexiDouble F n.text) ∧ |dValue (lexiDouble F n.text)| = dMax) ∧
    (dNeg (lexiDouble F n.text) ↔ n.neg = true) := by
  rw [lexi_eq F n hn, value_sgn]
  exact round_faithful F hp he hmax n.neg (mag_nonneg n)

/-- Rounding to the format and then again is monotone. -/
theorem round_monotone (F : FpFormat) (hp : 53 ≤ F.p) (mn nn : Bool) {x y : ℚ} (m0 : 0 ≤ x) (n0 : 0 ≤ y)
    (hle : sgn mn x ≤ sgn nn y) : DLe (F.round mn x).toDouble (F.round nn y).toDouble := by
  have notNaN_fin : ∀ {u : UInt64}, DFinite u → ¬ DNaN u := fun h hn => h hn.1
  have notNaN_inf : ∀ {u : UInt64}, DInfinite u → ¬ DNaN u := fun h hn => hn.2 h.2
  have mono : ∀ {x y : ℚ}, 0 ≤ x → x ≤ y → roundRat F.p F.emin x ≤ roundRat F.p F.emin y :=
    fun h1 h2 => roundRat_mono (by omega) h1 h2
  rcases read_cases F mn m0 with ⟨r, -, hr, hrl, hro, mfin, mneg, mval⟩ | ⟨mbig, minf⟩ <;>
    rcases read_cases F nn n0 with ⟨s, -, hs, hsl, hso, nfin, nneg, nval⟩ | ⟨nbig, ninf⟩
  · refine .fin mfin nfin ?_
    have r0 : 0 ≤ r := hr ▸ roundRat_nonneg m0
    have s0 : 0 ≤ s := hs ▸ roundRat_nonneg n0
    have rr0 := roundRat_nonneg (p := 53) (emin := -1074) r0
    have ss0 := roundRat_nonneg (p := 53) (emin := -1074) s0
    rw [mval, nval]
    unfold sgn at hle ⊢
    cases mn <;> cases nn <;> simp only [ if_true, if_false, Bool.false_eq_true] at hle ⊢
    · exact roundRat_mono (by norm_num) r0 (by rw [hr, hs]; exact mono m0 hle)
    · have h1 : x = 0 := by linarith
      have h2 : y = 0 := by linarith
      rw [hr, hs, h1, h2, roundRat_zero, roundRat_zero]; norm_num
    · linarith
    · exact neg_le_neg (roundRat_mono (by norm_num) s0 (by rw [hr, hs]; exact mono n0 (neg_le_neg_iff.mp hle)))
  · obtain ⟨i1, i2⟩ := inf_facts nn
    rw [ninf]
    by_cases hnn : nn = true
    · exfalso
      unfold sgn at hle
      rw [if_pos hnn] at hle
      have h1 : y ≤ x := by split at hle <;> linarith
      have := mono n0 h1
      rcases nbig with h | h <;> rw [hr] at hrl hro <;> linarith
    · exact .posInf (notNaN_fin mfin) i1 (fun h => hnn (i2.mp h))
  · obtain ⟨i1, i2⟩ := inf_facts mn
    rw [minf]
    by_cases hmn : mn = true
    · exact .negInf i1 (i2.mpr hmn) (notNaN_fin nfin)
    · exfalso
      unfold sgn at hle
      rw [if_neg hmn] at hle
      have h1 : x ≤ y := by split at hle <;> linarith
      have := mono m0 h1
      rcases mbig with h | h <;> rw [hs] at hsl hso <;> linarith
  · obtain ⟨i1, i2⟩ := inf_facts mn
    obtain ⟨j1, j2⟩ := inf_facts nn
    rw [minf, ninf]
    by_cases hmn : mn = true
    · exact .negInf i1 (i2.mpr hmn) (notNaN_inf j1)
    · by_cases hnn : nn = true
      · exfalso
        unfold sgn at hle
        rw [if_neg hmn, if_pos hnn] at hle
        have h1 : x = 0 := by linarith
        rw [h1, roundRat_zero] at mbig
        have h2 : (0 : ℚ) < 2 ^ F.emax := by positivity
        have h3 : (0 : ℚ) < dOverflow := by unfold dOverflow; norm_num
        rcases mbig with h | h <;> linarith
      · exact .posInf (notNaN_inf i1) j1 (fun h => hnn (j2.mp h))

/-- C59.  Reading is monotone on every platform: a JSON number that is not larger does not read as a larger
double. -/
theorem C59_monotone (F : FpFormat) (hp : 53 ≤ F.p) (m n : JNumber) (hm : m.WF) (hn : n.WF)
    (hle : m.value ≤ n.value) : DLe (lexiDouble F m.text) (lexiDouble F n.text) := by
  rw [lexi_eq F m hm, lexi_eq F n hn]
  exact round_monotone F hp m.neg n.neg (mag_nonneg m) (mag_nonneg n) hle

/-! ### Inhabited hypotheses -/

/-- `-1.25e-3` as a parse tree. -/
def sampleNumber : JNumber := ⟨true, ascii "1", some (ascii "25"), some ⟨101, ascii "-", ascii "3"⟩⟩

theorem sampleNumber_wf : sampleNumber.WF := by
  refine ⟨by decide +kernel, by decide +kernel, by decide +kernel, ?_, ?_⟩
  · intro f h
    have : f = ascii "25" := by simpa [sampleNumber] using h.symm
    subst this; decide +kernel
  · intro e h
    have : e = ⟨101, ascii "-", ascii "3"⟩ := by simpa [sampleNumber] using h.symm
    subst this; unfold JExp.WF; decide +kernel

example : sampleNumber.text = ascii "-1.25e-3" := by decide +kernel
example : lexiDouble .binary64 sampleNumber.text = 0xBF547AE147AE147B := by decide +kernel
example : lexiDouble .x87 sampleNumber.text = 0xBF547AE147AE147B := by decide +kernel
/-- A tie: `2^53 + 1` is half-way between two doubles and reads as the even one. -/
example : lexiDouble .binary64 (ascii "9007199254740993") = 0x4340000000000000 := by decide +kernel
/-- Just below and at the overflow threshold. -/
example : lexiDouble .binary64 (ascii "1.7976931348623158e308") = 0x7FEFFFFFFFFFFFFF ∧
    lexiDouble .binary64 (ascii "1.7976931348623159e308") = 0x7FF0000000000000 := by decide +kernel

end Lexi
