import Verif.Props.Reading
import Verif.Proofs.NearSingle

/-!
# Reading numbers as `float`: C62

`lexi<float>` of an RFC 8259 number, for every `long double` format at least as wide as `float`.  The text is rounded
twice (to `long double`, then to `float`), so the result is faithful and monotone, but not always the nearest.
-/

namespace Lexi
open Spec Soft Dtoa

theorem fMax_eq : fMax = ((2 ^ 24 - 1 : ℕ) : ℚ) * 2 ^ (104 : ℤ) := by
  unfold fMax
  rw [show (104 : ℤ) = ((104 : ℕ) : ℤ) by norm_num, zpow_natCast]
  norm_num only

theorem fMax_lt : fMax < fOverflow := by
  rw [fMax_eq, fOverflow_eq]
  exact mul_lt_mul_of_pos_right (by norm_num) (zp 104)

theorem fMag_le_fMax (u : UInt32) (h : FFinite u) : fMag u ≤ fMax := by
  rw [fMax_eq]
  have h1 : (fSig u : ℚ) ≤ (2 ^ 24 - 1 : ℕ) := by
    have := fSig_lt u
    exact_mod_cast (show fSig u ≤ 2 ^ 24 - 1 by omega)
  exact mul_le_mul h1 (zpow_mono (fUlpExp_bounds u h).2) (zp _).le (by positivity)

/-- The reading of a JSON number, as a conversion of a `long double` rounding. -/
theorem flexi_eq (F : FpFormat) (n : JNumber) (hn : n.WF) :
    lexiFloat F n.text = (F.round n.neg n.mag).toFloat := by
  unfold lexiFloat extractLongDouble
  rw [strtold_number _ n hn]

/-- Rounding to the format and then to `float`: either the doubly rounded value or an infinity. -/
theorem fread_cases (F : FpFormat) (neg : Bool) {q : ℚ} (hq : 0 ≤ q) :
    (∃ r, F.round neg q = .fin neg r ∧ r = roundRat F.p F.emin q ∧ r < 2 ^ F.emax ∧ r < fOverflow ∧
      FFinite (F.round neg q).toFloat ∧ (fNeg (F.round neg q).toFloat ↔ neg = true) ∧
      fValue (F.round neg q).toFloat = sgn neg (roundRat 24 (-149) r)) ∨
    ((2 ^ F.emax ≤ roundRat F.p F.emin q ∨ fOverflow ≤ roundRat F.p F.emin q) ∧
      (F.round neg q).toFloat = if neg then 0xFF800000 else 0x7F800000) := by
  by_cases h : ((2 ^ F.emax : ℕ) : ℚ) ≤ roundRat F.p F.emin q
  · right
    have e : F.round neg q = .inf neg := by unfold FpFormat.round; exact if_pos h
    refine ⟨Or.inl (by push_cast at h; exact h), by rw [e]; rfl⟩
  · have e : F.round neg q = .fin neg (roundRat F.p F.emin q) := by unfold FpFormat.round; exact if_neg h
    push_cast at h
    by_cases ho : roundRat F.p F.emin q < fOverflow
    · left
      have := toFloat_value neg (roundRat_nonneg (p := F.p) (emin := F.emin) hq) ho
      rw [e]
      exact ⟨_, rfl, rfl, not_le.mp h, ho, this.1, this.2.1, this.2.2⟩
    · right
      push Not at ho
      refine ⟨Or.inr ho, ?_⟩
      rw [e]
      exact toFloat_overflow neg ho

theorem finf_facts (neg : Bool) :
    FInfinite (if neg then 0xFF800000 else 0x7F800000) ∧
      (fNeg (if neg then 0xFF800000 else 0x7F800000) ↔ neg = true) := by
  cases neg
  · exact ⟨by decide +kernel, by decide +kernel⟩
  · exact ⟨by decide +kernel, by decide +kernel⟩

/-- The rounding of a number up to the largest float stays there. -/
theorem fround_le_fMax (F : FpFormat) (hp : 24 ≤ F.p) (he : F.emin ≤ -149) {q : ℚ} (hq : 0 ≤ q) (h : q ≤ fMax) :
    roundRat F.p F.emin q ≤ fMax := by
  rcases hq.lt_or_eq with hq | rfl
  · rw [fMax_eq] at h ⊢
    refine roundRat_le hq (2 ^ 24 - 1) 104 (by omega) ?_ h
    calc 2 ^ 24 - 1 < 2 ^ 24 := by norm_num
      _ ≤ 2 ^ F.p := Nat.pow_le_pow_right (by norm_num) hp
  · rw [roundRat_zero]; unfold fMax; norm_num

/-- Rounding twice never crosses a float. -/
theorem float_round_between (F : FpFormat) (hp : 24 ≤ F.p) (he : F.emin ≤ -149) {q : ℚ} (hq : 0 ≤ q)
    (y : UInt32) (hy : FFinite y) :
    (q ≤ fMag y → roundRat 24 (-149) (roundRat F.p F.emin q) ≤ fMag y) ∧
      (fMag y ≤ q → fMag y ≤ roundRat 24 (-149) (roundRat F.p F.emin q)) := by
  have hb := (fUlpExp_bounds y hy).1
  have hs := fSig_lt y
  have hsF : fSig y < 2 ^ F.p := lt_of_lt_of_le hs (Nat.pow_le_pow_right (by norm_num) hp)
  have hm := fMag_nonneg y
  constructor
  · intro h
    rcases hq.lt_or_eq with hq | rfl
    swap
    · rw [roundRat_zero, roundRat_zero]; exact hm
    have h1 := roundRat_le (p := F.p) (emin := F.emin) hq (fSig y) (fUlpExp y) (by omega) hsF h
    rcases (roundRat_nonneg (p := F.p) (emin := F.emin) hq.le).lt_or_eq with hr | hr
    · exact roundRat_le hr (fSig y) (fUlpExp y) hb hs h1
    · rw [← hr, roundRat_zero]; exact hm
  · intro h
    rcases hq.lt_or_eq with hq | rfl
    swap
    · rw [roundRat_zero, roundRat_zero]; exact h
    have h1 := le_roundRat (p := F.p) (emin := F.emin) (by omega) hq (fSig y) (fUlpExp y) (by omega) hsF h
    rcases (roundRat_nonneg (p := F.p) (emin := F.emin) hq.le).lt_or_eq with hr | hr
    · exact le_roundRat (by norm_num) hr (fSig y) (fUlpExp y) hb hs h1
    · rw [← hr, roundRat_zero]; rw [← hr] at h1; exact h1

/-- Rounding to the format and then again is faithful. -/
theorem fround_faithful (F : FpFormat) (hp : 24 ≤ F.p) (he : F.emin ≤ -149) (hmax : 128 ≤ F.emax)
    (neg : Bool) {q : ℚ} (hm : 0 ≤ q) :
    (q ≤ fMax → FFaithful (sgn neg q) ((F.round neg q).toFloat)) ∧
    (fMax < q → FInfinite ((F.round neg q).toFloat) ∨
      FFinite ((F.round neg q).toFloat) ∧ |fValue ((F.round neg q).toFloat)| = fMax) ∧
    (fNeg ((F.round neg q).toFloat) ↔ neg = true) := by
  have hbig : fMax < 2 ^ F.emax := by
    calc fMax < 2 ^ (128 : ℤ) := by
          rw [fMax_eq, show (128 : ℤ) = (24 : ℕ) + 104 by norm_num, zpow_add₀ (by norm_num), zpow_natCast]
          exact mul_lt_mul_of_pos_right (by norm_num) (zp 104)
      _ ≤ 2 ^ F.emax := by
          rw [show (128 : ℤ) = ((128 : ℕ) : ℤ) by norm_num, zpow_natCast]
          exact pow_le_pow_right₀ (by norm_num) hmax
  rcases fread_cases F neg hm with ⟨r, -, hr, -, hro, hfin, hneg, hval⟩ | ⟨hbigr, hinf⟩
  · refine ⟨fun h => ⟨hfin, fun y hy => ?_⟩, fun h => Or.inr ⟨hfin, ?_⟩, hneg⟩
    · rw [hval, hr]
      obtain ⟨b1, b2⟩ := float_round_between F hp he hm y hy
      have hnn : 0 ≤ roundRat 24 (-149) (roundRat F.p F.emin q) := roundRat_nonneg (roundRat_nonneg hm)
      have hyn := fMag_nonneg y
      unfold fValue sgn
      cases neg <;> by_cases hy' : fNeg y <;>
        simp only [hy', if_true, if_false, Bool.false_eq_true]
      · constructor
        · intro h1
          have : q = 0 := by linarith
          have h2 := b1 (by linarith)
          rw [this, roundRat_zero, roundRat_zero]
          linarith
        · intro _; linarith
      · exact ⟨b1, b2⟩
      · exact ⟨fun h1 => neg_le_neg (b2 (neg_le_neg_iff.mp h1)), fun h1 => neg_le_neg (b1 (neg_le_neg_iff.mp h1))⟩
      · constructor
        · intro _; linarith
        · intro h1
          have : q = 0 := by linarith
          rw [this, roundRat_zero, roundRat_zero]
          linarith
    · -- beyond the largest float but finite
      obtain ⟨u, hu1, -, hu3, hu4⟩ := exists_float False (2 ^ 24 - 1) 104 (by norm_num) (by norm_num) (by norm_num)
        (fun _ => by norm_num)
      have hum : fMag u = fMax := by unfold fMag; rw [hu3, hu4, fMax_eq]
      have h1 := (float_round_between F hp he hm u hu1).2 (by rw [hum]; exact h.le)
      have h2 : |fValue (F.round neg q).toFloat| ≤ fMax := by
        have := fMag_le_fMax _ hfin
        unfold fValue
        split
        · rw [abs_neg, abs_of_nonneg (fMag_nonneg _)]; exact this
        · rw [abs_of_nonneg (fMag_nonneg _)]; exact this
      refine le_antisymm h2 ?_
      rw [hval, hr]
      have h3 : |sgn neg (roundRat 24 (-149) (roundRat F.p F.emin q))| =
          roundRat 24 (-149) (roundRat F.p F.emin q) := by
        have := roundRat_nonneg (p := 24) (emin := -149) (roundRat_nonneg (p := F.p) (emin := F.emin) hm)
        unfold sgn
        split
        · rw [abs_neg, abs_of_nonneg this]
        · rw [abs_of_nonneg this]
      rw [h3]
      linarith
  · obtain ⟨i1, i2⟩ := finf_facts neg
    rw [hinf]
    refine ⟨fun h => ?_, fun _ => Or.inl i1, i2⟩
    have := fround_le_fMax F hp he hm h
    have := fMax_lt
    rcases hbigr with h1 | h1 <;> linarith

/-- C62.  On every platform whose `long double` contains the floats, `lexi<float>` of a JSON number is one of
the two floats next to it (the number itself when it is a float), with the sign of the text; a number beyond
the largest float reads as the largest float or the infinity. -/
theorem C62_float_faithful (F : FpFormat) (hp : 24 ≤ F.p) (he : F.emin ≤ -149) (hmax : 128 ≤ F.emax)
    (n : JNumber) (hn : n.WF) :
    (n.mag ≤ fMax → FFaithful n.value (lexiFloat F n.text)) ∧
    (fMax < n.mag → FInfinite (lexiFloat F n.text) ∨
      FFinite (lexiFloat F n.text) ∧ |fValue (lexiFloat F n.text)| = fMax) ∧
    (fNeg (lexiFloat F n.text) ↔ n.neg = true) := by
  rw [flexi_eq F n hn, value_sgn]
  exact fround_faithful F hp he hmax n.neg (mag_nonneg n)

/-- Rounding to the format and then again is monotone. -/
theorem fround_monotone (F : FpFormat) (hp : 24 ≤ F.p) (mn nn : Bool) {x y : ℚ} (m0 : 0 ≤ x) (n0 : 0 ≤ y)
    (hle : sgn mn x ≤ sgn nn y) : FLe (F.round mn x).toFloat (F.round nn y).toFloat := by
  have notNaN_fin : ∀ {u : UInt32}, FFinite u → ¬ FNaN u := fun h hn => h hn.1
  have notNaN_inf : ∀ {u : UInt32}, FInfinite u → ¬ FNaN u := fun h hn => hn.2 h.2
  have mono : ∀ {x y : ℚ}, 0 ≤ x → x ≤ y → roundRat F.p F.emin x ≤ roundRat F.p F.emin y :=
    fun h1 h2 => roundRat_mono (by omega) h1 h2
  rcases fread_cases F mn m0 with ⟨r, -, hr, hrl, hro, mfin, mneg, mval⟩ | ⟨mbig, minf⟩ <;>
    rcases fread_cases F nn n0 with ⟨s, -, hs, hsl, hso, nfin, nneg, nval⟩ | ⟨nbig, ninf⟩
  · refine .fin mfin nfin ?_
    have r0 : 0 ≤ r := hr ▸ roundRat_nonneg m0
    have s0 : 0 ≤ s := hs ▸ roundRat_nonneg n0
    have rr0 := roundRat_nonneg (p := 24) (emin := -149) r0
    have ss0 := roundRat_nonneg (p := 24) (emin := -149) s0
    rw [mval, nval]
    unfold sgn at hle ⊢
    cases mn <;> cases nn <;> simp only [ if_true, if_false, Bool.false_eq_true] at hle ⊢
    · exact roundRat_mono (by norm_num) r0 (by rw [hr, hs]; exact mono m0 hle)
    · have h1 : x = 0 := by linarith
      have h2 : y = 0 := by linarith
      rw [hr, hs, h1, h2, roundRat_zero, roundRat_zero]; norm_num
    · linarith
    · exact neg_le_neg (roundRat_mono (by norm_num) s0 (by rw [hr, hs]; exact mono n0 (neg_le_neg_iff.mp hle)))
  · obtain ⟨i1, i2⟩ := finf_facts nn
    rw [ninf]
    by_cases hnn : nn = true
    · exfalso
      unfold sgn at hle
      rw [if_pos hnn] at hle
      have h1 : y ≤ x := by split at hle <;> linarith
      have := mono n0 h1
      rcases nbig with h | h <;> rw [hr] at hrl hro <;> linarith
    · exact .posInf (notNaN_fin mfin) i1 (fun h => hnn (i2.mp h))
  · obtain ⟨i1, i2⟩ := finf_facts mn
    rw [minf]
    by_cases hmn : mn = true
    · exact .negInf i1 (i2.mpr hmn) (notNaN_fin nfin)
    · exfalso
      unfold sgn at hle
      rw [if_neg hmn] at hle
      have h1 : x ≤ y := by split at hle <;> linarith
      have := mono m0 h1
      rcases mbig with h | h <;> rw [hs] at hsl hso <;> linarith
  · obtain ⟨i1, i2⟩ := finf_facts mn
    obtain ⟨j1, j2⟩ := finf_facts nn
    rw [minf, ninf]
    by_cases hmn : mn = true
    · exact .negInf i1 (i2.mpr hmn) (notNaN_inf j1)
    · by_cases hnn : nn = true
      · exfalso
        unfold sgn at hle
        rw [if_neg hmn, if_pos hnn] at hle
        have h1 : x = 0 := by linarith
        rw [h1, roundRat_zero] at mbig
        have h2 : (0 : ℚ) < 2 ^ F.emax := by positivity
        have h3 : (0 : ℚ) < fOverflow := by unfold fOverflow; norm_num
        rcases mbig with h | h <;> linarith
      · exact .posInf (notNaN_inf i1) j1 (fun h => hnn (j2.mp h))

/-- C62.  Reading is monotone on every platform: a JSON number that is not larger does not read as a larger
float. -/
theorem C62_float_monotone (F : FpFormat) (hp : 24 ≤ F.p) (m n : JNumber) (hm : m.WF) (hn : n.WF)
    (hle : m.value ≤ n.value) : FLe (lexiFloat F m.text) (lexiFloat F n.text) := by
  rw [flexi_eq F m hm, flexi_eq F n hn]
  exact fround_monotone F hp m.neg n.neg (mag_nonneg m) (mag_nonneg n) hle

/-- C62.  A number that `long double` represents exactly reads as the nearest float, ties to even. -/
theorem C62_float_nearest_exact (F : FpFormat) (hmax : 128 ≤ F.emax) (n : JNumber) (hn : n.WF)
    (hex : roundRat F.p F.emin n.mag = n.mag) (h : n.mag < fOverflow) :
    FNearestEven n.value (lexiFloat F n.text) := by
  have hm := mag_nonneg n
  rw [flexi_eq F n hn]
  have hlt : n.mag < 2 ^ F.emax := by
    calc n.mag < 2 ^ (128 : ℤ) := flt_overflow_lt h
      _ ≤ 2 ^ F.emax := by
        rw [show (128 : ℤ) = ((128 : ℕ) : ℤ) by norm_num, zpow_natCast]
        exact pow_le_pow_right₀ (by norm_num) hmax
  have e : F.round n.neg n.mag = .fin n.neg n.mag := by
    unfold FpFormat.round
    rw [hex]
    refine if_neg (not_le.mpr ?_)
    push_cast; exact hlt
  rw [e, value_sgn]
  exact toFloat_nearest n.neg hm h

/-- `1.0000000596046447753906250000000000000000000001` as a parse tree: just above the middle of two floats. -/
def doubleRounded : JNumber :=
  ⟨false, ascii "1", some (ascii "0000000596046447753906250000000000000000000001"), none⟩

theorem doubleRounded_wf : doubleRounded.WF := by
  refine ⟨by decide +kernel, by decide +kernel, by decide +kernel, ?_, ?_⟩
  · intro f h
    have : f = ascii "0000000596046447753906250000000000000000000001" := by simpa [doubleRounded] using h.symm
    subst this; decide +kernel
  · intro e h; exact absurd h (by simp [doubleRounded])

/-- C62.  Reading as `float` is not correct rounding on any of the supported `long double` formats: this text reads
as 1.0, although `1 + 2^-23` is nearer. -/
theorem C62_float_not_nearest :
    ∀ F ∈ [FpFormat.binary64, FpFormat.x87, FpFormat.binary128],
      ¬ FNearestEven doubleRounded.value (lexiFloat F doubleRounded.text) := by
  intro F hF hc
  have h1 : lexiFloat F doubleRounded.text = 0x3F800000 := by
    simp only [List.mem_cons, List.not_mem_nil, or_false] at hF
    rcases hF with rfl | rfl | rfl <;> decide +kernel
  rw [h1] at hc
  have h2 := (hc.2 0x3F800001 (by decide +kernel)).1
  have v1 : fValue 0x3F800000 = 1 := by
    have a : fSig 0x3F800000 = 2 ^ 23 := by decide +kernel
    have b : fUlpExp 0x3F800000 = -23 := by decide +kernel
    have c : ¬ fNeg 0x3F800000 := by decide +kernel
    unfold fValue fMag; rw [a, b, if_neg c]; norm_num
  have v2 : fValue 0x3F800001 = 1 + 1 / 2 ^ 23 := by
    have a : fSig 0x3F800001 = 2 ^ 23 + 1 := by decide +kernel
    have b : fUlpExp 0x3F800001 = -23 := by decide +kernel
    have c : ¬ fNeg 0x3F800001 := by decide +kernel
    unfold fValue fMag; rw [a, b, if_neg c]; norm_num
  have v3 : doubleRounded.value = 1 + 1 / 2 ^ 24 + 1 / 10 ^ 46 := by
    have a : digitsValue (doubleRounded.int ++ doubleRounded.fracDigits) =
        10000000596046447753906250000000000000000000001 := by decide +kernel
    have b : doubleRounded.expValue - doubleRounded.fracDigits.length = -((46 : ℕ) : ℤ) := by decide +kernel
    unfold JNumber.value JNumber.mag
    rw [a, b, zpow_neg, zpow_natCast, if_neg (by decide)]
    norm_num
  rw [v1, v2, v3] at h2
  rw [abs_of_neg (by norm_num), abs_of_pos (by norm_num)] at h2
  norm_num at h2

/-! ### Inhabited hypotheses -/

example : lexiFloat .binary64 sampleNumber.text = 0xBAA3D70A ∧ lexiFloat .x87 sampleNumber.text = 0xBAA3D70A := by
  decide +kernel
example : lexiFloat .x87 (ascii "3.4028235e38") = 0x7F7FFFFF ∧ lexiFloat .x87 (ascii "3.4028236e38") = 0x7F800000 := by
  decide +kernel

/-- `0.5` as a parse tree: exact in every format. -/
def half : JNumber := ⟨false, ascii "0", some (ascii "5"), none⟩
example : half.WF ∧ roundRat FpFormat.x87.p FpFormat.x87.emin half.mag = half.mag ∧ half.mag < fOverflow ∧
    lexiFloat .x87 half.text = 0x3F000000 := by
  have hm : half.mag = 1 / 2 := by
    have a : digitsValue (half.int ++ half.fracDigits) = 5 := by decide +kernel
    have b : half.expValue - half.fracDigits.length = -((1 : ℕ) : ℤ) := by decide +kernel
    unfold JNumber.mag
    rw [a, b, zpow_neg, zpow_natCast]
    norm_num
  refine ⟨⟨by decide +kernel, by decide +kernel, by decide +kernel, ?_, ?_⟩, ?_, ?_, by decide +kernel⟩
  · intro f h
    have : f = ascii "5" := by simpa [half] using h.symm
    subst this; decide +kernel
  · intro e h; exact absurd h (by simp [half])
  · rw [hm]; decide +kernel
  · rw [hm]; unfold fOverflow; norm_num

end Lexi
