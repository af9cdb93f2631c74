import Verif.Model.ReadRepair
import Verif.Props.FloatRead
import Verif.Props.ReadSingle

/-!
# C105: read with the function of the type asked for, numbers are the nearest and come back

Nothing here is about the present `ExtractFloat`, which rounds twice (C23, C58, C62).
-/

namespace Lexi
open Spec Soft Dtoa

/-- C105, C23 in full: on every platform every finite non-zero double comes back. -/
theorem C105_double_round_trip (env : Env) (henv : EnvOk env) (L : Literals) (junk : Bytes) (hj : junk.length = FLOAT_SIZE)
    (u : UInt64) (hfin : DFinite u) (hnz : ¬ DZero u) :
    ∃ t, stringDouble L env junk u = .ok t ∧ lexiDoubleR t = u :=
  C22_round_trip env henv L junk hj u hfin hnz

/-- Rounding to `float` twice is rounding once. -/
theorem round32_fin (neg : Bool) {q : ℚ} (hq : 0 ≤ q) (h : q < fOverflow) :
    (FpFormat.binary32.round neg q).toFloat = (LVal.fin neg q).toFloat := by
  have e : FpFormat.binary32.round neg q = .fin neg (roundRat 24 (-149) q) := by
    unfold FpFormat.round
    refine if_neg (not_le.mpr ?_)
    have := (froundRat_lt_iff hq).mpr h
    show roundRat 24 (-149) q < ((2 ^ 128 : ℕ) : ℚ)
    push_cast
    exact this
  rw [e, toFloat_round neg hq h]

/-- C105, every finite non-zero float comes back. -/
theorem C105_float_round_trip (env : Env) (henv : EnvOk env) (L : Literals) (junk : Bytes) (hj : junk.length = FLOAT_SIZE)
    (u : UInt32) (hfin : FFinite u) (hnz : ¬ FZero u) :
    ∃ t, stringFloat L env junk u = .ok t ∧ lexiFloatR t = u := by
  obtain ⟨d, hd, hdf, hdz, hneg, hmag, hexp⟩ := widen u hfin hnz
  obtain ⟨D, k, hP, h⟩ := formatLd_finite env henv d hdf hdz
  have h1 := h (.ofFloat u) (by rw [hd]) L junk hj
  refine ⟨signed (dNeg d) (prettyText (decN D) k), ?_, ?_⟩
  · unfold stringFloat formatFloat
    rw [h1, Res.ok_bind, hd]
    exact readN_prefix _ _
  unfold lexiFloatR
  rw [parse_signed _ hdz hP, decide_eq_decide.mpr hneg]
  have hV : 0 < (D : ℚ) * 10 ^ k := (lowB_pos hdz).trans hP.lower
  have hs := fSig_lt u
  have hb := fUlpExp_bounds u hfin
  have g1 := hP.lower
  have g2 := hP.upper
  rw [lowB_eq d hdz, hmag] at g1
  rw [highB_eq, hmag] at g2
  have hg := lowGap_le d
  have hgap : (2 : ℚ) ^ (dUlpExp d - 1) ≤ 2 ^ (fUlpExp u - 3) := zpow_mono (by omega)
  have hz3 := zp (fUlpExp u - 3)
  have e8 : (2 : ℚ) ^ fUlpExp u = 8 * 2 ^ (fUlpExp u - 3) := by
    rw [show (8 : ℚ) = 2 ^ (3 : ℤ) by norm_num, ← zpow_add₀ (by norm_num)]; congr 1; ring
  have hm : fMag u = (fSig u : ℚ) * 2 ^ fUlpExp u := rfl
  have htop : (D : ℚ) * 10 ^ k < fOverflow := by
    have a1 : (2 : ℚ) ^ fUlpExp u ≤ 2 ^ (104 : ℤ) := zpow_mono hb.2
    have a2 := fMag_le_fMax u hfin
    rw [fMax_eq] at a2
    rw [fOverflow_eq]
    push_cast at a2
    have := zp 104
    linarith
  rw [round32_fin _ hV.le htop]
  apply toFloat_interval u hfin _ hV
  refine ⟨Or.inl ?_, Or.inl ?_, fun _ _ => ?_⟩
  · rw [e8] at hm ⊢; linarith
  · rw [e8] at hm ⊢; linarith
  · rw [e8] at hm ⊢; linarith

/-- C105, nearest: `lexi<double>` and `lexi<float>` of every JSON number are the nearest double and the nearest float, ties to
even, with the sign of the text; numbers at or beyond the rounding threshold are read as the infinity. -/
theorem C105_nearest (n : JNumber) (hn : n.WF) :
    (n.mag < dOverflow → NearestEven n.value (lexiDoubleR n.text)) ∧
    (dOverflow ≤ n.mag → DInfinite (lexiDoubleR n.text)) ∧ (dNeg (lexiDoubleR n.text) ↔ n.neg = true) ∧
    (n.mag < fOverflow → FNearestEven n.value (lexiFloatR n.text)) ∧
    (fOverflow ≤ n.mag → FInfinite (lexiFloatR n.text)) ∧ (fNeg (lexiFloatR n.text) ↔ n.neg = true) := by
  obtain ⟨h1, h2⟩ := C55_nearest n hn
  change (n.mag < dOverflow → NearestEven n.value (lexiDoubleR n.text) ∧ (dNeg (lexiDoubleR n.text) ↔ n.neg = true)) at h1
  change (dOverflow ≤ n.mag → DInfinite (lexiDoubleR n.text) ∧ (dNeg (lexiDoubleR n.text) ↔ n.neg = true)) at h2
  have hr : lexiFloatR n.text = (FpFormat.binary32.round n.neg n.mag).toFloat := by
    unfold lexiFloatR
    rw [strtold_number _ n hn]
  have hm := mag_nonneg n
  have h3 : n.mag < fOverflow → FNearestEven n.value (lexiFloatR n.text) ∧ (fNeg (lexiFloatR n.text) ↔ n.neg = true) := by
    intro h
    rw [hr, round32_fin _ hm h, value_sgn]
    exact ⟨toFloat_nearest _ hm h, (toFloat_value _ hm h).2.1⟩
  have h4 : fOverflow ≤ n.mag → FInfinite (lexiFloatR n.text) ∧ (fNeg (lexiFloatR n.text) ↔ n.neg = true) := by
    intro h
    have e : FpFormat.binary32.round n.neg n.mag = .inf n.neg := by
      unfold FpFormat.round
      refine if_pos (not_lt.mp fun hc => ?_)
      have hc : roundRat 24 (-149) n.mag < ((2 ^ 128 : ℕ) : ℚ) := hc
      push_cast at hc
      exact absurd ((froundRat_lt_iff hm).mp hc) (not_lt.mpr h)
    rw [hr, e]
    cases n.neg <;> exact ⟨by decide +kernel, by decide +kernel⟩
  refine ⟨fun h => (h1 h).1, fun h => (h2 h).1, ?_, fun h => (h3 h).1, fun h => (h4 h).1, ?_⟩
  · rcases lt_or_ge n.mag dOverflow with h | h
    · exact (h1 h).2
    · exact (h2 h).2
  · rcases lt_or_ge n.mag fOverflow with h | h
    · exact (h3 h).2
    · exact (h4 h).2

/-- The double of `C23_refuted_x87` and the number of `C62_float_not_nearest`: the changed functions read them right. -/
example : lexiDouble .x87 (ascii "5.445846684475361e107") = x87Witness - 1 ∧
    lexiDoubleR (ascii "5.445846684475361e107") = x87Witness ∧
    lexiFloat .x87 doubleRounded.text = 0x3F800000 ∧ lexiFloatR doubleRounded.text = 0x3F800001 := by
  refine ⟨?_, ?_, ?_, ?_⟩ <;> decide +kernel

end Lexi
