import Verif.Props.Closest
import Verif.Props.LastDigit

/-!
# C103: with a longer `POWER10`, formatting of numbers is defined, portable and nearest

C26, C35 and the hypothesis of C71 come from one line: `POWER10` (src/detail/dtoa.cpp:34) has ten 32-bit entries and is read at higher
indices.  Here the table is thought to be `static const uint64_t POWER10[19]`, the powers up to `10^18`; all else is the code of the
repository.  Nothing here is about the present table.
-/

namespace Lexi
open Spec Soft Dtoa DiyFp

/-- The entries 10 to 18 of the longer table; there is nothing to read behind them. -/
def fullTable : ℕ → Res UInt64 := fun i => if i ≤ 18 then .ok (UInt64.ofNat (10 ^ i)) else .ub

theorem fullTable_continued (v : Variant) (dk : ℤ → ℚ) : Continued ⟨v, dk, fullTable⟩ := fun _ _ h => if_pos h

theorem fullTable_ok (v : Variant) {dk : ℤ → ℚ} (h : DkOk dk) : EnvOk ⟨v, dk, fullTable⟩ :=
  ⟨h, fun j _ h => ⟨_, fullTable_continued v dk j ‹_› h⟩⟩

/-- C103, reads (C26 in full): with the longer table the text of every double is formatted without an undefined read, although
a read behind the nineteen entries is still undefined. -/
theorem C103_defined (v : Variant) (dk : ℤ → ℚ) (hdk : DkEval dk) (junk : Bytes) (hj : junk.length = FLOAT_SIZE) (u : UInt64) :
    ∃ o, formatDouble .default ⟨v, dk, fullTable⟩ junk u = .ok o := by
  by_cases hf : DFinite u ∧ ¬ DZero u
  · have hn := toDouble_ofDouble u (fun h => hf.1 h.1)
    obtain ⟨D, k, -, h⟩ := formatLd_finite ⟨v, dk, fullTable⟩ (fullTable_ok v hdk.ok) u hf.1 hf.2
    exact ⟨_, h (.ofDouble u) (by rw [hn]) _ junk hj⟩
  · obtain ⟨o, ho⟩ := C26_short_partial ⟨v, dk, fullTable⟩ (fullTable_ok v hdk.ok) junk hj u
      (fun h1 h2 => absurd ⟨h1, h2⟩ hf)
    have hok : DkOk (Env.mk v dk fullTable).dk := hdk.ok
    unfold formatDouble at ho ⊢
    exact ⟨o, strict_transfer hok hok .default junk (.ofDouble u) o ho⟩

/-- C103, texts (C35 in full): the text no longer depends on the platform. -/
theorem C103_same_text (v v' : Variant) (dk dk' : ℤ → ℚ) (h : DkEval dk) (h' : DkEval dk') (L : Literals) (junk : Bytes)
    (u : UInt64) : stringDouble L ⟨v, dk, fullTable⟩ junk u = stringDouble L ⟨v', dk', fullTable⟩ junk u :=
  C35_same_text ⟨v, dk, fullTable⟩ ⟨v', dk', fullTable⟩ h h' rfl L junk u

theorem at_zero_inj {M a b : Bytes} (h : at_ M 0 a = at_ M 0 b) : a = b := by
  unfold at_ at h
  obtain ⟨h1, h2⟩ := Cur.mk.inj h
  simp only [List.take_zero, List.nil_append, Nat.zero_add] at h1 h2
  exact (List.append_inj h1 h2).1

/-- C103, nearest (C71 for every double): the hypothesis that formatting stays inside the tables is not needed. -/
theorem C103_nearest (v : Variant) (dk : ℤ → ℚ) (hdk : DkEval dk) (L : Literals) (junk : Bytes)
    (hj : junk.length = FLOAT_SIZE) (u : UInt64) (hfin : DFinite u) (hnz : ¬ DZero u) :
    ∃ (t : Bytes) (D : ℕ) (k : ℤ), stringDouble L ⟨v, dk, fullTable⟩ junk u = .ok t ∧
      IsJsonNumber t (if dNeg u then -(D * 10 ^ k) else D * 10 ^ k) ∧ D < 10 ^ 17 ∧
      (∀ (m : ℕ) (j : ℤ), NearMag u (m * 10 ^ j) → j ≤ k) ∧
      (∀ m : ℕ, dSig u ≠ 2 ^ 52 ∨ NearMag u (m * 10 ^ k) →
        |(D : ℚ) * 10 ^ k - dMag u| ≤ |(m : ℚ) * 10 ^ k - dMag u| + 2 ^ dUlpExp u / 256) := by
  have hn := toDouble_ofDouble u (fun h => hfin h.1)
  have henv := fullTable_ok v hdk.ok
  obtain ⟨D, k, hP, hg, h⟩ := formatLd_finite' ⟨v, dk, fullTable⟩ henv u hfin hnz
  obtain ⟨D', k', -, -, -, -, -, hcl, -, -, hg'⟩ := grisu2_spec ⟨v, dk, fullTable⟩ henv.dk henv.oob (dAbs u)
    (finite_abs.mpr hfin) (fun h => hnz (zero_abs.mp h))
  obtain ⟨e1, rfl⟩ := Prod.mk.inj (Res.ok.inj
    ((hg (List.replicate 17 0) 0 (by decide)).symm.trans (hg' (List.replicate 17 0) 0 (by decide))))
  obtain rfl := decN_injective (at_zero_inj e1)
  have hcl := hcl (Or.inr (fullTable_continued v dk))
  rw [lowB_abs, highB_abs, dUlpExp_abs, dSig_abs] at hcl
  have h1 := h (.ofDouble u) (by rw [hn]) L junk hj
  rw [hn] at h1
  have e8 : (2 : ℚ) ^ (dUlpExp u - 8) = 2 ^ dUlpExp u / 256 := by rw [zpow_sub₀ (by norm_num)]; norm_num
  refine ⟨_, D, k, ?_, ⟨prettyNumber (decide (dNeg u)) (decN D) k, hP.WF hnz _, (signed_text _ _ _).symm,
    pretty_value (dNeg u) D k⟩, hP.lt17, fun m j hm => ?_, fun m hm => ?_⟩
  · unfold stringDouble formatDouble
    rw [h1, Res.ok_bind]
    exact readN_prefix _ _
  · obtain ⟨g1, g2⟩ := hm.inside hnz
    exact hP.exponent_ge g1 g2
  · rw [← e8]; exact hP.nearest_of hnz m (hcl m) hm

/-- C103, nothing else changes: where the code as it is formats a number without reading behind its table, the longer table
gives the same text; elsewhere it gives the text of the code as it is or one that differs in one digit, the last. -/
theorem C103_unchanged (env : Env) (henv : EnvOk env) (hdk : DkEval env.dk) (v : Variant) (dk : ℤ → ℚ) (hdk' : DkEval dk)
    (L : Literals) (junk : Bytes) (hj : junk.length = FLOAT_SIZE) (u : UInt64) :
    (∀ t, stringDouble L (strictEnv env) junk u = .ok t → stringDouble L ⟨v, dk, fullTable⟩ junk u = .ok t) ∧
    (∀ t t', DFinite u → stringDouble L env junk u = .ok t → stringDouble L ⟨v, dk, fullTable⟩ junk u = .ok t' →
      t = t' ∨ OneDigitApart t t') :=
  ⟨fun t h => C35_defined_text env ⟨v, dk, fullTable⟩ hdk hdk' L junk t u h,
   (C92_double_float env ⟨v, dk, fullTable⟩ henv (fullTable_ok v hdk'.ok) L junk hj).1 u⟩

/-- C103, the entries matter: the double of `C71_unsafe_not_nearest` is now printed as its nearest decimal of 17 digits, on
every platform. -/
theorem C103_repairs (v : Variant) (dk : ℤ → ℚ) (hdk : DkEval dk) (junk : Bytes) (hj : junk.length = FLOAT_SIZE) :
    stringDouble .default ⟨v, dk, fullTable⟩ junk 4646736520237392117 = .ok (ascii "456.39035566757894") := by
  have hf : DFinite 4646736520237392117 := by decide +kernel
  have hz : ¬ DZero 4646736520237392117 := by decide +kernel
  rw [C103_same_text v sampleEnv.v dk dkDouble hdk dkDouble_eval]
  obtain ⟨D, k, -, hs⟩ := stringDouble_finite ⟨sampleEnv.v, dkDouble, fullTable⟩ (fullTable_ok _ dkDouble_ok)
    4646736520237392117 hf hz
  rw [hs _ rfl .default junk hj, ← hs _ rfl .default (List.replicate 30 0) rfl]
  decide +kernel

/-- One third leaves the present table (`third_ub`); with the longer one it has a text. -/
example : formatDouble .default (strictEnv sampleEnv) (List.replicate 30 0) third = .ub ∧
    stringDouble .default ⟨sampleEnv.v, dkDouble, fullTable⟩ (List.replicate 30 0) third = .ok (ascii "0.3333333333333333") ∧
    DFinite third ∧ ¬ DZero third ∧ dSig third ≠ 2 ^ 52 := by
  refine ⟨third_ub, ?_, ?_, ?_, ?_⟩ <;> decide +kernel

end Lexi
