import Verif.Props.LongDouble

/-!
# Reading a double's text through a wider `long double`: C77
-/

namespace Lexi
open Spec Soft Dtoa DiyFp

theorem highB_mid {u : UInt64} (hfin : DFinite u) (hodd : dSig u % 2 = 1) (hfin' : DFinite (u + 1)) :
    highB u = (dMag u + dMag (u + 1)) / 2 := by
  obtain ⟨-, -, hcase⟩ := succ_fields u hfin hodd hfin'
  rw [highB_mul]
  unfold dMag
  rcases hcase with ⟨c1, c2, -⟩ | ⟨c1, c2, c3⟩
  · rw [c1, c2]; push_cast; ring
  · rw [c2, c3, zpow_add_one₀ (by norm_num)]
    have hcast : (dSig u : ℚ) = 2 ^ 53 - 1 := by
      have : ((dSig u + 1 : ℕ) : ℚ) = ((2 ^ 53 : ℕ) : ℚ) := by rw [c1]
      push_cast at this
      linarith
    rw [hcast]; push_cast; ring

theorem lowB_mid {u : UInt64} (hfin : DFinite u) (hnz : ¬ DZero u) (hodd : dSig u % 2 = 1) :
    lowB u = (dMag u + dMag (u - 1)) / 2 := by
  obtain ⟨-, -, c1, c2⟩ := pred_fields u hfin hodd
  have h52 : dSig u ≠ 2 ^ 52 := by intro h; rw [h] at hodd; norm_num at hodd
  rw [lowB_mul u hnz, if_neg h52]
  unfold dMag
  rw [c2, ← c1]; push_cast; ring

theorem odd_sig (u : UInt64) : dSig u % 2 = u.toNat % 2 := by
  unfold dSig dFrac
  split <;> omega

/-- The three outcomes of reading back through a wider `long double`, and when each happens. -/
theorem readBack_cases {u : UInt64} {D : ℕ} {k : ℤ} (hfin : DFinite u) (hnz : ¬ DZero u)
    (hP : Printed u D k) (F : FpFormat) (hp : 64 ≤ F.p) (he : F.emin ≤ -1076) (hmax : 1024 ≤ F.emax)
    (r : ℚ) (hr : r = roundRat F.p F.emin ((D : ℚ) * 10 ^ k)) :
    F.round (decide (dNeg u)) ((D : ℚ) * 10 ^ k) = .fin (decide (dNeg u)) r ∧
    (dSig u % 2 = 1 → DFinite (u + 1) → r = (dMag u + dMag (u + 1)) / 2 →
      (LVal.fin (decide (dNeg u)) r).toDouble = u + 1) ∧
    (dSig u % 2 = 1 → r = (dMag u + dMag (u - 1)) / 2 → (LVal.fin (decide (dNeg u)) r).toDouble = u - 1) ∧
    ((LVal.fin (decide (dNeg u)) r).toDouble ≠ u → dSig u % 2 = 1 ∧
      (DFinite (u + 1) ∧ r = (dMag u + dMag (u + 1)) / 2 ∨ r = (dMag u + dMag (u - 1)) / 2)) := by
  obtain ⟨hlo, hhi⟩ := hP.round_closed hfin hnz F (by omega) he
  have hV : 0 < (D : ℚ) * 10 ^ k := (lowB_pos hnz).trans hP.lower
  have hfinr := round_finite F (decide (dNeg u)) _ hmax (lt_of_le_of_lt hhi (highB_lt_top hfin))
  rw [← hr] at hlo hhi hfinr
  have hr0 : 0 < r := (lowB_pos hnz).trans_le hlo
  have hz := zp (dUlpExp u)
  refine ⟨hfinr, ?_, ?_, ?_⟩
  · intro hodd hfin' heq
    rw [← highB_mid hfin hodd hfin'] at heq
    obtain ⟨hn, hev', hcase⟩ := succ_fields u hfin hodd hfin'
    have hd : decide (dNeg u) = decide (dNeg (u + 1)) := by simp [hn]
    rw [hd]
    apply toDouble_interval (u + 1) hfin' r hr0
    rw [highB_mul] at heq
    rcases hcase with ⟨c1, c2, c3⟩ | ⟨c1, c2, c3⟩
    · rw [c1, c2, heq]
      refine ⟨Or.inl ?_, Or.inr ⟨by rw [← c1]; exact hev', ?_⟩, fun h52' hg => ?_⟩
      · push_cast; exact mul_lt_mul_of_pos_right (by linarith) hz
      · push_cast; exact mul_le_mul_of_nonneg_right (by linarith) hz.le
      · have := c3 h52'; omega
    · rw [c2, c3, heq]
      have hcast : (dSig u : ℚ) = 2 ^ 53 - 1 := by
        have : ((dSig u + 1 : ℕ) : ℚ) = ((2 ^ 53 : ℕ) : ℚ) := by rw [c1]
        push_cast at this
        linarith
      rw [hcast]
      have e2 : ∀ a : ℚ, a * 2 ^ (dUlpExp u + 1) = a * 2 * 2 ^ dUlpExp u := fun a => by
        rw [zpow_add_one₀ (by norm_num)]; ring
      refine ⟨Or.inl ?_, Or.inl ?_, fun _ _ => ?_⟩
      · rw [e2]; push_cast; exact mul_lt_mul_of_pos_right (by norm_num) hz
      · rw [e2]; push_cast; exact mul_lt_mul_of_pos_right (by norm_num) hz
      · rw [e2]; push_cast; exact mul_le_mul_of_nonneg_right (by norm_num) hz.le
  · intro hodd heq
    rw [← lowB_mid hfin hnz hodd] at heq
    have h52 : dSig u ≠ 2 ^ 52 := by intro h; rw [h] at hodd; norm_num at hodd
    obtain ⟨hfin', hn, c1, c2⟩ := pred_fields u hfin hodd
    have hd : decide (dNeg u) = decide (dNeg (u - 1)) := by simp [hn]
    rw [hd]
    apply toDouble_interval (u - 1) hfin' r hr0
    rw [lowB_mul u hnz, if_neg h52] at heq
    have hcast : (dSig u : ℚ) = dSig (u - 1) + 1 := by rw [← c1]; push_cast; ring
    rw [c2, heq, hcast]
    refine ⟨Or.inr ⟨by omega, ?_⟩, Or.inl ?_, fun _ _ => ?_⟩
    · exact mul_le_mul_of_nonneg_right (by linarith) hz.le
    · exact mul_lt_mul_of_pos_right (by linarith) hz
    · exact mul_le_mul_of_nonneg_right (by linarith) hz.le
  · intro hne
    rcases Nat.mod_two_eq_zero_or_one (dSig u) with h2 | hodd
    · exact absurd (toDouble_interval u hfin r hr0 (interval_even hnz hlo hhi h2)) hne
    refine ⟨hodd, ?_⟩
    rcases eq_or_lt_of_le hhi with heq | hlt
    · left
      have hnt : ¬ (dSig u = 2 ^ 53 - 1 ∧ dUlpExp u = 971) := by
        rintro ⟨t1, t2⟩
        have hle : r ≤ (2 ^ 64 - 2 ^ 10 - 1 : ℕ) * 2 ^ (960 : ℤ) := by
          rw [hr]
          refine roundRat_le hV _ _ (by omega) ?_ (hP.top t1 t2)
          have : 2 ^ 64 ≤ 2 ^ F.p := Nat.pow_le_pow_right (by omega) hp
          omega
        have := top_lt_highB t1 t2
        rw [heq] at hle
        exact absurd hle (not_le.mpr this)
      have hfin' : DFinite (u + 1) := by
        have hu := u.toNat_lt
        have hE := dExp_lt u
        have hE' : dExp u ≤ 2046 := by unfold DFinite at hfin; omega
        have hs1 : (u + 1).toNat = u.toNat + 1 := by
          apply toNat_succ
          unfold dExp at hE'; omega
        have hfl := dFrac_lt u
        unfold DFinite dExp
        rw [hs1]
        intro hc
        apply hnt
        have h1 : dExp u = 2046 ∧ dFrac u = 2 ^ 52 - 1 := by
          unfold dExp dFrac at *; omega
        unfold dSig dUlpExp
        rw [h1.1, h1.2]
        exact ⟨by norm_num, by norm_num⟩
      exact ⟨hfin', by rw [heq, highB_mid hfin hodd hfin']⟩
    · rcases eq_or_lt_of_le hlo with heq | hlt'
      · right; rw [← heq, lowB_mid hfin hnz hodd]
      · exact absurd (toDouble_interval u hfin r hr0 (interval_open hnz hlo hlt (Or.inl hlt'))) hne

/-! ## C77 -/

/-- C77.  The exact condition of the round trip through a `long double` of at least 64 bits (x86 included).  The text
denotes `n`, `strtold` turns it into the `long double` `r` nearest to `n`, and the double comes back changed only
when its last bit is set and `r` lies exactly half-way to an adjacent double; then that neighbour is read. -/
theorem C77_exact_condition (F : FpFormat) (hp : 64 ≤ F.p) (he : F.emin ≤ -1076) (hmax : 1024 ≤ F.emax)
    (env : Env) (henv : EnvOk env) (L : Literals) (junk : Bytes) (hj : junk.length = FLOAT_SIZE)
    (u : UInt64) (hfin : DFinite u) (hnz : ¬ DZero u) :
    ∃ (n : JNumber) (r : ℚ), n.WF ∧ stringDouble L env junk u = .ok n.text ∧
      strtold F n.text = .fin (decide (dNeg u)) r ∧ NearestIn F.p F.emin n.mag r ∧
      (lexiDouble F n.text = u + 1 ↔ u.toNat % 2 = 1 ∧ DFinite (u + 1) ∧ r = (dMag u + dMag (u + 1)) / 2) ∧
      (lexiDouble F n.text = u - 1 ↔ u.toNat % 2 = 1 ∧ r = (dMag u + dMag (u - 1)) / 2) ∧
      (lexiDouble F n.text = u ↔ ¬ (u.toNat % 2 = 1 ∧
        (DFinite (u + 1) ∧ r = (dMag u + dMag (u + 1)) / 2 ∨ r = (dMag u + dMag (u - 1)) / 2))) := by
  obtain ⟨D, k, hP, h⟩ := stringDouble_finite env henv u hfin hnz
  have hV : 0 < (D : ℚ) * 10 ^ k := (lowB_pos hnz).trans hP.lower
  obtain ⟨c0, c1, c2, c3⟩ := readBack_cases hfin hnz hP F hp he hmax _ rfl
  have hparse := parse_signed F hnz hP (dNeg u)
  rw [c0] at hparse
  have ht := h u rfl L junk hj
  rw [signed_text] at hparse ht
  refine ⟨_, roundRat F.p F.emin ((D : ℚ) * 10 ^ k), hP.WF hnz _, ht, hparse, ?_, ?_⟩
  · rw [pretty_mag]; exact roundRat_nearestIn (by omega) hV.le
  unfold lexiDouble extractLongDouble
  rw [hparse, ← odd_sig]
  generalize roundRat F.p F.emin ((D : ℚ) * 10 ^ k) = r at *
  have hs : u + 1 ≠ u := by
    intro hc
    have := congrArg UInt64.toBitVec hc
    simp at this
  have hs' : u - 1 ≠ u := by
    intro hc
    have : u - 1 + 1 = u + 1 := by rw [hc]
    rw [UInt64.sub_add_cancel] at this
    exact hs this.symm
  have hs2 : u + 1 ≠ u - 1 := by
    intro hc
    have h1 := congrArg UInt64.toNat hc
    have hu := u.toNat_lt
    rw [UInt64.toNat_add, UInt64.toNat_sub] at h1
    simp at h1
    omega
  generalize (LVal.fin (decide (dNeg u)) r).toDouble = T at *
  refine ⟨⟨fun e => ?_, fun ⟨a, b, c⟩ => c1 a b c⟩, ⟨fun e => ?_, fun ⟨a, b⟩ => c2 a b⟩, fun e => ?_, fun e => ?_⟩
  · obtain ⟨a, ⟨b, c⟩ | b⟩ := c3 (by rw [e]; exact hs)
    · exact ⟨a, b, c⟩
    · exact absurd (e.symm.trans (c2 a b)) hs2
  · obtain ⟨a, ⟨b, c⟩ | b⟩ := c3 (by rw [e]; exact hs')
    · exact absurd ((c1 a b c).symm.trans e) hs2
    · exact ⟨a, b⟩
  · rintro ⟨a, ⟨b, c⟩ | b⟩
    · exact hs ((c1 a b c).symm.trans e)
    · exact hs' ((c2 a b).symm.trans e)
  · by_contra hc
    exact e (c3 hc)

/-- The condition occurs on x86: the text of `x87Witness` is read as the `long double` half-way to the double below. -/
example : strtold .x87 (ascii "5.445846684475361e107") =
      .fin false ((dMag x87Witness + dMag (x87Witness - 1)) / 2) ∧ x87Witness.toNat % 2 = 1 ∧
    DFinite x87Witness ∧ ¬ DZero x87Witness := by decide +kernel
/-- It does not occur for most odd doubles, such as 0.3. -/
example : strtold .x87 (ascii "0.3") ≠ .fin false ((dMag 0x3FD3333333333333 + dMag 0x3FD3333333333332) / 2) ∧
    (0x3FD3333333333333 : UInt64).toNat % 2 = 1 ∧ lexiDouble .x87 (ascii "0.3") = 0x3FD3333333333333 := by decide +kernel

end Lexi
