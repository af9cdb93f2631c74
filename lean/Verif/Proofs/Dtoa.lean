import Verif.Proofs.Grisu
import Verif.Proofs.Pretty
import Mathlib.Tactic.NormNum

/-! # dtoa on finite doubles, at the memory level -/

namespace Lexi.Dtoa
open Spec DiyFp

theorem decN_length_bounds (n : Nat) (h : 0 < n) :
    10 ^ ((decN n).length - 1) ≤ n ∧ n < 10 ^ (decN n).length := by
  induction n using Nat.strongRecOn with
  | _ n ih =>
    by_cases h9 : n < 10
    · rw [decN_lt10 n h9]; simp; omega
    · rw [decN, dif_neg h9]
      have := ih (n / 10) (by omega) (by omega)
      have hl : 0 < (decN (n / 10)).length := List.length_pos_iff.mpr (decN_ne_nil _)
      rw [List.length_append, List.length_singleton, Nat.add_sub_cancel, pow_succ]
      have e : (decN (n / 10)).length = (decN (n / 10)).length - 1 + 1 := by omega
      refine ⟨?_, by omega⟩
      rw [e, pow_succ]; omega

theorem decimalText_length_small (k : Int) (h1 : -1000 < k) (h2 : k < 1000) :
    (decimalText k).length ≤ 4 := by
  by_cases h : k < 0
  · rw [decimalText_neg k h, List.length_cons]
    have := decN_length_le 3 k.natAbs (by omega) (by omega)
    omega
  · rw [decimalText_nonneg k (by omega)]
    have := decN_length_le 3 k.natAbs (by omega) (by omega)
    omega

theorem prettyText_length (ds : Bytes) (k : Int) (h0 : ds ≠ []) (h : ds.length ≤ 17)
    (h1 : -999 < ds.length + k) (h2 : (ds.length : Int) + k < 1000) :
    (prettyText ds k).length ≤ 24 := by
  have hpos := List.length_pos_iff.mpr h0
  have hd := decimalText_length_small (ds.length + k - 1) (by omega) (by omega)
  unfold prettyText
  dsimp only
  split
  · simp; omega
  · split
    · simp; omega
    · split
      · simp; omega
      · split
        · simp; omega
        · simp; omega

/-- What is known about the digits and exponent printed for a double. -/
structure Printed (u : UInt64) (D : Nat) (k : ℤ) : Prop where
  lt17 : D < 10 ^ 17
  lower : lowB u < D * 10 ^ k
  upper : (D : ℚ) * 10 ^ k < highB u
  short : ∀ (m : ℕ) (j : ℤ), k < j → ¬ (lowB u + 2 ^ (dUlpExp u - 8) < (m : ℚ) * 10 ^ j ∧
    (m : ℚ) * 10 ^ j < highB u - 2 ^ (dUlpExp u - 8))
  few : D < 10 ^ 10 → -cachedK u - 9 ≤ k
  close : -cachedK u - 9 ≤ k → ∀ m : ℕ, lowB u + 2 ^ (dUlpExp u - 8) < (m : ℚ) * 10 ^ k →
    (m : ℚ) * 10 ^ k < highB u - 2 ^ (dUlpExp u - 8) →
    |(D : ℚ) * 10 ^ k - dSig u * 2 ^ dUlpExp u| ≤ |(m : ℚ) * 10 ^ k - dSig u * 2 ^ dUlpExp u| + 2 ^ (dUlpExp u - 8)
  inLower : lowB u + 2 ^ innerExp u ≤ D * 10 ^ k
  inUpper : (D : ℚ) * 10 ^ k ≤ highB u - 2 ^ innerExp u

theorem lowB_pos {u : UInt64} (hnz : ¬ DZero u) : 0 < lowB u := by
  have := dSig_pos hnz
  unfold lowB
  split
  · have h : (0 : ℚ) < (4 * dSig u - 1 : ℕ) := by exact_mod_cast (by omega : 0 < 4 * dSig u - 1)
    positivity
  · have h : (0 : ℚ) < (2 * dSig u - 1 : ℕ) := by exact_mod_cast (by omega : 0 < 2 * dSig u - 1)
    positivity

theorem ulpExp_bounds (u : UInt64) (hfin : DFinite u) : -1074 ≤ dUlpExp u ∧ dUlpExp u ≤ 971 := by
  have := dExp_lt u
  unfold DFinite at hfin
  unfold dUlpExp
  split <;> omega

theorem lowB_ge {u : UInt64} (hfin : DFinite u) (hnz : ¬ DZero u) : (2 : ℚ) ^ (-1075 : ℤ) ≤ lowB u := by
  have h0 := dSig_pos hnz
  have hb := ulpExp_bounds u hfin
  unfold lowB
  split
  · rename_i h
    rw [h]
    have e1 : (2 : ℚ) ^ (-1076 : ℤ) ≤ 2 ^ (dUlpExp u - 2) := zpow_le_zpow_right₀ (by norm_num) (by omega)
    have e2 : (2 : ℚ) ^ (-1075 : ℤ) = 2 ^ (-1076 : ℤ) * 2 := by
      rw [← zpow_add_one₀ (by norm_num)]; norm_num
    have e3 : (2 : ℚ) ≤ ((4 * 2 ^ 52 - 1 : ℕ) : ℚ) := by norm_num
    have : (0 : ℚ) < 2 ^ (-1076 : ℤ) := by positivity
    rw [e2]
    nlinarith
  · have e1 : (2 : ℚ) ^ (-1075 : ℤ) ≤ 2 ^ (dUlpExp u - 1) := zpow_le_zpow_right₀ (by norm_num) (by omega)
    have e3 : (1 : ℚ) ≤ ((2 * dSig u - 1 : ℕ) : ℚ) := by exact_mod_cast (by omega : 1 ≤ 2 * dSig u - 1)
    have : (0 : ℚ) < 2 ^ (-1075 : ℤ) := by positivity
    nlinarith

theorem highB_lt {u : UInt64} (hfin : DFinite u) : highB u ≤ (2 ^ 54 - 1) * 2 ^ (970 : ℤ) := by
  have h0 := dSig_lt u
  have hb := ulpExp_bounds u hfin
  unfold highB
  have e1 : (2 : ℚ) ^ (dUlpExp u - 1) ≤ 2 ^ (970 : ℤ) := zpow_le_zpow_right₀ (by norm_num) (by omega)
  have e2 : ((2 * dSig u + 1 : ℕ) : ℚ) ≤ ((2 ^ 54 - 1 : ℕ) : ℚ) := by exact_mod_cast (by omega)
  have e3 : ((2 ^ 54 - 1 : ℕ) : ℚ) = 2 ^ 54 - 1 := by norm_num
  rw [e3] at e2
  exact mul_le_mul e2 e1 (by positivity) (by norm_num)

theorem Printed.pos {u : UInt64} {D : Nat} {k : ℤ} (hnz : ¬ DZero u) (h : Printed u D k) : 0 < D := by
  rcases Nat.eq_zero_or_pos D with rfl | h'
  · have := h.lower
    have h2 := lowB_pos hnz
    simp at this
    linarith
  · exact h'

/-- Decimal exponent of a positive numeral `D * 10^k`. -/
theorem value_bounds (D : Nat) (k : ℤ) (hD : 0 < D) :
    (10 : ℚ) ^ ((decN D).length + k - 1 : ℤ) ≤ D * 10 ^ k ∧ (D : ℚ) * 10 ^ k < 10 ^ ((decN D).length + k : ℤ) := by
  obtain ⟨h1, h2⟩ := decN_length_bounds D hD
  have hl : 0 < (decN D).length := List.length_pos_iff.mpr (decN_ne_nil _)
  have hz : (0 : ℚ) < 10 ^ k := by positivity
  constructor
  · have e : ((decN D).length + k - 1 : ℤ) = (((decN D).length - 1 : ℕ) : ℤ) + k := by omega
    rw [e, zpow_add₀ (by norm_num), zpow_natCast]
    exact mul_le_mul_of_nonneg_right (by exact_mod_cast h1) hz.le
  · rw [zpow_add₀ (by norm_num), zpow_natCast]
    exact mul_lt_mul_of_pos_right (by exact_mod_cast h2) hz

theorem Printed.kk {u : UInt64} {D : Nat} {k : ℤ} (hfin : DFinite u) (hnz : ¬ DZero u) (h : Printed u D k) :
    -323 ≤ (decN D).length + k ∧ (decN D).length + k ≤ 309 := by
  obtain ⟨h1, h2⟩ := value_bounds D k (h.pos hnz)
  have hlo : (10 : ℚ) ^ (-324 : ℤ) < 10 ^ ((decN D).length + k : ℤ) := by
    have e : (10 : ℚ) ^ (-324 : ℤ) < 2 ^ (-1075 : ℤ) := by
      rw [zpow_neg, zpow_neg, inv_lt_inv₀ (by positivity) (by positivity)]
      exact_mod_cast (by decide +kernel : (2 : ℕ) ^ 1075 < 10 ^ 324)
    exact (e.trans_le (lowB_ge hfin hnz)).trans (h.lower.trans h2)
  have hhi : (10 : ℚ) ^ ((decN D).length + k - 1 : ℤ) < 10 ^ (309 : ℤ) := by
    have e : ((2 : ℚ) ^ 54 - 1) * 2 ^ (970 : ℤ) < 10 ^ (309 : ℤ) := by
      have e1 : ((2 : ℚ) ^ 54 - 1) * 2 ^ (970 : ℤ) < 2 ^ 54 * 2 ^ (970 : ℤ) :=
        mul_lt_mul_of_pos_right (by norm_num) (by positivity)
      have e2 : (2 : ℚ) ^ 54 * 2 ^ (970 : ℤ) < 10 ^ (309 : ℤ) := by
        exact_mod_cast (by decide +kernel : (2 : ℕ) ^ 54 * 2 ^ 970 < 10 ^ 309)
      exact e1.trans e2
    exact (h1.trans_lt h.upper).trans_le ((highB_lt hfin).trans e.le)
  have a := (zpow_lt_zpow_iff_right₀ (by norm_num)).mp hlo
  have b := (zpow_lt_zpow_iff_right₀ (by norm_num)).mp hhi
  omega

theorem Printed.text_length {u : UInt64} {D : Nat} {k : ℤ} (hfin : DFinite u) (hnz : ¬ DZero u)
    (h : Printed u D k) : (prettyText (decN D) k).length ≤ 24 := by
  have hk := h.kk hfin hnz
  exact prettyText_length _ _ (decN_ne_nil _) (decN_length_le 17 D h.lt17 (by omega)) (by omega) (by omega)

/-! ## Signs -/

/-- The double with the sign bit cleared. -/
def dAbs (u : UInt64) : UInt64 := UInt64.ofNat (u.toNat % 2 ^ 63)

theorem dAbs_toNat (u : UInt64) : (dAbs u).toNat = u.toNat % 2 ^ 63 :=
  toNat_ofNat_lt _ (by have := u.toNat_lt; omega)

theorem dExp_abs (u : UInt64) : dExp (dAbs u) = dExp u := by
  unfold dExp; rw [dAbs_toNat]; omega
theorem dFrac_abs (u : UInt64) : dFrac (dAbs u) = dFrac u := by
  unfold dFrac; rw [dAbs_toNat]; omega
theorem dAbs_not_neg (u : UInt64) : ¬ dNeg (dAbs u) := by
  unfold dNeg; rw [dAbs_toNat]; omega
theorem dSig_abs (u : UInt64) : dSig (dAbs u) = dSig u := by unfold dSig; rw [dExp_abs, dFrac_abs]
theorem dUlpExp_abs (u : UInt64) : dUlpExp (dAbs u) = dUlpExp u := by unfold dUlpExp; rw [dExp_abs]
theorem dMag_abs (u : UInt64) : dMag (dAbs u) = dMag u := by unfold dMag; rw [dSig_abs, dUlpExp_abs]
theorem lowB_abs (u : UInt64) : lowB (dAbs u) = lowB u := by unfold lowB; rw [dSig_abs, dUlpExp_abs]
theorem highB_abs (u : UInt64) : highB (dAbs u) = highB u := by unfold highB; rw [dSig_abs, dUlpExp_abs]
theorem cachedK_abs (u : UInt64) : cachedK (dAbs u) = cachedK u := by unfold cachedK; rw [dSig_abs, dUlpExp_abs]
theorem innerExp_abs (u : UInt64) : innerExp (dAbs u) = innerExp u := by unfold innerExp; rw [dSig_abs, dUlpExp_abs]
theorem printed_abs {u : UInt64} {D : Nat} {k : ℤ} : Printed (dAbs u) D k ↔ Printed u D k :=
  ⟨fun h => ⟨h.lt17, by rw [← lowB_abs]; exact h.lower, by rw [← highB_abs]; exact h.upper,
      by rw [← lowB_abs, ← highB_abs, ← dUlpExp_abs]; exact h.short, by rw [← cachedK_abs]; exact h.few,
      by rw [← cachedK_abs, ← lowB_abs, ← highB_abs, ← dUlpExp_abs, ← dSig_abs]; exact h.close,
      by rw [← lowB_abs, ← innerExp_abs]; exact h.inLower, by rw [← highB_abs, ← innerExp_abs]; exact h.inUpper⟩,
    fun h => ⟨h.lt17, by rw [lowB_abs]; exact h.lower, by rw [highB_abs]; exact h.upper,
      by rw [lowB_abs, highB_abs, dUlpExp_abs]; exact h.short, by rw [cachedK_abs]; exact h.few,
      by rw [cachedK_abs, lowB_abs, highB_abs, dUlpExp_abs, dSig_abs]; exact h.close,
      by rw [lowB_abs, innerExp_abs]; exact h.inLower, by rw [highB_abs, innerExp_abs]; exact h.inUpper⟩⟩
theorem finite_abs {u : UInt64} : DFinite (dAbs u) ↔ DFinite u := by unfold DFinite; rw [dExp_abs]
theorem zero_abs {u : UInt64} : DZero (dAbs u) ↔ DZero u := by unfold DZero; rw [dExp_abs, dFrac_abs]

theorem dAbs_of_not_neg {u : UInt64} (h : ¬ dNeg u) : dAbs u = u := by
  apply UInt64.toNat_inj.mp
  rw [dAbs_toNat]; unfold dNeg at h; omega

theorem neg_toNat (u : UInt64) : (Ieee.neg u).toNat = if dNeg u then u.toNat - 2 ^ 63 else u.toNat + 2 ^ 63 := by
  unfold Ieee.neg
  have hu := u.toNat_lt
  rw [UInt64.toNat_xor]
  have hs : Ieee.SIGN_MASK.toNat = 2 ^ 63 := rfl
  rw [hs]
  apply Nat.eq_of_testBit_eq
  intro i
  rw [Nat.testBit_xor, Nat.testBit_two_pow]
  by_cases h : dNeg u
  · rw [if_pos h]
    unfold dNeg at h
    obtain ⟨v, hv, hvlt⟩ : ∃ v, u.toNat = 2 ^ 63 + v ∧ v < 2 ^ 63 := ⟨u.toNat - 2 ^ 63, by omega, by omega⟩
    rw [hv]
    have e : 2 ^ 63 + v - 2 ^ 63 = v := by omega
    rw [e]
    rcases Nat.lt_trichotomy i 63 with hi | rfl | hi
    · have h63 : ¬ (63 = i) := by omega
      rw [Nat.testBit_two_pow_add_gt hi, decide_eq_false h63, Bool.xor_false]
    · rw [Nat.testBit_two_pow_add_eq, Nat.testBit_lt_two_pow hvlt]; simp
    · have h2 : 2 ^ 63 + v < 2 ^ i := lt_of_lt_of_le (by omega : _ < 2 ^ 64) (Nat.pow_le_pow_right (by omega) (by omega))
      rw [Nat.testBit_lt_two_pow h2, Nat.testBit_lt_two_pow (by omega)]
      simp; omega
  · rw [if_neg h]
    unfold dNeg at h
    have hvlt : u.toNat < 2 ^ 63 := by omega
    rw [Nat.add_comm]
    rcases Nat.lt_trichotomy i 63 with hi | rfl | hi
    · have h63 : ¬ (63 = i) := by omega
      rw [Nat.testBit_two_pow_add_gt hi, decide_eq_false h63, Bool.xor_false]
    · rw [Nat.testBit_two_pow_add_eq, Nat.testBit_lt_two_pow hvlt]; simp
    · have h2 : 2 ^ 63 + u.toNat < 2 ^ i := lt_of_lt_of_le (by omega : _ < 2 ^ 64) (Nat.pow_le_pow_right (by omega) (by omega))
      rw [Nat.testBit_lt_two_pow h2, Nat.testBit_lt_two_pow (by omega)]
      simp; omega

theorem dAbs_of_neg {u : UInt64} (h : dNeg u) : dAbs u = Ieee.neg u := by
  apply UInt64.toNat_inj.mp
  rw [dAbs_toNat, neg_toNat, if_pos h]
  have := u.toNat_lt
  unfold dNeg at h; omega

theorem neg_neg (u : UInt64) : Ieee.neg (Ieee.neg u) = u := by
  unfold Ieee.neg; rw [UInt64.xor_assoc, UInt64.xor_self, UInt64.xor_zero]

theorem eqZero_iff (u : UInt64) : Ieee.eqZero u = true ↔ DZero u := by
  unfold Ieee.eqZero
  rw [beq_iff_eq, ← UInt64.toNat_inj, toNat_and_mask u _ 63 rfl]
  unfold DZero dExp dFrac
  have := u.toNat_lt
  show _ = 0 ↔ _
  omega

theorem ltZero_iff {u : UInt64} (h : ¬ DZero u) : Ieee.ltZero u = true ↔ dNeg u := by
  unfold Ieee.ltZero
  have h0 : Ieee.eqZero u = false := by
    rw [Bool.eq_false_iff]; exact fun h' => h ((eqZero_iff u).mp h')
  rw [h0, Bool.not_false, Bool.and_true, bne_iff_ne]
  rw [and_bit_ne_zero u _ 63 rfl, Nat.testBit_eq_decide_div_mod_eq, decide_eq_true_iff]
  unfold dNeg
  have := u.toNat_lt
  omega

/-! ## dtoa -/

/-- The environment assumptions: `dk` within its error bound, out-of-range reads give some word. -/
structure EnvOk (env : Env) : Prop where
  dk : DkOk env.dk
  oob : ∀ j, 10 ≤ j → j ≤ 18 → ∃ w, env.oob j = .ok w

theorem at_prepend (M : Bytes) (base : Nat) (p q : Bytes) (h : base + p.length ≤ M.length) :
    (at_ (at_ M base p).mem (base + p.length) q).mem = (at_ M base (p ++ q)).mem := by
  have hb : (M.take base).length = base := by simp; omega
  have hl : (M.take base ++ p).length = base + p.length := by simp; omega
  unfold at_
  dsimp only
  have e1 : (M.take base ++ p ++ M.drop (base + p.length)).take (base + p.length) = M.take base ++ p := by
    rw [← hl, List.take_left]
  have e2 : (M.take base ++ p ++ M.drop (base + p.length)).drop (base + p.length + q.length)
      = M.drop (base + (p ++ q).length) := by
    rw [List.drop_append, hl, List.drop_eq_nil_of_le (by omega)]
    simp only [List.nil_append, List.drop_drop, List.length_append]
    congr 1; omega
  rw [e1, e2]; simp

/-- `dtoa` on a positive finite double and on its negation: one digit string and exponent, chosen
independently of the memory; the text and its NUL are written at `base`, nothing else changes, and the
returned pointer is the NUL. -/
theorem dtoa_spec (env : Env) (henv : EnvOk env) (u : UInt64) (hfin : DFinite u) (hnz : ¬ DZero u)
    (hpos : ¬ dNeg u) :
    ∃ D k, Printed u D k ∧
      (∀ M base, base + 25 ≤ M.length → dtoa env u ⟨M, base⟩ =
        .ok ⟨(at_ M base (prettyText (decN D) k ++ [0])).mem, base + (prettyText (decN D) k).length⟩) ∧
      (∀ M base, base + 26 ≤ M.length → dtoa env (Ieee.neg u) ⟨M, base⟩ =
        .ok ⟨(at_ M base (45 :: prettyText (decN D) k ++ [0])).mem,
          base + (45 :: prettyText (decN D) k).length⟩) ∧
      (∀ M base, base + 17 ≤ M.length → grisu2 env u ⟨M, base⟩ = .ok (at_ M base (decN D), k)) := by
  obtain ⟨D, k, hD, hlo, hhi, hsh, hfew, hcl, hil, hiu, hg⟩ := grisu2_spec env henv.dk henv.oob u hfin hnz
  have hP : Printed u D k := ⟨hD, hlo, hhi, hsh, hfew, fun h => hcl (Or.inl h), hil, hiu⟩
  have hkk := hP.kk hfin hnz
  have hlen := hP.text_length hfin hnz
  have hdl := decN_length_le 17 D hD (by omega)
  have core : ∀ M base, base + 25 ≤ M.length →
      (grisu2 env u ⟨M, base⟩ >>= fun r => prettify r.1.mem base ((r.1.pos - base : Nat) : Int) r.2) =
        .ok ⟨(at_ M base (prettyText (decN D) k ++ [0])).mem, base + (prettyText (decN D) k).length⟩ := by
    intro M base hM
    rw [hg M base (by omega), Res.ok_bind]
    have : (at_ M base (decN D)).pos - base = (decN D).length := by simp [at_]
    dsimp only
    rw [this]
    exact prettify_spec M base (decN D) k (decN_ne_nil _) (by omega) (by omega) (by omega) (by omega)
  have hz : Ieee.eqZero u = false := by
    rw [Bool.eq_false_iff]; exact fun h' => hnz ((eqZero_iff u).mp h')
  have hlt : Ieee.ltZero u = false := by
    rw [Bool.eq_false_iff]; exact fun h' => hpos ((ltZero_iff hnz).mp h')
  refine ⟨D, k, hP, ?_, ?_, hg⟩
  · intro M base hM
    unfold dtoa
    rw [hz, hlt]
    exact core M base hM
  · intro M base hM
    have hn : dNeg (Ieee.neg u) := by
      unfold dNeg; rw [neg_toNat, if_neg hpos]; omega
    have habs : dAbs (Ieee.neg u) = u := by rw [dAbs_of_neg hn, neg_neg]
    have hnz' : ¬ DZero (Ieee.neg u) := by rw [← zero_abs, habs]; exact hnz
    have hz' : Ieee.eqZero (Ieee.neg u) = false := by
      rw [Bool.eq_false_iff]; exact fun h' => hnz' ((eqZero_iff _).mp h')
    have hlt' : Ieee.ltZero (Ieee.neg u) = true := (ltZero_iff hnz').mpr hn
    unfold dtoa
    rw [hz', hlt', neg_neg]
    have hput : (⟨M, base⟩ : Cur).put 45 = .ok (at_ M base [45]) := by
      have h := at_put M base [] 45 (by simp; omega)
      have e : at_ M base [] = ⟨M, base⟩ := by simp [at_]
      rw [e] at h; simpa using h
    simp only [hput, Res.ok_bind, Res.pure_eq, if_true, Bool.false_eq_true, if_false]
    have hpos1 : (at_ M base [45]).pos = base + 1 := by simp [at_]
    have hml : (at_ M base [45]).mem.length = M.length := by simp [at_]; omega
    have := core (at_ M base [45]).mem (base + 1) (by omega)
    have e : (⟨(at_ M base [45]).mem, base + 1⟩ : Cur) = at_ M base [45] := by rw [← hpos1]
    rw [e] at this
    rw [hpos1]
    refine Eq.trans this ?_
    have h2 := at_prepend M base [45] (prettyText (decN D) k ++ [0]) (by simp; omega)
    simp only [List.length_singleton, List.singleton_append] at h2
    rw [h2]
    simp only [List.cons_append, List.length_cons]
    congr 2
    omega

/-- `dtoa` on the zeros. -/
theorem dtoa_zero (env : Env) (u : UInt64) (hz : DZero u) (M : Bytes) (base : Nat) (hM : base + 4 ≤ M.length) :
    dtoa env u ⟨M, base⟩ = .ok ⟨(at_ M base ([48, 46, 48] ++ [0])).mem, base + 3⟩ := by
  unfold dtoa
  rw [(eqZero_iff u).mpr hz]
  simp only [if_true]
  have e0 : (⟨M, base⟩ : Cur) = at_ M base [] := by simp [at_]
  rw [e0, at_put M base [] 48 (by simp; omega)]
  simp only [Res.ok_bind, List.nil_append]
  rw [at_put M base [48] 46 (by simp; omega)]
  simp only [Res.ok_bind, List.cons_append, List.nil_append]
  rw [at_put M base _ 48 (by simp; omega)]
  simp only [Res.ok_bind, List.cons_append, List.nil_append]
  rw [at_put M base _ 0 (by simp; omega)]
  simp only [Res.ok_bind, List.cons_append, List.nil_append, Res.pure_eq]
  rfl

end Lexi.Dtoa
