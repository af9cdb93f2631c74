import Verif.Model.DiyFp
import Verif.Spec.Double
import Mathlib.Tactic.Linarith
import Mathlib.Tactic.Ring
import Mathlib.Tactic.IntervalCases

namespace Lexi

open Spec

theorem shl_toNat (x : UInt64) (n : Nat) (hn : n < 64) (h : x.toNat * 2 ^ n < 2 ^ 64) :
    (x <<< UInt64.ofNat n).toNat = x.toNat * 2 ^ n := by
  rw [UInt64.toNat_shiftLeft]
  have : (UInt64.ofNat n).toNat = n := by
    rw [UInt64.toNat_ofNat']; omega
  rw [this, Nat.mod_eq_of_lt hn, Nat.shiftLeft_eq, Nat.mod_eq_of_lt h]

theorem shr_toNat (x : UInt64) (n : Nat) (hn : n < 64) :
    (x >>> UInt64.ofNat n).toNat = x.toNat / 2 ^ n := by
  rw [UInt64.toNat_shiftRight]
  have : (UInt64.ofNat n).toNat = n := by
    rw [UInt64.toNat_ofNat']; omega
  rw [this, Nat.mod_eq_of_lt hn, Nat.shiftRight_eq_div_pow]

theorem shl64_ok (x : UInt64) (n : Nat) (hn : n < 64) : shl64 x n = .ok (x <<< UInt64.ofNat n) := by
  unfold shl64; rw [if_pos (by omega)]; simp

theorem shr64_ok (x : UInt64) (n : Nat) (hn : n < 64) : shr64 x n = .ok (x >>> UInt64.ofNat n) := by
  unfold shr64; rw [if_pos (by omega)]; simp

theorem toNat_ofNat_lt (n : Nat) (h : n < 2 ^ 64) : (UInt64.ofNat n).toNat = n := by
  rw [UInt64.toNat_ofNat']; omega

theorem toNat_and_mask (x m : UInt64) (n : Nat) (hm : m.toNat = 2 ^ n - 1) :
    (x &&& m).toNat = x.toNat % 2 ^ n := by
  rw [UInt64.toNat_and, hm, Nat.and_two_pow_sub_one_eq_mod]

theorem and_bit_ne_zero (x m : UInt64) (b : Nat) (hm : m.toNat = 2 ^ b) :
    x &&& m ≠ 0 ↔ x.toNat.testBit b = true := by
  rw [Ne, ← UInt64.toNat_inj, UInt64.toNat_and, hm]
  have h0 : UInt64.toNat 0 = 0 := rfl
  rw [h0]
  constructor
  · intro h
    by_contra hx
    apply h
    apply Nat.eq_of_testBit_eq
    intro i
    rw [Nat.testBit_and, Nat.testBit_two_pow, Nat.zero_testBit]
    by_cases hi : b = i
    · subst hi; simp only [Bool.not_eq_true] at hx; simp [hx]
    · simp [hi]
  · intro h h'
    have := Nat.testBit_and x.toNat (2 ^ b) b
    rw [h', h, Nat.testBit_two_pow_self] at this
    simp at this

/-! ### multiplication -/

namespace DiyFp

theorem mulWide_toNat (l r : DiyFp) :
    (mulWide l r).f.toNat = (l.f.toNat * r.f.toNat + 2 ^ 63) / 2 ^ 64 := by
  have ha := l.f.toNat_lt
  have hb := r.f.toNat_lt
  generalize hx : l.f.toNat = x at *
  generalize hy : r.f.toNat = y at *
  have hp : x * y ≤ (2 ^ 64 - 1) * (2 ^ 64 - 1) := Nat.mul_le_mul (by omega) (by omega)
  have hbit : (umul128 l.f r.f).2 &&& ((1 : UInt64) <<< 63) ≠ 0 ↔ (x * y % 2 ^ 64) / 2 ^ 63 = 1 := by
    rw [and_bit_ne_zero _ _ 63 (by decide)]
    simp only [umul128, UInt64.toNat_ofNat', hx, hy, Nat.testBit_eq_decide_div_mod_eq, decide_eq_true_eq]
    omega
  unfold mulWide
  simp only [hbit]
  have h1 : (umul128 l.f r.f).1.toNat = x * y / 2 ^ 64 := by
    simp only [umul128, UInt64.toNat_ofNat', hx, hy]; omega
  generalize x * y = p at *
  split
  · rw [UInt64.toNat_add, h1]
    have : (1 : UInt64).toNat = 1 := rfl
    rw [this]; omega
  · rw [h1]; omega

theorem split32 (a b : Nat) (h : b < 2 ^ 32) :
    (a * 2 ^ 32 + b) / 2 ^ 32 = a ∧ (a * 2 ^ 32 + b) % 2 ^ 32 = b := by omega

theorem mulGeneric_toNat (l r : DiyFp) :
    (mulGeneric l r).f.toNat = (l.f.toNat * r.f.toNat + 2 ^ 63) / 2 ^ 64 := by
  have ha := l.f.toNat_lt
  have hb := r.f.toNat_lt
  simp only [mulGeneric]
  have hsh : ∀ x : UInt64, (x >>> 32).toNat = x.toNat / 2 ^ 32 := fun x => shr_toNat x 32 (by omega)
  have hm : ∀ x : UInt64, (x &&& 0xFFFFFFFF).toNat = x.toNat % 2 ^ 32 := fun x => toNat_and_mask x _ 32 (by decide)
  simp only [UInt64.toNat_add, UInt64.toNat_mul, hsh, hm]
  have hc : (0x80000000 : UInt64).toNat = 2 ^ 31 := by decide
  rw [hc]
  generalize l.f.toNat = x at *
  generalize r.f.toNat = y at *
  obtain ⟨a, b, hb1, rfl⟩ : ∃ a b, b < 2 ^ 32 ∧ x = a * 2 ^ 32 + b := ⟨x / 2 ^ 32, x % 2 ^ 32, by omega, by omega⟩
  obtain ⟨c, d, hd1, rfl⟩ : ∃ c d, d < 2 ^ 32 ∧ y = c * 2 ^ 32 + d := ⟨y / 2 ^ 32, y % 2 ^ 32, by omega, by omega⟩
  obtain ⟨e1, e2⟩ := split32 a b hb1
  obtain ⟨e3, e4⟩ := split32 c d hd1
  rw [e1, e2, e3, e4]
  have hA : a < 2 ^ 32 := by omega
  have hC : c < 2 ^ 32 := by omega
  have bound : ∀ p q : Nat, p < 2 ^ 32 → q < 2 ^ 32 → p * q ≤ (2 ^ 32 - 1) * (2 ^ 32 - 1) :=
    fun p q hp hq => Nat.mul_le_mul (by omega) (by omega)
  have hac := bound a c hA hC
  have hbc := bound b c hb1 hC
  have had := bound a d hA hd1
  have hbd := bound b d hb1 hd1
  have hexp : (a * 2 ^ 32 + b) * (c * 2 ^ 32 + d) = a * c * 2 ^ 64 + (a * d + b * c) * 2 ^ 32 + b * d := by ring
  rw [hexp]
  generalize a * c = ac at *
  generalize b * c = bc at *
  generalize a * d = ad at *
  generalize b * d = bd at *
  rw [Nat.mod_eq_of_lt (show ac < 2 ^ 64 by omega), Nat.mod_eq_of_lt (show bc < 2 ^ 64 by omega),
    Nat.mod_eq_of_lt (show ad < 2 ^ 64 by omega), Nat.mod_eq_of_lt (show bd < 2 ^ 64 by omega)]
  omega

theorem mul_toNat (v : MulImpl) (l r : DiyFp) :
    (mul v l r).f.toNat = (l.f.toNat * r.f.toNat + 2 ^ 63) / 2 ^ 64 := by
  cases v <;> simp only [mul, mulWide_toNat, mulGeneric_toNat]

theorem mul_e (v : MulImpl) (l r : DiyFp) : (mul v l r).e = l.e + r.e + 64 := by
  cases v <;> rfl

/-! ### normalisation -/

theorem normClz_eq (x : DiyFp) (h : x.f ≠ 0) :
    ∃ r, normClz x = .ok r ∧ r.f.toNat = x.f.toNat * 2 ^ (63 - x.f.toNat.log2) ∧
      r.e = x.e - (63 - x.f.toNat.log2 : Nat) := by
  have hn : x.f.toNat ≠ 0 := fun h' => h (UInt64.toNat_inj.mp h')
  have hl : x.f.toNat.log2 < 64 := (Nat.log2_lt hn).2 x.f.toNat_lt
  have hc : clz x.f = .ok ((63 - x.f.toNat.log2 : Nat) : Int) := by
    unfold clz; rw [if_neg h]; congr 1; omega
  refine ⟨⟨x.f <<< UInt64.ofNat (63 - x.f.toNat.log2), x.e - (63 - x.f.toNat.log2 : Nat)⟩, ?_, ?_, rfl⟩
  · simp only [normClz, hc, Res.ok_bind, shl64_ok _ _ (show 63 - x.f.toNat.log2 < 64 by omega), Res.pure_eq]
  · apply shl_toNat _ _ (by omega)
    have := Nat.lt_log2_self (n := x.f.toNat)
    calc _ < 2 ^ (x.f.toNat.log2 + 1) * 2 ^ (63 - x.f.toNat.log2) := Nat.mul_lt_mul_of_pos_right this (by positivity)
      _ = 2 ^ 64 := by rw [← pow_add]; congr 1; omega

theorem shiftUp_eq (bit : UInt64) (b : Nat) (hb : b < 63) (hbit : bit.toNat = 2 ^ b) (k : Nat) :
    ∀ (fuel : Nat) (x : DiyFp), x.f ≠ 0 → x.f.toNat.log2 + k = b → k < fuel →
      ∃ r, shiftUp bit fuel x = .ok r ∧ r.f.toNat = x.f.toNat * 2 ^ k ∧ r.e = x.e - k := by
  induction k with
  | zero =>
    intro fuel x h0 hk hf
    obtain ⟨f, rfl⟩ : ∃ f, fuel = f + 1 := ⟨fuel - 1, by omega⟩
    have hn : x.f.toNat ≠ 0 := fun h' => h0 (UInt64.toNat_inj.mp h')
    have ht : x.f &&& bit ≠ 0 := by
      rw [and_bit_ne_zero _ _ b hbit, ← hk]
      exact Nat.testBit_log2 hn
    refine ⟨x, ?_, by simp, by simp⟩
    rw [shiftUp, if_pos ht]
  | succ k ih =>
    intro fuel x h0 hk hf
    obtain ⟨f, rfl⟩ : ∃ f, fuel = f + 1 := ⟨fuel - 1, by omega⟩
    have hn : x.f.toNat ≠ 0 := fun h' => h0 (UInt64.toNat_inj.mp h')
    have hlt : x.f.toNat < 2 ^ b := by
      apply (Nat.log2_lt hn).1; omega
    have ht : ¬ (x.f &&& bit ≠ 0) := by
      rw [and_bit_ne_zero _ _ b hbit, Nat.testBit_lt_two_pow hlt]; simp
    have hpow : 2 ^ b ≤ 2 ^ 62 := Nat.pow_le_pow_right (by omega) (by omega)
    have hs : (x.f <<< 1).toNat = x.f.toNat * 2 := by
      have := shl_toNat x.f 1 (by omega) (by omega)
      simpa using this
    have hs0 : x.f <<< 1 ≠ 0 := by
      intro h'; rw [h'] at hs
      have : (0 : UInt64).toNat = 0 := rfl
      omega
    have hlog : (x.f <<< 1).toNat.log2 = x.f.toNat.log2 + 1 := by
      rw [hs, Nat.mul_comm, Nat.log2_two_mul hn]
    obtain ⟨r, h1, h2, h3⟩ := ih f ⟨x.f <<< 1, x.e - 1⟩ hs0 (by show (x.f <<< 1).toNat.log2 + k = b; omega) (by omega)
    refine ⟨r, ?_, ?_, ?_⟩
    · rw [shiftUp, if_neg ht, h1]
    · rw [h2]; show (x.f <<< 1).toNat * 2 ^ k = _; rw [hs, pow_succ]; ring
    · rw [h3]; show x.e - 1 - _ = _; push_cast; omega

theorem normGeneric_eq (x : DiyFp) (h : x.f ≠ 0) (hlt : x.f.toNat < 2 ^ 53) :
    ∃ r, normGeneric x = .ok r ∧ r.f.toNat = x.f.toNat * 2 ^ (63 - x.f.toNat.log2) ∧
      r.e = x.e - (63 - x.f.toNat.log2 : Nat) := by
  have hn : x.f.toNat ≠ 0 := fun h' => h (UInt64.toNat_inj.mp h')
  have hl : x.f.toNat.log2 < 53 := (Nat.log2_lt hn).2 hlt
  obtain ⟨r, h1, h2, h3⟩ := shiftUp_eq HIDDEN_BIT 52 (by omega) (by decide) (52 - x.f.toNat.log2) 65 x h (by omega) (by omega)
  have hr : r.f.toNat * 2 ^ 11 < 2 ^ 64 := by
    rw [h2]
    have := Nat.lt_log2_self (n := x.f.toNat)
    calc _ < 2 ^ (x.f.toNat.log2 + 1) * 2 ^ (52 - x.f.toNat.log2) * 2 ^ 11 :=
          Nat.mul_lt_mul_of_pos_right (Nat.mul_lt_mul_of_pos_right this (by positivity)) (by positivity)
      _ = 2 ^ 64 := by rw [← pow_add, ← pow_add]; congr 1; omega
  refine ⟨⟨r.f <<< UInt64.ofNat 11, r.e - 11⟩, ?_, ?_, ?_⟩
  · have e11 : (DIY_SIGNIFICAND_SIZE - DP_SIGNIFICAND_SIZE - 1 : Int) = ((11 : Nat) : Int) := by decide
    simp only [normGeneric, h1, Res.ok_bind, e11, shl64_ok _ 11 (by omega), Res.pure_eq]
    simp
  · show (r.f <<< UInt64.ofNat 11).toNat = _
    rw [shl_toNat _ _ (by omega) hr, h2, mul_assoc, ← pow_add]
    congr 2; omega
  · show r.e - 11 = _; rw [h3]; omega

theorem boundGeneric_eq (x : DiyFp) (h : x.f ≠ 0) (hlt : x.f.toNat < 2 ^ 54) :
    ∃ r, boundGeneric x = .ok r ∧ r.f.toNat = x.f.toNat * 2 ^ (63 - x.f.toNat.log2) ∧
      r.e = x.e - (63 - x.f.toNat.log2 : Nat) := by
  have hn : x.f.toNat ≠ 0 := fun h' => h (UInt64.toNat_inj.mp h')
  have hl : x.f.toNat.log2 < 54 := (Nat.log2_lt hn).2 hlt
  obtain ⟨r, h1, h2, h3⟩ := shiftUp_eq (HIDDEN_BIT <<< 1) 53 (by omega) (by decide) (53 - x.f.toNat.log2) 65 x h (by omega) (by omega)
  have hr : r.f.toNat * 2 ^ 10 < 2 ^ 64 := by
    rw [h2]
    have := Nat.lt_log2_self (n := x.f.toNat)
    calc _ < 2 ^ (x.f.toNat.log2 + 1) * 2 ^ (53 - x.f.toNat.log2) * 2 ^ 10 :=
          Nat.mul_lt_mul_of_pos_right (Nat.mul_lt_mul_of_pos_right this (by positivity)) (by positivity)
      _ = 2 ^ 64 := by rw [← pow_add, ← pow_add]; congr 1; omega
  refine ⟨⟨r.f <<< UInt64.ofNat 10, r.e - 10⟩, ?_, ?_, ?_⟩
  · have e11 : (DIY_SIGNIFICAND_SIZE - DP_SIGNIFICAND_SIZE - 2 : Int) = ((10 : Nat) : Int) := by decide
    simp only [boundGeneric, h1, Res.ok_bind, e11, shl64_ok _ 10 (by omega), Res.pure_eq]
    simp
  · show (r.f <<< UInt64.ofNat 10).toNat = _
    rw [shl_toNat _ _ (by omega) hr, h2, mul_assoc, ← pow_add]
    congr 2; omega
  · show r.e - 10 = _; rw [h3]; omega

theorem ext_toNat {a b : DiyFp} (hf : a.f.toNat = b.f.toNat) (he : a.e = b.e) : a = b := by
  cases a; cases b; simp only at *; rw [UInt64.toNat_inj.mp hf, he]

theorem normalize_eq (v : NormImpl) (x : DiyFp) (h : x.f ≠ 0) (hlt : x.f.toNat < 2 ^ 53) :
    ∃ r, normalize v x = .ok r ∧ r.f.toNat = x.f.toNat * 2 ^ (63 - x.f.toNat.log2) ∧
      r.e = x.e - (63 - x.f.toNat.log2 : Nat) := by
  cases v
  · exact normClz_eq x h
  · exact normClz_eq x h
  · exact normGeneric_eq x h hlt

theorem normalizeBoundary_eq (v : BoundImpl) (x : DiyFp) (h : x.f ≠ 0) (hlt : x.f.toNat < 2 ^ 54) :
    ∃ r, normalizeBoundary v x = .ok r ∧ r.f.toNat = x.f.toNat * 2 ^ (63 - x.f.toNat.log2) ∧
      r.e = x.e - (63 - x.f.toNat.log2 : Nat) := by
  cases v
  · exact normClz_eq x h
  · exact boundGeneric_eq x h hlt

/-! ### decomposition of a double -/

theorem frac_toNat (u : UInt64) : (u &&& Ieee.SIGNIFICAND_MASK).toNat = dFrac u :=
  toNat_and_mask u _ 52 (by decide)

theorem exp_shift_toNat (u : UInt64) : ((u &&& Ieee.EXPONENT_MASK) >>> 52).toNat = dExp u := by
  have h := shr_toNat (u &&& Ieee.EXPONENT_MASK) 52 (by omega)
  have e : (UInt64.ofNat 52) = 52 := rfl
  rw [e] at h
  rw [h, UInt64.toNat_and, ← Nat.shiftRight_eq_div_pow, Nat.shiftRight_and_distrib]
  have h2 : Ieee.EXPONENT_MASK.toNat >>> 52 = 2 ^ 11 - 1 := by decide
  rw [h2, Nat.and_two_pow_sub_one_eq_mod, Nat.shiftRight_eq_div_pow]; rfl

theorem dFrac_lt (u : UInt64) : dFrac u < 2 ^ 52 := Nat.mod_lt _ (by norm_num)
theorem dExp_lt (u : UInt64) : dExp u < 2 ^ 11 := Nat.mod_lt _ (by norm_num)

theorem ofDouble_eq (u : UInt64) : (ofDouble u).f.toNat = dSig u ∧ (ofDouble u).e = dUlpExp u := by
  have hf := dFrac_lt u
  unfold ofDouble dSig dUlpExp
  simp only [exp_shift_toNat]
  by_cases h : dExp u = 0
  · simp only [h]
    have := frac_toNat u
    simp [this, -UInt64.toNat_and, DP_MIN_EXPONENT, DP_EXPONENT_BIAS, DP_SIGNIFICAND_SIZE]
  · have h' : ((dExp u : Nat) : Int) ≠ 0 := by exact_mod_cast h
    simp only [h, h', ne_eq, not_false_eq_true, if_true, if_false]
    refine ⟨?_, by simp [DP_EXPONENT_BIAS, DP_SIGNIFICAND_SIZE]⟩
    rw [UInt64.toNat_add, frac_toNat]
    have : HIDDEN_BIT.toNat = 2 ^ 52 := by decide
    rw [this, Nat.mod_eq_of_lt (by omega)]; omega

theorem dSig_lt (u : UInt64) : dSig u < 2 ^ 53 := by
  have := dFrac_lt u
  unfold dSig; split <;> omega

theorem dSig_pos {u : UInt64} (h : ¬ DZero u) : 0 < dSig u := by
  unfold dSig DZero at *
  split <;> omega

end DiyFp

end Lexi

namespace Lexi.DiyFp

open Spec

theorem log2_eq_of {n k : Nat} (h1 : 2 ^ k ≤ n) (h2 : n < 2 ^ (k + 1)) : n.log2 = k := by
  have hn : n ≠ 0 := by
    have : 0 < 2 ^ k := by positivity
    omega
  exact (Nat.log2_eq_iff hn).2 ⟨h1, h2⟩

theorem log2_two_mul_add_one (f : Nat) (h : f ≠ 0) : (2 * f + 1).log2 = f.log2 + 1 := by
  have h1 := Nat.log2_self_le h
  have h2 := Nat.lt_log2_self (n := f)
  apply log2_eq_of
  · rw [pow_succ]; omega
  · rw [pow_succ] at *; omega

/-- Lower boundary significand at the common exponent, `s = 63 - log2 f`. -/
def miSig (f s : Nat) : Nat := if f = 2 ^ 52 then (4 * f - 1) * 2 ^ (s - 2) else (2 * f - 1) * 2 ^ (s - 1)

theorem normalizedBoundaries_eq (v : BoundImpl) (u : UInt64) (h : ¬ DZero u) (s : Nat)
    (hs : s = 63 - (dSig u).log2) :
    ∃ mi pl, normalizedBoundaries v (ofDouble u) = .ok (mi, pl) ∧
      pl.f.toNat = (2 * dSig u + 1) * 2 ^ (s - 1) ∧ pl.e = dUlpExp u - s ∧
      mi.f.toNat = miSig (dSig u) s ∧ mi.e = dUlpExp u - s := by
  obtain ⟨hf, he⟩ := ofDouble_eq u
  have hlt := dSig_lt u
  have hpos := dSig_pos h
  generalize hx : ofDouble u = x at *
  generalize hF : dSig u = f at *
  generalize hE : dUlpExp u = e at *
  have hl : f.log2 < 53 := (Nat.log2_lt (by omega)).2 hlt
  have hself := Nat.lt_log2_self (n := f)
  have hself2 : f * 2 ^ s < 2 ^ 64 := by
    calc _ < 2 ^ (f.log2 + 1) * 2 ^ s := Nat.mul_lt_mul_of_pos_right hself (by positivity)
      _ = 2 ^ 64 := by rw [← pow_add]; congr 1; omega
  have sh1 : (x.f <<< 1).toNat = 2 * f := by
    have := shl_toNat x.f 1 (by omega) (by omega)
    rw [hf] at this; simpa [mul_comm] using this
  have sh2 : (x.f <<< 2).toNat = 4 * f := by
    have := shl_toNat x.f 2 (by omega) (by omega)
    rw [hf] at this; simpa [mul_comm] using this
  have hp : ((x.f <<< 1) + 1).toNat = 2 * f + 1 := by
    rw [UInt64.toNat_add, sh1]
    have : (1 : UInt64).toNat = 1 := rfl
    rw [this]; omega
  have one_t : (1 : UInt64).toNat = 1 := rfl
  obtain ⟨pl, p1, p2, p3⟩ := normalizeBoundary_eq v ⟨(x.f <<< 1) + 1, x.e - 1⟩
    (by intro h'; simp only at h'; rw [h'] at hp; have : (0 : UInt64).toNat = 0 := rfl; omega)
    (by show ((x.f <<< 1) + 1).toNat < _; omega)
  simp only [hp, log2_two_mul_add_one f (by omega)] at p2 p3
  have e1 : 63 - (f.log2 + 1) = s - 1 := by omega
  rw [e1] at p2 p3
  have hple : pl.e = e - s := by rw [p3, he]; omega
  unfold normalizedBoundaries
  rw [p1]
  have hhb : HIDDEN_BIT.toNat = 2 ^ 52 := by decide
  have hmid : ∀ (m : Nat) (t : Nat), 0 < t → t ≤ 2 → m + 1 = t * 2 * f → m * 2 ^ (s - t) < 2 ^ 64 := by
    intro m t h0 h2 hm
    have h3 : m + 1 = 2 ^ t * f := by
      have : t * 2 = 2 ^ t := by interval_cases t <;> rfl
      rw [this] at hm; exact hm
    have h4 : (m + 1) * 2 ^ (s - t) = f * 2 ^ s := by
      rw [h3, mul_comm (2 ^ t), mul_assoc, ← pow_add]; congr 2; omega
    have h5 : m * 2 ^ (s - t) ≤ (m + 1) * 2 ^ (s - t) := Nat.mul_le_mul_right _ (by omega)
    omega
  by_cases hb : x.f = HIDDEN_BIT
  · have hf52 : f = 2 ^ 52 := by rw [← hf, hb, hhb]
    have hm : ((x.f <<< 2) - 1).toNat = 4 * f - 1 := by
      rw [UInt64.toNat_sub_of_le _ _ (by rw [UInt64.le_iff_toNat_le, sh2, one_t]; omega), sh2, one_t]
    have hsub : x.e - 2 - pl.e = ((s - 2 : Nat) : Int) := by rw [hple, he]; omega
    refine ⟨⟨((x.f <<< 2) - 1) <<< UInt64.ofNat (s - 2), pl.e⟩, pl, ?_, p2, hple, ?_, hple⟩
    · simp only [Res.ok_bind, hb, if_true]
      rw [hsub, shl64_ok _ _ (by omega)]; rfl
    · show (((x.f <<< 2) - 1) <<< UInt64.ofNat (s - 2)).toNat = _
      rw [shl_toNat _ _ (by omega) (by rw [hm]; exact hmid _ 2 (by omega) (by omega) (by omega)), hm]
      rw [miSig, if_pos hf52]
  · have hf52 : f ≠ 2 ^ 52 := by
      intro h'; apply hb; apply UInt64.toNat_inj.mp; rw [hf, hhb, h']
    have hm : ((x.f <<< 1) - 1).toNat = 2 * f - 1 := by
      rw [UInt64.toNat_sub_of_le _ _ (by rw [UInt64.le_iff_toNat_le, sh1, one_t]; omega), sh1, one_t]
    have hsub : x.e - 1 - pl.e = ((s - 1 : Nat) : Int) := by rw [hple, he]; omega
    refine ⟨⟨((x.f <<< 1) - 1) <<< UInt64.ofNat (s - 1), pl.e⟩, pl, ?_, p2, hple, ?_, hple⟩
    · simp only [Res.ok_bind, hb, if_false]
      rw [hsub, shl64_ok _ _ (by omega)]; rfl
    · show (((x.f <<< 1) - 1) <<< UInt64.ofNat (s - 1)).toNat = _
      rw [shl_toNat _ _ (by omega) (by rw [hm]; exact hmid _ 1 (by omega) (by omega) (by omega)), hm]
      rw [miSig, if_neg hf52]

end Lexi.DiyFp
