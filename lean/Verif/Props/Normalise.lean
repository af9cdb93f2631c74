import Verif.Proofs.DiyFp
import Mathlib.Tactic.Ring

/-!
# Normalising any extended-precision number: C88
-/

namespace Lexi
open DiyFp

theorem and_bit_mod (f bit : UInt64) (b : ℕ) (hbit : bit.toNat = 2 ^ b) :
    f &&& bit ≠ 0 ↔ 2 ^ b ≤ f.toNat % 2 ^ (b + 1) := by
  rw [and_bit_ne_zero _ _ b hbit, Nat.testBit_eq_decide_div_mod_eq, decide_eq_true_eq, pow_succ,
    Nat.mod_mul]
  have h1 := Nat.mod_lt f.toNat (show 0 < 2 ^ b by positivity)
  rcases Nat.mod_two_eq_zero_or_one (f.toNat / 2 ^ b) with h | h <;> rw [h]
  · simpa using h1
  · simp

theorem shl1_mod (f : UInt64) (b : ℕ) (hb : b < 63) :
    (f <<< 1).toNat % 2 ^ (b + 1) = 2 * (f.toNat % 2 ^ (b + 1)) % 2 ^ (b + 1) := by
  have : (f <<< 1).toNat = 2 * f.toNat % 2 ^ 64 := by
    rw [UInt64.toNat_shiftLeft, Nat.shiftLeft_eq]; simp [Nat.mul_comm]
  rw [this, Nat.mod_mod_of_dvd _ (Nat.pow_dvd_pow 2 (by omega)), Nat.mul_mod_mod]

/-- The loop never ends when no bit up to the wanted one is set. -/
theorem shiftUp_ub (bit : UInt64) (b : ℕ) (hb : b < 63) (hbit : bit.toNat = 2 ^ b) :
    ∀ (fuel : ℕ) (x : DiyFp), x.f.toNat % 2 ^ (b + 1) = 0 → shiftUp bit fuel x = .ub := by
  intro fuel
  induction fuel with
  | zero => intro x _; rfl
  | succ n ih =>
    intro x h
    have hp : 0 < 2 ^ b := by positivity
    rw [shiftUp, if_neg]
    · exact ih _ (by show (x.f <<< 1).toNat % 2 ^ (b + 1) = 0; rw [shl1_mod _ _ hb, h]; simp)
    · rw [and_bit_mod _ _ b hbit, h]; omega

/-- Otherwise it stops with the highest of these bits in place; the bits above are shifted out or stay. -/
theorem shiftUp_all (bit : UInt64) (b : ℕ) (hb : b < 63) (hbit : bit.toNat = 2 ^ b) (k : ℕ) :
    ∀ (fuel : ℕ) (x : DiyFp), x.f.toNat % 2 ^ (b + 1) ≠ 0 → (x.f.toNat % 2 ^ (b + 1)).log2 + k = b → k < fuel →
      ∃ r, shiftUp bit fuel x = .ok r ∧ r.f.toNat = x.f.toNat * 2 ^ k % 2 ^ 64 ∧ r.e = x.e - k := by
  induction k with
  | zero =>
    intro fuel x h0 hk hf
    obtain ⟨n, rfl⟩ : ∃ n, fuel = n + 1 := ⟨fuel - 1, by omega⟩
    refine ⟨x, ?_, ?_, by simp⟩
    · rw [shiftUp, if_pos]
      rw [and_bit_mod _ _ b hbit]
      have := Nat.log2_self_le h0
      rwa [show (x.f.toNat % 2 ^ (b + 1)).log2 = b by omega] at this
    · have := x.f.toNat_lt
      rw [pow_zero, mul_one, Nat.mod_eq_of_lt this]
  | succ k ih =>
    intro fuel x h0 hk hf
    obtain ⟨n, rfl⟩ : ∃ n, fuel = n + 1 := ⟨fuel - 1, by omega⟩
    set t := x.f.toNat % 2 ^ (b + 1) with ht
    have hlt : t < 2 ^ b := (Nat.log2_lt h0).1 (by omega)
    have h2t : (x.f <<< 1).toNat % 2 ^ (b + 1) = 2 * t := by
      rw [shl1_mod _ _ hb, ← ht, Nat.mod_eq_of_lt]; rw [pow_succ]; omega
    obtain ⟨r, r1, r2, r3⟩ := ih n ⟨x.f <<< 1, x.e - 1⟩ (by show (x.f <<< 1).toNat % _ ≠ 0; rw [h2t]; omega)
      (by show ((x.f <<< 1).toNat % 2 ^ (b + 1)).log2 + k = b; rw [h2t, Nat.log2_two_mul h0]; omega) (by omega)
    refine ⟨r, ?_, ?_, ?_⟩
    · rw [shiftUp, if_neg, r1]
      rw [and_bit_mod _ _ b hbit]; omega
    · rw [r2]
      show (x.f <<< 1).toNat * 2 ^ k % 2 ^ 64 = _
      have : (x.f <<< 1).toNat = 2 * x.f.toNat % 2 ^ 64 := by
        rw [UInt64.toNat_shiftLeft, Nat.shiftLeft_eq]; simp [Nat.mul_comm]
      rw [this, Nat.mod_mul_mod]; congr 1; ring
    · rw [r3]; show x.e - 1 - (k : ℤ) = _; push_cast; ring

theorem shl_mod (x : UInt64) (n : ℕ) (hn : n < 64) : (x <<< UInt64.ofNat n).toNat = x.toNat * 2 ^ n % 2 ^ 64 := by
  rw [UInt64.toNat_shiftLeft, Nat.shiftLeft_eq]
  have : (UInt64.ofNat n).toNat % 64 = n := by
    rw [UInt64.toNat_ofNat']; omega
  rw [this]

/-- The variants with a bit scan: defined exactly for non-zero significands, the value kept, the top bit set. -/
theorem normClz_all (x : DiyFp) :
    (x.f = 0 → normClz x = .ub) ∧
    (x.f ≠ 0 → ∃ r, normClz x = .ok r ∧ 2 ^ 63 ≤ r.f.toNat ∧ r.f.toNat = x.f.toNat * 2 ^ (x.e - r.e).toNat ∧ r.e ≤ x.e) := by
  refine ⟨fun h => ?_, fun h => ?_⟩
  · unfold normClz clz; rw [if_pos h]; rfl
  · obtain ⟨r, h1, h2, h3⟩ := normClz_eq x h
    have hn : x.f.toNat ≠ 0 := fun h' => h (UInt64.toNat_inj.mp h')
    have hl : x.f.toNat.log2 < 64 := (Nat.log2_lt hn).2 x.f.toNat_lt
    refine ⟨r, h1, ?_, ?_, by omega⟩
    · rw [h2]
      calc 2 ^ 63 = 2 ^ x.f.toNat.log2 * 2 ^ (63 - x.f.toNat.log2) := by rw [← pow_add]; congr 1; omega
        _ ≤ _ := Nat.mul_le_mul_right _ (Nat.log2_self_le hn)
    · rw [h2, h3]; congr 2; omega

/-- The common shape of the two generic normalisations. -/
theorem generic_all (bit : UInt64) (b : ℕ) (hb : b < 63) (hbit : bit.toNat = 2 ^ b) (x : DiyFp) :
    (x.f.toNat % 2 ^ (b + 1) = 0 → shiftUp bit 65 x = .ub) ∧
    (x.f.toNat % 2 ^ (b + 1) ≠ 0 → ∃ r, shiftUp bit 65 x = .ok r ∧
      (r.f <<< UInt64.ofNat (63 - b)).toNat = x.f.toNat * 2 ^ (63 - (x.f.toNat % 2 ^ (b + 1)).log2) % 2 ^ 64 ∧
      r.e - (63 - b : ℕ) = x.e - (63 - (x.f.toNat % 2 ^ (b + 1)).log2 : ℕ)) := by
  refine ⟨shiftUp_ub bit b hb hbit 65 x, fun h => ?_⟩
  have hl : (x.f.toNat % 2 ^ (b + 1)).log2 < b + 1 := (Nat.log2_lt h).2 (Nat.mod_lt _ (by positivity))
  obtain ⟨r, r1, r2, r3⟩ := shiftUp_all bit b hb hbit (b - (x.f.toNat % 2 ^ (b + 1)).log2) 65 x h (by omega) (by omega)
  refine ⟨r, r1, ?_, ?_⟩
  · rw [shl_mod _ _ (by omega), r2, Nat.mod_mul_mod, mul_assoc, ← pow_add]; congr 3; omega
  · rw [r3]; omega

theorem normGeneric_all (x : DiyFp) :
    (x.f.toNat % 2 ^ 53 = 0 → normGeneric x = .ub) ∧
    (x.f.toNat % 2 ^ 53 ≠ 0 → ∃ r, normGeneric x = .ok r ∧
      r.f.toNat = x.f.toNat * 2 ^ (63 - (x.f.toNat % 2 ^ 53).log2) % 2 ^ 64 ∧
      r.e = x.e - (63 - (x.f.toNat % 2 ^ 53).log2 : ℕ)) := by
  obtain ⟨h1, h2⟩ := generic_all HIDDEN_BIT 52 (by omega) (by decide) x
  have e11 : (DIY_SIGNIFICAND_SIZE - DP_SIGNIFICAND_SIZE - 1 : Int) = ((11 : Nat) : Int) := by decide
  refine ⟨fun h => ?_, fun h => ?_⟩
  · unfold normGeneric; rw [h1 h]; rfl
  · obtain ⟨r, r1, r2, r3⟩ := h2 h
    refine ⟨⟨r.f <<< UInt64.ofNat 11, r.e - (11 : ℕ)⟩, ?_, r2, r3⟩
    simp only [normGeneric, r1, Res.ok_bind, e11, shl64_ok _ 11 (by omega), Res.pure_eq]

theorem boundGeneric_all (x : DiyFp) :
    (x.f.toNat % 2 ^ 54 = 0 → boundGeneric x = .ub) ∧
    (x.f.toNat % 2 ^ 54 ≠ 0 → ∃ r, boundGeneric x = .ok r ∧
      r.f.toNat = x.f.toNat * 2 ^ (63 - (x.f.toNat % 2 ^ 54).log2) % 2 ^ 64 ∧
      r.e = x.e - (63 - (x.f.toNat % 2 ^ 54).log2 : ℕ)) := by
  obtain ⟨h1, h2⟩ := generic_all (HIDDEN_BIT <<< 1) 53 (by omega) (by decide) x
  have e11 : (DIY_SIGNIFICAND_SIZE - DP_SIGNIFICAND_SIZE - 2 : Int) = ((10 : Nat) : Int) := by decide
  refine ⟨fun h => ?_, fun h => ?_⟩
  · unfold boundGeneric; rw [h1 h]; rfl
  · obtain ⟨r, r1, r2, r3⟩ := h2 h
    refine ⟨⟨r.f <<< UInt64.ofNat 10, r.e - (10 : ℕ)⟩, ?_, r2, r3⟩
    simp only [boundGeneric, r1, Res.ok_bind, e11, shl64_ok _ 10 (by omega), Res.pure_eq]

/-- A generic normalisation of the low `c` bits agrees with the bit scan exactly below `2^c`. -/
theorem agree_iff (x : DiyFp) (c : ℕ) (g : Res DiyFp)
    (h1 : x.f.toNat % 2 ^ c = 0 → g = .ub)
    (h2 : x.f.toNat % 2 ^ c ≠ 0 → ∃ r, g = .ok r ∧
      r.f.toNat = x.f.toNat * 2 ^ (63 - (x.f.toNat % 2 ^ c).log2) % 2 ^ 64 ∧
      r.e = x.e - (63 - (x.f.toNat % 2 ^ c).log2 : ℕ)) :
    g = normClz x ↔ x.f.toNat < 2 ^ c := by
  by_cases h0 : x.f = 0
  · have hz : x.f.toNat = 0 := by rw [h0]; rfl
    rw [(normClz_all x).1 h0, h1 (by rw [hz]; simp), hz]
    exact ⟨fun _ => by positivity, fun _ => rfl⟩
  · have hn : x.f.toNat ≠ 0 := fun h' => h0 (UInt64.toNat_inj.mp h')
    obtain ⟨r, r1, r2, r3⟩ := normClz_eq x h0
    have hl : x.f.toNat.log2 < 64 := (Nat.log2_lt hn).2 x.f.toNat_lt
    constructor
    · intro h
      by_contra hge
      by_cases hm : x.f.toNat % 2 ^ c = 0
      · rw [h1 hm, r1] at h; cases h
      · obtain ⟨s, s1, s2, s3⟩ := h2 hm
        rw [s1, r1] at h
        injection h with h
        subst h
        have a1 : (x.f.toNat % 2 ^ c).log2 < c := (Nat.log2_lt hm).2 (Nat.mod_lt _ (by positivity))
        have a2 : c ≤ x.f.toNat.log2 := (Nat.le_log2 hn).2 (not_lt.mp hge)
        omega
    · intro h
      have hm : x.f.toNat % 2 ^ c = x.f.toNat := Nat.mod_eq_of_lt h
      rw [hm] at h2
      obtain ⟨s, s1, s2, s3⟩ := h2 hn
      rw [s1, r1]
      congr 1
      refine ext_toNat ?_ (by rw [s3, r3])
      rw [s2, ← r2, Nat.mod_eq_of_lt r.f.toNat_lt]

/-- C88.  For every extended-precision number: the three variants of `normalize` agree exactly when the
significand has at most 53 bits, and the two of `normalizeBoundary` exactly when it has at most 54. -/
theorem C88_variants (x : DiyFp) :
    ((∀ v w, normalize v x = normalize w x) ↔ x.f.toNat < 2 ^ 53) ∧
    ((∀ v w, normalizeBoundary v x = normalizeBoundary w x) ↔ x.f.toNat < 2 ^ 54) := by
  obtain ⟨n1, n2⟩ := normGeneric_all x
  obtain ⟨b1, b2⟩ := boundGeneric_all x
  have hn := agree_iff x 53 _ n1 n2
  have hb := agree_iff x 54 _ b1 b2
  constructor
  · rw [← hn]
    refine ⟨fun h => h .generic .gnu, fun h v w => ?_⟩
    cases v <;> cases w <;> simp only [normalize, h]
  · rw [← hb]
    refine ⟨fun h => h .generic .msvc, fun h v w => ?_⟩
    cases v <;> cases w <;> simp only [normalizeBoundary, h]

/-- C88, where they are defined: with a bit scan exactly for a significand other than 0, generically exactly when
one of the low 53 (54) bits is set.  A significand of 0 is undefined behaviour under every variant. -/
theorem C88_defined (x : DiyFp) :
    (∀ v, v ≠ .generic → ((∃ r, normalize v x = .ok r) ↔ x.f ≠ 0) ∧ (x.f = 0 → normalize v x = .ub)) ∧
    ((∃ r, normalize .generic x = .ok r) ↔ x.f.toNat % 2 ^ 53 ≠ 0) ∧
    (x.f.toNat % 2 ^ 53 = 0 → normalize .generic x = .ub) ∧
    ((∃ r, normalizeBoundary .msvc x = .ok r) ↔ x.f ≠ 0) ∧ (x.f = 0 → normalizeBoundary .msvc x = .ub) ∧
    ((∃ r, normalizeBoundary .generic x = .ok r) ↔ x.f.toNat % 2 ^ 54 ≠ 0) ∧
    (x.f.toNat % 2 ^ 54 = 0 → normalizeBoundary .generic x = .ub) := by
  have aux : ∀ (g : Res DiyFp) (P : Prop), (P → g = .ub) → (¬ P → ∃ r, g = .ok r) → ((∃ r, g = .ok r) ↔ ¬ P) :=
    fun g P h1 h2 => ⟨fun ⟨r, h⟩ c => (by rw [h1 c] at h; cases h), h2⟩
  obtain ⟨c1, c2⟩ := normClz_all x
  obtain ⟨n1, n2⟩ := normGeneric_all x
  obtain ⟨b1, b2⟩ := boundGeneric_all x
  have c := aux _ _ c1 fun h => (c2 h).imp fun _ h => h.1
  refine ⟨fun v hv => ?_, aux _ _ n1 fun h => (n2 h).imp fun _ h => h.1, n1, c, c1,
    aux _ _ b1 fun h => (b2 h).imp fun _ h => h.1, b1⟩
  cases v
  · exact ⟨c, c1⟩
  · exact ⟨c, c1⟩
  · exact absurd rfl hv

/-- C88, what they return on significands within these sizes: the same number, with the top bit set. -/
theorem C88_value (x r : DiyFp) :
    (∀ v, (v = .generic → x.f.toNat < 2 ^ 53) → normalize v x = .ok r →
      2 ^ 63 ≤ r.f.toNat ∧ r.e ≤ x.e ∧ r.f.toNat = x.f.toNat * 2 ^ (x.e - r.e).toNat) ∧
    (∀ v, (v = .generic → x.f.toNat < 2 ^ 54) → normalizeBoundary v x = .ok r →
      2 ^ 63 ≤ r.f.toNat ∧ r.e ≤ x.e ∧ r.f.toNat = x.f.toNat * 2 ^ (x.e - r.e).toNat) := by
  have key : normClz x = .ok r → 2 ^ 63 ≤ r.f.toNat ∧ r.e ≤ x.e ∧ r.f.toNat = x.f.toNat * 2 ^ (x.e - r.e).toNat := by
    intro h
    by_cases h0 : x.f = 0
    · rw [(normClz_all x).1 h0] at h; cases h
    · obtain ⟨s, s1, s2, s3, s4⟩ := (normClz_all x).2 h0
      rw [s1] at h
      injection h with h
      subst h
      exact ⟨s2, s4, s3⟩
  refine ⟨fun v hv h => key ?_, fun v hv h => key ?_⟩
  · cases v
    · exact h
    · exact h
    · exact ((C88_variants x).1.mpr (hv rfl) .gnu .generic).trans h
  · cases v
    · exact h
    · exact ((C88_variants x).2.mpr (hv rfl) .msvc .generic).trans h

/-! ### Inhabited hypotheses -/

example : normalize .gnu ⟨5, 0⟩ = .ok ⟨0xA000000000000000, -61⟩ ∧ normalize .generic ⟨5, 0⟩ = normalize .gnu ⟨5, 0⟩ := by
  decide +kernel
/-- `2^53 + 1`: the generic variant throws the high bit away. -/
example : normalize .gnu ⟨0x20000000000001, 0⟩ = .ok ⟨0x8000000000000400, -10⟩ ∧
    normalize .generic ⟨0x20000000000001, 0⟩ = .ok ⟨0x8000000000000000, -63⟩ ∧
    normalize .generic ⟨0x20000000000000, 0⟩ = .ub ∧ normalizeBoundary .generic ⟨0, 7⟩ = .ub := by decide +kernel

end Lexi
