import Verif.Proofs.BigDecimal
import Verif.Proofs.BigCmp
import Verif.Proofs.Strict

/-!
# Big integers: facts about whatever an operation returns
-/

namespace Lexi
open Spec Dtoa
namespace BigInt

theorem Yields.ne_ub {r : Res BigInt} {T : ℕ} (h : Yields r T) : r ≠ .ub := by
  rcases h with ⟨b', rfl, -⟩ | ⟨rfl, -⟩ <;> (intro h; cases h)

theorem Yields.of_ok {r : Res BigInt} {T : ℕ} (h : Yields r T) {b : BigInt} (hr : r = .ok b) : Inv b ∧ b.value = T := by
  rcases h with ⟨b', rfl, hi, hv⟩ | ⟨rfl, -⟩
  · cases hr; exact ⟨hi, hv⟩
  · cases hr

/-- A shift that returns is exact unless it moves several words by whole words. -/
theorem shl_sound {b b' : BigInt} (h : Inv b) (s : ℕ) (hs : s % 64 = 0 → s = 0 ∨ b.value < 2 ^ 64)
    (hr : shl b s = .ok b') : b'.value = b.value * 2 ^ s := by
  by_cases hz : b.isZero = true ∨ s = 0
  · unfold shl at hr
    rw [if_pos hz] at hr
    cases hr
    rcases hz with hz | hz
    · rw [(isZero_iff h).mp hz]; simp
    · rw [hz]; simp
  have hz' := hz
  rw [isZero_iff h] at hz'
  have hv : b.value ≠ 0 := fun h0 => hz' (Or.inl h0)
  have hs0 : s ≠ 0 := fun h0 => hz' (Or.inr h0)
  rcases Nat.lt_or_ge CAPACITY (b.count + s / 64) with ho | ho
  · rw [shl_over b s hz ho] at hr; cases hr
  by_cases hm : s % 64 = 0
  · have hlt : b.value < 2 ^ (64 * 1) := by
      rcases hs hm with h' | h'
      · exact absurd h' hs0
      · exact h'
    have hc : b.count = 1 := le_antisymm (h.count_le le_rfl hlt) h.pos
    obtain ⟨b1, h1, -, h3⟩ := shl_one h s hc hm (by omega)
    rw [h1] at hr; cases hr; exact h3
  · rcases Nat.lt_or_ge (b.count + s / 64) CAPACITY with hl | hl
    · obtain ⟨b1, h1, -, h3⟩ := shl_inter h s hv hm hl
      rw [h1] at hr; cases hr; exact h3
    · rw [shl_full b s h.pos hz hm (by omega)] at hr; cases hr

/-- A shift with a free word runs. -/
theorem shl_runs {b : BigInt} (h : Inv b) (s : ℕ) (hs : s % 64 = 0 → s = 0 ∨ b.value < 2 ^ 64)
    (hf : b.value * 2 ^ s < 2 ^ (64 * 415)) : ∃ b', shl b s = .ok b' := by
  by_cases hz : b.isZero = true ∨ s = 0
  · exact ⟨b, by unfold shl; rw [if_pos hz]⟩
  have hz' := hz
  rw [isZero_iff h] at hz'
  have hv : b.value ≠ 0 := fun h0 => hz' (Or.inl h0)
  have hs0 : s ≠ 0 := fun h0 => hz' (Or.inr h0)
  have hc : b.count + s / 64 ≤ 415 := by
    have hge : 2 ^ (64 * (b.count - 1)) ≤ b.value := by
      by_cases h2 : 2 ≤ b.count
      · exact h.ge h2
      · have : b.count - 1 = 0 := by omega
        rw [this]; simp; omega
    have h1 : 2 ^ (64 * (b.count - 1)) * 2 ^ s < 2 ^ (64 * 415) := lt_of_le_of_lt (Nat.mul_le_mul_right _ hge) hf
    rw [← pow_add] at h1
    have := (Nat.pow_lt_pow_iff_right (by decide : 1 < 2)).mp h1
    have := h.pos
    omega
  by_cases hm : s % 64 = 0
  · have hlt : b.value < 2 ^ (64 * 1) := by
      rcases hs hm with h' | h'
      · exact absurd h' hs0
      · exact h'
    have hc1 : b.count = 1 := le_antisymm (h.count_le le_rfl hlt) h.pos
    obtain ⟨b1, h1, -⟩ := shl_one h s hc1 hm (by rw [CAPACITY_eq]; omega)
    exact ⟨b1, h1⟩
  · obtain ⟨b1, h1, -⟩ := shl_inter h s hv hm (by rw [CAPACITY_eq]; omega)
    exact ⟨b1, h1⟩

theorem addDecimal_sound {v : MulImpl} {b b' : BigInt} (h : Inv b) {s : Bytes} (h1 : 1 ≤ s.length) (h19 : s.length ≤ 19)
    (hr : addDecimal v b s = .ok b') :
    (∀ c ∈ s, IsDigit c) ∧ Inv b' ∧ b'.value = b.value * 10 ^ s.length + digitsValue s := by
  by_cases hs : ∀ c ∈ s, IsDigit c
  · refine ⟨hs, ?_⟩
    have hd := chunk_toNat hs h19
    unfold addDecimal at hr
    rw [parse_ok s hs, Res.ok_bind] at hr
    by_cases hz : b.isZero = true
    · rw [if_pos hz] at hr
      cases hr
      refine ⟨assignWord_inv _ _, ?_⟩
      rw [assignWord_value, hd, (isZero_iff h).mp hz]; simp
    · rw [if_neg hz] at hr
      obtain ⟨b1, e1, hr⟩ := bind_ok hr
      obtain ⟨b2, e2, hr⟩ := bind_ok hr
      obtain ⟨i1, v1⟩ := (mulPow5_spec v h s.length).of_ok e1
      have v2 := shl_sound i1 s.length (fun h0 => by omega) e2
      have i2 := shl_inv i1 _ e2
      obtain ⟨i3, v3⟩ := (add_spec i2 _).of_ok hr
      refine ⟨i3, ?_⟩
      rw [v3, hd, v2, v1, mul_assoc, ← Nat.mul_pow]
  · push Not at hs
    rw [addDecimal_throws v b s hs] at hr; cases hr

theorem decimalLoop_sound {v : MulImpl} (fuel : ℕ) : ∀ (s : Bytes) (b b' : BigInt), Inv b →
    decimalLoop v fuel s b = .ok b' →
    (∀ c ∈ s, IsDigit c) ∧ Inv b' ∧ b'.value = b.value * 10 ^ s.length + digitsValue s := by
  have e19 : DIGITS_ITERATION = 19 := rfl
  have small : ∀ (s : Bytes) (b b' : BigInt), Inv b → ¬ 19 ≤ s.length →
      (if 0 < s.length then addDecimal v b s else .ok b) = .ok b' →
      (∀ c ∈ s, IsDigit c) ∧ Inv b' ∧ b'.value = b.value * 10 ^ s.length + digitsValue s := by
    intro s b b' hi h19 hr
    by_cases h0 : 0 < s.length
    · rw [if_pos h0] at hr
      exact addDecimal_sound hi h0 (by omega) hr
    · rw [if_neg h0] at hr
      cases hr
      have : s = [] := List.length_eq_zero_iff.mp (by omega)
      subst this
      exact ⟨by simp, hi, by simp [digitsValue]⟩
  induction fuel with
  | zero =>
    intro s b b' hi hr
    rw [decimalLoop.eq_def] at hr
    dsimp only at hr
    rw [e19] at hr
    by_cases h19 : 19 ≤ s.length
    · rw [if_pos h19] at hr; cases hr
    · rw [if_neg h19] at hr; exact small s b b' hi h19 hr
  | succ fuel ih =>
    intro s b b' hi hr
    rw [decimalLoop.eq_def] at hr
    dsimp only at hr
    rw [e19] at hr
    by_cases h19 : 19 ≤ s.length
    · rw [if_pos h19] at hr
      obtain ⟨b1, e1, hr⟩ := bind_ok hr
      have ht : (s.take 19).length = 19 := by rw [List.length_take]; omega
      obtain ⟨d1, i1, v1⟩ := addDecimal_sound hi (by omega) (by omega) e1
      obtain ⟨d2, i2, v2⟩ := ih _ _ _ i1 hr
      rw [ht] at v1
      refine ⟨?_, i2, ?_⟩
      · intro c hc
        rw [← List.take_append_drop 19 s] at hc
        rcases List.mem_append.mp hc with hc | hc
        · exact d1 c hc
        · exact d2 c hc
      · have happ : digitsValue s = digitsValue (s.take 19) * 10 ^ (s.drop 19).length + digitsValue (s.drop 19) := by
          rw [← digitsValue_append, List.take_append_drop]
        have hp : 10 ^ s.length = 10 ^ 19 * 10 ^ (s.drop 19).length := by
          rw [← pow_add, List.length_drop]; congr 1; omega
        rw [v2, v1, happ, hp]
        ring
    · rw [if_neg h19] at hr; exact small s b b' hi h19 hr

/-- Whatever the length: if the decimal constructor returns, the bytes are digits and the value is theirs. -/
theorem ofDecimal_sound {v : MulImpl} {junk : ℕ → UInt64} {s : Bytes} {b : BigInt} (h : ofDecimal v junk s = .ok b) :
    (∀ c ∈ s, IsDigit c) ∧ Inv b ∧ b.value = digitsValue s := by
  obtain ⟨h1, h2⟩ := ofDecimal_start junk
  obtain ⟨d, i, hv⟩ := decimalLoop_sound _ _ _ _ h1 h
  exact ⟨d, i, by rw [hv, h2]; simp⟩

/-- `difference` stays inside the objects, whichever pointers coincide. -/
theorem diffLoop_ne_ub (a b out : ℕ) (fuel : ℕ) : ∀ (i : ℕ) (bo : UInt64) (st : Store),
    (∀ p, (st p).count ≤ CAPACITY) → CAPACITY < fuel + i → diffLoop a b out fuel i bo st ≠ .ub := by
  induction fuel with
  | zero =>
    intro i bo st hst hf
    have h1 : ¬ i < (st a).count := by have := hst a; omega
    rw [diffLoop.eq_def]
    dsimp only
    rw [if_neg h1]; intro h; cases h
  | succ fuel ih =>
    intro i bo st hst hf
    rw [diffLoop.eq_def]
    dsimp only
    by_cases hi : i < (st a).count
    · have hc : i < CAPACITY := lt_of_lt_of_le hi (hst a)
      rw [if_pos hi, rd_ok hc, Res.ok_bind]
      have hsub : ∃ d', subDigit (st b) i ((st a).digits i - bo) = .ok d' := by
        unfold subDigit
        split
        · rw [rd_ok hc, Res.ok_bind]; exact ⟨_, rfl⟩
        · exact ⟨_, rfl⟩
      obtain ⟨d', hd⟩ := hsub
      rw [hd, Res.ok_bind, Res.ok_bind, wr_ok hc, Res.ok_bind]
      apply ih
      · intro p
        unfold Store.set
        split
        · split
          · change i + 1 ≤ CAPACITY; omega
          · exact hst out
        · exact hst p
      · omega
    · rw [if_neg hi]; intro h; cases h

theorem difference_ne_ub {st : Store} (hst : ∀ p, Inv (st p)) (p q r : ℕ) : difference p q r st ≠ .ub := by
  unfold difference
  rw [compare_spec (hst p) (hst q), Res.ok_bind]
  generalize (if (st p).value < (st q).value then (-1 : ℤ) else if (st p).value = (st q).value then 0 else 1) = c
  by_cases hc : c = 0
  · rw [if_pos hc]; intro h; cases h
  · rw [if_neg hc]
    generalize (if c < 0 then (q, p, true) else (p, q, false)) = t
    obtain ⟨a, b, ret⟩ := t
    dsimp only
    have h1 := diffLoop_ne_ub a b r (CAPACITY + 1) 0 0 st (fun p => (hst p).le) (by omega)
    cases h : diffLoop a b r (CAPACITY + 1) 0 0 st with
    | ok s => rw [Res.ok_bind]; intro h; cases h
    | throws => intro h; cases h
    | ub => exact absurd h h1

end BigInt
end Lexi
