import Verif.Proofs.BigMul

/-!
# Left shift of big integers
-/

namespace Lexi
namespace BigInt

theorem shl_word (x : UInt64) (s : ℕ) (hs : s < 64) :
    (x <<< UInt64.ofNat s).toNat = x.toNat * 2 ^ s % 2 ^ 64 := by
  rw [UInt64.toNat_shiftLeft, UInt64.toNat_ofNat', Nat.mod_eq_of_lt (show s < 2 ^ 64 by omega),
    Nat.mod_eq_of_lt hs, Nat.shiftLeft_eq]

/-- One word of the shifted number: the low bits of `hi`, then the high bits of `lo`. -/
def shWord (s : ℕ) (hi lo : UInt64) : UInt64 :=
  (hi <<< UInt64.ofNat s) ||| (lo >>> UInt64.ofNat (INT64_BYTE - s))

theorem shWord_toNat (s : ℕ) (h1 : 1 ≤ s) (h2 : s < 64) (hi lo : UInt64) :
    (shWord s hi lo).toNat = hi.toNat * 2 ^ s % 2 ^ 64 + lo.toNat / 2 ^ (64 - s) := by
  have hlo := lo.toNat_lt
  have e64 : (2 : ℕ) ^ 64 = 2 ^ (64 - s) * 2 ^ s := by rw [← pow_add]; congr 1; omega
  have hq : lo.toNat / 2 ^ (64 - s) < 2 ^ s := by
    rw [Nat.div_lt_iff_lt_mul (by positivity)]
    rw [mul_comm, ← e64]; exact hlo
  rw [shWord, UInt64.toNat_or, shl_word _ _ h2, show INT64_BYTE - s = 64 - s from rfl, shr_toNat _ _ (by omega)]
  have e : hi.toNat * 2 ^ s % 2 ^ 64 = (hi.toNat % 2 ^ (64 - s)) <<< s := by
    rw [e64, Nat.mul_mod_mul_right, Nat.shiftLeft_eq]
  rw [e, ← Nat.shiftLeft_add_eq_or_of_lt hq]

/-- Splitting a word at the shift. -/
theorem split_word (x : UInt64) (s : ℕ) (h2 : s < 64) :
    x.toNat * 2 ^ s % 2 ^ 64 + 2 ^ 64 * (x.toNat / 2 ^ (64 - s)) = x.toNat * 2 ^ s := by
  have e64 : (2 : ℕ) ^ 64 = 2 ^ (64 - s) * 2 ^ s := by rw [← pow_add]; congr 1; omega
  have : x.toNat / 2 ^ (64 - s) = x.toNat * 2 ^ s / 2 ^ 64 := by
    rw [e64, Nat.mul_div_mul_right _ _ (by positivity)]
  rw [this, Nat.mod_add_div]

/-- The shifted words of `m`. -/
def shWords (s : ℕ) (m : ℕ → UInt64) : ℕ → UInt64
  | 0 => m 0 <<< UInt64.ofNat s
  | i + 1 => shWord s (m (i + 1)) (m i)

theorem shWords_value (s : ℕ) (h1 : 1 ≤ s) (h2 : s < 64) (m : ℕ → UInt64) (n : ℕ) :
    wordsValue (shWords s m) (n + 1) + (m n).toNat / 2 ^ (64 - s) * 2 ^ (64 * (n + 1)) =
      wordsValue m (n + 1) * 2 ^ s := by
  induction n with
  | zero =>
    have := split_word (m 0) s h2
    simp only [wordsValue, shWords, Nat.mul_zero, Nat.pow_zero, Nat.mul_one, Nat.zero_add, shl_word _ _ h2]
    omega
  | succ n ih =>
    rw [wordsValue, wordsValue.eq_2 m, add_mul, ← ih]
    rw [show shWords s m (n + 1) = shWord s (m (n + 1)) (m n) from rfl, shWord_toNat s h1 h2]
    rw [pow64_succ (n + 1)]
    have := split_word (m (n + 1)) s h2
    generalize 2 ^ (64 * (n + 1)) = P
    generalize wordsValue (shWords s m) (n + 1) = W
    have h3 := congrArg (· * P) this
    simp only [add_mul] at h3
    linarith

theorem shWords_exact (s : ℕ) (h1 : 1 ≤ s) (h2 : s < 64) (m : ℕ → UInt64) (n : ℕ) (hm : m n = 0) :
    wordsValue (shWords s m) (n + 1) = wordsValue m n * 2 ^ s := by
  have := shWords_value s h1 h2 m n
  rw [wordsValue.eq_2 m, hm] at this
  simpa using this

theorem shlLoop_spec (off s : ℕ) (n : ℕ) : ∀ b : BigInt, n + off < CAPACITY →
    shlLoop off s n b = .ok ⟨fun j => if off < j ∧ j ≤ n + off then shWord s (b.digits (j - off)) (b.digits (j - off - 1))
      else b.digits j, b.count⟩ := by
  induction n with
  | zero =>
    intro b h
    rw [shlLoop]
    have : (fun j => if off < j ∧ j ≤ 0 + off then shWord s (b.digits (j - off)) (b.digits (j - off - 1))
        else b.digits j) = b.digits := by
      funext j
      rw [if_neg (by omega)]
    rw [this]
  | succ n ih =>
    intro b h
    rw [shlLoop, rd_ok (by omega), Res.ok_bind, rd_ok (by omega), Res.ok_bind, wr_ok (by omega), Res.ok_bind,
      ih _ (by omega)]
    congr 2
    funext j
    simp only
    by_cases hj : off < j ∧ j ≤ n + off
    · rw [if_pos hj, if_pos (by omega), upd_ne _ _ (by omega), upd_ne _ _ (by omega)]
    · rw [if_neg hj]
      by_cases hj2 : j = n + 1 + off
      · rw [hj2, upd_same, if_pos (by omega)]
        rw [show n + 1 + off - off = n + 1 by omega, Nat.add_sub_cancel]
        rfl
      · rw [upd_ne _ _ hj2, if_neg (by omega)]

theorem wordsValue_shifted {f g : ℕ → UInt64} {off n : ℕ} (h0 : ∀ j < off, f j = 0) (h1 : ∀ j < n, f (off + j) = g j) :
    wordsValue f (off + n) = 2 ^ (64 * off) * wordsValue g n := by
  rw [wordsValue_add, wordsValue_zero h0, Nat.zero_add, wordsValue_congr h1]

/-- Shift by an amount that is not a multiple of 64, with a spare word. -/
theorem shl_inter {b : BigInt} (h : Inv b) (shift : ℕ) (hz : b.value ≠ 0) (hs : shift % 64 ≠ 0)
    (hc : b.count + shift / 64 < CAPACITY) :
    ∃ b', shl b shift = .ok b' ∧ Inv b' ∧ b'.value = b.value * 2 ^ shift := by
  have hp := h.pos
  have hz' : ¬ (b.isZero = true ∨ shift = 0) := by
    rw [isZero_iff h]; omega
  unfold shl
  rw [if_neg hz']
  have e64 : INT64_BYTE = 64 := rfl
  simp only [e64]
  rw [if_neg (by omega), if_neg (by omega), if_neg hs]
  generalize hoff : shift / 64 = off at *
  generalize hst : shift % 64 = s at *
  have hs1 : 1 ≤ s := by omega
  have hs2 : s < 64 := by omega
  have hshift : shift = 64 * off + s := by omega
  rw [wr_ok (by omega), Res.ok_bind, shlLoop_spec _ _ _ _ (by simp only; omega), Res.ok_bind,
    rd_ok (by decide), Res.ok_bind, wr_ok (by omega), Res.ok_bind]
  simp only
  -- the words after the last store
  generalize hm0 : upd b.digits b.count 0 = m0
  have hm0v : wordsValue m0 b.count = b.value := by rw [← hm0, wordsValue_upd_ge _ _ _ _ le_rfl]; rfl
  have hm0t : m0 b.count = 0 := by rw [← hm0, upd_same]
  have hx := shWords_exact s hs1 hs2 m0 b.count hm0t
  generalize hm : upd (fun j => if off < j ∧ j ≤ b.count + off then shWord s (m0 (j - off)) (m0 (j - off - 1)) else m0 j) off
    ((if off < 0 ∧ 0 ≤ b.count + off then shWord s (m0 (0 - off)) (m0 (0 - off - 1)) else m0 0) <<< UInt64.ofNat s) = m
  have hword : ∀ j ≤ b.count, m (off + j) = shWords s m0 j := by
    intro j hj
    rw [← hm]
    rcases j with _ | j
    · rw [Nat.add_zero, upd_same, if_neg (by omega)]; rfl
    · rw [upd_ne _ _ (by omega), if_pos (by omega), show off + (j + 1) - off = j + 1 by omega, Nat.add_sub_cancel]; rfl
  rw [rd_ok (by omega), Res.ok_bind]
  have htop : m (b.count + off) = shWords s m0 b.count := by rw [add_comm]; exact hword _ le_rfl
  have hval : wordsValue (fun j => if j < off then 0 else m j) (off + (b.count + 1)) = b.value * 2 ^ shift := by
    rw [wordsValue_shifted (g := shWords s m0) (fun j hj => by rw [if_pos hj])
      (fun j hj => by rw [if_neg (by omega)]; exact hword j (by omega)), hx, hm0v, hshift, pow_add]
    ring
  have hmz : ∀ c, memzero ⟨m, c⟩ off = .ok ⟨fun j => if j < off then 0 else m j, c⟩ := by
    intro c
    rw [memzero, if_pos (by omega)]
  by_cases ht : m (b.count + off) = 0
  · rw [if_neg (by simpa using ht), hmz]
    have hv' : (⟨fun j => if j < off then 0 else m j, b.count + off⟩ : BigInt).value = b.value * 2 ^ shift := by
      rw [← hval, ← add_assoc, wordsValue, if_neg (by omega), show off + b.count = b.count + off by omega, ht]
      simp [value]
    refine ⟨_, rfl, ⟨by simp only; omega, by simp only; omega, Or.inr ?_⟩, hv'⟩
    rw [top_iff _ (by simp only; omega), hv']
    simp only
    rcases Nat.lt_or_ge 1 b.count with h2 | h2
    · have := h.ge h2
      calc 2 ^ (64 * (b.count + off - 1)) = 2 ^ (64 * (b.count - 1)) * 2 ^ (64 * off) := by
            rw [← pow_add]; congr 1; omega
        _ ≤ b.value * 2 ^ shift := Nat.mul_le_mul this (Nat.pow_le_pow_right (by norm_num) (by omega))
    · have hc1 : b.count = 1 := by omega
      rw [hc1, show 1 + off - 1 = off by omega]
      calc 2 ^ (64 * off) ≤ 2 ^ shift := Nat.pow_le_pow_right (by norm_num) (by omega)
        _ ≤ b.value * 2 ^ shift := Nat.le_mul_of_pos_left _ (by omega)
  · rw [if_pos (by simpa using ht), hmz]
    refine ⟨_, rfl, ⟨by simp only; omega, by simp only; omega, Or.inr ?_⟩, ?_⟩
    · simp only
      rw [Nat.add_sub_cancel, if_neg (by omega)]; exact ht
    · rw [← hval]
      simp only [value]
      congr 1; omega

/-- Shift by a multiple of 64: what the `memmove` really leaves. -/
theorem shl_whole (b : BigInt) (shift : ℕ) (hp : 1 ≤ b.count) (hz : ¬ (b.isZero = true ∨ shift = 0))
    (hs : shift % 64 = 0) (hc : b.count + shift / 64 ≤ CAPACITY) :
    shl b shift = if 2 * b.count - 1 + shift / 64 ≤ CAPACITY then
      .ok ⟨fun j => if j < shift / 64 then 0
        else if b.count - 1 + shift / 64 ≤ j ∧ j < 2 * b.count - 1 + shift / 64 then b.digits (j - shift / 64)
        else b.digits j, b.count + shift / 64⟩
    else .ub := by
  unfold shl
  rw [if_neg hz]
  have e64 : INT64_BYTE = 64 := rfl
  simp only [e64]
  rw [if_neg (by omega), if_neg (by omega), if_pos hs]
  unfold memmove
  by_cases h2 : 2 * b.count - 1 + shift / 64 ≤ CAPACITY
  · rw [if_pos h2, if_pos (by omega), Res.ok_bind, memzero, if_pos (by omega)]
    congr 2
    funext j
    by_cases hj : j < shift / 64
    · rw [if_pos hj, if_pos hj]
    · rw [if_neg hj, if_neg hj]
      dsimp only
      by_cases hj2 : b.count - 1 + shift / 64 ≤ j ∧ j < 2 * b.count - 1 + shift / 64
      · rw [if_pos hj2, if_pos (by omega)]
        congr 1; omega
      · rw [if_neg hj2, if_neg (by omega)]
  · rw [if_neg h2, if_neg (by omega)]
    rfl

/-- A single word shifts by whole words correctly. -/
theorem shl_one {b : BigInt} (h : Inv b) (shift : ℕ) (hc1 : b.count = 1)
    (hs : shift % 64 = 0) (hc : 1 + shift / 64 ≤ CAPACITY) :
    ∃ b', shl b shift = .ok b' ∧ Inv b' ∧ b'.value = b.value * 2 ^ shift := by
  by_cases hz : b.isZero = true ∨ shift = 0
  · unfold shl
    rw [if_pos hz]
    refine ⟨b, rfl, h, ?_⟩
    rcases hz with hz | hz
    · rw [(isZero_iff h).mp hz]; simp
    · rw [hz]; simp
  · rw [shl_whole b shift h.pos hz hs (by omega), if_pos (by omega)]
    have hv : (⟨fun j => if j < shift / 64 then 0
        else if b.count - 1 + shift / 64 ≤ j ∧ j < 2 * b.count - 1 + shift / 64 then b.digits (j - shift / 64)
        else b.digits j, b.count + shift / 64⟩ : BigInt).value = b.value * 2 ^ shift := by
      simp only [value]
      rw [add_comm b.count, wordsValue_shifted (g := b.digits) (fun j hj => by rw [if_pos hj])
        (fun j hj => by rw [if_neg (by omega), if_pos (by omega)]; congr 1; omega), mul_comm]
      congr 2; omega
    refine ⟨_, rfl, ⟨by simp only; omega, by simp only; omega, Or.inr ?_⟩, hv⟩
    rw [top_iff _ (by simp only; omega), hv]
    simp only
    have : b.value ≠ 0 := fun h0 => hz (Or.inl ((isZero_iff h).mpr h0))
    rw [hc1]
    calc 2 ^ (64 * (1 + shift / 64 - 1)) ≤ 2 ^ shift := Nat.pow_le_pow_right (by norm_num) (by omega)
      _ ≤ b.value * 2 ^ shift := Nat.le_mul_of_pos_left _ (by omega)

/-- The array is full: the store into `digits_[count_]` or `digits_[count_ + offset]` is outside. -/
theorem shl_full (b : BigInt) (shift : ℕ) (hp : 1 ≤ b.count) (hz : ¬ (b.isZero = true ∨ shift = 0))
    (hs : shift % 64 ≠ 0) (hc : b.count + shift / 64 = CAPACITY) : shl b shift = .ub := by
  unfold shl
  rw [if_neg hz]
  have e64 : INT64_BYTE = 64 := rfl
  simp only [e64]
  rw [if_neg (by omega), if_neg (by omega), if_neg hs]
  by_cases h0 : b.count < CAPACITY
  · rw [wr_ok h0, Res.ok_bind]
    simp only
    obtain ⟨n, hn⟩ : ∃ n, b.count = n + 1 := ⟨b.count - 1, by omega⟩
    rw [hn, shlLoop, rd_ok (by omega), Res.ok_bind, rd_ok (by omega), Res.ok_bind, wr, if_neg (by omega)]
    rfl
  · rw [wr, if_neg h0]; rfl

theorem shl_over (b : BigInt) (shift : ℕ) (hz : ¬ (b.isZero = true ∨ shift = 0))
    (hc : CAPACITY < b.count + shift / 64) : shl b shift = .throws := by
  unfold shl
  rw [if_neg hz]
  have e64 : INT64_BYTE = 64 := rfl
  simp only [e64]
  rw [if_pos (by omega)]

/-- The invariant survives every shift, also a wrong one. -/
theorem shl_inv {b b' : BigInt} (h : Inv b) (shift : ℕ) (hr : shl b shift = .ok b') : Inv b' := by
  have hp := h.pos
  by_cases hz : b.isZero = true ∨ shift = 0
  · unfold shl at hr
    rw [if_pos hz] at hr
    cases hr; exact h
  · rcases Nat.lt_or_ge CAPACITY (b.count + shift / 64) with hc | hc
    · rw [shl_over b shift hz hc] at hr; exact absurd hr (by simp)
    · by_cases hs : shift % 64 = 0
      · rw [shl_whole b shift hp hz hs hc] at hr
        split at hr
        · cases hr
          refine ⟨by simp only; omega, by simp only; omega, ?_⟩
          simp only
          right
          rw [if_neg (by omega), if_pos (by omega), show b.count + shift / 64 - 1 - shift / 64 = b.count - 1 by omega]
          rcases h.top with h1 | h1
          · intro h0
            apply hz; left
            simp only [isZero, h1, Bool.and_eq_true, beq_iff_eq, true_and]
            rw [h1] at h0; exact h0
          · exact h1
        · exact absurd hr (by simp)
      · rcases Nat.lt_or_ge (b.count + shift / 64) CAPACITY with hc2 | hc2
        · obtain ⟨b2, h2, h3, -⟩ := shl_inter h shift (fun h0 => hz (Or.inl ((isZero_iff h).mpr h0))) hs hc2
          rw [h2] at hr; cases hr; exact h3
        · rw [shl_full b shift hp hz hs (by omega)] at hr; exact absurd hr (by simp)

end BigInt
end Lexi
