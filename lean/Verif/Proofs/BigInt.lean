import Verif.Model.BigInt
import Verif.Spec.BigNat
import Verif.Spec.Decimal
import Verif.Proofs.DiyFp
import Mathlib.Tactic.Linarith
import Mathlib.Tactic.Ring
import Mathlib.Tactic.NormNum
import Mathlib.Tactic.Positivity

/-!
# Words, values and the representation invariant
-/

namespace Lexi

namespace BigInt

/-- Number denoted by a big integer. -/
def value (b : BigInt) : ℕ := wordsValue b.digits b.count

/-- Representation invariant: at least one word, within the array, no leading zero word. -/
structure Inv (b : BigInt) : Prop where
  pos : 1 ≤ b.count
  le : b.count ≤ CAPACITY
  top : b.count = 1 ∨ b.digits (b.count - 1) ≠ 0

end BigInt

theorem pow64_succ (n : ℕ) : 2 ^ (64 * (n + 1)) = 2 ^ 64 * 2 ^ (64 * n) := by
  rw [← pow_add]; congr 1; ring

theorem wordsValue_lt (m : ℕ → UInt64) (n : ℕ) : wordsValue m n < 2 ^ (64 * n) := by
  induction n with
  | zero => simp [wordsValue]
  | succ n ih =>
    have h := (m n).toNat_lt
    have e : 2 ^ (64 * (n + 1)) = 2 ^ 64 * 2 ^ (64 * n) := by rw [← pow_add]; congr 1; ring
    rw [wordsValue, e]
    nlinarith [Nat.mul_le_mul_right (2 ^ (64 * n)) (Nat.succ_le_of_lt h)]

theorem wordsValue_congr {m m' : ℕ → UInt64} {n : ℕ} (h : ∀ i < n, m i = m' i) :
    wordsValue m n = wordsValue m' n := by
  induction n with
  | zero => rfl
  | succ n ih =>
    rw [wordsValue, wordsValue, ih (fun i hi => h i (by omega)), h n (by omega)]

theorem wordsValue_upd_ge (m : ℕ → UInt64) (i n : ℕ) (v : UInt64) (h : n ≤ i) :
    wordsValue (BigInt.upd m i v) n = wordsValue m n := by
  apply wordsValue_congr
  intro j hj
  simp only [BigInt.upd]
  rw [if_neg (by omega)]

theorem wordsValue_upd (m : ℕ → UInt64) (i n : ℕ) (v : UInt64) (h : i < n) :
    wordsValue (BigInt.upd m i v) n + (m i).toNat * 2 ^ (64 * i) = wordsValue m n + v.toNat * 2 ^ (64 * i) := by
  induction n with
  | zero => omega
  | succ n ih =>
    rw [wordsValue, wordsValue]
    by_cases hi : i = n
    · subst hi
      rw [wordsValue_upd_ge _ _ _ _ le_rfl]
      simp only [BigInt.upd, if_pos]
      ring
    · have := ih (by omega)
      have e : BigInt.upd m i v n = m n := by simp only [BigInt.upd]; rw [if_neg (by omega)]
      rw [e]; omega

/-- Shifted view of the words. -/
theorem wordsValue_add (m : ℕ → UInt64) (a n : ℕ) :
    wordsValue m (a + n) = wordsValue m a + 2 ^ (64 * a) * wordsValue (fun j => m (a + j)) n := by
  induction n with
  | zero => simp [wordsValue]
  | succ n ih =>
    rw [← add_assoc, wordsValue, ih, wordsValue]
    have : 2 ^ (64 * (a + n)) = 2 ^ (64 * a) * 2 ^ (64 * n) := by rw [← pow_add]; congr 1; ring
    rw [this]; ring

theorem wordsValue_zero {m : ℕ → UInt64} {n : ℕ} (h : ∀ i < n, m i = 0) : wordsValue m n = 0 := by
  induction n with
  | zero => rfl
  | succ n ih => rw [wordsValue, ih (fun i hi => h i (by omega)), h n (by omega)]; simp

/-- Word `i` is the `i`-th base `2^64` digit. -/
theorem wordsValue_mod (m : ℕ → UInt64) (n i : ℕ) (h : i ≤ n) :
    wordsValue m n % 2 ^ (64 * i) = wordsValue m i := by
  obtain ⟨k, rfl⟩ := Nat.exists_eq_add_of_le h
  rw [wordsValue_add, Nat.add_mul_mod_self_left, Nat.mod_eq_of_lt (wordsValue_lt m i)]

theorem wordsValue_digit (m : ℕ → UInt64) (n i : ℕ) (h : i < n) :
    wordsValue m n / 2 ^ (64 * i) % 2 ^ 64 = (m i).toNat := by
  have h1 := wordsValue_mod m n (i + 1) h
  have e : 2 ^ (64 * (i + 1)) = 2 ^ (64 * i) * 2 ^ 64 := by rw [← pow_add]; congr 1
  rw [e] at h1
  rw [← Nat.mod_mul_right_div_self, h1, wordsValue, Nat.add_mul_div_right _ _ (by positivity),
    Nat.div_eq_of_lt (wordsValue_lt m i), Nat.zero_add]

theorem wordsValue_inj {m m' : ℕ → UInt64} {n : ℕ} (h : wordsValue m n = wordsValue m' n) :
    ∀ i < n, m i = m' i := by
  intro i hi
  apply UInt64.toNat_inj.mp
  rw [← wordsValue_digit m n i hi, ← wordsValue_digit m' n i hi, h]

theorem wordsValue_pos_iff (m : ℕ → UInt64) (n : ℕ) : wordsValue m n = 0 ↔ ∀ i < n, m i = 0 := by
  refine ⟨fun h i hi => ?_, wordsValue_zero⟩
  have := wordsValue_digit m n i hi
  rw [h] at this
  apply UInt64.toNat_inj.mp
  rw [← this]; simp

theorem toNat_pos_of_ne {x : UInt64} (h : x ≠ 0) : 0 < x.toNat := by
  rcases Nat.eq_zero_or_pos x.toNat with h' | h'
  · exact absurd (UInt64.toNat_inj.mp (by simpa using h')) h
  · exact h'

namespace BigInt

theorem CAPACITY_eq : CAPACITY = 416 := rfl

theorem value_lt (b : BigInt) : b.value < 2 ^ (64 * b.count) := wordsValue_lt _ _

theorem Inv.value_lt {b : BigInt} (h : Inv b) : b.value < 2 ^ (64 * CAPACITY) :=
  lt_of_lt_of_le (BigInt.value_lt b) (Nat.pow_le_pow_right (by norm_num) (by have := h.le; omega))

/-- A nonzero top word bounds the value from below, and conversely. -/
theorem top_iff (b : BigInt) (hp : 1 ≤ b.count) :
    b.digits (b.count - 1) ≠ 0 ↔ 2 ^ (64 * (b.count - 1)) ≤ b.value := by
  obtain ⟨n, hn⟩ : ∃ n, b.count = n + 1 := ⟨b.count - 1, by omega⟩
  rw [value, hn, wordsValue, Nat.add_sub_cancel]
  constructor
  · intro h
    have := toNat_pos_of_ne h
    nlinarith [Nat.one_le_two_pow (n := 64 * n)]
  · intro h h0
    rw [h0] at h
    have := wordsValue_lt b.digits n
    simp at h
    omega

theorem Inv.ge {b : BigInt} (h : Inv b) (h2 : 2 ≤ b.count) : 2 ^ (64 * (b.count - 1)) ≤ b.value :=
  (top_iff b h.pos).mp (h.top.resolve_left (by omega))

theorem Inv.count_le {b : BigInt} (h : Inv b) {n : ℕ} (hn : 1 ≤ n) (hv : b.value < 2 ^ (64 * n)) : b.count ≤ n := by
  by_contra hc
  have h1 := h.ge (by omega)
  have h2 : 2 ^ (64 * n) ≤ 2 ^ (64 * (b.count - 1)) := Nat.pow_le_pow_right (by norm_num) (by omega)
  omega

theorem Inv.le_count {b : BigInt} {n : ℕ} (hv : 2 ^ (64 * n) ≤ b.value) : n < b.count := by
  by_contra hc
  have h1 := BigInt.value_lt b
  have h2 : 2 ^ (64 * b.count) ≤ 2 ^ (64 * n) := Nat.pow_le_pow_right (by norm_num) (by omega)
  omega

theorem isZero_iff {b : BigInt} (h : Inv b) : b.isZero = true ↔ b.value = 0 := by
  simp only [isZero, Bool.and_eq_true, beq_iff_eq]
  constructor
  · rintro ⟨h1, h2⟩
    simp [value, h1, wordsValue, h2]
  · intro hv
    have hc : b.count = 1 := by
      rcases h.top with h1 | h1
      · exact h1
      · have := (top_iff b h.pos).mp h1
        rw [hv] at this
        have := Nat.one_le_two_pow (n := 64 * (b.count - 1))
        omega
    refine ⟨hc, ?_⟩
    have := (wordsValue_pos_iff b.digits b.count).mp hv
    exact this 0 (by omega)

theorem eqWord_iff {b : BigInt} (h : Inv b) (d : UInt64) : b.eqWord d = true ↔ b.value = d.toNat := by
  simp only [eqWord, Bool.and_eq_true, beq_iff_eq]
  constructor
  · rintro ⟨h1, h2⟩
    simp [value, h1, wordsValue, h2]
  · intro hv
    have hc : b.count = 1 := by
      have := h.count_le (n := 1) le_rfl (by rw [hv]; exact d.toNat_lt)
      have := h.pos; omega
    refine ⟨hc, ?_⟩
    rw [value, hc] at hv
    simp [wordsValue] at hv
    exact UInt64.toNat_inj.mp hv

theorem rd_ok {b : BigInt} {i : ℕ} (h : i < CAPACITY) : rd b i = .ok (b.digits i) := by rw [rd, if_pos h]
theorem wr_ok {b : BigInt} {i : ℕ} {v : UInt64} (h : i < CAPACITY) :
    wr b i v = .ok ⟨upd b.digits i v, b.count⟩ := by rw [wr, if_pos h]

theorem upd_same (m : ℕ → UInt64) (i : ℕ) (v : UInt64) : upd m i v i = v := by simp [upd]
theorem upd_ne (m : ℕ → UInt64) {i j : ℕ} (v : UInt64) (h : j ≠ i) : upd m i v j = m j := by simp [upd, h]

theorem assignWord_value (b : BigInt) (d : UInt64) : (assignWord b d).value = d.toNat := by
  simp [assignWord, value, wordsValue, upd]

theorem assignWord_inv (b : BigInt) (d : UInt64) : Inv (assignWord b d) :=
  ⟨le_rfl, show 1 ≤ CAPACITY by decide, Or.inl rfl⟩

/-- Outcome of an operation whose exact result is `T`: it stores `T`, or throws because `T` does not fit. -/
def Yields (r : Res BigInt) (T : ℕ) : Prop :=
  (∃ b', r = .ok b' ∧ Inv b' ∧ b'.value = T) ∨ (r = .throws ∧ 2 ^ (64 * CAPACITY) ≤ T)

theorem Yields.ok {r : Res BigInt} {T : ℕ} (h : Yields r T) (ht : T < 2 ^ (64 * CAPACITY)) :
    ∃ b', r = .ok b' ∧ Inv b' ∧ b'.value = T := by
  rcases h with h | h
  · exact h
  · omega

theorem Yields.throws {r : Res BigInt} {T : ℕ} (h : Yields r T) (ht : 2 ^ (64 * CAPACITY) ≤ T) : r = .throws := by
  rcases h with ⟨b', -, hi, hv⟩ | h
  · have := hi.value_lt; omega
  · exact h.1

/-- Appending a nonzero word. -/
theorem pushBack_spec {b : BigInt} (hc : b.count ≤ CAPACITY) (d : UInt64) (hd : d ≠ 0) :
    Yields (pushBack b d) (b.value + d.toNat * 2 ^ (64 * b.count)) := by
  unfold pushBack
  by_cases h : b.count < CAPACITY
  · left
    rw [if_neg (by simpa using h), wr_ok h]
    refine ⟨_, rfl, ⟨by simp, h, Or.inr ?_⟩, ?_⟩
    · simp [upd, hd]
    · simp only [value]
      rw [wordsValue, wordsValue_upd_ge _ _ _ _ le_rfl, upd_same]
  · right
    rw [if_pos h]
    refine ⟨rfl, ?_⟩
    have e : b.count = CAPACITY := by omega
    have := toNat_pos_of_ne hd
    rw [e]
    nlinarith [Nat.one_le_two_pow (n := 64 * CAPACITY)]

/-- Same count and no smaller value keep the invariant. -/
theorem inv_of_value {b b' : BigInt} (h : Inv b) (hc : b'.count = b.count) (hv : b.value ≤ b'.value) : Inv b' := by
  refine ⟨hc ▸ h.pos, hc ▸ h.le, ?_⟩
  rcases Nat.lt_or_ge 1 b.count with h2 | h2
  · right
    rw [top_iff b' (hc ▸ h.pos), hc]
    exact (h.ge h2).trans hv
  · left; have := h.pos; omega

/-! ### Addition -/

theorem addLoop_spec (n : ℕ) : ∀ (i : ℕ) (backup : UInt64) (b : BigInt) (b0 : BigInt),
    Inv b0 → b.count = b0.count → i + n + 1 = b.count → 
    b0.value ≤ b.value + (if b.digits i < backup then 2 ^ (64 * (i + 1)) else 0) →
    Yields (addLoop n i backup b) (b.value + if b.digits i < backup then 2 ^ (64 * (i + 1)) else 0) := by
  induction n with
  | zero =>
    intro i backup b b0 h0 hc hi hv
    have hle := h0.le
    have e : b.count - 1 = i := by omega
    rw [addLoop, e, rd_ok (by omega)]
    simp only [Res.ok_bind]
    by_cases hlt : b.digits i < backup
    · rw [if_pos hlt, if_pos hlt]
      have := pushBack_spec (b := b) (by omega) 1 (by decide)
      rw [show i + 1 = b.count by omega]
      simpa using this
    · rw [if_neg hlt, if_neg hlt] at *
      left
      exact ⟨b, rfl, inv_of_value h0 hc (by simpa using hv), rfl⟩
  | succ n ih =>
    intro i backup b b0 h0 hc hi hv
    have hle := h0.le
    rw [addLoop, rd_ok (by omega)]
    simp only [Res.ok_bind]
    by_cases hlt : b.digits i < backup
    · have hnge : ¬ b.digits i ≥ backup := by
        rw [ge_iff_le, UInt64.le_iff_toNat_le]; rw [UInt64.lt_iff_toNat_lt] at hlt; omega
      rw [if_neg hnge, if_pos hlt, rd_ok (by omega), Res.ok_bind, wr_ok (by omega), Res.ok_bind]
      have hu := wordsValue_upd b.digits (i + 1) b.count (b.digits (i + 1) + 1) (by omega)
      have hw : ((b.digits (i + 1) + 1 : UInt64)).toNat +
          (if (b.digits (i + 1) + 1 : UInt64) < b.digits (i + 1) then 2 ^ 64 else 0) =
          (b.digits (i + 1)).toNat + 1 := by
        have := (b.digits (i + 1)).toNat_lt
        simp only [UInt64.lt_iff_toNat_lt, UInt64.toNat_add]
        rw [show (1 : UInt64).toNat = 1 from rfl]
        split <;> omega
      have hT : (⟨upd b.digits (i + 1) (b.digits (i + 1) + 1), b.count⟩ : BigInt).value +
          (if (upd b.digits (i + 1) (b.digits (i + 1) + 1)) (i + 1) < b.digits (i + 1)
            then 2 ^ (64 * (i + 1 + 1)) else 0) = b.value + 2 ^ (64 * (i + 1)) := by
        rw [upd_same]
        simp only [value]
        rw [pow64_succ (i + 1)]
        generalize 2 ^ (64 * (i + 1)) = P at hu ⊢
        have hw' := congrArg (· * P) hw
        simp only [add_mul, one_mul] at hw'
        by_cases hh : b.digits (i + 1) + 1 < b.digits (i + 1)
        · rw [if_pos hh] at hw' ⊢
          linarith
        · rw [if_neg hh] at hw' ⊢
          linarith
      rw [if_pos hlt] at hv
      have := ih (i + 1) (b.digits (i + 1)) ⟨upd b.digits (i + 1) (b.digits (i + 1) + 1), b.count⟩ b0 h0 hc
        (by simp only; omega) (by rw [hT]; exact hv)
      rw [hT] at this
      exact this
    · have hge : b.digits i ≥ backup := by
        rw [ge_iff_le, UInt64.le_iff_toNat_le]; rw [UInt64.lt_iff_toNat_lt] at hlt; omega
      rw [if_pos hge, if_neg hlt]
      rw [if_neg hlt] at hv
      left
      exact ⟨b, rfl, inv_of_value h0 hc (by simpa using hv), rfl⟩

theorem add_spec {b : BigInt} (h : Inv b) (d : UInt64) : Yields (add b d) (b.value + d.toNat) := by
  have hp := h.pos
  have hle := h.le
  unfold add
  rw [if_neg (by omega), rd_ok (by omega), Res.ok_bind, wr_ok (by omega), Res.ok_bind]
  have hu := wordsValue_upd b.digits 0 b.count (b.digits 0 + d) (by omega)
  have hT : (⟨upd b.digits 0 (b.digits 0 + d), b.count⟩ : BigInt).value +
      (if (upd b.digits 0 (b.digits 0 + d)) 0 < b.digits 0 then 2 ^ (64 * (0 + 1)) else 0) = b.value + d.toNat := by
    rw [upd_same]
    simp only [value]
    have h1 := (b.digits 0).toNat_lt
    have h2 := d.toNat_lt
    simp only [UInt64.lt_iff_toNat_lt, UInt64.toNat_add] at hu ⊢
    split <;> omega
  have := addLoop_spec (b.count - 1) 0 (b.digits 0) ⟨upd b.digits 0 (b.digits 0 + d), b.count⟩ b h rfl
    (by simp only; omega) (by rw [hT]; omega)
  rw [hT] at this
  exact this

end BigInt
end Lexi
