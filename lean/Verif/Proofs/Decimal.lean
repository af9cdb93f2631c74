import Verif.Spec.Decimal

/-! # Lemmas about canonical decimal numerals -/

namespace Lexi.Spec

/-- ASCII digit of a number below ten. -/
def dig (n : Nat) : UInt8 := UInt8.ofNat (48 + n)

/-- Numeral of a natural number, by recursion on the last digit. -/
def decN (n : Nat) : List UInt8 :=
  if _h : n < 10 then [dig n] else decN (n / 10) ++ [dig (n % 10)]
termination_by n
decreasing_by omega

/-- The `k` low-order decimal digits of `n`. -/
def decW : Nat → Nat → List UInt8
  | 0, _ => []
  | k + 1, n => decW k (n / 10) ++ [dig (n % 10)]

theorem digitChar_byte (n : Nat) (h : n < 10) :
    UInt8.ofNat (Nat.digitChar n).toNat = dig n := by
  have : ∀ n : Fin 10, UInt8.ofNat (Nat.digitChar n.1).toNat = dig n.1 := by decide
  exact this ⟨n, h⟩

theorem toDigits_bytes (n : Nat) :
    (Nat.toDigits 10 n).map (fun c => UInt8.ofNat c.toNat) = decN n := by
  induction n using Nat.strongRecOn with
  | ind n ih =>
    rw [Nat.toDigits_eq_if (by omega), decN]
    by_cases h : n < 10
    · simp [h, digitChar_byte n h]
    · simp only [h, if_false, dite_false, List.map_append, List.map_cons, List.map_nil]
      rw [ih (n / 10) (by omega), digitChar_byte _ (by omega)]

theorem ascii_toString_nat (n : Nat) : ascii (toString n) = decN n := by
  have : toString n = String.ofList (Nat.toDigits 10 n) := rfl
  rw [ascii, this, String.toList_ofList, toDigits_bytes]

theorem decimalText_natCast (n : Nat) : decimalText (n : Int) = decN n := by
  have : toString (n : Int) = toString n := rfl
  rw [decimalText, this, ascii_toString_nat]

theorem decimalText_neg (n : Int) (h : n < 0) : decimalText n = 45 :: decN n.natAbs := by
  obtain ⟨m, rfl⟩ : ∃ m : Nat, n = Int.negSucc m := by
    cases n with
    | ofNat k => exact absurd h (Int.not_lt.mpr (Int.natCast_nonneg k))
    | negSucc k => exact ⟨k, rfl⟩
  have h1 : toString (Int.negSucc m) = "-" ++ toString (m + 1) := rfl
  rw [decimalText, h1, ascii, String.toList_append, List.map_append]
  have := ascii_toString_nat (m + 1)
  unfold ascii at this
  rw [this]
  rfl

theorem decimalText_nonneg (n : Int) (h : 0 ≤ n) : decimalText n = decN n.natAbs := by
  obtain ⟨m, rfl⟩ := Int.eq_ofNat_of_zero_le h
  simpa using decimalText_natCast m

theorem decN_eq_decW (k n : Nat) (hlo : k = 0 ∨ 10 ^ k ≤ n) (hhi : n < 10 ^ (k + 1)) :
    decN n = decW (k + 1) n := by
  induction k generalizing n with
  | zero =>
    rw [decN, decW, decW]
    have : n < 10 := by simpa using hhi
    simp [this, Nat.mod_eq_of_lt this]
  | succ k ih =>
    have hlo' : 10 ^ (k + 1) ≤ n := by
      rcases hlo with h | h
      · omega
      · exact h
    have h10 : 10 ^ (k + 1) = 10 ^ k * 10 := Nat.pow_succ ..
    have h11 : 10 ^ (k + 1 + 1) = 10 ^ (k + 1) * 10 := Nat.pow_succ ..
    have hp : 0 < 10 ^ k := Nat.pow_pos (by omega)
    have hn : ¬ n < 10 := by omega
    rw [decN, decW]
    simp only [hn, dite_false]
    rw [ih (n / 10) (Or.inr (by omega)) (by omega)]

theorem dig_isDigit (n : Nat) (h : n < 10) : IsDigit (dig n) := by
  have : ∀ n : Fin 10, IsDigit (dig n.1) := by decide
  exact this ⟨n, h⟩

theorem dig_toNat (n : Nat) (h : n < 10) : (dig n).toNat = 48 + n := by
  have : ∀ n : Fin 10, (dig n.1).toNat = 48 + n.1 := by decide
  exact this ⟨n, h⟩

theorem dig_inj {a b : Nat} (ha : a < 10) (hb : b < 10) (h : dig a = dig b) : a = b := by
  have := congrArg UInt8.toNat h
  rw [dig_toNat a ha, dig_toNat b hb] at this
  omega

theorem decN_digits (n : Nat) : ∀ b ∈ decN n, IsDigit b := by
  induction n using Nat.strongRecOn with
  | ind n ih =>
    rw [decN]
    by_cases h : n < 10
    · simp only [h, dite_true, List.mem_singleton]
      rintro b rfl; exact dig_isDigit n h
    · simp only [h, dite_false, List.mem_append, List.mem_singleton]
      rintro b (hb | rfl)
      · exact ih _ (by omega) b hb
      · exact dig_isDigit _ (by omega)

theorem decN_ne_nil (n : Nat) : decN n ≠ [] := by
  rw [decN]; split <;> simp

theorem digitsValue_append_singleton (s : List UInt8) (b : UInt8) :
    digitsValue (s ++ [b]) = digitsValue s * 10 + (b.toNat - 48) := by
  simp [digitsValue, List.foldl_append]

theorem digitsValue_decN (n : Nat) : digitsValue (decN n) = n := by
  induction n using Nat.strongRecOn with
  | ind n ih =>
    rw [decN]
    by_cases h : n < 10
    · simp only [h, dite_true, digitsValue, List.foldl_cons, List.foldl_nil]
      rw [dig_toNat n h]; omega
    · simp only [h, dite_false]
      rw [digitsValue_append_singleton, ih _ (by omega), dig_toNat _ (by omega)]
      omega

theorem decN_head (n : Nat) (h : n ≠ 0) : (decN n).head? ≠ some 48 := by
  induction n using Nat.strongRecOn with
  | ind n ih =>
    rw [decN]
    by_cases h9 : n < 10
    · simp only [h9, dite_true, List.head?_cons, ne_eq, Option.some.injEq]
      intro h0
      have := congrArg UInt8.toNat h0
      rw [dig_toNat n h9] at this
      simp at this; omega
    · simp only [h9, dite_false]
      have := ih (n / 10) (by omega) (by omega)
      intro hh
      cases hd : decN (n / 10) with
      | nil => exact decN_ne_nil _ hd
      | cons x xs =>
        rw [hd] at this hh
        exact this hh

theorem decN_length_le (k n : Nat) (h : n < 10 ^ k) (hk : 0 < k) : (decN n).length ≤ k := by
  induction k generalizing n with
  | zero => omega
  | succ k ih =>
    rw [decN]
    by_cases h9 : n < 10
    · simp [h9]
    · simp only [h9, dite_false, List.length_append, List.length_singleton]
      have hk' : 0 < k := by
        rcases Nat.eq_zero_or_pos k with rfl | hk'
        · simp at h; omega
        · exact hk'
      have : n / 10 < 10 ^ k := by
        rw [Nat.pow_succ] at h; omega
      have := ih (n / 10) this hk'
      omega

theorem decN_injective {a b : Nat} (h : decN a = decN b) : a = b := by
  rw [← digitsValue_decN a, ← digitsValue_decN b, h]

theorem decimalText_canonical (n : Int) : CanonicalNumeral (decimalText n) n := by
  refine ⟨decN n.natAbs, ?_, decN_ne_nil _, decN_digits _, ?_, digitsValue_decN _⟩
  · by_cases h : n < 0
    · simp [h, decimalText_neg n h]
    · simp [h, decimalText_nonneg n (by omega)]
  · intro hl
    apply decN_head
    intro h0
    rw [h0] at hl
    rw [decN] at hl; simp at hl

end Lexi.Spec
