import Verif.Proofs.Dtoa
import Verif.Proofs.JsonNumber

/-! # The text produced by prettify as a JSON number -/

namespace Lexi.Dtoa
open Spec

theorem digitsValue_append (a b : List UInt8) :
    digitsValue (a ++ b) = digitsValue a * 10 ^ b.length + digitsValue b := by
  induction b using List.reverseRecOn with
  | nil => simp [digitsValue]
  | append_singleton b c ih =>
    rw [← List.append_assoc, digitsValue_append_singleton, ih, digitsValue_append_singleton]
    simp only [List.length_append, List.length_singleton, pow_succ]
    ring

theorem digitsValue_zeros (n : Nat) : digitsValue (List.replicate n 48) = 0 := by
  induction n with
  | zero => rfl
  | succ n ih =>
    rw [List.replicate_succ', digitsValue_append_singleton, ih]; rfl

theorem digitsValue_zeros_append (n : Nat) (ds : List UInt8) :
    digitsValue (List.replicate n 48 ++ ds) = digitsValue ds := by
  rw [digitsValue_append, digitsValue_zeros]; simp

/-- The exponent part written by `writeExponent`. -/
def expPart (k : ℤ) : JExp := ⟨101, if k < 0 then [45] else [], decN k.natAbs⟩

theorem expPart_text (k : ℤ) : (expPart k).text = 101 :: decimalText k := by
  unfold expPart JExp.text
  by_cases h : k < 0
  · rw [decimalText_neg k h]; simp [h]
  · rw [decimalText_nonneg k (by omega)]; simp [h]

theorem expPart_WF (k : ℤ) : (expPart k).WF := by
  refine ⟨Or.inl rfl, ?_, decN_ne_nil _, decN_digits _⟩
  unfold expPart
  dsimp only
  split
  · exact Or.inr (Or.inl rfl)
  · exact Or.inl rfl

theorem expPart_value (k : ℤ) : (expPart k).value = k := by
  unfold expPart JExp.value
  by_cases h : k < 0
  · simp only [h, if_true, digitsValue_decN]; omega
  · simp only [h, if_false, digitsValue_decN]
    rw [if_neg (by simp)]; omega

/-- Parse tree of `prettyText`. -/
def prettyNumber (neg : Bool) (ds : Bytes) (k : ℤ) : JNumber :=
  let kk := (ds.length : ℤ) + k
  if ds.length ≤ kk ∧ kk ≤ 21 then ⟨neg, ds ++ List.replicate (kk - ds.length).toNat 48, some [48], none⟩
  else if 0 < kk ∧ kk ≤ 21 then ⟨neg, ds.take kk.toNat, some (ds.drop kk.toNat), none⟩
  else if -6 < kk ∧ kk ≤ 0 then ⟨neg, [48], some (List.replicate (-kk).toNat 48 ++ ds), none⟩
  else if ds.length = 1 then ⟨neg, ds, none, some (expPart (kk - 1))⟩
  else ⟨neg, ds.take 1, some (ds.drop 1), some (expPart (kk - 1))⟩

theorem prettyNumber_neg (neg : Bool) (ds : Bytes) (k : ℤ) : (prettyNumber neg ds k).neg = neg := by
  unfold prettyNumber
  dsimp only
  split
  · rfl
  · split
    · rfl
    · split
      · rfl
      · split <;> rfl

theorem prettyNumber_text (neg : Bool) (ds : Bytes) (k : ℤ) :
    (prettyNumber neg ds k).text = (if neg then [45] else []) ++ prettyText ds k := by
  unfold prettyNumber prettyText
  dsimp only
  split
  · simp [JNumber.text]
  · split
    · simp [JNumber.text]
    · split
      · simp [JNumber.text]
      · split
        · simp [JNumber.text, expPart_text]
        · simp [JNumber.text, expPart_text]

theorem prettyNumber_WF (neg : Bool) (ds : Bytes) (k : ℤ) (h0 : ds ≠ []) (hd : ∀ b ∈ ds, IsDigit b)
    (hh : ds.head? ≠ some 48) : (prettyNumber neg ds k).WF := by
  have hpos := List.length_pos_iff.mpr h0
  have h48 : IsDigit 48 := by decide
  have hrep : ∀ n, ∀ b ∈ List.replicate n (48 : UInt8), IsDigit b := by
    intro n b hb; rw [(List.mem_replicate.mp hb).2]; exact h48
  unfold prettyNumber
  dsimp only
  split
  · refine ⟨by simp [h0], ?_, ?_, ?_, by simp⟩
    · intro b hb
      rcases List.mem_append.mp hb with hb | hb
      · exact hd b hb
      · exact hrep _ b hb
    · intro _
      rw [List.head?_append_of_ne_nil _ h0]; exact hh
    · intro f hf
      simp only [Option.some.injEq] at hf
      subst hf
      exact ⟨by simp, by simpa using h48⟩
  · split
    · rename_i h1 h2
      refine ⟨?_, fun b hb => hd b (List.mem_of_mem_take hb), ?_, ?_, by simp⟩
      · rw [ne_eq, List.take_eq_nil_iff]; simp only [h0, or_false]; omega
      · intro _
        rw [List.head?_take, if_neg (by omega)]; exact hh
      · intro f hf
        simp only [Option.some.injEq] at hf
        subst hf
        refine ⟨?_, fun b hb => hd b (List.mem_of_mem_drop hb)⟩
        rw [ne_eq, List.drop_eq_nil_iff]; omega
    · split
      · refine ⟨by simp, by simpa using h48, by simp, ?_, by simp⟩
        intro f hf
        simp only [Option.some.injEq] at hf
        subst hf
        refine ⟨by simp [h0], ?_⟩
        intro b hb
        rcases List.mem_append.mp hb with hb | hb
        · exact hrep _ b hb
        · exact hd b hb
      · split
        · refine ⟨h0, hd, fun _ => hh, by simp, ?_⟩
          intro e he
          simp only [Option.some.injEq] at he
          subst he; exact expPart_WF _
        · refine ⟨?_, fun b hb => hd b (List.mem_of_mem_take hb), ?_, ?_, ?_⟩
          · rw [ne_eq, List.take_eq_nil_iff]; simp [h0]
          · intro _
            rw [List.head?_take, if_neg (by omega)]; exact hh
          · intro f hf
            simp only [Option.some.injEq] at hf
            subst hf
            refine ⟨?_, fun b hb => hd b (List.mem_of_mem_drop hb)⟩
            rw [ne_eq, List.drop_eq_nil_iff]; omega
          · intro e he
            simp only [Option.some.injEq] at he
            subst he; exact expPart_WF _

theorem prettyNumber_mag (neg : Bool) (ds : Bytes) (k : ℤ) (h0 : ds ≠ []) :
    (prettyNumber neg ds k).mag = (digitsValue ds : ℚ) * 10 ^ k := by
  have hpos := List.length_pos_iff.mpr h0
  unfold prettyNumber
  dsimp only
  split
  · rename_i h1
    simp only [JNumber.mag, JNumber.fracDigits, JNumber.expValue, Option.getD_some]
    have e1 : digitsValue (ds ++ List.replicate ((ds.length : ℤ) + k - ds.length).toNat 48 ++ [48])
        = digitsValue ds * 10 ^ (k.toNat + 1) := by
      rw [digitsValue_append_singleton, digitsValue_append, digitsValue_zeros]
      have e2 : ((ds.length : ℤ) + k - ds.length).toNat = k.toNat := by omega
      rw [e2, List.length_replicate, pow_succ]
      have e3 : (48 : UInt8).toNat - 48 = 0 := rfl
      rw [e3]; ring
    rw [e1]
    have hk : k = (k.toNat : ℤ) := by omega
    push_cast
    rw [mul_assoc]
    congr 1
    conv_rhs => rw [hk]
    rw [zpow_natCast, pow_succ]
    norm_num
    ring
  · split
    · rename_i h1 h2
      simp only [JNumber.mag, JNumber.fracDigits, JNumber.expValue, Option.getD_some, List.take_append_drop]
      congr 2
      rw [List.length_drop]; omega
    · split
      · rename_i h1 h2 h3
        simp only [JNumber.mag, JNumber.fracDigits, JNumber.expValue, Option.getD_some]
        have : ([48] ++ (List.replicate (-((ds.length : ℤ) + k)).toNat 48 ++ ds) : List UInt8) =
            List.replicate ((-((ds.length : ℤ) + k)).toNat + 1) 48 ++ ds := by
          rw [List.replicate_succ]; simp
        rw [this, digitsValue_zeros_append]
        congr 2
        rw [List.length_append, List.length_replicate]; omega
      · split
        · rename_i hl
          simp only [JNumber.mag, JNumber.fracDigits, JNumber.expValue, Option.getD_none, expPart_value,
            List.append_nil, List.length_nil]
          congr 2
          omega
        · simp only [JNumber.mag, JNumber.fracDigits, JNumber.expValue, Option.getD_some, expPart_value,
            List.take_append_drop]
          congr 2
          rw [List.length_drop]; omega

/-- Fixed notation is used exactly for decimal exponents -5..21. -/
theorem prettyNumber_fixed (neg : Bool) (ds : Bytes) (k : ℤ) (h0 : ds ≠ []) :
    (prettyNumber neg ds k).exp = none ↔ -6 < (ds.length : ℤ) + k ∧ (ds.length : ℤ) + k ≤ 21 := by
  have hpos := List.length_pos_iff.mpr h0
  unfold prettyNumber
  dsimp only
  split
  · simp; omega
  · split
    · simp; omega
    · split
      · simp; omega
      · split
        · simp; omega
        · simp; omega

theorem prettyNumber_sci (neg : Bool) (ds : Bytes) (k : ℤ) (h0 : ds ≠ [])
    (h : (prettyNumber neg ds k).exp ≠ none) :
    (prettyNumber neg ds k).exp = some (expPart ((ds.length : ℤ) + k - 1)) ∧
      (prettyNumber neg ds k).int = ds.take 1 := by
  have hpos := List.length_pos_iff.mpr h0
  unfold prettyNumber at h ⊢
  dsimp only at h ⊢
  split at h
  · simp at h
  · rename_i h1
    rw [if_neg h1]
    split at h
    · simp at h
    · rename_i h2
      rw [if_neg h2]
      split at h
      · simp at h
      · rename_i h3
        rw [if_neg h3]
        split
        · rename_i h4
          exact ⟨rfl, by simp [List.take_of_length_le, h4]⟩
        · exact ⟨rfl, rfl⟩

theorem prettyNumber_point (neg : Bool) (ds : Bytes) (k : ℤ) :
    (prettyNumber neg ds k).frac.isSome ∨ (prettyNumber neg ds k).exp.isSome := by
  unfold prettyNumber
  dsimp only
  split
  · simp
  · split
    · simp
    · split
      · simp
      · split <;> simp

end Lexi.Dtoa
