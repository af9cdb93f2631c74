import Verif.Model.Repair
import Verif.Proofs.BigDecimal
import Verif.Proofs.BigHistory
import Verif.Proofs.BigCmp

/-!
# The repaired big integer functions (C102)
-/

namespace Lexi
namespace BigInt
open Spec Dtoa

theorem value_ge_one {b : BigInt} (h : Inv b) (hz : b.value ≠ 0) : 2 ^ (64 * (b.count - 1)) ≤ b.value := by
  rcases Nat.lt_or_ge 1 b.count with h2 | h2
  · exact h.ge h2
  · have : b.count - 1 = 0 := by omega
    rw [this]; simp; omega

/-- The words after the repaired shift when no word is pushed out. -/
theorem shifted_value {b : BigInt} {n off s shift : ℕ} {m : ℕ → UInt64} (hn : b.count = n + 1) (hshift : shift = 64 * off + s)
    (hword : ∀ j ≤ n, m (off + j) = shWords s b.digits j) (hx : wordsValue (shWords s b.digits) (n + 1) = b.value * 2 ^ s) :
    (⟨fun j => if j < off then 0 else m j, b.count + off⟩ : BigInt).value = b.value * 2 ^ shift := by
  have e : (⟨fun j => if j < off then 0 else m j, b.count + off⟩ : BigInt).value =
      wordsValue (fun j => if j < off then 0 else m j) (off + (n + 1)) := by rw [value, add_comm off, ← hn]
  rw [e, wordsValue_shifted (g := shWords s b.digits) (fun j hj => by rw [if_pos hj])
    (fun j hj => by rw [if_neg (by omega)]; exact hword j (by omega)), hx, hshift, pow_add]
  ring

/-- The words after the repaired shift when one is pushed out. -/
theorem shifted_value_top {b : BigInt} {n off s shift : ℕ} {m : ℕ → UInt64} {top : UInt64} (hn : b.count = n + 1)
    (hshift : shift = 64 * off + s) (hword : ∀ j ≤ n, m (off + j) = shWords s b.digits j)
    (hx : wordsValue (shWords s b.digits) (n + 1) + top.toNat * 2 ^ (64 * (n + 1)) = b.value * 2 ^ s) :
    (⟨fun j => if j < off then 0 else upd m (b.count + off) top j, b.count + off + 1⟩ : BigInt).value = b.value * 2 ^ shift := by
  have e : (⟨fun j => if j < off then 0 else upd m (b.count + off) top j, b.count + off + 1⟩ : BigInt).value =
      wordsValue (fun j => if j < off then 0 else upd m (b.count + off) top j) (off + (n + 1 + 1)) := by
    rw [value, ← add_assoc off, add_comm off, ← hn]
  rw [e, wordsValue_shifted (g := upd (shWords s b.digits) (n + 1) top) (fun j hj => by rw [if_pos hj])
    (fun j hj => by
      rw [if_neg (by omega)]
      by_cases hj2 : j = n + 1
      · rw [hj2, upd_same, show off + (n + 1) = b.count + off by omega, upd_same]
      · rw [upd_ne _ _ (by omega), upd_ne _ _ hj2]; exact hword j (by omega)),
    wordsValue, wordsValue_upd_ge _ _ _ _ le_rfl, upd_same, hx, hshift, pow_add]
  ring

theorem pow_le_shifted {x p q shift : ℕ} (h : 2 ^ p ≤ x) (hq : q ≤ p + shift) : 2 ^ q ≤ x * 2 ^ shift :=
  calc 2 ^ q ≤ 2 ^ p * 2 ^ shift := by rw [← pow_add]; exact Nat.pow_le_pow_right (by norm_num) hq
    _ ≤ x * 2 ^ shift := Nat.mul_le_mul_right _ h

theorem push_ok (m : ℕ → UInt64) (top : UInt64) {c : ℕ} (h : c + 1 ≤ CAPACITY) :
    pushBack ⟨m, c⟩ top = .ok ⟨upd m c top, c + 1⟩ := by
  unfold pushBack
  have h1 : c < CAPACITY := h
  simp [h1, wr]

/-- The repaired shift is exact or throws because the result does not fit. -/
theorem shlR_spec {b : BigInt} (h : Inv b) (shift : ℕ) : Yields (shlR b shift) (b.value * 2 ^ shift) := by
  have hp := h.pos
  have hle := h.le
  unfold shlR
  by_cases hz : b.isZero = true ∨ shift = 0
  · rw [if_pos hz]
    left
    refine ⟨b, rfl, h, ?_⟩
    rcases hz with hz | hz
    · rw [(isZero_iff h).mp hz]; simp
    · rw [hz]; simp
  rw [if_neg hz, if_neg (by omega)]
  have hv0 : b.value ≠ 0 := fun h0 => hz (Or.inl ((isZero_iff h).mpr h0))
  have hge := value_ge_one h hv0
  have e64 : INT64_BYTE = 64 := rfl
  simp only [e64]
  rw [rd_ok (by omega), Res.ok_bind]
  generalize hoff : shift / 64 = off at *
  generalize hst : shift % 64 = s at *
  have hshift : shift = 64 * off + s := by omega
  by_cases hs : s = 0
  · simp only [hs, if_true, ne_eq, not_true, if_false, Nat.add_zero]
    by_cases hc : b.count + off ≤ CAPACITY
    · left
      rw [if_neg (by omega), memmove, if_pos (by omega), Res.ok_bind, memzero, if_pos (by omega)]
      have hv : (⟨fun j => if j < off then 0 else (if off ≤ j ∧ j < off + b.count then b.digits (j - off + 0) else b.digits j),
          b.count + off⟩ : BigInt).value = b.value * 2 ^ shift := by
        simp only [value]
        rw [add_comm b.count, wordsValue_shifted (g := b.digits) (fun j hj => by rw [if_pos hj])
          (fun j hj => by rw [if_neg (by omega), if_pos (by omega)]; congr 1; omega), mul_comm, hshift, hs, Nat.add_zero]
      refine ⟨_, rfl, ⟨by simp only; omega, by simp only; omega, Or.inr ?_⟩, hv⟩
      rw [top_iff _ (by simp only; omega), hv]
      simp only
      exact pow_le_shifted hge (by omega)
    · right
      rw [if_pos hc]
      refine ⟨rfl, ?_⟩
      exact pow_le_shifted hge (by omega)
  · have hs1 : 1 ≤ s := by omega
    have hs2 : s < 64 := by omega
    simp only [hs, if_false]
    obtain ⟨n, hn⟩ : ∃ n, b.count = n + 1 := ⟨b.count - 1, by omega⟩
    have hx := shWords_value s hs1 hs2 b.digits n
    have etop : b.digits (b.count - 1) = b.digits n := by rw [hn]; rfl
    rw [etop]
    have htop : (b.digits n >>> UInt64.ofNat (64 - s)).toNat = (b.digits n).toNat / 2 ^ (64 - s) :=
      shr_toNat _ _ (by omega)
    generalize hT : b.digits n >>> UInt64.ofNat (64 - s) = top at *
    rw [← htop] at hx
    have hbv : wordsValue b.digits (n + 1) = b.value := by rw [value, hn]
    rw [hbv] at hx
    by_cases hc : b.count + off + (if top ≠ 0 then 1 else 0) ≤ CAPACITY
    · rw [if_neg (by omega), hn, Nat.add_sub_cancel]
      have hc' : n + 1 + off ≤ CAPACITY := by
        have : b.count + off ≤ CAPACITY := by split at hc <;> omega
        omega
      rw [shlLoop_spec _ _ _ _ (by omega), Res.ok_bind, rd_ok (by decide), Res.ok_bind, wr_ok (by omega), Res.ok_bind]
      simp only
      generalize hm : upd (fun j => if off < j ∧ j ≤ n + off then shWord s (b.digits (j - off)) (b.digits (j - off - 1))
        else b.digits j) off ((if off < 0 ∧ 0 ≤ n + off then shWord s (b.digits (0 - off)) (b.digits (0 - off - 1))
        else b.digits 0) <<< UInt64.ofNat s) = m
      have hword : ∀ j ≤ n, m (off + j) = shWords s b.digits j := by
        intro j hj
        rw [← hm]
        rcases j with _ | j
        · rw [Nat.add_zero, upd_same, if_neg (by omega)]; rfl
        · rw [upd_ne _ _ (by omega), if_pos (by omega), show off + (j + 1) - off = j + 1 by omega, Nat.add_sub_cancel]; rfl
      left
      by_cases ht : top = 0
      · rw [if_neg (by simpa using ht), Res.ok_bind, memzero, if_pos (by omega)]
        have hv : (⟨fun j => if j < off then 0 else m j, b.count + off⟩ : BigInt).value = b.value * 2 ^ shift := by
          rw [ht, UInt64.toNat_zero, Nat.zero_mul, Nat.add_zero] at hx
          exact shifted_value hn hshift hword hx
        refine ⟨_, rfl, ⟨by simp only; omega, by simp only; omega, Or.inr ?_⟩, hv⟩
        rw [top_iff _ (by simp only; omega), hv]
        simp only
        exact pow_le_shifted hge (by omega)
      · have hc2 : b.count + off + 1 ≤ CAPACITY := by rw [if_pos ht] at hc; exact hc
        rw [if_pos ht, push_ok m top hc2, Res.ok_bind, memzero, if_pos (by omega)]
        refine ⟨_, rfl, ⟨by simp only; omega, by simp only; omega, Or.inr ?_⟩, ?_⟩
        · simp only
          rw [Nat.add_sub_cancel, if_neg (by omega), upd_same]; exact ht
        · exact shifted_value_top hn hshift hword hx
    · right
      rw [if_pos hc]
      refine ⟨rfl, ?_⟩
      by_cases ht : top = 0
      · rw [if_neg (by simpa using ht)] at hc
        exact pow_le_shifted hge (by omega)
      · rw [if_pos ht] at hc
        have h1 := toNat_pos_of_ne ht
        have h2 : 2 ^ (64 * (n + 1)) ≤ b.value * 2 ^ s := by
          rw [← hx]
          nlinarith [Nat.one_le_two_pow (n := 64 * (n + 1))]
        have h3 : 2 ^ (64 * CAPACITY) ≤ b.value * 2 ^ s * 2 ^ (64 * off) := pow_le_shifted h2 (by omega)
        rw [mul_assoc, ← pow_add] at h3
        rwa [hshift, add_comm]

/-- One chunk of digits: exact, or throws because the value so far does not fit. -/
theorem addDecimalR_spec (v : MulImpl) {b : BigInt} (h : Inv b) (s : Bytes) (hs : ∀ c ∈ s, IsDigit c) (h19 : s.length ≤ 19) :
    Yields (addDecimalR v b s) (b.value * 10 ^ s.length + digitsValue s) := by
  have hd := chunk_toNat hs h19
  unfold addDecimalR
  rw [parse_ok s hs, Res.ok_bind]
  by_cases hz : b.isZero = true
  · rw [if_pos hz]
    left
    refine ⟨_, rfl, assignWord_inv _ _, ?_⟩
    rw [assignWord_value, hd, (isZero_iff h).mp hz]; simp
  · rw [if_neg hz]
    have e10 : b.value * 5 ^ s.length * 2 ^ s.length = b.value * 10 ^ s.length := by
      rw [mul_assoc, ← Nat.mul_pow]
    rcases mulPow5_spec v h s.length with ⟨b1, e1, i1, v1⟩ | ⟨e1, g1⟩
    · rw [e1, Res.ok_bind]
      rcases shlR_spec i1 s.length with ⟨b2, e2, i2, v2⟩ | ⟨e2, g2⟩
      · rw [e2, Res.ok_bind]
        have := add_spec i2 (UInt64.ofNat (digitsValue s))
        rw [v2, v1, e10, hd] at this
        exact this
      · right
        rw [e2]
        rw [v1, e10] at g2
        exact ⟨rfl, by omega⟩
    · right
      rw [e1]
      refine ⟨rfl, ?_⟩
      have : b.value * 5 ^ s.length ≤ b.value * 10 ^ s.length := by
        rw [← e10]; exact Nat.le_mul_of_pos_right _ (by positivity)
      omega

theorem addDecimalR_throws (v : MulImpl) (b : BigInt) (s : Bytes) (hs : ∃ c ∈ s, ¬ IsDigit c) :
    addDecimalR v b s = .throws := by
  rw [addDecimalR, parse_throws s hs]; rfl

theorem decimalLoopR_spec (v : MulImpl) (fuel : ℕ) : ∀ (s : Bytes) (b : BigInt), s.length ≤ fuel → Inv b →
    (∀ c ∈ s, IsDigit c) → Yields (decimalLoopR v fuel s b) (b.value * 10 ^ s.length + digitsValue s) := by
  have e19 : DIGITS_ITERATION = 19 := rfl
  have small : ∀ (s : Bytes) (b : BigInt), Inv b → ¬ 19 ≤ s.length → (∀ c ∈ s, IsDigit c) →
      Yields (if 0 < s.length then addDecimalR v b s else .ok b) (b.value * 10 ^ s.length + digitsValue s) := by
    intro s b hi h19 hs
    by_cases h0 : 0 < s.length
    · rw [if_pos h0]; exact addDecimalR_spec v hi s hs (by omega)
    · rw [if_neg h0]
      have : s = [] := List.length_eq_zero_iff.mp (by omega)
      subst this
      left; exact ⟨b, rfl, hi, by simp [digitsValue]⟩
  induction fuel with
  | zero =>
    intro s b hf hi hs
    rw [decimalLoopR.eq_def]; dsimp only
    rw [e19, if_neg (by omega)]
    exact small s b hi (by omega) hs
  | succ fuel ih =>
    intro s b hf hi hs
    rw [decimalLoopR.eq_def]; dsimp only
    rw [e19]
    by_cases h19 : 19 ≤ s.length
    · rw [if_pos h19]
      have ht : (s.take 19).length = 19 := by rw [List.length_take]; omega
      have hst : ∀ c ∈ s.take 19, IsDigit c := fun c hc => hs c (List.mem_of_mem_take hc)
      have hsd : ∀ c ∈ s.drop 19, IsDigit c := fun c hc => hs c (List.mem_of_mem_drop hc)
      have happ : digitsValue s = digitsValue (s.take 19) * 10 ^ (s.drop 19).length + digitsValue (s.drop 19) := by
        rw [← digitsValue_append, List.take_append_drop]
      have hp : 10 ^ s.length = 10 ^ 19 * 10 ^ (s.drop 19).length := by
        rw [← pow_add, List.length_drop]; congr 1; omega
      have hT : (b.value * 10 ^ 19 + digitsValue (s.take 19)) * 10 ^ (s.drop 19).length + digitsValue (s.drop 19) =
          b.value * 10 ^ s.length + digitsValue s := by
        rw [happ, hp]; ring
      rcases addDecimalR_spec v hi (s.take 19) hst (by omega) with ⟨b1, e1, i1, v1⟩ | ⟨e1, g1⟩
      · rw [e1, Res.ok_bind]
        rw [ht] at v1
        have := ih (s.drop 19) b1 (by rw [List.length_drop]; omega) i1 hsd
        rw [v1, hT] at this
        exact this
      · right
        rw [e1]
        refine ⟨rfl, ?_⟩
        rw [ht] at g1
        rw [← hT]
        calc 2 ^ (64 * CAPACITY) ≤ b.value * 10 ^ 19 + digitsValue (s.take 19) := g1
          _ ≤ (b.value * 10 ^ 19 + digitsValue (s.take 19)) * 10 ^ (s.drop 19).length :=
            Nat.le_mul_of_pos_right _ (by positivity)
          _ ≤ _ := Nat.le_add_right _ _
    · rw [if_neg h19]
      exact small s b hi h19 hs

theorem decimalLoopR_throws (v : MulImpl) (fuel : ℕ) : ∀ (s : Bytes) (b : BigInt), s.length ≤ fuel → Inv b →
    (∃ c ∈ s, ¬ IsDigit c) → decimalLoopR v fuel s b = .throws := by
  have e19 : DIGITS_ITERATION = 19 := rfl
  induction fuel with
  | zero =>
    intro s b hf hi hs
    have : s = [] := List.length_eq_zero_iff.mp (by omega)
    subst this
    simp at hs
  | succ fuel ih =>
    intro s b hf hi hs
    rw [decimalLoopR.eq_def]; dsimp only
    rw [e19]
    by_cases h19 : 19 ≤ s.length
    · rw [if_pos h19]
      have ht : (s.take 19).length = 19 := by rw [List.length_take]; omega
      by_cases hst : ∀ c ∈ s.take 19, IsDigit c
      · rcases addDecimalR_spec v hi (s.take 19) hst (by omega) with ⟨b1, e1, i1, v1⟩ | ⟨e1, g1⟩
        · rw [e1, Res.ok_bind]
          apply ih (s.drop 19) b1 (by rw [List.length_drop]; omega) i1
          obtain ⟨c, hc, hn⟩ := hs
          rw [← List.take_append_drop 19 s] at hc
          rcases List.mem_append.mp hc with hc | hc
          · exact absurd (hst c hc) hn
          · exact ⟨c, hc, hn⟩
        · rw [e1]; rfl
      · push Not at hst
        rw [addDecimalR_throws v b _ hst]; rfl
    · rw [if_neg h19]
      obtain ⟨c, hc, hn⟩ := hs
      rw [if_pos (List.length_pos_of_mem hc), addDecimalR_throws v b s ⟨c, hc, hn⟩]

theorem ofDecimalR_spec (v : MulImpl) (junk : ℕ → UInt64) (s : Bytes) (hs : ∀ c ∈ s, IsDigit c) :
    Yields (ofDecimalR v junk s) (digitsValue s) := by
  obtain ⟨h1, h2⟩ := ofDecimal_start junk
  have := decimalLoopR_spec v s.length s _ le_rfl h1 hs
  rw [h2, Nat.zero_mul, Nat.zero_add] at this
  exact this

theorem ofDecimalR_throws (v : MulImpl) (junk : ℕ → UInt64) (s : Bytes) (hs : ∃ c ∈ s, ¬ IsDigit c) :
    ofDecimalR v junk s = .throws :=
  decimalLoopR_throws v s.length s _ le_rfl (ofDecimal_start junk).1 hs

/-! ### Difference -/

/-- The words of a number of `n` words, followed by zeros. -/
def padded (m : ℕ → UInt64) (n : ℕ) : ℕ → UInt64 := fun j => if j < n then m j else 0

theorem padded_value (m : ℕ → UInt64) (n k : ℕ) (h : n ≤ k) : wordsValue (padded m n) k = wordsValue m n := by
  obtain ⟨d, rfl⟩ := Nat.exists_eq_add_of_le h
  rw [wordsValue_add, wordsValue_congr (m := padded m n) (m' := m) (fun j hj => if_pos hj),
    wordsValue_zero (m := fun j => padded m n (n + j)) (fun j _ => if_neg (by omega))]
  simp

/-- The count of the output: nothing stored yet but zeros, or the last nonzero word. -/
def OutOk (m : ℕ → UInt64) (c i : ℕ) : Prop :=
  (∀ j < i, m j = 0) ∨ (1 ≤ c ∧ c ≤ i ∧ m (c - 1) ≠ 0 ∧ ∀ j, c ≤ j → j < i → m j = 0)

theorem sub_borrow (x y c : UInt64) (hc : c = 0 ∨ c = 1) :
    (x - y - c).toNat + y.toNat + c.toNat =
      x.toNat + 2 ^ 64 * (if x < y ∨ (x = y ∧ c ≠ 0) then (1 : UInt64) else 0).toNat := by
  have hx := x.toNat_lt
  have hy := y.toNat_lt
  have e1 : (1 : UInt64).toNat = 1 := rfl
  have e0 : (0 : UInt64).toNat = 0 := rfl
  have hxy : (x = y) ↔ x.toNat = y.toNat := UInt64.toNat_inj.symm
  rw [UInt64.toNat_sub, UInt64.toNat_sub]
  simp only [UInt64.lt_iff_toNat_lt, hxy]
  rcases hc with rfl | rfl
  · simp only [ne_eq, not_true, and_false, or_false, e0]
    split
    · rw [e1]; omega
    · rw [e0]; omega
  · have : (1 : UInt64) ≠ 0 := by decide
    simp only [ne_eq, this, not_false_eq_true, and_true, e1]
    split
    · rw [e1]; omega
    · rw [e0]; omega

theorem diffLoopR_spec (a b out : ℕ) (A B : ℕ → UInt64) (nb : ℕ) (hnb : nb ≤ CAPACITY) (n : ℕ) :
    ∀ (i : ℕ) (borrow : UInt64) (st : Store), i + n ≤ CAPACITY → (borrow = 0 ∨ borrow = 1) →
      (∀ j, i ≤ j → (st a).digits j = A j) → (∀ j, i ≤ j → (st b).digits j = B j) →
      wordsValue (st out).digits i + wordsValue (padded B nb) i = wordsValue A i + borrow.toNat * 2 ^ (64 * i) →
      OutOk (st out).digits (st out).count i →
      ∃ st' borrow', diffLoopR a b out nb n i borrow st = .ok st' ∧ (∀ q, q ≠ out → st' q = st q) ∧
        wordsValue (st' out).digits (i + n) + wordsValue (padded B nb) (i + n) =
          wordsValue A (i + n) + borrow' * 2 ^ (64 * (i + n)) ∧
        OutOk (st' out).digits (st' out).count (i + n) := by
  induction n with
  | zero =>
    intro i borrow st _ _ _ _ hv ho
    exact ⟨st, borrow.toNat, rfl, fun _ _ => rfl, hv, ho⟩
  | succ n ih =>
    intro i borrow st hcap hbo hA hB hv ho
    have hbi : wordOr0 (st b) nb i = .ok (padded B nb i) := by
      unfold wordOr0 padded
      split
      · rw [rd_ok (by omega), hB i le_rfl]
      · rfl
    rw [diffLoopR, rd_ok (by omega), Res.ok_bind, hbi, Res.ok_bind, hA i le_rfl]
    simp only
    rw [wr_ok (by omega), Res.ok_bind]
    have hsb := sub_borrow (A i) (padded B nb i) borrow hbo
    generalize hd : A i - padded B nb i - borrow = d at *
    generalize hbn : (if A i < padded B nb i ∨ (A i = padded B nb i ∧ borrow ≠ 0) then (1 : UInt64) else 0) = bn at *
    have hbn01 : bn = 0 ∨ bn = 1 := by rw [← hbn]; split <;> simp
    generalize hO : (if d ≠ 0 then (⟨upd (st out).digits i d, i + 1⟩ : BigInt)
      else ⟨upd (st out).digits i d, (st out).count⟩) = o
    have hOd : o.digits = upd (st out).digits i d := by rw [← hO]; split <;> rfl
    have hset : (st.set out o) out = o := by simp [Store.set]
    obtain ⟨st', b', h1, h2, h3, h4⟩ := ih (i + 1) bn (st.set out o) (by omega) hbn01
      (by
        intro j hj
        by_cases hq : a = out
        · subst hq; rw [hset, hOd, upd_ne _ _ (by omega)]; exact hA j (by omega)
        · simp only [Store.set, if_neg hq]; exact hA j (by omega))
      (by
        intro j hj
        by_cases hq : b = out
        · subst hq; rw [hset, hOd, upd_ne _ _ (by omega)]; exact hB j (by omega)
        · simp only [Store.set, if_neg hq]; exact hB j (by omega))
      (by
        rw [hset, hOd, wordsValue, wordsValue.eq_2 (padded B nb), wordsValue.eq_2 A,
          wordsValue_upd_ge _ _ _ _ le_rfl, upd_same, pow64_succ i]
        have h3 := congrArg (· * 2 ^ (64 * i)) hsb
        simp only [add_mul] at h3
        generalize 2 ^ (64 * i) = P at *
        linarith)
      (by
        rw [hset]
        by_cases hd0 : d = 0
        · have hc : o.count = (st out).count := by rw [← hO, if_neg (by simpa using hd0)]
          rw [hOd, hc]
          rcases ho with ho | ⟨g1, g2, g3, g4⟩
          · left
            intro j hj
            by_cases hji : j = i
            · rw [hji, upd_same]; exact hd0
            · rw [upd_ne _ _ hji]; exact ho j (by omega)
          · right
            refine ⟨g1, by omega, by rw [upd_ne _ _ (by omega)]; exact g3, fun j hj1 hj2 => ?_⟩
            by_cases hji : j = i
            · rw [hji, upd_same]; exact hd0
            · rw [upd_ne _ _ hji]; exact g4 j hj1 (by omega)
        · have hc : o.count = i + 1 := by rw [← hO, if_pos hd0]
          rw [hOd, hc]
          right
          refine ⟨by omega, le_rfl, by rw [Nat.add_sub_cancel, upd_same]; exact hd0, fun j hj1 hj2 => by omega⟩)
    refine ⟨st', b', h1, ?_, by rw [show i + (n + 1) = i + 1 + n by omega]; exact h3,
      by rw [show i + (n + 1) = i + 1 + n by omega]; exact h4⟩
    intro q hq
    rw [h2 q hq]
    simp [Store.set, hq]

/-- The repaired loop on `b < a`, whichever pointers coincide. -/
theorem diffLoopR_value {a b out : ℕ} {st : Store} (ha : Inv (st a)) (hb : Inv (st b)) (hlt : (st b).value < (st a).value) :
    ∃ st', diffLoopR a b out (st b).count (st a).count 0 0 st = .ok st' ∧ (∀ q, q ≠ out → st' q = st q) ∧
      Inv (st' out) ∧ (st' out).value = (st a).value - (st b).value := by
  have hcc : (st b).count ≤ (st a).count := by
    by_contra hc
    have h1 := hb.ge (by have := ha.pos; omega)
    have h2 := BigInt.value_lt (st a)
    have h3 : 2 ^ (64 * (st a).count) ≤ 2 ^ (64 * ((st b).count - 1)) := Nat.pow_le_pow_right (by norm_num) (by omega)
    omega
  obtain ⟨st', b', h1, h2, h3, h4⟩ := diffLoopR_spec a b out (st a).digits (st b).digits (st b).count hb.le (st a).count
    0 0 st (by have := ha.le; omega) (Or.inl rfl) (fun _ _ => rfl) (fun _ _ => rfl) (by simp [wordsValue])
    (Or.inl (by intro j hj; omega))
  rw [Nat.zero_add, padded_value _ _ _ hcc] at h3
  rw [Nat.zero_add] at h4
  change wordsValue (st' out).digits (st a).count + (st b).value = (st a).value + b' * 2 ^ (64 * (st a).count) at h3
  have hlt2 := wordsValue_lt (st' out).digits (st a).count
  have hb0 : b' = 0 := by
    rcases Nat.eq_zero_or_pos b' with h | h
    · exact h
    · exfalso
      have : 2 ^ (64 * (st a).count) ≤ b' * 2 ^ (64 * (st a).count) := Nat.le_mul_of_pos_left _ h
      omega
  rw [hb0, Nat.zero_mul, Nat.add_zero] at h3
  rcases h4 with h4 | ⟨g1, g2, g3, g4⟩
  · rw [wordsValue_zero h4] at h3; omega
  · have hv : (st' out).value = wordsValue (st' out).digits (st a).count := by
      obtain ⟨d, hd⟩ := Nat.exists_eq_add_of_le g2
      rw [value, hd, wordsValue_add, wordsValue_zero (m := fun j => (st' out).digits ((st' out).count + j))
        (fun j hj => g4 _ (by omega) (by omega))]
      simp
    exact ⟨st', h1, h2, ⟨g1, g2.trans ha.le, Or.inr g3⟩, by rw [hv]; omega⟩

end BigInt
end Lexi
