import Verif.Proofs.BigShift
import Mathlib.Tactic.LinearCombination

/-!
# Comparison and difference of big integers
-/

namespace Lexi
namespace BigInt

theorem toNat_ne {x y : UInt64} (h : x ≠ y) : x.toNat ≠ y.toNat := fun e => h (UInt64.toNat_inj.mp e)

theorem compareLoop_spec (a b : BigInt) (n : ℕ) (hn : n ≤ CAPACITY) :
    compareLoop a b n = .ok (if wordsValue a.digits n < wordsValue b.digits n then -1
      else if wordsValue a.digits n = wordsValue b.digits n then 0 else 1) := by
  induction n with
  | zero => simp [compareLoop, wordsValue]
  | succ n ih =>
    rw [compareLoop, rd_ok (by omega), Res.ok_bind, rd_ok (by omega), Res.ok_bind]
    have ha := wordsValue_lt a.digits n
    have hb := wordsValue_lt b.digits n
    by_cases he : a.digits n = b.digits n
    · rw [if_neg (by simpa using he), ih (by omega), wordsValue, wordsValue, he]
      congr 1
      simp only [Nat.add_lt_add_iff_right, Nat.add_right_cancel_iff]
    · rw [if_pos he]
      have hne := toNat_ne he
      congr 1
      rw [wordsValue, wordsValue]
      generalize 2 ^ (64 * n) = P at *
      by_cases hlt : a.digits n < b.digits n
      · rw [if_pos hlt, if_pos]
        rw [UInt64.lt_iff_toNat_lt] at hlt
        have := Nat.mul_le_mul_right P (Nat.succ_le_of_lt hlt)
        rw [Nat.succ_mul] at this
        omega
      · rw [UInt64.lt_iff_toNat_lt] at hlt
        have hgt : (b.digits n).toNat < (a.digits n).toNat := by omega
        have := Nat.mul_le_mul_right P (Nat.succ_le_of_lt hgt)
        rw [Nat.succ_mul] at this
        rw [if_neg (by rw [UInt64.lt_iff_toNat_lt]; exact hlt), if_neg (by omega), if_neg (by omega)]

theorem value_lt_of_count {a b : BigInt} (hb : Inv b) (h : a.count < b.count) (ha : Inv a) : a.value < b.value := by
  have h1 := value_lt a
  have h2 := hb.ge (by have := ha.pos; omega)
  have h3 : 2 ^ (64 * a.count) ≤ 2 ^ (64 * (b.count - 1)) := Nat.pow_le_pow_right (by norm_num) (by omega)
  omega

theorem compare_spec {a b : BigInt} (ha : Inv a) (hb : Inv b) :
    compare a b = .ok (if a.value < b.value then -1 else if a.value = b.value then 0 else 1) := by
  unfold compare
  by_cases hc : a.count = b.count
  · rw [if_neg (by simpa using hc), compareLoop_spec a b _ ha.le]
    simp only [value, hc]
  · rw [if_pos hc]
    congr 1
    by_cases hlt : a.count < b.count
    · rw [if_pos hlt, if_pos (value_lt_of_count hb hlt ha)]
    · have := value_lt_of_count ha (show b.count < a.count by omega) hb
      rw [if_neg hlt, if_neg (by omega), if_neg (by omega)]

theorem eq_spec {a b : BigInt} (ha : Inv a) (hb : Inv b) : eq a b = .ok (decide (a.value = b.value)) := by
  unfold eq
  by_cases hc : a.count = b.count
  · rw [if_neg (by simpa using hc), if_pos ha.le]
    congr 1
    rw [Bool.eq_iff_iff, List.all_eq_true, decide_eq_true_iff]
    simp only [List.mem_range, beq_iff_eq]
    constructor
    · intro h
      simp only [value]
      rw [← hc]
      exact wordsValue_congr h
    · intro h
      simp only [value] at h
      rw [← hc] at h
      exact wordsValue_inj h
  · rw [if_pos hc]
    congr 1
    symm
    rw [decide_eq_false_iff_not]
    intro h
    rcases Nat.lt_or_gt_of_ne hc with hl | hl
    · have := value_lt_of_count hb hl ha; omega
    · have := value_lt_of_count ha hl hb; omega

/-! ### Difference -/

/-- Word `i` of the subtrahend as the loop sees it. -/
def subWord (b : BigInt) (i : ℕ) : UInt64 := if i < b.count then b.digits i else 0

/-- Borrow flag before step `i`. -/
def borrow (a b : BigInt) : ℕ → UInt64
  | 0 => 0
  | i + 1 => if a.digits i - borrow a b i - subWord b i > a.digits i then 1 else 0

/-- Word `i` of the stored difference. -/
def diffWord (a b : BigInt) (i : ℕ) : UInt64 := a.digits i - borrow a b i - subWord b i

theorem borrow_succ (a b : BigInt) (i : ℕ) : borrow a b (i + 1) = if diffWord a b i > a.digits i then 1 else 0 := rfl

theorem borrow_le (a b : BigInt) (i : ℕ) : (borrow a b i).toNat ≤ 1 := by
  cases i with
  | zero => simp [borrow]
  | succ i => rw [borrow_succ]; split <;> decide

theorem sub_sub_toNat (x p y : UInt64) (hp : p.toNat ≤ 1) :
    ((x - p - y).toNat : ℤ) = ((x.toNat : ℤ) - p.toNat - y.toNat) % 2 ^ 64 := by
  have := x.toNat_lt
  have := y.toNat_lt
  rw [UInt64.toNat_sub, UInt64.toNat_sub]
  push_cast [Nat.cast_sub (show y.toNat ≤ 2 ^ 64 by omega), Nat.cast_sub (show p.toNat ≤ 2 ^ 64 by omega)]
  omega

/-- Step arithmetic: exact unless the subtrahend word is all ones and there is an incoming borrow. -/
theorem step_exact (a b : BigInt) (i : ℕ)
    (h : ¬ (borrow a b i = 1 ∧ (subWord b i).toNat = 2 ^ 64 - 1)) :
    (diffWord a b i).toNat + (subWord b i).toNat + (borrow a b i).toNat =
      (a.digits i).toNat + (borrow a b (i + 1)).toNat * 2 ^ 64 := by
  have hb := borrow_le a b i
  have hd := sub_sub_toNat (a.digits i) (borrow a b i) (subWord b i) hb
  have hx := (a.digits i).toNat_lt
  have hy := (subWord b i).toNat_lt
  rw [borrow_succ]
  change ((diffWord a b i).toNat : ℤ) = _ at hd
  have hne : (borrow a b i).toNat = 1 → (subWord b i).toNat ≠ 2 ^ 64 - 1 := fun h1 h2 =>
    h ⟨UInt64.toNat_inj.mp (by simpa using h1), h2⟩
  by_cases hc : diffWord a b i > a.digits i
  · rw [if_pos hc, show (1 : UInt64).toNat = 1 from rfl]
    rw [gt_iff_lt, UInt64.lt_iff_toNat_lt] at hc
    omega
  · rw [if_neg hc, show (0 : UInt64).toNat = 0 from rfl]
    rw [gt_iff_lt, UInt64.lt_iff_toNat_lt] at hc
    omega

/-- The lossy step: the borrow disappears. -/
theorem step_lost (a b : BigInt) (i : ℕ) (h1 : borrow a b i = 1) (h2 : (subWord b i).toNat = 2 ^ 64 - 1) :
    diffWord a b i = a.digits i ∧ borrow a b (i + 1) = 0 := by
  have hd := sub_sub_toNat (a.digits i) (borrow a b i) (subWord b i) (borrow_le a b i)
  have hx := (a.digits i).toNat_lt
  have e : diffWord a b i = a.digits i := by
    apply UInt64.toNat_inj.mp
    change ((diffWord a b i).toNat : ℤ) = _ at hd
    rw [h1, h2] at hd
    rw [show (1 : UInt64).toNat = 1 from rfl] at hd
    omega
  refine ⟨e, ?_⟩
  rw [borrow_succ, e, if_neg]
  rw [gt_iff_lt, UInt64.lt_iff_toNat_lt]; omega

/-- As long as no borrow is lost, the words written so far are those of the true difference. -/
theorem diff_prefix (a b : BigInt) (n : ℕ)
    (h : ∀ i < n, ¬ (borrow a b i = 1 ∧ (subWord b i).toNat = 2 ^ 64 - 1)) :
    wordsValue (diffWord a b) n + wordsValue (subWord b) n =
      wordsValue a.digits n + (borrow a b n).toNat * 2 ^ (64 * n) := by
  induction n with
  | zero => simp [wordsValue, borrow]
  | succ n ih =>
    have h1 := ih (fun i hi => h i (by omega))
    have h2 := congrArg (· * 2 ^ (64 * n)) (step_exact a b n (h n (by omega)))
    simp only [add_mul] at h2
    rw [wordsValue, wordsValue, wordsValue, pow64_succ]
    generalize 2 ^ (64 * n) = P at *
    linarith

theorem borrow_iff (a b : BigInt) (n : ℕ)
    (h : ∀ i < n, ¬ (borrow a b i = 1 ∧ (subWord b i).toNat = 2 ^ 64 - 1)) :
    borrow a b n = 1 ↔ wordsValue a.digits n < wordsValue (subWord b) n := by
  have h1 := diff_prefix a b n h
  have h2 := wordsValue_lt (diffWord a b) n
  have h3 := borrow_le a b n
  constructor
  · intro e
    rw [e, show (1 : UInt64).toNat = 1 from rfl] at h1
    omega
  · intro e
    rcases Nat.lt_or_ge (borrow a b n).toNat 1 with hb | hb
    · have : (borrow a b n).toNat = 0 := by omega
      rw [this] at h1
      omega
    · exact UInt64.toNat_inj.mp (by rw [show (1 : UInt64).toNat = 1 from rfl]; omega)

theorem subWord_value (b : BigInt) (n : ℕ) (h : b.count ≤ n) : wordsValue (subWord b) n = b.value := by
  obtain ⟨k, rfl⟩ := Nat.exists_eq_add_of_le h
  rw [wordsValue_add, wordsValue_zero (m := fun j => subWord b (b.count + j)), Nat.mul_zero, Nat.add_zero]
  · apply wordsValue_congr
    intro i hi
    rw [subWord, if_pos hi]
  · intro i _
    rw [subWord, if_neg (by omega)]

theorem subWord_mod (b : BigInt) (n : ℕ) : wordsValue (subWord b) n = b.value % 2 ^ (64 * n) := by
  rw [← subWord_value b (b.count + n) (by omega), wordsValue_mod _ _ _ (by omega)]

theorem subWord_digit (b : BigInt) (i : ℕ) : (subWord b i).toNat = b.value / 2 ^ (64 * i) % 2 ^ 64 := by
  rw [← subWord_value b (b.count + i + 1) (by omega), wordsValue_digit _ _ _ (by omega)]

/-- The step at which the code loses a borrow while computing `x - y`. -/
def BorrowLost (x y i : ℕ) : Prop := x % 2 ^ (64 * i) < y % 2 ^ (64 * i) ∧ y / 2 ^ (64 * i) % 2 ^ 64 = 2 ^ 64 - 1

theorem lost_iff (a b : BigInt) (n : ℕ) (hn : n ≤ a.count)
    (h : ∀ i < n, ¬ (borrow a b i = 1 ∧ (subWord b i).toNat = 2 ^ 64 - 1)) :
    (borrow a b n = 1 ∧ (subWord b n).toNat = 2 ^ 64 - 1) ↔ BorrowLost a.value b.value n := by
  have e : a.value % 2 ^ (64 * n) = wordsValue a.digits n := wordsValue_mod _ _ _ hn
  rw [borrow_iff a b n h, BorrowLost, subWord_mod, subWord_digit, e]

/-- No lost borrow: the stored words are `a - b`. -/
theorem diff_exact {a b : BigInt} (hb : b.value ≤ a.value) (hcnt : b.count ≤ a.count)
    (h : ∀ i < a.count, ¬ BorrowLost a.value b.value i) :
    wordsValue (diffWord a b) a.count = a.value - b.value := by
  have h' : ∀ n ≤ a.count, ∀ i < n, ¬ (borrow a b i = 1 ∧ (subWord b i).toNat = 2 ^ 64 - 1) := by
    intro n
    induction n with
    | zero => intro _ i hi; omega
    | succ n ih =>
      intro hn i hi
      rcases Nat.lt_or_ge i n with hlt | hge
      · exact ih (by omega) i hlt
      · have : i = n := by omega
        subst this
        rw [lost_iff a b i (by omega) (ih (by omega))]
        exact h i (by omega)
  have h1 := diff_prefix a b a.count (h' a.count le_rfl)
  have h2 := borrow_iff a b a.count (h' a.count le_rfl)
  rw [subWord_value b _ hcnt] at h1 h2
  change _ = a.value + _ at h1
  have h3 : borrow a b a.count ≠ 1 := by
    rw [Ne, h2]
    change ¬ a.value < b.value
    omega
  have h4 := borrow_le a b a.count
  have h5 : (borrow a b a.count).toNat = 0 := by
    have := toNat_ne h3
    rw [show (1 : UInt64).toNat = 1 from rfl] at this
    omega
  rw [h5] at h1
  omega

theorem pow64_succ_int (n : ℕ) : (2 : ℤ) ^ (64 * (n + 1)) = 2 ^ 64 * 2 ^ (64 * n) := by
  exact_mod_cast pow64_succ n

/-- A lost borrow: already the word above it is wrong. -/
theorem diff_wrong {a b : BigInt} (hb : b.value ≤ a.value) (hcnt : b.count ≤ a.count) (hl : ∃ i < a.count, BorrowLost a.value b.value i) :
    ∃ k ≤ a.count, wordsValue (diffWord a b) k ≠ (a.value - b.value) % 2 ^ (64 * k) := by
  classical
  obtain ⟨i, ⟨hi, hil⟩, hmin⟩ : ∃ i, (i < a.count ∧ BorrowLost a.value b.value i) ∧
      ∀ j < i, ¬ (j < a.count ∧ BorrowLost a.value b.value j) := by
    have hex : ∃ i, i < a.count ∧ BorrowLost a.value b.value i := by
      obtain ⟨i, hi, hil⟩ := hl; exact ⟨i, hi, hil⟩
    exact ⟨Nat.find hex, Nat.find_spec hex, fun j hj => Nat.find_min hex hj⟩
  have h' : ∀ n ≤ i, ∀ j < n, ¬ (borrow a b j = 1 ∧ (subWord b j).toNat = 2 ^ 64 - 1) := by
    intro n
    induction n with
    | zero => intro _ j hj; omega
    | succ n ih =>
      intro hn j hj
      rcases Nat.lt_or_ge j n with hlt | hge
      · exact ih (by omega) j hlt
      · have : j = n := by omega
        subst this
        rw [lost_iff a b j (by omega) (ih (by omega))]
        exact fun hlost => hmin j (by omega) ⟨by omega, hlost⟩
  obtain ⟨hb1, hb2⟩ := (lost_iff a b i (by omega) (h' i le_rfl)).mpr hil
  obtain ⟨hd, hb0⟩ := step_lost a b i hb1 hb2
  have h1 := diff_prefix a b i (h' i le_rfl)
  rw [hb1, show (1 : UInt64).toNat = 1 from rfl, one_mul] at h1
  -- the lost step is not the last one
  have hi2 : i + 1 < a.count := by
    by_contra hcon
    have hi3 : a.count = i + 1 := by omega
    have hav : a.value = wordsValue a.digits i + (a.digits i).toNat * 2 ^ (64 * i) := by
      rw [value, hi3, wordsValue]
    have hbv : b.value = wordsValue (subWord b) i + (subWord b i).toNat * 2 ^ (64 * i) := by
      rw [← subWord_value b (i + 1) (by omega), wordsValue]
    have h2 := (borrow_iff a b i (h' i le_rfl)).mp hb1
    have h3 := (a.digits i).toNat_lt
    have h4 : (a.digits i).toNat * 2 ^ (64 * i) ≤ (subWord b i).toNat * 2 ^ (64 * i) :=
      Nat.mul_le_mul_right _ (by omega)
    omega
  refine ⟨i + 2, by omega, ?_⟩
  intro heq
  -- work modulo 2^(64 (i+2))
  have hA : (a.value : ℤ) % 2 ^ (64 * (i + 2)) = wordsValue a.digits (i + 2) := by
    have := wordsValue_mod a.digits a.count (i + 2) (by omega)
    rw [value, ← this]; push_cast; rfl
  have hB : (b.value : ℤ) % 2 ^ (64 * (i + 2)) = wordsValue (subWord b) (i + 2) := by
    rw [subWord_mod]; push_cast; rfl
  have hdw := sub_sub_toNat (a.digits (i + 1)) (borrow a b (i + 1)) (subWord b (i + 1)) (borrow_le a b (i + 1))
  change ((diffWord a b (i + 1)).toNat : ℤ) = _ at hdw
  rw [hb0, show (0 : UInt64).toNat = 0 from rfl] at hdw
  have hmd := Int.emod_add_mul_ediv ((a.digits (i + 1)).toNat - ((0 : ℕ) : ℤ) - (subWord b (i + 1)).toNat) (2 ^ 64)
  rw [← hdw] at hmd
  generalize ((a.digits (i + 1)).toNat - ((0 : ℕ) : ℤ) - (subWord b (i + 1)).toNat) / 2 ^ 64 = q at hmd
  have hP1 := pow64_succ_int i
  have hP2 := pow64_succ_int (i + 1)
  have hW : (wordsValue (diffWord a b) (i + 2) : ℤ) = wordsValue a.digits (i + 2) - wordsValue (subWord b) (i + 2)
      + 2 ^ (64 * (i + 1)) - q * 2 ^ (64 * (i + 2)) := by
    have h1' : (wordsValue (diffWord a b) i : ℤ) + wordsValue (subWord b) i = wordsValue a.digits i + 2 ^ (64 * i) := by
      exact_mod_cast h1
    have hb2' : ((subWord b i).toNat : ℤ) = 2 ^ 64 - 1 := by rw [hb2]; norm_num
    simp only [wordsValue]
    push_cast
    rw [hP2, hP1, hd, hb2']
    generalize (2 : ℤ) ^ (64 * i) = P at h1' ⊢
    linear_combination h1' + hmd * (2 ^ 64 * P)
  have hdiff : ((a.value - b.value : ℕ) : ℤ) = a.value - b.value := by omega
  have hZ : ((wordsValue (diffWord a b) (i + 2) : ℕ) : ℤ) = ((a.value : ℤ) - b.value) % 2 ^ (64 * (i + 2)) := by
    rw [heq]; push_cast [hdiff]; rfl
  have hmodA := Int.emod_add_mul_ediv (a.value : ℤ) (2 ^ (64 * (i + 2)))
  have hmodB := Int.emod_add_mul_ediv (b.value : ℤ) (2 ^ (64 * (i + 2)))
  have hmodD := Int.emod_add_mul_ediv ((a.value : ℤ) - b.value) (2 ^ (64 * (i + 2)))
  rw [hA] at hmodA
  rw [hB] at hmodB
  rw [← hZ, hW] at hmodD
  generalize (a.value : ℤ) / 2 ^ (64 * (i + 2)) = qa at *
  generalize (b.value : ℤ) / 2 ^ (64 * (i + 2)) = qb at *
  generalize ((a.value : ℤ) - b.value) / 2 ^ (64 * (i + 2)) = qd at *
  have hfin : (2 : ℤ) ^ (64 * (i + 1)) = 2 ^ (64 * (i + 2)) * (q + qa - qb - qd) := by
    linear_combination hmodD - hmodA + hmodB
  rw [hP2, mul_comm ((2 : ℤ) ^ 64)] at hfin
  have hpos : (0 : ℤ) < 2 ^ (64 * (i + 1)) := by positivity
  have h7 : (1 : ℤ) = 2 ^ 64 * (q + qa - qb - qd) := by
    have : (2 : ℤ) ^ (64 * (i + 1)) * 1 = 2 ^ (64 * (i + 1)) * (2 ^ 64 * (q + qa - qb - qd)) := by linarith
    exact mul_left_cancel₀ hpos.ne' this
  omega

/-- State of the loop at index `i` in the non-aliased case. -/
theorem diffLoop_spec (a b out : ℕ) (st0 : Store) (hao : out ≠ a) (hbo : out ≠ b) (hcap : (st0 a).count ≤ CAPACITY)
    (fuel : ℕ) : ∀ (i : ℕ) (st : Store), (st0 a).count ≤ fuel + i → i ≤ (st0 a).count →
    (∀ q, q ≠ out → st q = st0 q) → 
    ∃ st', diffLoop a b out fuel i (borrow (st0 a) (st0 b) i) st = .ok st' ∧ (∀ q, q ≠ out → st' q = st0 q) ∧
      (∀ j, (st' out).digits j = if i ≤ j ∧ j < (st0 a).count then diffWord (st0 a) (st0 b) j else (st out).digits j) ∧
      ((∀ j, i ≤ j → j < (st0 a).count → diffWord (st0 a) (st0 b) j = 0) → (st' out).count = (st out).count) ∧
      ((∃ j, i ≤ j ∧ j < (st0 a).count ∧ diffWord (st0 a) (st0 b) j ≠ 0) →
        ∃ l, i ≤ l ∧ l < (st0 a).count ∧ (st' out).count = l + 1 ∧ diffWord (st0 a) (st0 b) l ≠ 0 ∧
          ∀ j, l < j → j < (st0 a).count → diffWord (st0 a) (st0 b) j = 0) := by
  induction fuel with
  | zero =>
    intro i st hf hi hst
    rw [diffLoop.eq_def]
    dsimp only
    rw [hst a hao.symm, if_neg (by omega)]
    refine ⟨st, rfl, hst, fun j => by rw [if_neg (by omega)], fun _ => rfl, ?_⟩
    rintro ⟨j, h1, h2, -⟩; omega
  | succ fuel ih =>
    intro i st hf hi hst
    rw [diffLoop.eq_def]
    dsimp only
    rw [hst a hao.symm, hst b hbo.symm]
    by_cases hlt : i < (st0 a).count
    · rw [if_pos hlt, rd_ok (by omega), Res.ok_bind]
      have hsub : subDigit (st0 b) i ((st0 a).digits i - borrow (st0 a) (st0 b) i) =
          .ok (diffWord (st0 a) (st0 b) i) := by
        unfold subDigit
        by_cases hib : i < (st0 b).count
        · rw [if_pos hib, rd_ok (by omega), Res.ok_bind, diffWord, subWord, if_pos hib]
        · rw [if_neg hib, diffWord, subWord, if_neg hib, UInt64.sub_zero]
      rw [hsub]
      simp only [Res.ok_bind]
      rw [wr_ok (by omega)]
      simp only [Res.ok_bind]
      rw [← borrow_succ]
      generalize hst1 : st.set out (if diffWord (st0 a) (st0 b) i ≠ 0 then
        ⟨upd (st out).digits i (diffWord (st0 a) (st0 b) i), i + 1⟩
        else ⟨upd (st out).digits i (diffWord (st0 a) (st0 b) i), (st out).count⟩) = st1
      have hst1q : ∀ q, q ≠ out → st1 q = st0 q := by
        intro q hq
        rw [← hst1]
        simp only [Store.set]
        rw [if_neg hq, hst q hq]
      have hst1d : (st1 out).digits = upd (st out).digits i (diffWord (st0 a) (st0 b) i) := by
        rw [← hst1]
        simp only [Store.set, if_true]
        split <;> rfl
      have hst1c : (st1 out).count = if diffWord (st0 a) (st0 b) i ≠ 0 then i + 1 else (st out).count := by
        rw [← hst1]
        simp only [Store.set, if_true]
        split <;> rfl
      obtain ⟨st', h1, h2, h3, h4, h5⟩ := ih (i + 1) st1 (by omega) (by omega) hst1q
      refine ⟨st', h1, h2, ?_, ?_, ?_⟩
      · intro j
        rw [h3 j]
        by_cases hj : i + 1 ≤ j ∧ j < (st0 a).count
        · rw [if_pos hj, if_pos (by omega)]
        · rw [if_neg hj, hst1d]
          by_cases hji : j = i
          · rw [hji, upd_same, if_pos (by omega)]
          · rw [upd_ne _ _ hji, if_neg (by omega)]
      · intro hall
        rw [h4 (fun j hj1 hj2 => hall j (by omega) hj2), hst1c, if_neg (by simpa using hall i le_rfl hlt)]
      · rintro ⟨j, hj1, hj2, hj3⟩
        by_cases hex : ∃ j, i + 1 ≤ j ∧ j < (st0 a).count ∧ diffWord (st0 a) (st0 b) j ≠ 0
        · obtain ⟨l, hl1, hl2, hl3⟩ := h5 hex
          exact ⟨l, by omega, hl2, hl3⟩
        · push Not at hex
          have hji : j = i := by
            by_contra hne
            exact hj3 (hex j (by omega) hj2)
          subst hji
          refine ⟨j, le_rfl, hj2, ?_, hj3, fun k hk1 hk2 => hex k (by omega) hk2⟩
          rw [h4 (fun k hk1 hk2 => hex k hk1 hk2), hst1c, if_pos hj3]
    · rw [if_neg hlt]
      refine ⟨st, rfl, hst, fun j => by rw [if_neg (by omega)], fun _ => rfl, ?_⟩
      rintro ⟨j, h1, h2, -⟩; omega

/-- The whole loop: what the output object holds. -/
theorem diffLoop_value {a b out : ℕ} {st : Store} (hao : out ≠ a) (hbo : out ≠ b) (ha : Inv (st a)) (hb : Inv (st b))
    (hlt : (st b).value < (st a).value) :
    ∃ st', diffLoop a b out (CAPACITY + 1) 0 0 st = .ok st' ∧ (∀ q, q ≠ out → st' q = st q) ∧
      ((∀ i, ¬ BorrowLost (st a).value (st b).value i) →
        Inv (st' out) ∧ (st' out).value = (st a).value - (st b).value) ∧
      ((∃ i, BorrowLost (st a).value (st b).value i) → (st' out).value ≠ (st a).value - (st b).value) := by
  have hcnt : (st b).count ≤ (st a).count := by
    by_contra hc
    have := value_lt_of_count hb (show (st a).count < (st b).count by omega) ha
    omega
  obtain ⟨st', h1, h2, h3, h4, h5⟩ := diffLoop_spec a b out st hao hbo ha.le (CAPACITY + 1) 0 st
    (by have := ha.le; omega) (by omega) (fun _ _ => rfl)
  refine ⟨st', h1, h2, ?_, ?_⟩
  · intro hno
    have hw := diff_exact hlt.le hcnt (fun i _ => hno i)
    have hex : ∃ j, 0 ≤ j ∧ j < (st a).count ∧ diffWord (st a) (st b) j ≠ 0 := by
      by_contra hcon
      push Not at hcon
      have := wordsValue_zero (m := diffWord (st a) (st b)) (n := (st a).count) (fun i hi => hcon i (by omega) hi)
      omega
    obtain ⟨l, hl1, hl2, hl3, hl4, hl5⟩ := h5 hex
    have hdig : ∀ j < (st a).count, (st' out).digits j = diffWord (st a) (st b) j := by
      intro j hj
      rw [h3, if_pos ⟨by omega, hj⟩]
    have hle := ha.le
    refine ⟨⟨by omega, by omega, Or.inr ?_⟩, ?_⟩
    · rw [hl3, Nat.add_sub_cancel, hdig l hl2]; exact hl4
    · rw [value, hl3, wordsValue_congr (fun j hj => hdig j (by omega)), ← hw]
      obtain ⟨k, hk⟩ := Nat.exists_eq_add_of_le (show l + 1 ≤ (st a).count by omega)
      rw [hk, wordsValue_add _ (l + 1) k, wordsValue_zero (m := fun j => diffWord (st a) (st b) (l + 1 + j)) (n := k)]
      · rfl
      intro j hj
      exact hl5 _ (by omega) (by omega)
  · rintro ⟨i, hi⟩ heq
    -- a lost borrow needs a word of `b`
    have hia : i < (st a).count := by
      by_contra hc
      have hv := value_lt (st b)
      have h6 : (st b).value / 2 ^ (64 * i) = 0 := by
        apply Nat.div_eq_of_lt
        exact lt_of_lt_of_le hv (Nat.pow_le_pow_right (by norm_num) (by omega))
      have := hi.2
      rw [h6] at this
      simp at this
    obtain ⟨k, hk, hne⟩ := diff_wrong hlt.le hcnt ⟨i, hia, hi⟩
    apply hne
    have hdig : ∀ j < (st a).count, (st' out).digits j = diffWord (st a) (st b) j := by
      intro j hj
      rw [h3, if_pos ⟨by omega, hj⟩]
    by_cases hex : ∃ j, 0 ≤ j ∧ j < (st a).count ∧ diffWord (st a) (st b) j ≠ 0
    · obtain ⟨l, hl1, hl2, hl3, hl4, hl5⟩ := h5 hex
      rw [← heq, value, hl3, wordsValue_congr (fun j hj => hdig j (by omega))]
      obtain ⟨c, hc⟩ := Nat.exists_eq_add_of_le (show l + 1 ≤ (st a).count by omega)
      have hz : wordsValue (diffWord (st a) (st b)) (st a).count = wordsValue (diffWord (st a) (st b)) (l + 1) := by
        rw [hc, wordsValue_add _ (l + 1) c, wordsValue_zero (m := fun j => diffWord (st a) (st b) (l + 1 + j)), Nat.mul_zero,
          Nat.add_zero]
        intro j hj
        exact hl5 _ (by omega) (by omega)
      rw [← hz, wordsValue_mod _ _ _ hk]
    · push Not at hex
      -- all stored words are zero, so the output is a multiple of 2^(64 n), too large or zero
      exfalso
      have hz0 : wordsValue (st' out).digits (st a).count = 0 :=
        wordsValue_zero (fun j hj => by rw [hdig j hj]; exact hex j (by omega) hj)
      have hva := value_lt (st a)
      rcases Nat.lt_or_ge (st a).count (st' out).count with hc | hc
      · have hm := wordsValue_mod (st' out).digits (st' out).count (st a).count hc.le
        rw [hz0] at hm
        change (st' out).value % _ = 0 at hm
        rw [heq, Nat.mod_eq_of_lt (by omega)] at hm
        omega
      · have hm := wordsValue_mod (st' out).digits (st a).count (st' out).count hc
        rw [hz0, Nat.zero_mod] at hm
        change 0 = (st' out).value at hm
        omega

end BigInt
end Lexi
