import Verif.Proofs.BigHistory

/-!
# Properties C37–C43: big integers

`BigInt.value` is `Σ digits_[i] * 2^(64 i)` over the words in use; `BigInt.Inv` is the representation invariant
(between 1 and 416 words, no leading zero word).  The capacity is `416` words: numbers below `2^26624`.
-/

namespace Lexi
open Spec BigInt

/-- Memory of a sample object: the listed words, then sevens. -/
def sampleMem (l : List UInt64) : ℕ → UInt64 := fun i => l.getD i 7

/-- A sample object with the listed words. -/
def sampleBig (l : List UInt64) : BigInt := ⟨sampleMem l, l.length⟩

/-! ## C35 (`mulAdd`) -/

/-- C35, multiply-add: the three variants compute `a * b + k` exactly, so they agree. -/
theorem C35_mulAdd (v w : MulImpl) (a b k : UInt64) :
    mulAdd v a b k = mulAdd w a b k ∧
    (mulAdd v a b k).1.toNat + 2 ^ 64 * (mulAdd v a b k).2.toNat = a.toNat * b.toNat + k.toNat :=
  ⟨mulAdd_variant v w a b k, mulAdd_spec v a b k⟩

example : mulAdd .generic 0xFFFFFFFFFFFFFFFF 0xFFFFFFFFFFFFFFFF 0xFFFFFFFFFFFFFFFF = (0, 0xFFFFFFFFFFFFFFFF) := by
  decide +kernel

/-! ## C37 -/

/-- C37, what holds: up to 7999 digits, the number they denote.  (The property asks for 8000: see `C37_limit`.) -/
theorem C37_decimal_partial (v : MulImpl) (junk : ℕ → UInt64) (s : Bytes) (hl : s.length ≤ 7999)
    (hs : ∀ c ∈ s, IsDigit c) : ∃ b, ofDecimal v junk s = .ok b ∧ Inv b ∧ b.value = digitsValue s :=
  ofDecimal_ok v junk s hl hs

/-- C37.  Any byte that is not a digit makes the constructor throw. -/
theorem C37_not_digit (v : MulImpl) (junk : ℕ → UInt64) (s : Bytes) (hl : s.length ≤ 7999)
    (hs : ∃ c ∈ s, ¬ IsDigit c) : ofDecimal v junk s = .throws :=
  ofDecimal_throws v junk s hl hs

/-- C37, any length: if the constructor returns at all, every byte is a digit and the value is the number they denote. -/
theorem C37_sound (v : MulImpl) (junk : ℕ → UInt64) (s : Bytes) (b : BigInt) (h : ofDecimal v junk s = .ok b) :
    (∀ c ∈ s, IsDigit c) ∧ Inv b ∧ b.value = digitsValue s :=
  ofDecimal_sound h

/-- C37, the bound is sharp: 8000 or more digits not starting with '0' write outside the object. -/
theorem C37_limit (v : MulImpl) (junk : ℕ → UInt64) (s : Bytes) (hl : 8000 ≤ s.length)
    (hs : ∀ c ∈ s, IsDigit c) (hz : s.head? ≠ some 48) : ofDecimal v junk s = .ub :=
  ofDecimal_ub v junk s hl hs hz

/-- C74, decimal text (C37, complete): a run of digits of any length, cut into chunks of 19 from the left, is converted exactly if the number before
the last chunk, of `n` digits, times `5^n` stays below `2^26560`; otherwise the constructor writes outside the object. -/
theorem C74_decimal (v : MulImpl) (junk : ℕ → UInt64) (s : Bytes) (hs : ∀ c ∈ s, IsDigit c) :
    let n := (s.length - 1) % 19 + 1
    (digitsValue (s.take (s.length - n)) * 5 ^ n < 2 ^ 26560 →
      ∃ b, ofDecimal v junk s = .ok b ∧ Inv b ∧ b.value = digitsValue s) ∧
    (2 ^ 26560 ≤ digitsValue (s.take (s.length - n)) * 5 ^ n → ofDecimal v junk s = .ub) := by
  intro n
  obtain ⟨h1, h2⟩ := ofDecimal_iff v junk s hs n rfl
  refine ⟨fun h => ?_, h2⟩
  obtain ⟨b, hb⟩ := h1 h
  exact ⟨b, hb, (C37_sound v junk s b hb).2⟩

example : (match ofDecimal .gnu128 (fun _ => 7) (ascii "100000000000000000000000000000000000000000000000007") with
    | .ok b => (b.value, b.count) | _ => (0, 0)) = (10 ^ 50 + 7, 3) := by decide +kernel
example : (match ofDecimal .gnu128 (fun _ => 7) (ascii "000") with | .ok b => (b.value, b.count) | _ => (5, 5)) = (0, 1) := by
  decide +kernel
example : (match ofDecimal .gnu128 (fun _ => 7) [] with | .ok b => (b.value, b.count) | _ => (5, 5)) = (0, 1) := by
  decide +kernel
example : (match ofDecimal .gnu128 (fun _ => 7) (ascii "12345678901234567890x") with | .throws => true | _ => false) = true := by
  decide +kernel
example : (List.replicate 8000 (57 : UInt8)).length = 8000 ∧ (∀ c ∈ List.replicate 8000 (57 : UInt8), IsDigit c) ∧
    (List.replicate 8000 (57 : UInt8)).head? ≠ some 48 := by
  refine ⟨List.length_replicate, fun c hc => ?_, by rw [List.head?_replicate, if_neg (by decide)]; decide⟩
  rw [(List.mem_replicate.mp hc).2]; decide

example : (∀ c ∈ List.replicate 9000 (48 : UInt8) ++ [53, 49], IsDigit c) ∧
    digitsValue ((List.replicate 9000 (48 : UInt8) ++ [53, 49]).take 8987) * 5 ^ 15 < 2 ^ 26560 := by
  refine ⟨fun c hc => ?_, ?_⟩
  · rcases List.mem_append.mp hc with hc | hc
    · rw [(List.mem_replicate.mp hc).2]; decide
    · simp only [List.mem_cons, List.not_mem_nil, or_false] at hc
      rcases hc with rfl | rfl <;> decide
  · decide +kernel

/-! ## C38 -/

/-- C38, addition: exact, or throws because the sum does not fit. -/
theorem C38_add (b : BigInt) (h : Inv b) (d : UInt64) :
    (b.value + d.toNat < 2 ^ 26624 → ∃ b', add b d = .ok b' ∧ Inv b' ∧ b'.value = b.value + d.toNat) ∧
    (2 ^ 26624 ≤ b.value + d.toNat → add b d = .throws) :=
  ⟨(add_spec h d).ok, (add_spec h d).throws⟩

/-- C38, both multiplications: exact, or throw because the product does not fit. -/
theorem C38_mul (v : MulImpl) (b : BigInt) (h : Inv b) (d : UInt64) (e : UInt32) :
    (b.value * d.toNat < 2 ^ 26624 → ∃ b', mul64 v b d = .ok b' ∧ Inv b' ∧ b'.value = b.value * d.toNat) ∧
    (2 ^ 26624 ≤ b.value * d.toNat → mul64 v b d = .throws) ∧
    (b.value * e.toNat < 2 ^ 26624 → ∃ b', mul32 b e = .ok b' ∧ Inv b' ∧ b'.value = b.value * e.toNat) ∧
    (2 ^ 26624 ≤ b.value * e.toNat → mul32 b e = .throws) :=
  ⟨(mul64_spec v h d).ok, (mul64_spec v h d).throws, (mul32_spec h e).ok, (mul32_spec h e).throws⟩

/-- C38, powers of five. -/
theorem C38_mulPow5 (v : MulImpl) (b : BigInt) (h : Inv b) (e : ℕ) :
    (b.value * 5 ^ e < 2 ^ 26624 → ∃ b', mulPow5 v b e = .ok b' ∧ Inv b' ∧ b'.value = b.value * 5 ^ e) ∧
    (2 ^ 26624 ≤ b.value * 5 ^ e → mulPow5 v b e = .throws) :=
  ⟨(mulPow5_spec v h e).ok, (mulPow5_spec v h e).throws⟩

/-- C38, agreement of the overloads: the same word count and the same words in use, or both throw. -/
theorem C38_overloads (v : MulImpl) (b : BigInt) (h : Inv b) (d : UInt32) :
    (mul64 v b d.toUInt64 = .throws ∧ mul32 b d = .throws) ∨
    ∃ b1 b2, mul64 v b d.toUInt64 = .ok b1 ∧ mul32 b d = .ok b2 ∧ b1.count = b2.count ∧
      ∀ i < b1.count, b1.digits i = b2.digits i := by
  have e : d.toUInt64.toNat = d.toNat := by simp
  have h1 := mul64_spec v h d.toUInt64
  have h2 := mul32_spec h d
  rw [e] at h1
  rcases Nat.lt_or_ge (b.value * d.toNat) (2 ^ (64 * CAPACITY)) with hlt | hge
  · right
    obtain ⟨b1, e1, i1, v1⟩ := h1.ok hlt
    obtain ⟨b2, e2, i2, v2⟩ := h2.ok hlt
    refine ⟨b1, b2, e1, e2, ?_⟩
    have hc : b1.count = b2.count := by
      rcases Nat.lt_trichotomy b1.count b2.count with hl | hl | hl
      · have := value_lt_of_count i2 hl i1; omega
      · exact hl
      · have := value_lt_of_count i1 hl i2; omega
    refine ⟨hc, ?_⟩
    have hv : wordsValue b1.digits b1.count = wordsValue b2.digits b1.count := by
      rw [hc]
      change wordsValue b1.digits b2.count = b2.value
      rw [v2, ← v1, value, hc]
    exact wordsValue_inj hv
  · left; exact ⟨h1.throws hge, h2.throws hge⟩

example : Inv (sampleBig [0xFFFFFFFFFFFFFFFF, 0xFFFFFFFFFFFFFFFF]) ∧
    (match add (sampleBig [0xFFFFFFFFFFFFFFFF, 0xFFFFFFFFFFFFFFFF]) 1 with | .ok b => (b.value, b.count) | _ => (0, 0)) =
      (2 ^ 128, 3) ∧
    (match mul64 .generic (sampleBig [0xFFFFFFFFFFFFFFFF, 3]) 0xFFFFFFFFFFFFFFFF with | .ok b => b.value | _ => 0) =
      (2 ^ 66 - 1) * (2 ^ 64 - 1) ∧
    (match mulPow5 .msvc (sampleBig [3, 1]) 60 with | .ok b => b.value | _ => 0) = (2 ^ 64 + 3) * 5 ^ 60 := by
  refine ⟨⟨by decide, by decide, by decide⟩, ?_⟩
  decide +kernel

/-! ## C39 -/

/-- C39 is false as stated: `BigInteger(1) <<= 65` followed by `<<= 64` is not `2^129`, although it fits easily. -/
theorem C39_refuted : ∃ b b', (ofWord (fun _ => 0) 1).shl 65 = .ok b ∧ Inv b ∧ b.value = 2 ^ 65 ∧
    b.shl 64 = .ok b' ∧ b'.value = 2 ^ 129 + 2 ^ 65 ∧ b'.value ≠ b.value * 2 ^ 64 := by
  have h0 : Inv (ofWord (fun _ => 0) 1) := ⟨le_rfl, show 1 ≤ CAPACITY by decide, Or.inl rfl⟩
  cases h1 : (ofWord (fun _ => 0) 1).shl 65 with
  | ok b =>
    refine ⟨b, ?_⟩
    cases h2 : b.shl 64 with
    | ok b' =>
      have hb : b.value = 2 ^ 65 := by
        have : (match (ofWord (fun _ => 0) 1).shl 65 with | .ok b => b.value | _ => 0) = 2 ^ 65 := by decide +kernel
        rw [h1] at this; exact this
      have hb' : b'.value = 2 ^ 129 + 2 ^ 65 := by
        have : (match (ofWord (fun _ => 0) 1).shl 65 with
          | .ok b => (match b.shl 64 with | .ok b' => b'.value | _ => 0) | _ => 0) = 2 ^ 129 + 2 ^ 65 := by decide +kernel
        rw [h1] at this; simp only [h2] at this; exact this
      exact ⟨b', rfl, shl_inv h0 65 h1, hb, rfl, hb', by rw [hb, hb']; norm_num⟩
    | throws =>
      exfalso
      have : (match (ofWord (fun _ => 0) 1).shl 65 with
          | .ok b => (match b.shl 64 with | .throws => true | _ => false) | _ => false) = false := by decide +kernel
      rw [h1] at this; simp only [h2] at this; exact absurd this (by decide)
    | ub =>
      exfalso
      have : (match (ofWord (fun _ => 0) 1).shl 65 with
          | .ok b => (match b.shl 64 with | .ub => true | _ => false) | _ => false) = false := by decide +kernel
      rw [h1] at this; simp only [h2] at this; exact absurd this (by decide)
  | throws =>
    exfalso
    have : (match (ofWord (fun _ => 0) 1).shl 65 with | .throws => true | _ => false) = false := by decide +kernel
    rw [h1] at this; exact absurd this (by decide)
  | ub =>
    exfalso
    have : (match (ofWord (fun _ => 0) 1).shl 65 with | .ub => true | _ => false) = false := by decide +kernel
    rw [h1] at this; exact absurd this (by decide)

/-- C39, what holds: a shift is exact if the number or the shift is zero, or the shift is not a multiple of 64 and leaves
the last word of the array free, or the number is a single word and is shifted by whole words within the array. -/
theorem C39_exact_partial (b : BigInt) (h : Inv b) (s : ℕ)
    (hs : b.value = 0 ∨ s = 0 ∨ (s % 64 ≠ 0 ∧ b.count + s / 64 < 416) ∨ (b.count = 1 ∧ s % 64 = 0 ∧ s / 64 < 416)) :
    ∃ b', shl b s = .ok b' ∧ Inv b' ∧ b'.value = b.value * 2 ^ s := by
  by_cases hz : b.isZero = true ∨ s = 0
  · refine ⟨b, by unfold shl; rw [if_pos hz], h, ?_⟩
    rcases hz with hz | hz
    · rw [(BigInt.isZero_iff h).mp hz]; simp
    · rw [hz]; simp
  have hv : b.value ≠ 0 := fun h0 => hz (Or.inl ((BigInt.isZero_iff h).mpr h0))
  have hs0 : s ≠ 0 := fun h0 => hz (Or.inr h0)
  rcases hs with h' | h' | h' | h'
  · exact absurd h' hv
  · exact absurd h' hs0
  · exact shl_inter h s hv h'.1 h'.2
  · exact shl_one h s h'.1 h'.2.1 (by have := h'.2.2; change 1 + s / 64 ≤ 416; omega)

/-- C39, too large: a result that needs more than 416 words is refused, up to one word of slack. -/
theorem C39_over (b : BigInt) (h : Inv b) (s : ℕ) (hv : b.value ≠ 0) (hs : 416 < b.count + s / 64) :
    shl b s = .throws := by
  refine shl_over b s ?_ hs
  rw [BigInt.isZero_iff h]
  have := h.le
  rintro (h0 | h0)
  · exact hv h0
  · subst h0; have : b.count ≤ 416 := h.le; omega

/-- C39, the defect exactly: a multi-word number shifted by `k` whole words comes out right if and only if
the words already in memory `k` places higher happen to be its lower words. -/
theorem C39_whole_words (b : BigInt) (h : Inv b) (k : ℕ) (hk : 1 ≤ k) (h2 : 2 ≤ b.count)
    (hfit : 2 * b.count - 1 + k ≤ 416) :
    ∃ b', shl b (64 * k) = .ok b' ∧ Inv b' ∧
      (b'.value = b.value * 2 ^ (64 * k) ↔ ∀ j < b.count - 1, b.digits (k + j) = b.digits j) := by
  have hz : ¬ (b.isZero = true ∨ 64 * k = 0) := by
    simp only [isZero, Bool.and_eq_true, beq_iff_eq]; omega
  have hm : 64 * k % 64 = 0 := by omega
  have hd : 64 * k / 64 = k := by omega
  have hr := shl_whole b (64 * k) h.pos hz hm (by rw [hd, CAPACITY_eq]; omega)
  rw [hd, if_pos (by rw [CAPACITY_eq]; omega)] at hr
  refine ⟨_, hr, shl_inv h _ hr, ?_⟩
  generalize hm' : (fun j => if j < k then 0
        else if b.count - 1 + k ≤ j ∧ j < 2 * b.count - 1 + k then b.digits (j - k)
        else b.digits j) = m
  have hval : (⟨m, b.count + k⟩ : BigInt).value = 2 ^ (64 * k) * wordsValue (fun j => m (k + j)) b.count := by
    simp only [value]
    rw [add_comm b.count k]
    exact wordsValue_shifted (fun j hj => by rw [← hm']; simp only; rw [if_pos hj]) (fun _ _ => rfl)
  rw [hval, mul_comm]
  have hpos : 0 < 2 ^ (64 * k) := by positivity
  rw [Nat.mul_right_cancel_iff hpos]
  have hw : ∀ j < b.count, m (k + j) = if j < b.count - 1 then b.digits (k + j) else b.digits j := by
    intro j hj
    rw [← hm']
    simp only
    rw [if_neg (by omega)]
    by_cases hjl : j < b.count - 1
    · rw [if_neg (by omega), if_pos hjl]
    · rw [if_pos (by omega), if_neg hjl]
      congr 1; omega
  constructor
  · intro heq j hj
    have := wordsValue_inj (m := fun j => m (k + j)) (m' := b.digits) heq j (by omega)
    rw [hw j (by omega), if_pos hj] at this
    exact this
  · intro hall
    apply wordsValue_congr
    intro j hj
    rw [hw j hj]
    split
    · exact hall j (by omega)
    · rfl

example : Inv (sampleBig [5, 6]) ∧ (match shl (sampleBig [5, 6]) 130 with | .ok b => b.value | _ => 0) =
    (5 + 6 * 2 ^ 64) * 2 ^ 130 := by
  exact ⟨⟨by decide, by decide, by decide⟩, by decide +kernel⟩
example : Inv (sampleBig [5, 6]) ∧ (match shl (sampleBig [5, 6]) 128 with | .ok b => b.value | _ => 0) =
    (7 + 6 * 2 ^ 64) * 2 ^ 128 := by
  exact ⟨⟨by decide, by decide, by decide⟩, by decide +kernel⟩

/-! ## C40 -/

/-- C40.  Comparison, equality and zero test are those of the numbers. -/
theorem C40_compare (a b : BigInt) (ha : Inv a) (hb : Inv b) (d : UInt64) :
    compare a b = .ok (if a.value < b.value then -1 else if a.value = b.value then 0 else 1) ∧
    eq a b = .ok (decide (a.value = b.value)) ∧
    (a.isZero = true ↔ a.value = 0) ∧ (a.eqWord d = true ↔ a.value = d.toNat) :=
  ⟨compare_spec ha hb, eq_spec ha hb, BigInt.isZero_iff ha, eqWord_iff ha d⟩

/-- C40.  `compare` is a total order on the numbers: antisymmetric, transitive, zero only for equal numbers. -/
theorem C40_order (a b c : BigInt) (ha : Inv a) (hb : Inv b) (hc : Inv c) :
    (∀ x y, compare a b = .ok x → compare b a = .ok y → y = -x) ∧
    (compare a b = .ok 0 ↔ eq a b = .ok true) ∧
    (compare a b = .ok (-1) → compare b c = .ok (-1) → compare a c = .ok (-1)) := by
  rw [compare_spec ha hb, compare_spec hb ha, compare_spec hb hc, compare_spec ha hc, eq_spec ha hb]
  generalize a.value = x
  generalize b.value = y
  generalize c.value = z
  refine ⟨?_, ?_, ?_⟩
  · intro u w hu hw
    simp only [Res.ok.injEq] at hu hw
    rw [← hu, ← hw]
    rcases Nat.lt_trichotomy x y with h | h | h
    · rw [if_pos h, if_neg (by omega), if_neg (by omega)]; rfl
    · subst h; simp
    · rw [if_pos h, if_neg (by omega), if_neg (by omega)]
  · simp only [Res.ok.injEq, decide_eq_true_eq]
    rcases Nat.lt_trichotomy x y with h | h | h
    · rw [if_pos h]; constructor
      · intro h'; exact absurd h' (by decide)
      · intro h'; omega
    · subst h; simp
    · rw [if_neg (by omega), if_neg (by omega)]; constructor
      · intro h'; exact absurd h' (by decide)
      · intro h'; omega
  · simp only [Res.ok.injEq]
    have key : ∀ p q : ℕ, ((if p < q then (-1 : ℤ) else if p = q then 0 else 1) = -1) ↔ p < q := by
      intro p q
      split
      · simp [*]
      · split <;> simp [*]
    rw [key, key, key]
    omega

/-- C40.  The accessors: `count()` is the least number of words (at least one) that holds the value, `digit(i)` is its
`i`-th base-`2^64` digit, and an index outside throws. -/
theorem C40_accessors (a : BigInt) (ha : Inv a) :
    a.value < 2 ^ (64 * a.getCount) ∧ (∀ n, 1 ≤ n → a.value < 2 ^ (64 * n) → a.getCount ≤ n) ∧
    (∀ i, i < a.getCount → ∃ w, a.digit i = .ok w ∧ w.toNat = a.value / 2 ^ (64 * i) % 2 ^ 64) ∧
    (∀ i, a.getCount ≤ i → a.digit i = .throws) := by
  refine ⟨value_lt a, fun n hn hv => ha.count_le hn hv, fun i hi => ?_, fun i hi => ?_⟩
  · change i < a.count at hi
    refine ⟨a.digits i, ?_, (wordsValue_digit _ _ _ hi).symm⟩
    rw [digit, if_neg (by omega), rd_ok (by have := ha.le; omega)]
  · change a.count ≤ i at hi
    rw [digit, if_pos (by omega)]

example : Inv (sampleBig [9, 1]) ∧ Inv (sampleBig [8, 2]) ∧
    compare (sampleBig [9, 1]) (sampleBig [8, 2]) = .ok (-1) := by
  exact ⟨⟨by decide, by decide, by decide⟩, ⟨by decide, by decide, by decide⟩, by decide +kernel⟩

/-! ## C41 -/

/-- C41, exactly when `difference` is right.  For distinct numbers and an output object distinct from both operands,
it returns `a < b` and leaves the operands alone; the output is `|a - b|` if and only if no borrow is lost, i.e. there is
no word of the smaller number that is all ones while the words below it need a borrow. -/
theorem C41_difference_iff (st : Store) (this other out : ℕ) (ho1 : out ≠ this) (ho2 : out ≠ other)
    (ha : Inv (st this)) (hb : Inv (st other)) (hne : (st this).value ≠ (st other).value) :
    ∃ st', difference this other out st = .ok (decide ((st this).value < (st other).value), st') ∧
      (∀ q, q ≠ out → st' q = st q) ∧
      ((st' out).value = max (st this).value (st other).value - min (st this).value (st other).value ↔
        ∀ i, ¬ BorrowLost (max (st this).value (st other).value) (min (st this).value (st other).value) i) ∧
      ((∀ i, ¬ BorrowLost (max (st this).value (st other).value) (min (st this).value (st other).value) i) →
        Inv (st' out)) := by
  unfold difference
  rw [compare_spec ha hb, Res.ok_bind]
  rcases Nat.lt_or_gt_of_ne hne with hlt | hgt
  · rw [max_eq_right hlt.le, min_eq_left hlt.le]
    obtain ⟨st', h1, h2, h3, h4⟩ := diffLoop_value (a := other) (b := this) (out := out) (st := st) ho2 ho1 hb ha hlt
    refine ⟨st', ?_, h2, ⟨fun heq i hi => h4 ⟨i, hi⟩ heq, fun h => (h3 h).2⟩, fun h => (h3 h).1⟩
    have hc : (if (st this).value < (st other).value then (-1 : ℤ)
        else if (st this).value = (st other).value then 0 else 1) = -1 := if_pos hlt
    rw [hc, if_neg (show ¬ (-1 : ℤ) = 0 by decide), if_pos (show (-1 : ℤ) < 0 by decide)]
    dsimp only
    rw [h1, Res.ok_bind, decide_eq_true hlt]
  · rw [max_eq_left hgt.le, min_eq_right hgt.le]
    obtain ⟨st', h1, h2, h3, h4⟩ := diffLoop_value (a := this) (b := other) (out := out) (st := st) ho1 ho2 ha hb hgt
    refine ⟨st', ?_, h2, ⟨fun heq i hi => h4 ⟨i, hi⟩ heq, fun h => (h3 h).2⟩, fun h => (h3 h).1⟩
    have hc : (if (st this).value < (st other).value then (-1 : ℤ)
        else if (st this).value = (st other).value then 0 else 1) = 1 := by
      rw [if_neg (by omega), if_neg (by omega)]
    rw [hc, if_neg (show ¬ (1 : ℤ) = 0 by decide), if_neg (show ¬ (1 : ℤ) < 0 by decide)]
    dsimp only
    rw [h1, Res.ok_bind, decide_eq_false (by omega)]

/-- C41, equal numbers: throws. -/
theorem C41_equal (st : Store) (this other out : ℕ) (ha : Inv (st this)) (hb : Inv (st other))
    (heq : (st this).value = (st other).value) : difference this other out st = .throws := by
  unfold difference
  rw [compare_spec ha hb, Res.ok_bind, if_neg (show ¬ (st this).value < (st other).value by omega), if_pos heq,
    if_pos rfl]

/-- C41 restricted to the operands on which it holds: if no word of the smaller number is all ones, the output is
`|a - b|`. -/
theorem C41_difference_partial (st : Store) (this other out : ℕ) (ho1 : out ≠ this) (ho2 : out ≠ other)
    (ha : Inv (st this)) (hb : Inv (st other)) (hne : (st this).value ≠ (st other).value)
    (hw : ∀ i, min (st this).value (st other).value / 2 ^ (64 * i) % 2 ^ 64 ≠ 2 ^ 64 - 1) :
    ∃ st', difference this other out st = .ok (decide ((st this).value < (st other).value), st') ∧
      Inv (st' out) ∧
      (st' out).value = max (st this).value (st other).value - min (st this).value (st other).value := by
  obtain ⟨st', h1, -, h2, h3⟩ := C41_difference_iff st this other out ho1 ho2 ha hb hne
  have hno : ∀ i, ¬ BorrowLost (max (st this).value (st other).value) (min (st this).value (st other).value) i :=
    fun i h => hw i h.2
  exact ⟨st', h1, h3 hno, h2.mpr hno⟩

/-- Three sample objects. -/
def sampleStore (a b c : BigInt) : Store := fun p => if p = 0 then a else if p = 1 then b else c

/-- C41 is false as stated: `2^128 + 5 * 2^64` minus `2^128 - 2^64 + 1` comes out as `2^128 + 6 * 2^64 - 1`,
too large by `2^128`. -/
theorem C41_refuted : ∃ st : Store, Inv (st 0) ∧ Inv (st 1) ∧ (st 1).value < (st 0).value ∧
    ∃ st', difference 0 1 2 st = .ok (false, st') ∧ (st' 2).value ≠ (st 0).value - (st 1).value := by
  have ha : Inv (sampleBig [0, 5, 1]) := ⟨by decide, by decide, by decide⟩
  have hb : Inv (sampleBig [1, 0xFFFFFFFFFFFFFFFF]) := ⟨by decide, by decide, by decide⟩
  have va : (sampleBig [0, 5, 1]).value = 2 ^ 128 + 5 * 2 ^ 64 := by decide +kernel
  have vb : (sampleBig [1, 0xFFFFFFFFFFFFFFFF]).value = 2 ^ 128 - 2 ^ 64 + 1 := by decide +kernel
  refine ⟨sampleStore (sampleBig [0, 5, 1]) (sampleBig [1, 0xFFFFFFFFFFFFFFFF]) (sampleBig [0]), ha, hb, ?_, ?_⟩
  · change (sampleBig [1, 0xFFFFFFFFFFFFFFFF]).value < (sampleBig [0, 5, 1]).value
    rw [va, vb]; norm_num
  · obtain ⟨st', h1, -, h3, -⟩ := C41_difference_iff
      (sampleStore (sampleBig [0, 5, 1]) (sampleBig [1, 0xFFFFFFFFFFFFFFFF]) (sampleBig [0])) 0 1 2 (by decide) (by decide)
      ha hb (by
        change (sampleBig [0, 5, 1]).value ≠ (sampleBig [1, 0xFFFFFFFFFFFFFFFF]).value
        rw [va, vb]; norm_num)
    change difference 0 1 2 _ = .ok (decide ((sampleBig [0, 5, 1]).value < (sampleBig [1, 0xFFFFFFFFFFFFFFFF]).value), st') at h1
    change ((st' 2).value = max (sampleBig [0, 5, 1]).value (sampleBig [1, 0xFFFFFFFFFFFFFFFF]).value -
      min (sampleBig [0, 5, 1]).value (sampleBig [1, 0xFFFFFFFFFFFFFFFF]).value ↔
      ∀ i, ¬ BorrowLost (max (sampleBig [0, 5, 1]).value (sampleBig [1, 0xFFFFFFFFFFFFFFFF]).value)
        (min (sampleBig [0, 5, 1]).value (sampleBig [1, 0xFFFFFFFFFFFFFFFF]).value) i) at h3
    refine ⟨st', ?_, ?_⟩
    · rw [h1, va, vb]; norm_num
    · change (st' 2).value ≠ (sampleBig [0, 5, 1]).value - (sampleBig [1, 0xFFFFFFFFFFFFFFFF]).value
      rw [va, vb] at h3 ⊢
      rw [max_eq_left (by norm_num), min_eq_right (by norm_num)] at h3
      rw [Ne, h3]
      intro hall
      exact hall 1 (by unfold BorrowLost; norm_num)

/-- C41, output object the same as an operand: the loop bound is `a->count_`, which the loop itself overwrites, so
`a.difference(b, &a)` stops after the first nonzero word. -/
theorem C41_in_place_wrong : ∃ st : Store, Inv (st 0) ∧ Inv (st 1) ∧ (st 1).value < (st 0).value ∧
    (match difference 0 1 0 st with | .ok (_, st') => (st' 0).value | _ => 0) ≠ (st 0).value - (st 1).value ∧
    (match difference 0 1 1 st with | .ok (_, st') => (st' 1).value | _ => 0) ≠ (st 0).value - (st 1).value := by
  refine ⟨sampleStore (sampleBig [5, 9]) (sampleBig [1, 2]) (sampleBig [0]), ⟨by decide, by decide, by decide⟩,
    ⟨by decide, by decide, by decide⟩, by decide +kernel, by decide +kernel, by decide +kernel⟩

example : ∃ st : Store, Inv (st 0) ∧ Inv (st 1) ∧ (st 0).value ≠ (st 1).value ∧
    (match difference 0 1 2 st with | .ok (r, st') => (r, (st' 2).value) | _ => (true, 0)) = (false, 2 ^ 64 - 4) := by
  refine ⟨sampleStore (sampleBig [1, 3]) (sampleBig [5, 2]) (sampleBig [0]), ⟨by decide, by decide, by decide⟩,
    ⟨by decide, by decide, by decide⟩, by decide +kernel, by decide +kernel⟩

/-! ## C43 -/

/-- C43 is false as stated: `BigInteger(1) <<= 64 * 415` fills the array, and the next `<<= 1` writes `digits_[416]`. -/
theorem C43_refuted (junk : ℕ → UInt64) : ∃ b, (ofWord junk 1).shl (64 * 415) = .ok b ∧ Inv b ∧ b.shl 1 = .ub := by
  have h0 : Inv (ofWord junk 1) := ⟨le_rfl, show 1 ≤ CAPACITY by decide, Or.inl rfl⟩
  have hv : (ofWord junk 1).value = 1 := by simp [value, ofWord, wordsValue, upd]
  have gen : ∀ n, n % 64 = 0 → 1 + n / 64 ≤ CAPACITY →
      ∃ b, (ofWord junk 1).shl n = .ok b ∧ Inv b ∧ b.value = 2 ^ n := by
    intro n hn hc
    obtain ⟨b, h1, h2, h3⟩ := shl_one h0 n rfl hn hc
    exact ⟨b, h1, h2, by rw [h3, hv, one_mul]⟩
  obtain ⟨b, h1, h2, h3⟩ := gen (64 * 415) (by decide) (show 1 + 64 * 415 / 64 ≤ CAPACITY by decide)
  have hc : b.count = CAPACITY := by
    have h4 : b.value < 2 ^ (64 * b.count) := value_lt b
    rw [h3] at h4
    have h5 := (Nat.pow_lt_pow_iff_right (by decide : 1 < 2)).mp h4
    have := h2.le
    change b.count = 416
    change b.count ≤ 416 at this
    omega
  refine ⟨b, h1, h2, shl_full b 1 h2.pos ?_ (by decide) (by rw [hc]; rfl)⟩
  rw [BigInt.isZero_iff h2, h3]
  have : (0 : ℕ) < 2 ^ (64 * 415) := Nat.pow_pos (by decide)
  omega

/-- C43, the shift exactly: it touches memory outside the object if and only if the number and the shift are not zero and
either the shift is not a multiple of 64 and the result without its topmost carry needs exactly the 416 words, or a
multi-word number is shifted by whole words so far that the `memmove` of `count_` words starting one word too high runs over
the end. -/
theorem C43_shl_iff (b : BigInt) (h : Inv b) (s : ℕ) :
    shl b s = .ub ↔ b.value ≠ 0 ∧ s ≠ 0 ∧ b.count + s / 64 ≤ 416 ∧
      ((s % 64 ≠ 0 ∧ b.count + s / 64 = 416) ∨ (s % 64 = 0 ∧ 416 < 2 * b.count - 1 + s / 64)) := by
  by_cases hz : b.isZero = true ∨ s = 0
  · have : shl b s = .ok b := by unfold shl; rw [if_pos hz]
    rw [this]
    rw [BigInt.isZero_iff h] at hz
    constructor
    · intro h'; cases h'
    · rintro ⟨h1, h2, -⟩; tauto
  have hz' := hz
  rw [BigInt.isZero_iff h] at hz'
  have hv : b.value ≠ 0 := fun h0 => hz' (Or.inl h0)
  have hs0 : s ≠ 0 := fun h0 => hz' (Or.inr h0)
  rcases Nat.lt_or_ge 416 (b.count + s / 64) with ho | ho
  · rw [shl_over b s hz ho]
    constructor
    · intro h'; cases h'
    · rintro ⟨-, -, h3, -⟩; omega
  by_cases hm : s % 64 = 0
  · rw [shl_whole b s h.pos hz hm ho]
    by_cases hf : 2 * b.count - 1 + s / 64 ≤ CAPACITY
    · rw [if_pos hf]
      change _ ≤ 416 at hf
      constructor
      · intro h'; cases h'
      · rintro ⟨-, -, -, h4⟩; omega
    · rw [if_neg hf]
      change ¬ _ ≤ 416 at hf
      refine ⟨fun _ => ⟨hv, hs0, ho, Or.inr ⟨hm, by omega⟩⟩, fun _ => rfl⟩
  · rcases Nat.lt_or_ge (b.count + s / 64) 416 with hl | hl
    · obtain ⟨b', h1, -⟩ := shl_inter h s hv hm hl
      rw [h1]
      constructor
      · intro h'; cases h'
      · rintro ⟨-, -, -, h4⟩; omega
    · have hc : b.count + s / 64 = 416 := by omega
      rw [shl_full b s h.pos hz hm hc]
      exact ⟨fun _ => ⟨hv, hs0, ho, Or.inl ⟨hm, hc⟩⟩, fun _ => rfl⟩

/-- C43, everything but the shift and the decimal constructor: no operation on any objects satisfying the invariant touches
memory outside them, even when the arguments of `difference` coincide. -/
theorem C43_others_partial (v : MulImpl) (st : Store) (hst : ∀ p, Inv (st p)) (p q r : ℕ) (junk : ℕ → UInt64)
    (d : UInt64) (d32 : UInt32) (n : ℕ) :
    add (st p) d ≠ .ub ∧ mul64 v (st p) d ≠ .ub ∧ mul32 (st p) d32 ≠ .ub ∧ mulPow5 v (st p) n ≠ .ub ∧
    compare (st p) (st q) ≠ .ub ∧ eq (st p) (st q) ≠ .ub ∧ digit (st p) n ≠ .ub ∧ copy junk (st p) ≠ .ub ∧
    assign (st p) (st q) ≠ .ub ∧ difference p q r st ≠ .ub := by
  refine ⟨(add_spec (hst p) d).ne_ub, (mul64_spec v (hst p) d).ne_ub, (mul32_spec (hst p) d32).ne_ub,
    (mulPow5_spec v (hst p) n).ne_ub, ?_, ?_, ?_, ?_, ?_, difference_ne_ub hst p q r⟩
  · rw [compare_spec (hst p) (hst q)]; intro h; cases h
  · rw [eq_spec (hst p) (hst q)]; intro h; cases h
  · unfold digit
    split
    · intro h; cases h
    · rw [rd_ok (by have := (hst p).le; omega)]; intro h; cases h
  · rw [copy, if_pos (hst p).le]; intro h; cases h
  · rw [assign, copy, if_pos (hst q).le]; intro h; cases h

example : Inv (sampleBig [0xFFFFFFFFFFFFFFFF, 1]) ∧
    (match difference 0 0 0 (fun _ => sampleBig [0xFFFFFFFFFFFFFFFF, 1]) with | .throws => true | _ => false) = true :=
  ⟨⟨by decide, by decide, by decide⟩, by decide +kernel⟩

/-! ## C39, complete -/

/-- C74, shift (C39, complete): which shifts of which objects give the exact result.  For a shift by whole words it depends on memory
behind the number. -/
theorem C74_shift (b : BigInt) (h : Inv b) (s : ℕ) :
    (∃ b', shl b s = .ok b' ∧ b'.value = b.value * 2 ^ s) ↔
    b.value = 0 ∨ s = 0 ∨ (s % 64 ≠ 0 ∧ b.count + s / 64 < 416) ∨
      (s % 64 = 0 ∧ 2 * b.count - 1 + s / 64 ≤ 416 ∧ ∀ j < b.count - 1, b.digits (s / 64 + j) = b.digits j) := by
  have hp := h.pos
  constructor
  · rintro ⟨b', h1, h2⟩
    by_cases hv : b.value = 0
    · exact Or.inl hv
    by_cases hs : s = 0
    · exact Or.inr (Or.inl hs)
    have hub : ¬ shl b s = .ub := by rw [h1]; intro h'; cases h'
    rw [C43_shl_iff b h s] at hub
    have ho : b.count + s / 64 ≤ 416 := by
      by_contra hc
      rw [C39_over b h s hv (by omega)] at h1; cases h1
    by_cases hm : s % 64 = 0
    · refine Or.inr (Or.inr (Or.inr ?_))
      have hfit : 2 * b.count - 1 + s / 64 ≤ 416 := by
        by_contra hc
        exact hub ⟨hv, hs, ho, Or.inr ⟨hm, by omega⟩⟩
      refine ⟨hm, hfit, ?_⟩
      by_cases h2c : 2 ≤ b.count
      · obtain ⟨b'', h3, -, h4⟩ := C39_whole_words b h (s / 64) (by omega) h2c hfit
        have e : 64 * (s / 64) = s := by omega
        rw [e, h1] at h3
        cases h3
        rw [e] at h4
        exact h4.mp h2
      · intro j hj; omega
    · refine Or.inr (Or.inr (Or.inl ⟨hm, ?_⟩))
      by_contra hc
      exact hub ⟨hv, hs, ho, Or.inl ⟨hm, by omega⟩⟩
  · rintro (h0 | h0 | h0 | ⟨hm, hfit, hall⟩)
    · obtain ⟨b', h1, -, h2⟩ := C39_exact_partial b h s (Or.inl h0); exact ⟨b', h1, h2⟩
    · obtain ⟨b', h1, -, h2⟩ := C39_exact_partial b h s (Or.inr (Or.inl h0)); exact ⟨b', h1, h2⟩
    · obtain ⟨b', h1, -, h2⟩ := C39_exact_partial b h s (Or.inr (Or.inr (Or.inl h0))); exact ⟨b', h1, h2⟩
    · by_cases hs : s = 0
      · obtain ⟨b', h1, -, h2⟩ := C39_exact_partial b h s (Or.inr (Or.inl hs)); exact ⟨b', h1, h2⟩
      by_cases h2c : 2 ≤ b.count
      · obtain ⟨b'', h3, -, h4⟩ := C39_whole_words b h (s / 64) (by omega) h2c hfit
        have e : 64 * (s / 64) = s := by omega
        rw [e] at h3 h4
        exact ⟨b'', h3, h4.mpr hall⟩
      · obtain ⟨b', h1, -, h2⟩ := C39_exact_partial b h s (Or.inr (Or.inr (Or.inr ⟨by omega, hm, by omega⟩)))
        exact ⟨b', h1, h2⟩

example : Inv ⟨sampleMem [5, 6, 5], 2⟩ ∧ (match shl ⟨sampleMem [5, 6, 5], 2⟩ 128 with | .ok b => b.value | _ => 0) =
    (5 + 6 * 2 ^ 64) * 2 ^ 128 := by
  exact ⟨⟨by decide, by decide, by decide⟩, by decide +kernel⟩

/-! ## C42 -/

/-- An operation on objects named by numbers. -/
inductive BigOp where
  /-- construct from a word, in memory `junk` -/
  | word (p : ℕ) (junk : ℕ → UInt64) (d : UInt64)
  /-- construct from decimal text, in memory `junk` -/
  | decimal (p : ℕ) (junk : ℕ → UInt64) (s : Bytes)
  /-- copy-construct `p` from `q`, in memory `junk` -/
  | copy (p q : ℕ) (junk : ℕ → UInt64)
  | assignWord (p : ℕ) (d : UInt64)
  | assign (p q : ℕ)
  | add (p : ℕ) (d : UInt64)
  | mul64 (p : ℕ) (d : UInt64)
  | mul32 (p : ℕ) (d : UInt32)
  | mulPow5 (p : ℕ) (n : ℕ)
  | shl (p : ℕ) (s : ℕ)

/-- The program: what an operation does to the objects. -/
def BigOp.run (v : MulImpl) (st : Store) : BigOp → Res Store
  | .word p junk d => .ok (st.set p (ofWord junk d))
  | .decimal p junk s => do .ok (st.set p (← ofDecimal v junk s))
  | .copy p q junk => do .ok (st.set p (← BigInt.copy junk (st q)))
  | .assignWord p d => .ok (st.set p (BigInt.assignWord (st p) d))
  | .assign p q => do .ok (st.set p (← BigInt.assign (st p) (st q)))
  | .add p d => do .ok (st.set p (← BigInt.add (st p) d))
  | .mul64 p d => do .ok (st.set p (← BigInt.mul64 v (st p) d))
  | .mul32 p d => do .ok (st.set p (← BigInt.mul32 (st p) d))
  | .mulPow5 p n => do .ok (st.set p (← BigInt.mulPow5 v (st p) n))
  | .shl p s => do .ok (st.set p (← BigInt.shl (st p) s))

/-- A history. -/
def runHistory (v : MulImpl) : Store → List BigOp → Res Store
  | st, [] => .ok st
  | st, o :: os => do runHistory v (← o.run v st) os

/-- The specification: variables holding natural numbers. -/
def setVar (x : ℕ → ℕ) (p n : ℕ) : ℕ → ℕ := fun q => if q = p then n else x q

/-- The specification of an operation. -/
def BigOp.nat (x : ℕ → ℕ) : BigOp → ℕ → ℕ
  | .word p _ d => setVar x p d.toNat
  | .decimal p _ s => setVar x p (digitsValue s)
  | .copy p q _ => setVar x p (x q)
  | .assignWord p d => setVar x p d.toNat
  | .assign p q => setVar x p (x q)
  | .add p d => setVar x p (x p + d.toNat)
  | .mul64 p d => setVar x p (x p * d.toNat)
  | .mul32 p d => setVar x p (x p * d.toNat)
  | .mulPow5 p n => setVar x p (x p * 5 ^ n)
  | .shl p s => setVar x p (x p * 2 ^ s)

/-- The variables after a history. -/
def natHistory : (ℕ → ℕ) → List BigOp → ℕ → ℕ
  | x, [] => x
  | x, o :: os => natHistory (o.nat x) os

/-- What C42 needs in addition, stated on the natural numbers: only numbers below `2^64` are shifted by whole words. -/
def BigOp.Sound (x : ℕ → ℕ) : BigOp → Prop
  | .shl p s => s % 64 = 0 → s = 0 ∨ x p < 2 ^ 64
  | _ => True

/-- Every operation of the history is sound where it is applied. -/
def SoundHistory : (ℕ → ℕ) → List BigOp → Prop
  | _, [] => True
  | x, o :: os => o.Sound x ∧ SoundHistory (o.nat x) os

/-- Decimal text is digits, fewer than 8000 of them, and every other result leaves the top word free. -/
def BigOp.Fits (x : ℕ → ℕ) : BigOp → Prop
  | .decimal _ _ s => s.length ≤ 7999 ∧ ∀ c ∈ s, IsDigit c
  | .add p d => x p + d.toNat < 2 ^ 26560
  | .mul64 p d => x p * d.toNat < 2 ^ 26560
  | .mul32 p d => x p * d.toNat < 2 ^ 26560
  | .mulPow5 p n => x p * 5 ^ n < 2 ^ 26560
  | .shl p s => x p * 2 ^ s < 2 ^ 26560
  | _ => True

/-- Every result of the history fits. -/
def FitsHistory : (ℕ → ℕ) → List BigOp → Prop
  | _, [] => True
  | x, o :: os => o.Fits x ∧ FitsHistory (o.nat x) os

theorem setVar_value {st : Store} {x : ℕ → ℕ} (hx : ∀ p, (st p).value = x p) {p n : ℕ} {b : BigInt} (hb : b.value = n)
    (q : ℕ) : ((st.set p b) q).value = setVar x p n q := by
  unfold Store.set setVar
  split
  · exact hb
  · exact hx q

theorem set_inv {st : Store} (hst : ∀ p, Inv (st p)) {p : ℕ} {b : BigInt} (hb : Inv b) (q : ℕ) : Inv ((st.set p b) q) := by
  unfold Store.set
  split
  · exact hb
  · exact hst q

theorem ofWord_inv (junk : ℕ → UInt64) (d : UInt64) : Inv (ofWord junk d) ∧ (ofWord junk d).value = d.toNat :=
  ⟨⟨le_rfl, show 1 ≤ CAPACITY by decide, Or.inl rfl⟩, by simp [value, ofWord, wordsValue, upd]⟩

theorem copy_spec (junk : ℕ → UInt64) {b : BigInt} (h : Inv b) :
    ∃ b', BigInt.copy junk b = .ok b' ∧ Inv b' ∧ b'.value = b.value := by
  refine ⟨_, by rw [BigInt.copy, if_pos h.le], ?_, ?_⟩
  · refine ⟨h.pos, h.le, ?_⟩
    rcases h.top with h1 | h1
    · exact Or.inl h1
    · right
      have := h.pos
      simp only
      rw [if_pos (by omega)]; exact h1
  · exact wordsValue_congr (fun j hj => if_pos hj)

/-- One step keeps the invariant, whatever it computes. -/
theorem step_inv {v : MulImpl} {st st' : Store} (hst : ∀ p, Inv (st p)) (o : BigOp) (h : o.run v st = .ok st') :
    ∀ p, Inv (st' p) := by
  cases o with
  | word p junk d => cases h; exact set_inv hst (ofWord_inv junk d).1
  | assignWord p d => cases h; exact set_inv hst (ofWord_inv _ d).1
  | decimal p junk s =>
    obtain ⟨b, hb, h2⟩ := bind_ok h
    cases h2; exact set_inv hst (ofDecimal_sound hb).2.1
  | copy p q junk =>
    obtain ⟨b, hb, h2⟩ := bind_ok h
    obtain ⟨b', h3, h4, -⟩ := copy_spec junk (hst q)
    rw [h3] at hb; cases hb
    cases h2; exact set_inv hst h4
  | assign p q =>
    obtain ⟨b, hb, h2⟩ := bind_ok h
    obtain ⟨b', h3, h4, -⟩ := copy_spec (st p).digits (hst q)
    rw [BigInt.assign, h3] at hb; cases hb
    cases h2; exact set_inv hst h4
  | add p d =>
    obtain ⟨b, hb, h2⟩ := bind_ok h
    cases h2; exact set_inv hst ((add_spec (hst p) d).of_ok hb).1
  | mul64 p d =>
    obtain ⟨b, hb, h2⟩ := bind_ok h
    cases h2; exact set_inv hst ((mul64_spec v (hst p) d).of_ok hb).1
  | mul32 p d =>
    obtain ⟨b, hb, h2⟩ := bind_ok h
    cases h2; exact set_inv hst ((mul32_spec (hst p) d).of_ok hb).1
  | mulPow5 p n =>
    obtain ⟨b, hb, h2⟩ := bind_ok h
    cases h2; exact set_inv hst ((mulPow5_spec v (hst p) n).of_ok hb).1
  | shl p s =>
    obtain ⟨b, hb, h2⟩ := bind_ok h
    cases h2; exact set_inv hst (shl_inv (hst p) s hb)

/-- C42, invariant: after every history that does not throw, all objects satisfy the representation invariant
(also after the shifts whose value is wrong). -/
theorem C42_invariant (v : MulImpl) (ops : List BigOp) : ∀ (st st' : Store), (∀ p, Inv (st p)) →
    runHistory v st ops = .ok st' → ∀ p, Inv (st' p) := by
  induction ops with
  | nil => intro st st' h h'; cases h'; exact h
  | cons o os ih =>
    intro st st' h h'
    obtain ⟨st1, h1, h2⟩ := bind_ok h'
    exact ih st1 st' (step_inv h o h1) h2

/-- One sound step computes on the numbers. -/
theorem step_value {v : MulImpl} {st st' : Store} {x : ℕ → ℕ} (hst : ∀ p, Inv (st p)) (hx : ∀ p, (st p).value = x p)
    (o : BigOp) (hs : o.Sound x) (h : o.run v st = .ok st') : ∀ p, (st' p).value = o.nat x p := by
  cases o with
  | word p junk d => cases h; exact setVar_value hx (ofWord_inv junk d).2
  | assignWord p d => cases h; exact setVar_value hx (ofWord_inv _ d).2
  | decimal p junk s =>
    obtain ⟨b, hb, h2⟩ := bind_ok h
    cases h2
    exact setVar_value hx (ofDecimal_sound hb).2.2
  | copy p q junk =>
    obtain ⟨b, hb, h2⟩ := bind_ok h
    obtain ⟨b', h3, -, h5⟩ := copy_spec junk (hst q)
    rw [h3] at hb; cases hb
    cases h2; exact setVar_value hx (h5.trans (hx q))
  | assign p q =>
    obtain ⟨b, hb, h2⟩ := bind_ok h
    obtain ⟨b', h3, -, h5⟩ := copy_spec (st p).digits (hst q)
    rw [BigInt.assign, h3] at hb; cases hb
    cases h2; exact setVar_value hx (h5.trans (hx q))
  | add p d =>
    obtain ⟨b, hb, h2⟩ := bind_ok h
    cases h2; exact setVar_value hx (by rw [← hx p]; exact ((add_spec (hst p) d).of_ok hb).2)
  | mul64 p d =>
    obtain ⟨b, hb, h2⟩ := bind_ok h
    cases h2; exact setVar_value hx (by rw [← hx p]; exact ((mul64_spec v (hst p) d).of_ok hb).2)
  | mul32 p d =>
    obtain ⟨b, hb, h2⟩ := bind_ok h
    cases h2; exact setVar_value hx (by rw [← hx p]; exact ((mul32_spec (hst p) d).of_ok hb).2)
  | mulPow5 p n =>
    obtain ⟨b, hb, h2⟩ := bind_ok h
    cases h2; exact setVar_value hx (by rw [← hx p]; exact ((mulPow5_spec v (hst p) n).of_ok hb).2)
  | shl p s =>
    obtain ⟨b, hb, h2⟩ := bind_ok h
    cases h2
    refine setVar_value hx ?_
    rw [← hx p]
    exact shl_sound (hst p) s (fun hm => by rw [hx p]; exact hs hm) hb

/-- C42, what holds: a history of sound operations that does not throw computes exactly what the same operations do to natural
numbers, and the invariant holds at the end (hence, prefixes being histories, after every step). -/
theorem C42_refines_partial (v : MulImpl) (ops : List BigOp) : ∀ (st st' : Store) (x : ℕ → ℕ), (∀ p, Inv (st p)) →
    (∀ p, (st p).value = x p) → SoundHistory x ops → runHistory v st ops = .ok st' →
    ∀ p, Inv (st' p) ∧ (st' p).value = natHistory x ops p := by
  induction ops with
  | nil => intro st st' x h hx _ h' p; cases h'; exact ⟨h p, hx p⟩
  | cons o os ih =>
    intro st st' x h hx hs h' p
    obtain ⟨st1, h1, h2⟩ := bind_ok h'
    exact ih st1 st' (o.nat x) (step_inv h o h1) (step_value h hx o hs.1 h1) hs.2 h2 p

/-- One sound fitting step runs. -/
theorem step_runs {v : MulImpl} {st : Store} {x : ℕ → ℕ} (hst : ∀ p, Inv (st p)) (hx : ∀ p, (st p).value = x p)
    (o : BigOp) (hs : o.Sound x) (hf : o.Fits x) : ∃ st', o.run v st = .ok st' := by
  have big : ∀ {n : ℕ}, n < 2 ^ 26560 → n < 2 ^ (64 * CAPACITY) := fun h =>
    lt_of_lt_of_le h (Nat.pow_le_pow_right (by decide) (by decide))
  cases o with
  | word p junk d => exact ⟨_, rfl⟩
  | assignWord p d => exact ⟨_, rfl⟩
  | decimal p junk s =>
    obtain ⟨b, h, -⟩ := ofDecimal_ok v junk s hf.1 hf.2
    exact ⟨_, by simp only [BigOp.run]; rw [h, Res.ok_bind]⟩
  | copy p q junk =>
    obtain ⟨b, h, -⟩ := copy_spec junk (hst q)
    exact ⟨_, by simp only [BigOp.run]; rw [h, Res.ok_bind]⟩
  | assign p q =>
    obtain ⟨b, h, -⟩ := copy_spec (st p).digits (hst q)
    exact ⟨_, by simp only [BigOp.run]; rw [BigInt.assign, h, Res.ok_bind]⟩
  | add p d =>
    obtain ⟨b, h, -⟩ := (add_spec (hst p) d).ok (by rw [hx p]; exact big hf)
    exact ⟨_, by simp only [BigOp.run]; rw [h, Res.ok_bind]⟩
  | mul64 p d =>
    obtain ⟨b, h, -⟩ := (mul64_spec v (hst p) d).ok (by rw [hx p]; exact big hf)
    exact ⟨_, by simp only [BigOp.run]; rw [h, Res.ok_bind]⟩
  | mul32 p d =>
    obtain ⟨b, h, -⟩ := (mul32_spec (hst p) d).ok (by rw [hx p]; exact big hf)
    exact ⟨_, by simp only [BigOp.run]; rw [h, Res.ok_bind]⟩
  | mulPow5 p n =>
    obtain ⟨b, h, -⟩ := (mulPow5_spec v (hst p) n).ok (by rw [hx p]; exact big hf)
    exact ⟨_, by simp only [BigOp.run]; rw [h, Res.ok_bind]⟩
  | shl p s =>
    obtain ⟨b, h⟩ := shl_runs (hst p) s (fun hm => by rw [hx p]; exact hs hm) (by rw [hx p]; exact hf)
    exact ⟨_, by simp only [BigOp.run]; rw [h, Res.ok_bind]⟩

/-- C42, total form: a history of sound operations whose results stay below `2^26560` (415 of the 416 words) runs to the end
without throwing, and computes on the natural numbers. -/
theorem C42_total_partial (v : MulImpl) (ops : List BigOp) : ∀ (st : Store) (x : ℕ → ℕ), (∀ p, Inv (st p)) →
    (∀ p, (st p).value = x p) → SoundHistory x ops → FitsHistory x ops →
    ∃ st', runHistory v st ops = .ok st' ∧ ∀ p, Inv (st' p) ∧ (st' p).value = natHistory x ops p := by
  induction ops with
  | nil => intro st x h hx _ _; exact ⟨st, rfl, fun p => ⟨h p, hx p⟩⟩
  | cons o os ih =>
    intro st x h hx hs hf
    obtain ⟨st1, h1⟩ := step_runs (v := v) h hx o hs.1 hf.1
    obtain ⟨st', h2, h3⟩ := ih st1 (o.nat x) (step_inv h o h1) (step_value h hx o hs.1 h1) hs.2 hf.2
    exact ⟨st', by simp only [runHistory]; rw [h1, Res.ok_bind]; exact h2, h3⟩

/-- C42 is false as stated: the three-step history `1`, `<<= 65`, `<<= 64` does not throw and does not compute `2^129`. -/
theorem C42_refuted (v : MulImpl) (st : Store) : ∃ ops st', runHistory v st ops = .ok st' ∧
    ∀ x, (st' 0).value ≠ natHistory x ops 0 := by
  obtain ⟨b, b', h1, -, -, h4, h5, -⟩ := C39_refuted
  refine ⟨[.word 0 (fun _ => 0) 1, .shl 0 65, .shl 0 64], ((st.set 0 (ofWord (fun _ => 0) 1)).set 0 b).set 0 b', ?_, ?_⟩
  · have e : ∀ (t : Store) (c : BigInt), (t.set 0 c) 0 = c := fun t c => if_pos rfl
    simp only [runHistory, BigOp.run, Res.ok_bind, e, h1, h4]
  · intro x
    have e : ∀ (t : Store) (c : BigInt), (t.set 0 c) 0 = c := fun t c => if_pos rfl
    rw [e, h5]
    simp [natHistory, BigOp.nat, setVar]

example : SoundHistory (fun _ => 0) [.word 0 (fun _ => 7) 3, .shl 0 64, .mulPow5 0 50, .shl 0 70, .copy 1 0 (fun _ => 9),
      .add 1 5, .decimal 2 (fun _ => 1) (ascii "123")] ∧
    natHistory (fun _ => 0) [.word 0 (fun _ => 7) 3, .shl 0 64, .mulPow5 0 50, .shl 0 70, .copy 1 0 (fun _ => 9),
      .add 1 5, .decimal 2 (fun _ => 1) (ascii "123")] 1 = 3 * 2 ^ 134 * 5 ^ 50 + 5 := by
  refine ⟨⟨trivial, fun _ => Or.inr (by decide), trivial, fun h => absurd h (by decide), trivial, trivial, trivial, trivial⟩,
    by decide +kernel⟩

/-- Where a shift by whole words happens to come out right: the words in memory behind the number repeat it. -/
def BigOp.Right (st : Store) : BigOp → Prop
  | .shl p s => s % 64 = 0 → s ≠ 0 → (st p).value ≠ 0 → ∀ j < (st p).count - 1, (st p).digits (s / 64 + j) = (st p).digits j
  | _ => True

/-- Every operation of the history is right where it is applied. -/
def RightHistory (v : MulImpl) : Store → List BigOp → Prop
  | _, [] => True
  | st, o :: os => o.Right st ∧ ∀ st1, o.run v st = .ok st1 → RightHistory v st1 os

/-- A step that runs computes on the numbers if and only if it is right. -/
theorem step_right {v : MulImpl} {st st' : Store} {x : ℕ → ℕ} (hst : ∀ p, Inv (st p)) (hx : ∀ p, (st p).value = x p)
    (o : BigOp) (h : o.run v st = .ok st') : (∀ p, (st' p).value = o.nat x p) ↔ o.Right st := by
  by_cases hs : ∃ p s, o = .shl p s
  · obtain ⟨p, s, rfl⟩ := hs
    obtain ⟨b, hb, h2⟩ := bind_ok h
    cases h2
    have hiff := C74_shift (st p) (hst p) s
    have e1 : (∀ q, ((st.set p b) q).value = BigOp.nat x (.shl p s) q) ↔ b.value = (st p).value * 2 ^ s := by
      constructor
      · intro h'
        have := h' p
        simp only [Store.set, BigOp.nat, setVar, if_true] at this
        rw [this, hx p]
      · intro h'
        exact setVar_value hx (by rw [h', hx p])
    rw [e1]
    have e2 : b.value = (st p).value * 2 ^ s ↔ ∃ b', shl (st p) s = .ok b' ∧ b'.value = (st p).value * 2 ^ s := by
      constructor
      · intro h'; exact ⟨b, hb, h'⟩
      · rintro ⟨b', h1, h2⟩
        rw [hb] at h1; cases h1; exact h2
    rw [e2, hiff]
    have hub : ¬ shl (st p) s = .ub := by rw [hb]; intro h'; cases h'
    rw [C43_shl_iff _ (hst p) s] at hub
    simp only [BigOp.Right]
    constructor
    · rintro (h0 | h0 | h0 | h0) hm hs hv
      · exact absurd h0 hv
      · exact absurd h0 hs
      · exact absurd hm h0.1
      · exact h0.2.2
    · intro h'
      by_cases hv : (st p).value = 0
      · exact Or.inl hv
      by_cases hs : s = 0
      · exact Or.inr (Or.inl hs)
      have ho : (st p).count + s / 64 ≤ 416 := by
        by_contra hc
        rw [C39_over _ (hst p) s hv (by omega)] at hb; cases hb
      by_cases hm : s % 64 = 0
      · refine Or.inr (Or.inr (Or.inr ⟨hm, ?_, h' hm hs hv⟩))
        by_contra hc
        exact hub ⟨hv, hs, ho, Or.inr ⟨hm, by omega⟩⟩
      · refine Or.inr (Or.inr (Or.inl ⟨hm, ?_⟩))
        by_contra hc
        exact hub ⟨hv, hs, ho, Or.inl ⟨hm, by omega⟩⟩
  · have hS : o.Sound x := by
      cases o <;> first | trivial | exact absurd ⟨_, _, rfl⟩ hs
    have hR : o.Right st := by
      cases o <;> first | trivial | exact absurd ⟨_, _, rfl⟩ hs
    exact ⟨fun _ => hR, fun _ => step_value hst hx o hS h⟩

/-- C74, histories (C42, complete): a history that does not throw agrees with the natural numbers after every one of its steps if and only if
each of its whole-word shifts of multi-word numbers meets memory that repeats the number. -/
theorem C74_history (v : MulImpl) (ops : List BigOp) : ∀ (st st' : Store) (x : ℕ → ℕ), (∀ p, Inv (st p)) →
    (∀ p, (st p).value = x p) → runHistory v st ops = .ok st' →
    ((∀ n, ∃ t, runHistory v st (ops.take n) = .ok t ∧ ∀ p, (t p).value = natHistory x (ops.take n) p) ↔
      RightHistory v st ops) := by
  induction ops with
  | nil =>
    intro st st' x h hx _
    simp only [List.take_nil, RightHistory, iff_true]
    exact fun _ => ⟨st, rfl, hx⟩
  | cons o os ih =>
    intro st st' x h hx h'
    obtain ⟨st1, h1, h2⟩ := bind_ok h'
    have hright := step_right h hx o h1
    constructor
    · intro hall
      have hv1 : ∀ p, (st1 p).value = o.nat x p := by
        obtain ⟨t, h3, h4⟩ := hall 1
        simp only [List.take_succ_cons, List.take_zero, runHistory, h1, Res.ok_bind] at h3
        cases h3
        exact h4
      refine ⟨hright.mp hv1, fun st2 hst2 => ?_⟩
      rw [h1] at hst2; cases hst2
      refine (ih st1 st' (o.nat x) (step_inv h o h1) hv1 h2).mp fun n => ?_
      obtain ⟨t, h3, h4⟩ := hall (n + 1)
      simp only [List.take_succ_cons, runHistory, h1, Res.ok_bind] at h3
      exact ⟨t, h3, h4⟩
    · rintro ⟨hr, hrest⟩ n
      have hv1 := hright.mpr hr
      cases n with
      | zero => exact ⟨st, rfl, hx⟩
      | succ n =>
        obtain ⟨t, h3, h4⟩ := (ih st1 st' (o.nat x) (step_inv h o h1) hv1 h2).mpr (hrest st1 h1) n
        refine ⟨t, ?_, h4⟩
        simp only [List.take_succ_cons, runHistory, h1, Res.ok_bind]
        exact h3

example :
    (match runHistory .generic (fun _ => ofWord (fun _ => 0) 0) [.word 0 (fun _ => 0) 1, .shl 0 65, .shl 0 128] with
      | .ok t => (t 0).value | _ => 0) = 2 ^ 193 ∧
    (match runHistory .generic (fun _ => ofWord (fun _ => 0) 0) [.word 0 (fun _ => 0) 1, .shl 0 65, .shl 0 64] with
      | .ok t => (t 0).value | _ => 0) = 2 ^ 129 + 2 ^ 65 := by decide +kernel

end Lexi
