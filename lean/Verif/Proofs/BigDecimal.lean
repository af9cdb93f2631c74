import Verif.Proofs.BigShift
import Verif.Proofs.FloatText

/-!
# Big integers from decimal text
-/

namespace Lexi
namespace BigInt
open Spec Dtoa

theorem digitsValue_lt_pow (s : Bytes) (h : ∀ c ∈ s, IsDigit c) : digitsValue s < 10 ^ s.length := by
  induction s using List.reverseRecOn with
  | nil => simp [digitsValue]
  | append_singleton s c ih =>
    have h1 := ih (fun c' hc' => h c' (by simp [hc']))
    have h2 := h c (by simp)
    rw [digitsValue_append_singleton, List.length_append, List.length_singleton, pow_succ]
    have h3 : c.toNat ≤ 57 := by
      have := UInt8.le_iff_toNat_le.mp h2.2
      simpa using this
    omega

theorem parseFrom_ok (s : Bytes) : ∀ (r : UInt64), (∀ c ∈ s, IsDigit c) →
    parseFrom r s = .ok (UInt64.ofNat (s.foldl (fun acc b => acc * 10 + (b.toNat - 48)) r.toNat)) := by
  induction s with
  | nil => intro r _; simp [parseFrom]
  | cons c s ih =>
    intro r h
    have hc : 0x30 ≤ c ∧ c ≤ 0x39 := h c (by simp)
    have h3 : 48 ≤ c.toNat := UInt8.le_iff_toNat_le.mp hc.1
    have hl := c.toNat_lt
    rw [parseFrom, if_pos hc, ih _ (fun c' hc' => h c' (by simp [hc'])), List.foldl_cons]
    congr 1
    have e : (r * 10 + (c - 0x30).toUInt64).toNat = (r.toNat * 10 + (c.toNat - 48)) % 2 ^ 64 := by
      rw [UInt64.toNat_add, UInt64.toNat_mul, UInt8.toNat_toUInt64,
        UInt8.toNat_sub_of_le _ _ hc.1, show (10 : UInt64).toNat = 10 from rfl, show (0x30 : UInt8).toNat = 48 from rfl]
      omega
    rw [e]
    -- the fold only depends on the start modulo 2^64
    have hmod : ∀ (t : Bytes) (x y : ℕ), x % 2 ^ 64 = y % 2 ^ 64 →
        (t.foldl (fun acc (b : UInt8) => acc * 10 + (b.toNat - 48)) x) % 2 ^ 64 =
        (t.foldl (fun acc (b : UInt8) => acc * 10 + (b.toNat - 48)) y) % 2 ^ 64 := by
      intro t
      induction t with
      | nil => intro x y hxy; exact hxy
      | cons d t iht =>
        intro x y hxy
        rw [List.foldl_cons, List.foldl_cons]
        apply iht
        omega
    apply UInt64.toNat_inj.mp
    rw [UInt64.toNat_ofNat', UInt64.toNat_ofNat']
    exact hmod s _ _ (Nat.mod_mod _ _)

theorem parse_ok (s : Bytes) (h : ∀ c ∈ s, IsDigit c) : parse s = .ok (UInt64.ofNat (digitsValue s)) := by
  rw [parse, parseFrom_ok s 0 h]; rfl

theorem parse_throws (s : Bytes) (h : ∃ c ∈ s, ¬ IsDigit c) : parse s = .throws := by
  have : ∀ r, parseFrom r s = .throws := by
    induction s with
    | nil => simp at h
    | cons c s ih =>
      intro r
      rw [parseFrom]
      by_cases hc : 0x30 ≤ c ∧ c ≤ 0x39
      · rw [if_pos hc]
        apply ih
        obtain ⟨d, hd, hn⟩ := h
        rcases List.mem_cons.mp hd with rfl | hd
        · exact absurd hc hn
        · exact ⟨d, hd, hn⟩
      · rw [if_neg hc]
  exact this 0

theorem chunk_toNat {s : Bytes} (h : ∀ c ∈ s, IsDigit c) (hl : s.length ≤ 19) :
    (UInt64.ofNat (digitsValue s)).toNat = digitsValue s := by
  have h1 := digitsValue_lt_pow s h
  have h2 : 10 ^ s.length ≤ 10 ^ 19 := Nat.pow_le_pow_right (by norm_num) hl
  exact toNat_ofNat_lt _ (by omega)

theorem cap_split : 2 ^ (64 * CAPACITY) = 2 ^ 64 * 2 ^ (64 * 415) := by
  rw [CAPACITY_eq, ← pow_add]

theorem mul_pow2_lt {a P n : ℕ} (h : a < P) (hn : n ≤ 19) : a * 2 ^ n < P * 2 ^ 19 :=
  calc a * 2 ^ n < P * 2 ^ n := Nat.mul_lt_mul_of_pos_right h (by positivity)
    _ ≤ P * 2 ^ 19 := Nat.mul_le_mul_left _ (Nat.pow_le_pow_right (by norm_num) hn)

theorem mul_pow5_le {a P n : ℕ} (h : a < P) (hn : n ≤ 19) : a * 5 ^ n ≤ P * 5 ^ 19 :=
  Nat.mul_le_mul h.le (Nat.pow_le_pow_right (by norm_num) hn)

/-- One chunk, when the product by `5^n` leaves a spare word. -/
theorem addDecimal_spec (v : MulImpl) {b : BigInt} (h : Inv b) (s : Bytes) (hs : ∀ c ∈ s, IsDigit c)
    (h1 : 1 ≤ s.length) (h19 : s.length ≤ 19) (hfit : b.value * 5 ^ s.length < 2 ^ (64 * 415)) :
    ∃ b', addDecimal v b s = .ok b' ∧ Inv b' ∧ b'.value = b.value * 10 ^ s.length + digitsValue s := by
  have hd := chunk_toNat hs h19
  unfold addDecimal
  rw [parse_ok s hs, Res.ok_bind]
  by_cases hz : b.isZero = true
  · rw [if_pos hz]
    refine ⟨_, rfl, assignWord_inv _ _, ?_⟩
    rw [assignWord_value, hd, (isZero_iff h).mp hz]; simp
  · rw [if_neg hz]
    have hv0 : b.value ≠ 0 := fun h0 => hz ((isZero_iff h).mpr h0)
    have hbig : 2 ^ (64 * 415) ≤ 2 ^ (64 * CAPACITY) := Nat.pow_le_pow_right (by norm_num) (by rw [CAPACITY_eq]; norm_num)
    obtain ⟨b1, e1, i1, v1⟩ := (mulPow5_spec v h s.length).ok (lt_of_lt_of_le hfit hbig)
    have hc1 : b1.count ≤ 415 := i1.count_le (by norm_num) (by rw [v1]; exact hfit)
    have hv1 : b1.value ≠ 0 := by rw [v1]; exact Nat.mul_ne_zero hv0 (by positivity)
    obtain ⟨b2, e2, i2, v2⟩ := shl_inter i1 s.length hv1 (by omega) (by rw [CAPACITY_eq]; omega)
    have hv2 : b2.value = b.value * 10 ^ s.length := by
      rw [v2, v1, mul_assoc, ← Nat.mul_pow]
    have hlt : b2.value + (UInt64.ofNat (digitsValue s)).toNat < 2 ^ (64 * CAPACITY) := by
      have h2 : b2.value < 2 ^ (64 * 415) * 2 ^ 19 := by
        rw [v2, v1]
        exact mul_pow2_lt hfit h19
      have h3 := (UInt64.ofNat (digitsValue s)).toNat_lt
      have h4 : 2 ^ 64 ≤ 2 ^ (64 * 415) := Nat.pow_le_pow_right (by norm_num) (by norm_num)
      rw [cap_split]
      generalize 2 ^ (64 * 415) = P at *
      omega
    obtain ⟨b3, e3, i3, v3⟩ := (add_spec i2 (UInt64.ofNat (digitsValue s))).ok hlt
    refine ⟨b3, ?_, i3, ?_⟩
    · rw [e1, Res.ok_bind, e2, Res.ok_bind, e3]
    · rw [v3, hv2, hd]

theorem addDecimal_throws (v : MulImpl) (b : BigInt) (s : Bytes) (hs : ∃ c ∈ s, ¬ IsDigit c) :
    addDecimal v b s = .throws := by
  rw [addDecimal, parse_throws s hs]; rfl

theorem pow_fit : 10 ^ 7980 * 5 ^ 19 < 2 ^ (64 * 415) := by decide +kernel
theorem pow_full : 2 ^ (64 * 415) ≤ 10 ^ 7998 := by decide +kernel
theorem pow_cap : 10 ^ 7999 * 5 ^ 19 < 2 ^ (64 * 416) := by decide +kernel

theorem fit_of (V L n : ℕ) (hV : V < 10 ^ L) (hL : L ≤ 7980) (hn : n ≤ 19) : V * 5 ^ n < 2 ^ (64 * 415) := by
  have h1 : 10 ^ L ≤ 10 ^ 7980 := Nat.pow_le_pow_right (by norm_num) hL
  have h2 : 5 ^ n ≤ 5 ^ 19 := Nat.pow_le_pow_right (by norm_num) hn
  calc V * 5 ^ n ≤ 10 ^ 7980 * 5 ^ 19 := Nat.mul_le_mul (by omega) h2
    _ < _ := pow_fit

theorem value_step {V D L n : ℕ} (hV : V < 10 ^ L) (hD : D < 10 ^ n) : V * 10 ^ n + D < 10 ^ (L + n) := by
  have h1 : (V + 1) * 10 ^ n ≤ 10 ^ L * 10 ^ n := Nat.mul_le_mul_right _ hV
  rw [pow_add]
  nlinarith

/-- The constructor loop over digits, inside the capacity. -/
theorem decimalLoop_spec (v : MulImpl) (fuel : ℕ) : ∀ (s : Bytes) (b : BigInt) (L : ℕ), s.length ≤ fuel →
    Inv b → b.value < 10 ^ L → L % 19 = 0 → L + s.length ≤ 7999 → (∀ c ∈ s, IsDigit c) →
    ∃ b', decimalLoop v fuel s b = .ok b' ∧ Inv b' ∧ b'.value = b.value * 10 ^ s.length + digitsValue s := by
  have e19 : DIGITS_ITERATION = 19 := rfl
  induction fuel with
  | zero =>
    intro s b L hf hi hv hL hlen hs
    have : s = [] := List.length_eq_zero_iff.mp (by omega)
    subst this
    rw [decimalLoop.eq_def]
    exact ⟨b, rfl, hi, by simp [digitsValue]⟩
  | succ fuel ih =>
    intro s b L hf hi hv hL hlen hs
    rw [decimalLoop.eq_def]
    dsimp only
    rw [e19]
    by_cases h19 : 19 ≤ s.length
    · rw [if_pos h19]
      have ht : (s.take 19).length = 19 := by rw [List.length_take]; omega
      have hst : ∀ c ∈ s.take 19, IsDigit c := fun c hc => hs c (List.mem_of_mem_take hc)
      have hsd : ∀ c ∈ s.drop 19, IsDigit c := fun c hc => hs c (List.mem_of_mem_drop hc)
      obtain ⟨b1, e1, i1, v1⟩ := addDecimal_spec v hi (s.take 19) hst (by omega) (by omega)
        (fit_of _ L _ hv (by omega) (by omega))
      rw [e1, Res.ok_bind]
      have hdv := digitsValue_lt_pow _ hst
      rw [ht] at v1 hdv
      obtain ⟨b2, e2, i2, v2⟩ := ih (s.drop 19) b1 (L + 19) (by rw [List.length_drop]; omega) i1
        (by rw [v1]; exact value_step hv hdv) (by omega) (by rw [List.length_drop]; omega) hsd
      refine ⟨b2, e2, i2, ?_⟩
      have happ : digitsValue s = digitsValue (s.take 19) * 10 ^ (s.drop 19).length + digitsValue (s.drop 19) := by
        rw [← digitsValue_append, List.take_append_drop]
      have hp : 10 ^ s.length = 10 ^ 19 * 10 ^ (s.drop 19).length := by
        rw [← pow_add, List.length_drop]; congr 1; omega
      rw [v2, v1, happ, hp]
      ring
    · rw [if_neg h19]
      by_cases h0 : 0 < s.length
      · rw [if_pos h0]
        exact addDecimal_spec v hi s hs h0 (by omega) (fit_of _ L _ hv (by omega) (by omega))
      · rw [if_neg h0]
        have : s = [] := List.length_eq_zero_iff.mp (by omega)
        subst this
        exact ⟨b, rfl, hi, by simp [digitsValue]⟩

/-- A byte that is not a digit, inside the capacity. -/
theorem decimalLoop_throws (v : MulImpl) (fuel : ℕ) : ∀ (s : Bytes) (b : BigInt) (L : ℕ), s.length ≤ fuel →
    Inv b → b.value < 10 ^ L → L % 19 = 0 → L + s.length ≤ 7999 → (∃ c ∈ s, ¬ IsDigit c) →
    decimalLoop v fuel s b = .throws := by
  have e19 : DIGITS_ITERATION = 19 := rfl
  induction fuel with
  | zero =>
    intro s b L hf hi hv hL hlen hs
    have : s = [] := List.length_eq_zero_iff.mp (by omega)
    subst this
    simp at hs
  | succ fuel ih =>
    intro s b L hf hi hv hL hlen hs
    rw [decimalLoop.eq_def]
    dsimp only
    rw [e19]
    by_cases h19 : 19 ≤ s.length
    · rw [if_pos h19]
      have ht : (s.take 19).length = 19 := by rw [List.length_take]; omega
      by_cases hst : ∀ c ∈ s.take 19, IsDigit c
      · obtain ⟨b1, e1, i1, v1⟩ := addDecimal_spec v hi (s.take 19) hst (by omega) (by omega)
          (fit_of _ L _ hv (by omega) (by omega))
        rw [e1, Res.ok_bind]
        have hdv := digitsValue_lt_pow _ hst
        rw [ht] at v1 hdv
        apply ih (s.drop 19) b1 (L + 19) (by rw [List.length_drop]; omega) i1
          (by rw [v1]; exact value_step hv hdv) (by omega) (by rw [List.length_drop]; omega)
        obtain ⟨c, hc, hn⟩ := hs
        rw [← List.take_append_drop 19 s] at hc
        rcases List.mem_append.mp hc with hc | hc
        · exact absurd (hst c hc) hn
        · exact ⟨c, hc, hn⟩
      · push Not at hst
        rw [addDecimal_throws v b _ hst]; rfl
    · rw [if_neg h19]
      obtain ⟨c, hc, hn⟩ := hs
      have h0 : 0 < s.length := List.length_pos_of_mem hc
      rw [if_pos h0, addDecimal_throws v b s ⟨c, hc, hn⟩]

/-- The next chunk of a 7999-digit number has no spare word. -/
theorem addDecimal_full (v : MulImpl) {b : BigInt} (h : Inv b) (s : Bytes) (hs : ∀ c ∈ s, IsDigit c)
    (h1 : 1 ≤ s.length) (h19 : s.length ≤ 19) (hlo : 10 ^ 7998 ≤ b.value) (hhi : b.value < 10 ^ 7999) :
    addDecimal v b s = .ub := by
  have hv0 : b.value ≠ 0 := by
    have : 0 < 10 ^ 7998 := by positivity
    omega
  have hz : ¬ b.isZero = true := fun hz => hv0 ((isZero_iff h).mp hz)
  unfold addDecimal
  rw [parse_ok s hs, Res.ok_bind, if_neg hz]
  have hlt : b.value * 5 ^ s.length < 2 ^ (64 * CAPACITY) := by
    rw [CAPACITY_eq]
    exact lt_of_le_of_lt (mul_pow5_le hhi h19) pow_cap
  obtain ⟨b1, e1, i1, v1⟩ := (mulPow5_spec v h s.length).ok hlt
  have hge : 2 ^ (64 * 415) ≤ b1.value := by
    rw [v1]
    exact (pow_full.trans hlo).trans (Nat.le_mul_of_pos_right _ (by positivity))
  have hc := Inv.le_count hge
  have hc2 := i1.le
  rw [CAPACITY_eq] at hc2
  have hz1 : ¬ (b1.isZero = true ∨ s.length = 0) := by
    rintro (h' | h')
    · rw [isZero_iff i1, v1] at h'
      exact Nat.mul_ne_zero hv0 (by positivity) h'
    · omega
  rw [e1, Res.ok_bind, shl_full b1 s.length i1.pos hz1 (by omega) (by rw [CAPACITY_eq]; omega)]
  rfl

/-- More than 7999 digits after a nonzero one: the constructor leaves its array. -/
theorem decimalLoop_ub (v : MulImpl) (fuel : ℕ) : ∀ (s : Bytes) (b : BigInt) (L : ℕ), s.length ≤ fuel →
    Inv b → b.value < 10 ^ L → 10 ^ (L - 1) ≤ b.value → 1 ≤ L → L % 19 = 0 → L ≤ 7999 → 8000 ≤ L + s.length →
    (∀ c ∈ s, IsDigit c) → decimalLoop v fuel s b = .ub := by
  have e19 : DIGITS_ITERATION = 19 := rfl
  induction fuel with
  | zero => intro s b L hf hi hv hv' hL1 hL hL2 hlen hs; omega
  | succ fuel ih =>
    intro s b L hf hi hv hv' hL1 hL hL2 hlen hs
    rw [decimalLoop.eq_def]
    dsimp only
    rw [e19]
    by_cases hfull : L = 7999
    · subst hfull
      by_cases h19 : 19 ≤ s.length
      · rw [if_pos h19, addDecimal_full v hi (s.take 19) (fun c hc => hs c (List.mem_of_mem_take hc))
          (by rw [List.length_take]; omega) (by rw [List.length_take]; omega) hv' hv]
        rfl
      · rw [if_neg h19, if_pos (by omega), addDecimal_full v hi s hs (by omega) (by omega) hv' hv]
    · rw [if_pos (by omega)]
      have ht : (s.take 19).length = 19 := by rw [List.length_take]; omega
      have hst : ∀ c ∈ s.take 19, IsDigit c := fun c hc => hs c (List.mem_of_mem_take hc)
      have hsd : ∀ c ∈ s.drop 19, IsDigit c := fun c hc => hs c (List.mem_of_mem_drop hc)
      obtain ⟨b1, e1, i1, v1⟩ := addDecimal_spec v hi (s.take 19) hst (by omega) (by omega)
        (fit_of _ L _ hv (by omega) (by omega))
      rw [e1, Res.ok_bind]
      have hdv := digitsValue_lt_pow _ hst
      rw [ht] at v1 hdv
      apply ih (s.drop 19) b1 (L + 19) (by rw [List.length_drop]; omega) i1
        (by rw [v1]; exact value_step hv hdv) ?_ (by omega) (by omega) (by omega)
        (by rw [List.length_drop]; omega) hsd
      rw [v1, show L + 19 - 1 = L - 1 + 19 by omega, pow_add]
      exact (Nat.mul_le_mul_right _ hv').trans (Nat.le_add_right _ _)

theorem digitsValue_cons_ge (c : UInt8) (s : Bytes) (hc : IsDigit c) (h0 : c ≠ 48) :
    10 ^ s.length ≤ digitsValue (c :: s) := by
  have : c :: s = [c] ++ s := rfl
  rw [this, digitsValue_append]
  have h1 : 48 ≤ c.toNat := UInt8.le_iff_toNat_le.mp hc.1
  have h2 : c.toNat ≠ 48 := fun h => h0 (UInt8.toNat_inj.mp (by simpa using h))
  have h3 : 1 ≤ digitsValue [c] := by simp only [digitsValue, List.foldl_cons, List.foldl_nil]; omega
  calc 10 ^ s.length = 1 * 10 ^ s.length := by ring
    _ ≤ _ := (Nat.mul_le_mul_right _ h3).trans (Nat.le_add_right _ _)

theorem ofDecimal_start (junk : ℕ → UInt64) : Inv ⟨upd junk 0 0, 1⟩ ∧ (⟨upd junk 0 0, 1⟩ : BigInt).value = 0 :=
  ⟨⟨le_rfl, show 1 ≤ CAPACITY by decide, Or.inl rfl⟩, by simp [value, wordsValue, upd]⟩

theorem ofDecimal_ok (v : MulImpl) (junk : ℕ → UInt64) (s : Bytes) (hl : s.length ≤ 7999) (hs : ∀ c ∈ s, IsDigit c) :
    ∃ b, ofDecimal v junk s = .ok b ∧ Inv b ∧ b.value = digitsValue s := by
  obtain ⟨h1, h2⟩ := ofDecimal_start junk
  obtain ⟨b, e, i, hv⟩ := decimalLoop_spec v s.length s _ 0 le_rfl h1 (by rw [h2]; norm_num) (by norm_num) (by omega) hs
  exact ⟨b, e, i, by rw [hv, h2]; simp⟩

theorem ofDecimal_throws (v : MulImpl) (junk : ℕ → UInt64) (s : Bytes) (hl : s.length ≤ 7999)
    (hs : ∃ c ∈ s, ¬ IsDigit c) : ofDecimal v junk s = .throws := by
  obtain ⟨h1, h2⟩ := ofDecimal_start junk
  exact decimalLoop_throws v s.length s _ 0 le_rfl h1 (by rw [h2]; norm_num) (by norm_num) (by omega) hs

theorem ofDecimal_ub (v : MulImpl) (junk : ℕ → UInt64) (s : Bytes) (hl : 8000 ≤ s.length)
    (hs : ∀ c ∈ s, IsDigit c) (hz : s.head? ≠ some 48) : ofDecimal v junk s = .ub := by
  obtain ⟨h1, h2⟩ := ofDecimal_start junk
  obtain ⟨n, hn⟩ : ∃ n, s.length = n + 1 := ⟨s.length - 1, by omega⟩
  unfold ofDecimal
  rw [hn, decimalLoop.eq_def]
  dsimp only
  rw [show DIGITS_ITERATION = 19 from rfl, if_pos (by omega)]
  have ht : (s.take 19).length = 19 := by rw [List.length_take]; omega
  have hst : ∀ c ∈ s.take 19, IsDigit c := fun c hc => hs c (List.mem_of_mem_take hc)
  obtain ⟨b1, e1, i1, v1⟩ := addDecimal_spec v h1 (s.take 19) hst (by omega) (by omega) (by rw [h2]; simp)
  rw [h2, Nat.zero_mul, Nat.zero_add] at v1
  rw [e1, Res.ok_bind]
  have hdv := digitsValue_lt_pow _ hst
  rw [ht] at hdv
  apply decimalLoop_ub v n (s.drop 19) b1 19 (by rw [List.length_drop]; omega) i1 (by rw [v1]; exact hdv) ?_
    (by norm_num) (by norm_num) (by norm_num) (by rw [List.length_drop]; omega)
    (fun c hc => hs c (List.mem_of_mem_drop hc))
  rw [v1]
  cases hs' : s with
  | nil => rw [hs'] at hl; simp at hl
  | cons c t =>
    rw [hs'] at hz hst hl
    rw [List.take_succ_cons]
    have h3 := digitsValue_cons_ge c (t.take 18) (hst c (by simp)) (by simpa using hz)
    have h4 : (t.take 18).length = 18 := by rw [List.length_take]; simp at hl; omega
    rw [h4] at h3
    exact h3

theorem pow5_cap : (2 ^ (64 * 415 + 19) + 2 ^ 64) * 5 ^ 19 < 2 ^ (64 * 416) := by decide +kernel

/-- A chunk whose product by `5^n` leaves no spare word. -/
theorem addDecimal_over (v : MulImpl) {b : BigInt} (h : Inv b) (s : Bytes) (hs : ∀ c ∈ s, IsDigit c)
    (h1 : 1 ≤ s.length) (h19 : s.length ≤ 19) (hlo : 2 ^ (64 * 415) ≤ b.value * 5 ^ s.length)
    (hhi : b.value < 2 ^ (64 * 415 + 19) + 2 ^ 64) : addDecimal v b s = .ub := by
  have hv0 : b.value ≠ 0 := by
    intro h0
    rw [h0, Nat.zero_mul] at hlo
    exact absurd hlo (Nat.not_le.mpr (by positivity))
  have hz : ¬ b.isZero = true := fun hz => hv0 ((isZero_iff h).mp hz)
  unfold addDecimal
  rw [parse_ok s hs, Res.ok_bind, if_neg hz]
  have hlt : b.value * 5 ^ s.length < 2 ^ (64 * CAPACITY) := by
    rw [CAPACITY_eq]
    exact lt_of_le_of_lt (mul_pow5_le hhi h19) pow5_cap
  obtain ⟨b1, e1, i1, v1⟩ := (mulPow5_spec v h s.length).ok hlt
  have hge : 2 ^ (64 * 415) ≤ b1.value := by rw [v1]; exact hlo
  have hc := Inv.le_count hge
  have hc2 := i1.le
  rw [CAPACITY_eq] at hc2
  have hz1 : ¬ (b1.isZero = true ∨ s.length = 0) := by
    rintro (h' | h')
    · rw [isZero_iff i1, v1] at h'
      exact Nat.mul_ne_zero hv0 (by positivity) h'
    · omega
  rw [e1, Res.ok_bind, shl_full b1 s.length i1.pos hz1 (by omega) (by rw [CAPACITY_eq]; omega)]
  rfl

/-- After a chunk that fits the value is still small enough for the next product. -/
theorem chunk_bound {V D P n : ℕ} (h : V * 5 ^ n < P) (hn : n ≤ 19) (hD : D < 2 ^ 64) :
    V * 10 ^ n + D < P * 2 ^ 19 + 2 ^ 64 := by
  have h1 := mul_pow2_lt h hn
  rw [mul_assoc, ← Nat.mul_pow, show 5 * 2 = 10 from rfl] at h1
  omega

/-- The constructor loop over digits: exact, or a write outside the object, according to the last chunk. -/
theorem decimalLoop_iff (v : MulImpl) (fuel : ℕ) : ∀ (s : Bytes) (b : BigInt), s.length ≤ fuel →
    Inv b → b.value < 2 ^ (64 * 415 + 19) + 2 ^ 64 → (∀ c ∈ s, IsDigit c) → ∀ n, n = (s.length - 1) % 19 + 1 →
    ((s = [] ∨ (b.value * 10 ^ (s.length - n) + digitsValue (s.take (s.length - n))) * 5 ^ n < 2 ^ (64 * 415)) →
      ∃ b', decimalLoop v fuel s b = .ok b') ∧
    (¬ (s = [] ∨ (b.value * 10 ^ (s.length - n) + digitsValue (s.take (s.length - n))) * 5 ^ n < 2 ^ (64 * 415)) →
      decimalLoop v fuel s b = .ub) := by
  have e19 : DIGITS_ITERATION = 19 := rfl
  induction fuel with
  | zero =>
    intro s b hf hi hv hs n hn
    have : s = [] := List.length_eq_zero_iff.mp (by omega)
    subst this
    rw [decimalLoop.eq_def]
    exact ⟨fun _ => ⟨b, rfl⟩, fun h => absurd (Or.inl rfl) h⟩
  | succ fuel ih =>
    intro s b hf hi hv hs n hn
    rw [decimalLoop.eq_def]
    dsimp only
    rw [e19]
    by_cases h19 : 19 ≤ s.length
    · rw [if_pos h19]
      have ht : (s.take 19).length = 19 := by rw [List.length_take]; omega
      have hst : ∀ c ∈ s.take 19, IsDigit c := fun c hc => hs c (List.mem_of_mem_take hc)
      have hsd : ∀ c ∈ s.drop 19, IsDigit c := fun c hc => hs c (List.mem_of_mem_drop hc)
      have hsne : s ≠ [] := by rintro rfl; simp at h19
      by_cases hfit : b.value * 5 ^ 19 < 2 ^ (64 * 415)
      · obtain ⟨b1, e1, i1, v1⟩ := addDecimal_spec v hi (s.take 19) hst (by omega) (by omega) (by rw [ht]; exact hfit)
        rw [e1, Res.ok_bind]
        rw [ht] at v1
        have hD : digitsValue (s.take 19) < 2 ^ 64 := by
          have := digitsValue_lt_pow _ hst
          rw [ht] at this
          exact this.trans (by norm_num)
        have hb1 : b1.value < 2 ^ (64 * 415 + 19) + 2 ^ 64 := by
          have e2 : 2 ^ (64 * 415 + 19) = 2 ^ (64 * 415) * 2 ^ 19 := pow_add 2 (64 * 415) 19
          rw [v1, e2]
          generalize 2 ^ (64 * 415) = P at hfit ⊢
          exact chunk_bound hfit le_rfl hD
        obtain ⟨k1, k2⟩ := ih (s.drop 19) b1 (by rw [List.length_drop]; omega) i1 hb1 hsd _ rfl
        have hcond : (s.drop 19 = [] ∨ (b1.value * 10 ^ ((s.drop 19).length - (((s.drop 19).length - 1) % 19 + 1)) +
              digitsValue ((s.drop 19).take ((s.drop 19).length - (((s.drop 19).length - 1) % 19 + 1)))) *
              5 ^ (((s.drop 19).length - 1) % 19 + 1) < 2 ^ (64 * 415)) ↔
            (s = [] ∨ (b.value * 10 ^ (s.length - n) + digitsValue (s.take (s.length - n))) * 5 ^ n < 2 ^ (64 * 415)) := by
          by_cases h0 : s.length = 19
          · have e0 : s.drop 19 = [] := List.drop_eq_nil_of_le (by omega)
            have en : n = 19 := by omega
            subst en
            simp only [e0, true_or, true_iff]
            right
            rw [h0, Nat.sub_self, List.take_zero]
            simpa [digitsValue] using hfit
          · have hl : (s.drop 19).length = s.length - 19 := List.length_drop
            have hne : s.drop 19 ≠ [] := by
              intro h'; rw [h'] at hl; simp at hl; omega
            have en : ((s.drop 19).length - 1) % 19 + 1 = n := by rw [hl]; omega
            rw [en, or_iff_right hne, or_iff_right hsne]
            have hm : s.length - n = 19 + ((s.drop 19).length - n) := by rw [hl]; omega
            have e2 : s.take (s.length - n) = s.take 19 ++ (s.drop 19).take ((s.drop 19).length - n) := by
              rw [hm, List.take_add]
            have e3 : ((s.drop 19).take ((s.drop 19).length - n)).length = (s.drop 19).length - n := by
              rw [List.length_take]; omega
            rw [e2, digitsValue_append, e3, v1, hm, pow_add]
            rw [show (b.value * 10 ^ 19 + digitsValue (s.take 19)) * 10 ^ ((s.drop 19).length - n) +
                digitsValue ((s.drop 19).take ((s.drop 19).length - n)) =
              b.value * (10 ^ 19 * 10 ^ ((s.drop 19).length - n)) +
                (digitsValue (s.take 19) * 10 ^ ((s.drop 19).length - n) +
                digitsValue ((s.drop 19).take ((s.drop 19).length - n))) by ring]
        rw [hcond] at k1 k2
        exact ⟨k1, k2⟩
      · have hub := addDecimal_over v hi (s.take 19) hst (by omega) (by omega) (by rw [ht]; omega) hv
        rw [hub]
        refine ⟨fun hc => ?_, fun _ => rfl⟩
        exfalso
        rw [or_iff_right hsne] at hc
        apply hfit
        refine lt_of_le_of_lt ?_ hc
        by_cases h0 : s.length = 19
        · have en : n = 19 := by omega
          rw [en, h0]
          simp [digitsValue]
        · have hge : 19 ≤ s.length - n := by omega
          calc b.value * 5 ^ 19 ≤ b.value * 10 ^ (s.length - n) := by
                refine Nat.mul_le_mul_left _ ?_
                exact (Nat.pow_le_pow_left (by norm_num) 19).trans (Nat.pow_le_pow_right (by norm_num) hge)
            _ ≤ b.value * 10 ^ (s.length - n) + digitsValue (s.take (s.length - n)) := Nat.le_add_right _ _
            _ ≤ _ := Nat.le_mul_of_pos_right _ (by positivity)
    · rw [if_neg h19]
      by_cases h0 : 0 < s.length
      · rw [if_pos h0]
        have hsne : s ≠ [] := by rintro rfl; simp at h0
        have en : n = s.length := by omega
        rw [or_iff_right hsne, en, Nat.sub_self, List.take_zero]
        have e0 : (b.value * 10 ^ 0 + digitsValue []) * 5 ^ s.length = b.value * 5 ^ s.length := by simp [digitsValue]
        rw [e0]
        constructor
        · intro hfit
          obtain ⟨b', h1, -⟩ := addDecimal_spec v hi s hs h0 (by omega) hfit
          exact ⟨b', h1⟩
        · intro hfit
          exact addDecimal_over v hi s hs h0 (by omega) (by omega) hv
      · rw [if_neg h0]
        have : s = [] := List.length_eq_zero_iff.mp (by omega)
        subst this
        exact ⟨fun _ => ⟨b, rfl⟩, fun h => absurd (Or.inl rfl) h⟩

/-- The constructor on digits, completely. -/
theorem ofDecimal_iff (v : MulImpl) (junk : ℕ → UInt64) (s : Bytes) (hs : ∀ c ∈ s, IsDigit c) (n : ℕ)
    (hn : n = (s.length - 1) % 19 + 1) :
    (digitsValue (s.take (s.length - n)) * 5 ^ n < 2 ^ (64 * 415) → ∃ b, ofDecimal v junk s = .ok b) ∧
    (2 ^ (64 * 415) ≤ digitsValue (s.take (s.length - n)) * 5 ^ n → ofDecimal v junk s = .ub) := by
  obtain ⟨h1, h2⟩ := ofDecimal_start junk
  obtain ⟨k1, k2⟩ := decimalLoop_iff v s.length s _ le_rfl h1 (by rw [h2]; positivity) hs n hn
  rw [h2, Nat.zero_mul, Nat.zero_add] at k1 k2
  refine ⟨fun h => k1 (Or.inr h), fun h => k2 ?_⟩
  rintro (rfl | h')
  · simp only [List.length_nil, Nat.zero_sub, List.take_zero, digitsValue, List.foldl_nil, Nat.zero_mul] at h
    exact absurd h (Nat.not_le.mpr (by positivity))
  · exact absurd h' (Nat.not_lt.mpr h)

end BigInt
end Lexi
