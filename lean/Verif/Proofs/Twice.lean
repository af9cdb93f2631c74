import Verif.Proofs.ReadNear
import Mathlib.Tactic.LinearCombination

/-!
# Rounding twice: first to a wider format, then to a narrower one
-/

namespace Lexi.Soft

/-- `n * 2^g` is the number of the format at or below `q`, with `g` the exponent of its last place. -/
structure Cell (p : ℕ) (emin : ℤ) (q : ℚ) (n : ℕ) (g : ℤ) : Prop where
  least : emin ≤ g
  prec : n < 2 ^ p
  normal : emin < g → 2 ^ (p - 1) ≤ n
  low : n * 2 ^ g ≤ q
  high : q < (n + 1) * 2 ^ g

theorem cell_exists {p : ℕ} {emin : ℤ} (hp : 2 ≤ p) {q : ℚ} (hq : 0 < q) : ∃ n g, Cell p emin q n g := by
  set g := qexp p emin q with hg
  have hqe := qexp_eq (p := p) (emin := emin) (q := q)
  have hz := zp g
  obtain ⟨h1, h2⟩ := lg_spec hq
  have hy0 : 0 ≤ q / 2 ^ g := (div_pos hq hz).le
  have hlow : ((⌊q / 2 ^ g⌋₊ : ℕ) : ℚ) * 2 ^ g ≤ q := by
    rw [← le_div_iff₀ hz]; exact Nat.floor_le hy0
  have hhigh : q < ((⌊q / 2 ^ g⌋₊ : ℕ) + 1 : ℚ) * 2 ^ g := by
    rw [← div_lt_iff₀ hz]; exact Nat.lt_floor_add_one _
  refine ⟨⌊q / 2 ^ g⌋₊, g, by omega, ?_, fun hlt => ?_, hlow, hhigh⟩
  · rw [Nat.floor_lt hy0, div_lt_iff₀ hz]
    push_cast
    rw [← zpow_natCast (2 : ℚ) p, ← zpow_add₀ (by norm_num)]
    exact h2.trans_le (zpow_mono (by omega))
  · apply Nat.le_floor
    rw [le_div_iff₀ hz]
    push_cast
    rw [← zpow_natCast (2 : ℚ) (p - 1), ← zpow_add₀ (by norm_num)]
    exact (zpow_mono (by omega)).trans h1

theorem round_down {p : ℕ} {emin : ℤ} (hp : 2 ≤ p) {n : ℕ} {g : ℤ} (h1 : emin ≤ g) (h2 : n < 2 ^ p)
    (h3 : emin < g → 2 ^ (p - 1) ≤ n) {y : ℚ} (hl : n * 2 ^ g ≤ y)
    (hh : y < (n + 1 / 2) * 2 ^ g ∨ n % 2 = 0 ∧ y ≤ (n + 1 / 2) * 2 ^ g) : roundRat p emin y = n * 2 ^ g := by
  have hz := zp g
  have hy : 0 ≤ y := le_trans (by positivity) hl
  rcases hy.lt_or_eq with hy | rfl
  · refine roundRat_interval hp hy n g h2 h1 h3 ⟨?_, ?_, fun _ _ => ?_⟩
    · rcases hh with h | h
      · exact Or.inl h
      · exact Or.inr h
    · exact Or.inl (lt_of_lt_of_le (mul_lt_mul_of_pos_right (by linarith) hz) hl)
    · exact le_trans (mul_le_mul_of_nonneg_right (by linarith) hz.le) hl
  · have : (n : ℚ) * 2 ^ g = 0 := le_antisymm hl (by positivity)
    rw [roundRat_zero, this]

theorem round_up {p : ℕ} {emin : ℤ} (hp : 2 ≤ p) {n : ℕ} {g : ℤ} (h1 : emin ≤ g) (h2 : n < 2 ^ p)
    (h3 : emin < g → 2 ^ (p - 1) ≤ n) {y : ℚ} (hh : y ≤ (n + 1) * 2 ^ g)
    (hl : (n + 1 / 2) * 2 ^ g < y ∨ n % 2 = 1 ∧ (n + 1 / 2) * 2 ^ g ≤ y) :
    roundRat p emin y = (n + 1) * 2 ^ g := by
  have hz := zp g
  have hlow : (n + 1 / 2) * 2 ^ g ≤ y := by rcases hl with h | h; exacts [h.le, h.2]
  have hy : 0 < y := lt_of_lt_of_le (by positivity) hlow
  have hpp : 2 ^ p = 2 * 2 ^ (p - 1) := by
    rw [← pow_succ']; congr 1; omega
  by_cases hc : n + 1 < 2 ^ p
  · have := roundRat_interval hp hy (n + 1) g hc h1 (fun h => by have := h3 h; omega) ⟨?_, ?_, ?_⟩
    · rw [this]; push_cast; rfl
    · left
      refine lt_of_le_of_lt hh ?_
      push_cast
      exact mul_lt_mul_of_pos_right (by linarith) hz
    · push_cast
      rw [show (n : ℚ) + 1 - 1 / 2 = n + 1 / 2 by ring]
      rcases hl with h | h
      · exact Or.inl h
      · exact Or.inr ⟨by omega, h.2⟩
    · intro h h'
      have := h3 h'
      omega
  · have hn : n + 1 = 2 * 2 ^ (p - 1) := by omega
    have hnq : (n : ℚ) + 1 = 2 * 2 ^ (p - 1) := by exact_mod_cast hn
    have e : ∀ a : ℚ, a * 2 ^ (g + 1) = 2 * a * 2 ^ g := fun a => by rw [zpow_add_one₀ (by norm_num)]; ring
    have hpos : 1 ≤ 2 ^ (p - 1) := Nat.one_le_two_pow
    have hposq : (1 : ℚ) ≤ 2 ^ (p - 1) := by exact_mod_cast hpos
    have := roundRat_interval (emin := emin) hp hy (2 ^ (p - 1)) (g + 1) (by omega) (by omega) (fun _ => le_refl _) ⟨?_, ?_, ?_⟩
    · rw [this, e]; push_cast; rw [hnq]
    · left
      rw [e]; push_cast
      refine lt_of_le_of_lt hh (mul_lt_mul_of_pos_right ?_ hz)
      linarith
    · left
      rw [e]; push_cast
      refine lt_of_lt_of_le (mul_lt_mul_of_pos_right ?_ hz) hlow
      linarith
    · intro _ _
      rw [e]; push_cast
      refine le_trans (mul_le_mul_of_nonneg_right ?_ hz.le) hlow
      linarith

/-- Rounding to a format of at least one more bit and then to the narrower one is rounding once, unless the first
rounding moves the number onto the middle of two neighbours of the narrower format. -/
theorem twice {p P : ℕ} {emin E : ℤ} (hp : 2 ≤ p) (hP : p + 1 ≤ P) (hE : E ≤ emin - 1) {q : ℚ} (hq : 0 < q) :
    ∃ n g, Cell p emin q n g ∧
      (roundRat P E q ≠ (n + 1 / 2) * 2 ^ g ∧ roundRat p emin (roundRat P E q) = roundRat p emin q ∨
       roundRat P E q = (n + 1 / 2) * 2 ^ g ∧
        roundRat p emin (roundRat P E q) = (if n % 2 = 0 then (n : ℚ) else n + 1) * 2 ^ g ∧
        (q < roundRat P E q → roundRat p emin q = n * 2 ^ g) ∧
        (roundRat P E q < q → roundRat p emin q = (n + 1) * 2 ^ g)) := by
  obtain ⟨n, g, hc⟩ := cell_exists (emin := emin) hp hq
  refine ⟨n, g, hc, ?_⟩
  have hz := zp g
  have hg := hc.least
  have hpw : 2 ^ p * 2 ≤ 2 ^ P := by rw [← pow_succ]; exact Nat.pow_le_pow_right (by norm_num) hP
  have hn := hc.prec
  -- the middle and the two neighbours are numbers of the wider format
  have hm : ((n : ℚ) + 1 / 2) * 2 ^ g = ((2 * n + 1 : ℕ) : ℚ) * 2 ^ (g - 1) := by
    rw [zpow_sub_one₀ (by norm_num)]; push_cast; ring
  have hlo : (n : ℚ) * 2 ^ g ≤ roundRat P E q := le_roundRat (by omega) hq n g (by omega) (by omega) hc.low
  have hhi : roundRat P E q ≤ ((n : ℚ) + 1) * 2 ^ g := by
    have := roundRat_le (p := P) (emin := E) hq (n + 1) g (by omega) (by omega) (by push_cast; exact hc.high.le)
    push_cast at this; exact this
  have hmlo : ((n : ℚ) + 1 / 2) * 2 ^ g ≤ q → ((n : ℚ) + 1 / 2) * 2 ^ g ≤ roundRat P E q := by
    rw [hm]; exact fun h => le_roundRat (by omega) hq _ _ (by omega) (by omega) h
  have hmhi : q ≤ ((n : ℚ) + 1 / 2) * 2 ^ g → roundRat P E q ≤ ((n : ℚ) + 1 / 2) * 2 ^ g := by
    rw [hm]; exact fun h => roundRat_le hq _ _ (by omega) (by omega) h
  have down := fun y => round_down (y := y) hp hc.least hc.prec hc.normal
  have up := fun y => round_up (y := y) hp hc.least hc.prec hc.normal
  generalize roundRat P E q = x at *
  by_cases hx : x = ((n : ℚ) + 1 / 2) * 2 ^ g
  · right
    refine ⟨hx, ?_, fun h => down q hc.low (Or.inl (hx ▸ h)), fun h => up q hc.high.le (Or.inl (hx ▸ h))⟩
    split
    · exact down x hlo (Or.inr ⟨‹_›, hx.le⟩)
    · exact up x hhi (Or.inr ⟨by omega, hx.ge⟩)
  · left
    refine ⟨hx, ?_⟩
    rcases lt_or_ge q (((n : ℚ) + 1 / 2) * 2 ^ g) with h | h
    · rw [down x hlo (Or.inl (lt_of_le_of_ne (hmhi h.le) hx)), down q hc.low (Or.inl h)]
    · rcases h.lt_or_eq with h | h
      · rw [up x hhi (Or.inl (lt_of_le_of_ne (hmlo h.le) (Ne.symm hx))), up q hc.high.le (Or.inl h)]
      · exact absurd (le_antisymm (hmhi h.ge) (hmlo h.le)) hx

/-- A number of few decimal places and moderate size is never moved onto a middle. -/
theorem few_places {p P : ℕ} {emin E : ℤ} (hp : 2 ≤ p) (hP : p + 1 ≤ P) (hE : E + P ≤ emin + p) (h0 : emin ≤ 0) {q : ℚ}
    (hq : 0 < q) (hlt : q < 2 ^ p) (k m : ℕ) (hk : 10 ^ k < 2 ^ (P - p + 1)) (hm : q * 10 ^ k = m) {s : ℕ} {g : ℤ}
    (hg : emin ≤ g) (hs : s < 2 ^ p) (hn : emin < g → 2 ^ (p - 1) ≤ s) (hx : roundRat P E q = (s + 1 / 2) * 2 ^ g) :
    roundRat P E q = q := by
  by_contra hne
  have hz := zp g
  have hpP : 2 ^ p < 2 ^ P := Nat.pow_lt_pow_right (by norm_num) (by omega)
  have hsq : (s : ℚ) + 1 ≤ 2 ^ p := by exact_mod_cast hs
  -- the exponent of the middle
  have hg0 : g ≤ 0 := by
    by_contra hg1
    have h1 : (2 : ℚ) ^ (p - 1) ≤ s := by exact_mod_cast hn (by omega)
    have h2 := roundRat_le (p := P) (emin := E) hq (2 ^ p) 0 (by omega) hpP (by push_cast; linarith)
    push_cast at h2
    rw [hx, mul_one] at h2
    have h3 : (2 : ℚ) ^ (1 : ℤ) ≤ 2 ^ g := zpow_mono (by omega)
    have h4 : ((s : ℚ) + 1 / 2) * 2 ≤ (s + 1 / 2) * 2 ^ g :=
      mul_le_mul_of_nonneg_left (by linarith [zpow_one (2 : ℚ)]) (by positivity)
    have h5 : (2 : ℚ) ^ p = 2 * 2 ^ (p - 1) := by rw [← pow_succ']; congr 1; omega
    linarith
  have hlg : lg q < g + p := by
    apply lg_lt hq
    by_contra hc
    have h1 := le_roundRat (p := P) (emin := E) (by omega) hq 1 (g + p) (by omega) (by omega) (by simpa using not_lt.mp hc)
    rw [hx, Nat.cast_one, one_mul, zpow_add₀ (by norm_num), zpow_natCast, mul_comm] at h1
    have := le_of_mul_le_mul_right h1 hz
    linarith
  have hqe := qexp_eq (p := P) (emin := E) (q := q)
  have herr := qsig_err (p := P) (emin := E) hq
  rw [← roundRat_pos hq, hx] at herr
  have hqx : (2 : ℚ) ^ qexp P E q ≤ 2 ^ (g - ((P - p : ℕ) : ℤ)) := zpow_mono (by omega)
  rw [zpow_sub₀ (by norm_num), zpow_natCast] at hqx
  -- the distance of the middle is a multiple of `2^(g-1) / 10^k`
  obtain ⟨t, ht⟩ : ∃ t : ℕ, g = -t := ⟨(-g).toNat, by omega⟩
  have hgt : (2 : ℚ) ^ g * 2 ^ t = 1 := by rw [ht, zpow_neg, zpow_natCast]; field_simp
  have hk0 : (0 : ℚ) < 10 ^ k := by positivity
  have ht0 : (0 : ℚ) < 2 ^ t := by positivity
  have key : (((s : ℚ) + 1 / 2) * 2 ^ g - q) * (10 ^ k * 2 ^ (t + 1)) =
      (((2 * s + 1) * 10 ^ k : ℕ) : ℤ) - ((m * 2 ^ (t + 1) : ℕ) : ℤ) := by
    push_cast
    rw [← hm, pow_succ]
    linear_combination ((s : ℚ) + 1 / 2) * 2 * 10 ^ k * hgt
  have hnz : (((2 * s + 1) * 10 ^ k : ℕ) : ℤ) - ((m * 2 ^ (t + 1) : ℕ) : ℤ) ≠ 0 := by
    intro hc
    have h1 : ((((2 * s + 1) * 10 ^ k : ℕ) : ℤ) : ℚ) - (((m * 2 ^ (t + 1) : ℕ) : ℤ) : ℚ) = 0 := by exact_mod_cast hc
    rw [h1] at key
    rcases mul_eq_zero.mp key with h2 | h2
    · exact hne (by rw [hx]; linarith)
    · have : (0 : ℚ) < 10 ^ k * 2 ^ (t + 1) := by positivity
      linarith
  have hup : |((s : ℚ) + 1 / 2) * 2 ^ g - q| * (10 ^ k * 2 ^ (t + 1)) ≤
      2 ^ g / 2 ^ (P - p) / 2 * (10 ^ k * 2 ^ (t + 1)) := by
    refine mul_le_mul_of_nonneg_right ?_ (by positivity)
    linarith
  have heq : (2 : ℚ) ^ g / 2 ^ (P - p) / 2 * (10 ^ k * 2 ^ (t + 1)) = 10 ^ k / 2 ^ (P - p) := by
    rw [pow_succ]
    have : (2 : ℚ) ^ g / 2 ^ (P - p) / 2 * (10 ^ k * (2 ^ t * 2)) = (2 ^ g * 2 ^ t) * (10 ^ k / 2 ^ (P - p)) := by ring
    rw [this, hgt, one_mul]
  rw [heq, ← abs_of_pos (by positivity : (0 : ℚ) < 10 ^ k * 2 ^ (t + 1)), ← abs_mul, key] at hup
  have h2P : (2 : ℚ) ≤ 2 ^ (P - p) := by
    calc (2 : ℚ) = 2 ^ 1 := (pow_one _).symm
      _ ≤ 2 ^ (P - p) := pow_le_pow_right₀ (by norm_num) (by omega)
  rcases Nat.eq_zero_or_pos k with h | h
  · -- a whole number
    have h1 := Int.one_le_abs hnz
    have h2 : (1 : ℚ) ≤ |((((2 * s + 1) * 10 ^ k : ℕ) : ℤ) : ℚ) - (((m * 2 ^ (t + 1) : ℕ) : ℤ) : ℚ)| := by
      exact_mod_cast h1
    rw [h, pow_zero] at hup
    have h3 : (1 : ℚ) / 2 ^ (P - p) < 1 := by rw [div_lt_one (by positivity)]; linarith
    rw [h, pow_zero] at h2
    linarith
  · -- otherwise both terms of the difference are even
    obtain ⟨j, rfl⟩ : ∃ j, k = j + 1 := ⟨k - 1, by omega⟩
    have h1 : 2 ≤ |(((2 * s + 1) * 10 ^ (j + 1) : ℕ) : ℤ) - ((m * 2 ^ (t + 1) : ℕ) : ℤ)| := by
      have e1 : (2 * s + 1) * 10 ^ (j + 1) = 2 * ((2 * s + 1) * (5 * 10 ^ j)) := by rw [pow_succ]; ring
      have e2 : m * 2 ^ (t + 1) = 2 * (m * 2 ^ t) := by rw [pow_succ]; ring
      rw [e1, e2] at hnz ⊢
      generalize (2 * s + 1) * (5 * 10 ^ j) = A at *
      generalize m * 2 ^ t = B at *
      rcases abs_cases (((2 * A : ℕ) : ℤ) - ((2 * B : ℕ) : ℤ)) with ⟨h, _⟩ | ⟨h, _⟩ <;> rw [h] <;> omega
    have h2 : (2 : ℚ) ≤ |((((2 * s + 1) * 10 ^ (j + 1) : ℕ) : ℤ) : ℚ) - (((m * 2 ^ (t + 1) : ℕ) : ℤ) : ℚ)| := by
      exact_mod_cast h1
    have hkq : (10 : ℚ) ^ (j + 1) < 2 * 2 ^ (P - p) := by
      have : 10 ^ (j + 1) < 2 ^ (P - p) * 2 := by rw [← pow_succ]; exact hk
      rw [mul_comm]; exact_mod_cast this
    have h3 : (10 : ℚ) ^ (j + 1) / 2 ^ (P - p) < 2 := by rw [div_lt_iff₀ (by positivity)]; exact hkq
    linarith

/-- Just above the middle of `2^(p-1)` and the next number, a wider format rounds to the middle. -/
theorem round_to_middle {p P : ℕ} {E : ℤ} (hp : 2 ≤ p) (hP : p + 1 ≤ P) (hE : E ≤ p - P) {d : ℚ} (h0 : 0 < d)
    (h1 : d * 2 ^ (P - p + 1) < 1) : roundRat P E (2 ^ (p - 1) + 1 / 2 + d) = 2 ^ (p - 1) + 1 / 2 := by
  obtain ⟨t, rfl⟩ : ∃ t, P = p + 1 + t := ⟨P - (p + 1), by omega⟩
  obtain ⟨s, rfl⟩ : ∃ s, p = s + 1 := ⟨p - 1, by omega⟩
  rw [show s + 1 + 1 + t - (s + 1) + 1 = t + 2 by omega] at h1
  have hg : (2 : ℚ) ^ (-((t + 1 : ℕ) : ℤ)) = (2 ^ t)⁻¹ / 2 := by
    rw [zpow_neg, zpow_natCast, pow_succ, mul_inv]; ring
  have ht : (0 : ℚ) < 2 ^ t := by positivity
  have hn : (((2 * 2 ^ s + 1) * 2 ^ t : ℕ) : ℚ) * 2 ^ (-((t + 1 : ℕ) : ℤ)) = 2 ^ s + 1 / 2 := by
    rw [hg]; push_cast; field_simp
  have hP2 : 2 ^ (s + 1 + 1 + t) = 4 * 2 ^ s * 2 ^ t := by rw [pow_add, pow_add, pow_add]; ring
  have hs1 : 1 ≤ 2 ^ s := Nat.one_le_two_pow
  have ht1 : 1 ≤ 2 ^ t := Nat.one_le_two_pow
  have := round_down (p := s + 1 + 1 + t) (emin := E) (n := (2 * 2 ^ s + 1) * 2 ^ t) (g := -((t + 1 : ℕ) : ℤ))
    (y := 2 ^ s + 1 / 2 + d) (by omega) (by push_cast at hE ⊢; omega) (by rw [hP2]; nlinarith) (fun _ => ?_) ?_ (Or.inl ?_)
  · rw [show s + 1 - 1 = s by omega, this, hn]
  · rw [show s + 1 + 1 + t - 1 = s + 1 + t by omega, pow_add, pow_succ]
    nlinarith
  · rw [hn]; linarith
  · rw [add_mul, hn, hg]
    have : d < (2 ^ t)⁻¹ / 4 := by
      rw [lt_div_iff₀ (by norm_num), lt_inv_comm₀ (by positivity) ht, ← one_div, lt_div_iff₀ (by positivity)]
      rw [pow_add] at h1
      linarith
    linarith

end Lexi.Soft
