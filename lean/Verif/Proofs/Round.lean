import Verif.Model.FloatFmt
import Mathlib.Algebra.Order.Field.Rat
import Mathlib.Algebra.Order.Field.Power
import Mathlib.Tactic.Linarith
import Mathlib.Tactic.Ring
import Mathlib.Tactic.Positivity
import Mathlib.Tactic.FieldSimp

/-!
# Rounding to a binary format: correctness of the soft-float used for the FPU and the C library
-/

namespace Lexi.Soft

theorem zp (e : ℤ) : (0 : ℚ) < 2 ^ e := by positivity

theorem zpow_split (e : ℤ) : (2 : ℚ) ^ e = 2 ^ e.toNat / 2 ^ (-e).toNat := by
  rcases le_total 0 e with h | h
  · have h1 : (-e).toNat = 0 := by omega
    have h2 : e = (e.toNat : ℤ) := by omega
    rw [h1, pow_zero, div_one]
    conv_lhs => rw [h2]
    rw [zpow_natCast]
  · have h1 : e.toNat = 0 := by omega
    have h2 : e = -((-e).toNat : ℤ) := by omega
    rw [h1, pow_zero]
    conv_lhs => rw [h2]
    rw [zpow_neg, zpow_natCast, one_div]

theorem scale_eq (m : Nat) (e : ℤ) : scale m e = (m : ℚ) * 2 ^ e := by
  rw [scale, zpow_split]
  push_cast
  ring

theorem zpow_mono {a b : ℤ} (h : a ≤ b) : (2 : ℚ) ^ a ≤ 2 ^ b :=
  zpow_le_zpow_right₀ (by norm_num) h

theorem zpow_strict {a b : ℤ} (h : a < b) : (2 : ℚ) ^ a < 2 ^ b :=
  zpow_lt_zpow_right₀ (by norm_num) h

theorem zpow_lt_iff {a b : ℤ} : (2 : ℚ) ^ a < 2 ^ b ↔ a < b :=
  zpow_lt_zpow_iff_right₀ (by norm_num)

theorem ilog2_spec (n d : Nat) (hn : 0 < n) (hd : 0 < d) :
    (2 : ℚ) ^ ilog2 n d ≤ (n : ℚ) / d ∧ (n : ℚ) / d < 2 ^ (ilog2 n d + 1) := by
  have hdq : (0 : ℚ) < d := by exact_mod_cast hd
  have n1 : (2 : ℚ) ^ n.log2 ≤ n := by exact_mod_cast Nat.log2_self_le (by omega)
  have n2 : (n : ℚ) < 2 ^ (n.log2 + 1) := by exact_mod_cast Nat.lt_log2_self
  have d1 : (2 : ℚ) ^ d.log2 ≤ d := by exact_mod_cast Nat.log2_self_le (by omega)
  have d2 : (d : ℚ) < 2 ^ (d.log2 + 1) := by exact_mod_cast Nat.lt_log2_self
  set l : ℤ := (n.log2 : ℤ) - d.log2 with hl
  have e1 : (2 : ℚ) ^ l = 2 ^ n.log2 / 2 ^ d.log2 := by
    rw [hl, zpow_sub₀ (by norm_num), zpow_natCast, zpow_natCast]
  have up : (n : ℚ) / d < 2 ^ (l + 1) := by
    rw [zpow_add_one₀ (by norm_num), e1, div_lt_iff₀ hdq]
    have : (2 : ℚ) ^ n.log2 / 2 ^ d.log2 * 2 * 2 ^ d.log2 ≤ 2 ^ n.log2 / 2 ^ d.log2 * 2 * d :=
      mul_le_mul_of_nonneg_left d1 (by positivity)
    have h2 : (2 : ℚ) ^ n.log2 / 2 ^ d.log2 * 2 * 2 ^ d.log2 = 2 ^ (n.log2 + 1) := by
      rw [pow_succ]; field_simp
    linarith
  have lo : (2 : ℚ) ^ (l - 1) ≤ (n : ℚ) / d := by
    rw [zpow_sub_one₀ (by norm_num), e1, le_div_iff₀ hdq]
    have : (2 : ℚ) ^ n.log2 / 2 ^ d.log2 * 2⁻¹ * d ≤ 2 ^ n.log2 / 2 ^ d.log2 * 2⁻¹ * 2 ^ (d.log2 + 1) :=
      mul_le_mul_of_nonneg_left d2.le (by positivity)
    have h2 : (2 : ℚ) ^ n.log2 / 2 ^ d.log2 * 2⁻¹ * 2 ^ (d.log2 + 1) = 2 ^ n.log2 := by
      rw [pow_succ]; field_simp
    linarith
  have key : d * 2 ^ l.toNat ≤ n * 2 ^ (-l).toNat ↔ (2 : ℚ) ^ l ≤ (n : ℚ) / d := by
    rw [zpow_split l, le_div_iff₀ hdq, div_mul_eq_mul_div, div_le_iff₀ (by positivity)]
    constructor
    · intro h
      have : ((d * 2 ^ l.toNat : ℕ) : ℚ) ≤ ((n * 2 ^ (-l).toNat : ℕ) : ℚ) := by exact_mod_cast h
      push_cast at this
      linarith
    · intro h
      have : ((d * 2 ^ l.toNat : ℕ) : ℚ) ≤ ((n * 2 ^ (-l).toNat : ℕ) : ℚ) := by
        push_cast; linarith
      exact_mod_cast this
  have hil : ilog2 n d = if d * 2 ^ l.toNat ≤ n * 2 ^ (-l).toNat then l else l - 1 := rfl
  rw [hil]
  split
  · rename_i h
    exact ⟨key.mp h, up⟩
  · rename_i h
    refine ⟨lo, ?_⟩
    rw [sub_add_cancel]
    exact not_le.mp (fun h' => h (key.mpr h'))

theorem rneDiv_spec (n d : Nat) (hd : 0 < d) :
    |(rneDiv n d : ℚ) - (n : ℚ) / d| ≤ 1 / 2 ∧
      (|(rneDiv n d : ℚ) - (n : ℚ) / d| = 1 / 2 → rneDiv n d % 2 = 0) := by
  have hdq : (0 : ℚ) < d := by exact_mod_cast hd
  have hdm : (d : ℚ) * (n / d : ℕ) + (n % d : ℕ) = n := by exact_mod_cast Nat.div_add_mod n d
  have hr : (n % d : ℕ) < d := Nat.mod_lt _ hd
  have hq : (n : ℚ) / d = (n / d : ℕ) + (n % d : ℕ) / (d : ℚ) := by
    field_simp; linarith
  have hr0 : (0 : ℚ) ≤ ((n % d : ℕ) : ℚ) / d := by positivity
  rw [hq]
  have hunf : rneDiv n d = if 2 * (n % d) < d then n / d else if d < 2 * (n % d) then n / d + 1
      else if n / d % 2 = 0 then n / d else n / d + 1 := rfl
  set r : ℕ := n % d with hrdef
  set a : ℕ := n / d with ha
  rw [hunf]
  have hr1 : (r : ℚ) / d < 1 := by
    rw [div_lt_one hdq]; exact_mod_cast hr
  split
  · rename_i h
    have hlt : (r : ℚ) / d < 1 / 2 := by
      rw [div_lt_iff₀ hdq]
      have : (2 : ℚ) * r < d := by exact_mod_cast h
      linarith
    have e : |(a : ℚ) - (a + (r : ℚ) / d)| = (r : ℚ) / d := by
      rw [show (a : ℚ) - (a + (r : ℚ) / d) = -((r : ℚ) / d) by ring, abs_neg, abs_of_nonneg hr0]
    rw [e]
    exact ⟨hlt.le, fun h => absurd h hlt.ne⟩
  · split
    · rename_i _ h
      have hlt : 1 / 2 < (r : ℚ) / d := by
        rw [lt_div_iff₀ hdq]
        have : (d : ℚ) < 2 * r := by exact_mod_cast h
        linarith
      have e : |((a + 1 : ℕ) : ℚ) - (a + (r : ℚ) / d)| = 1 - (r : ℚ) / d := by
        push_cast
        rw [show (a : ℚ) + 1 - (a + (r : ℚ) / d) = 1 - ((r : ℚ) / d) by ring, abs_of_nonneg (by linarith)]
      rw [e]
      exact ⟨by linarith, fun h => absurd h (by linarith)⟩
    · rename_i h1 h2
      have heq : (r : ℚ) / d = 1 / 2 := by
        rw [div_eq_iff hdq.ne']
        have : (2 : ℚ) * r = d := by exact_mod_cast (by omega : 2 * r = d)
        linarith
      rw [heq]
      split
      · rename_i h
        refine ⟨?_, fun _ => h⟩
        rw [show (a : ℚ) - (a + 1 / 2) = -(1 / 2) by ring, abs_neg, abs_of_nonneg (by norm_num)]
      · rename_i h
        refine ⟨?_, fun _ => by omega⟩
        push_cast
        rw [show (a : ℚ) + 1 - (a + 1 / 2) = 1 / 2 by ring, abs_of_nonneg (by norm_num)]

/-- Rounding finds the integer at distance less than a half, or an even one at distance a half. -/
theorem rneDiv_eq (n d : Nat) (hd : 0 < d) (s : Nat)
    (h : |(s : ℚ) - (n : ℚ) / d| < 1 / 2 ∨ (s % 2 = 0 ∧ |(s : ℚ) - (n : ℚ) / d| ≤ 1 / 2)) :
    rneDiv n d = s := by
  obtain ⟨h1, h2⟩ := rneDiv_spec n d hd
  set m := rneDiv n d
  set q : ℚ := (n : ℚ) / d
  by_contra hne
  have hs : |(s : ℚ) - q| ≤ 1 / 2 := by
    rcases h with h | h
    · exact h.le
    · exact h.2
  have hd1 : (1 : ℚ) ≤ |(m : ℚ) - s| := by
    have : (1 : ℤ) ≤ |(m : ℤ) - s| := by
      apply Int.one_le_abs
      omega
    exact_mod_cast this
  have tri : |(m : ℚ) - s| ≤ |(m : ℚ) - q| + |(s : ℚ) - q| := by
    rw [abs_sub_comm (s : ℚ) q]
    exact abs_sub_le _ _ _
  have hm2 : |(m : ℚ) - q| = 1 / 2 := by linarith
  have hs2 : |(s : ℚ) - q| = 1 / 2 := by linarith
  have hme := h2 hm2
  rcases h with h | h
  · linarith
  · have h3 : |(m : ℚ) - s| ≤ 1 := by linarith
    have h4 : |(m : ℤ) - s| ≤ 1 := by exact_mod_cast h3
    have := abs_le.mp h4
    omega

theorem rneDiv_le (n d : Nat) (hd : 0 < d) (s : Nat) (h : (n : ℚ) / d ≤ s) : rneDiv n d ≤ s := by
  rcases h.lt_or_eq with h | h
  · obtain ⟨h1, -⟩ := rneDiv_spec n d hd
    have := (abs_le.mp h1).2
    have h2 : (rneDiv n d : ℚ) < s + 1 := by linarith
    have : rneDiv n d < s + 1 := by exact_mod_cast h2
    omega
  · exact (rneDiv_eq n d hd s (Or.inl (by rw [h]; simp))).le

theorem le_rneDiv (n d : Nat) (hd : 0 < d) (s : Nat) (h : (s : ℚ) ≤ (n : ℚ) / d) : s ≤ rneDiv n d := by
  rcases h.lt_or_eq with h | h
  · obtain ⟨h1, -⟩ := rneDiv_spec n d hd
    have := (abs_le.mp h1).1
    have h2 : (s : ℚ) < rneDiv n d + 1 := by linarith
    have : s < rneDiv n d + 1 := by exact_mod_cast h2
    omega
  · exact (rneDiv_eq n d hd s (Or.inl (by rw [h]; simp))).ge

/-! ## Rounding a positive rational -/

/-- Quantum exponent chosen for `q`. -/
def qexp (p : Nat) (emin : ℤ) (q : ℚ) : ℤ := max emin (ilog2 q.num.natAbs q.den - p + 1)

/-- Integer significand chosen for `q`. -/
def qsig (p : Nat) (emin : ℤ) (q : ℚ) : ℕ := (roundPos p emin q.num.natAbs q.den).1

variable {p : Nat} {emin : ℤ} {q : ℚ}

theorem roundPos_eq : roundPos p emin q.num.natAbs q.den = (qsig p emin q, qexp p emin q) := rfl

theorem num_div (hq : 0 < q) : ((q.num.natAbs : ℕ) : ℚ) / q.den = q := by
  have h0 : 0 < q.num := Rat.num_pos.mpr hq
  have : ((q.num.natAbs : ℕ) : ℚ) = (q.num : ℚ) := by
    rw [← Int.cast_natCast, Int.natAbs_of_nonneg h0.le]
  rw [this]
  exact Rat.num_div_den q

theorem natAbs_pos (hq : 0 < q) : 0 < q.num.natAbs := by
  have : 0 < q.num := Rat.num_pos.mpr hq
  omega

/-- The binary order of magnitude of a positive rational. -/
def lg (q : ℚ) : ℤ := ilog2 q.num.natAbs q.den

theorem lg_spec (hq : 0 < q) : (2 : ℚ) ^ lg q ≤ q ∧ q < 2 ^ (lg q + 1) := by
  have := ilog2_spec q.num.natAbs q.den (natAbs_pos hq) q.den_pos
  rwa [num_div hq] at this

theorem lg_lt (hq : 0 < q) {a : ℤ} (h : q < 2 ^ a) : lg q < a :=
  zpow_lt_iff.mp (lt_of_le_of_lt (lg_spec hq).1 h)

theorem le_lg (hq : 0 < q) {a : ℤ} (h : 2 ^ a ≤ q) : a ≤ lg q := by
  have := zpow_lt_iff.mp (lt_of_le_of_lt h (lg_spec hq).2)
  omega

theorem qexp_eq : qexp p emin q = max emin (lg q - p + 1) := rfl

/-- `qsig` is the half-even rounding of `q / 2^qexp`. -/
theorem qsig_ratio (hq : 0 < q) : ∃ n d : ℕ, 0 < d ∧ qsig p emin q = rneDiv n d ∧
    (n : ℚ) / d = q / 2 ^ qexp p emin q := by
  refine ⟨_, _, ?_, rfl, ?_⟩
  · exact Nat.mul_pos q.den_pos (Nat.two_pow_pos _)
  · have hden : (q.den : ℚ) ≠ 0 := by exact_mod_cast q.den_nz
    change ((q.num.natAbs * 2 ^ (-qexp p emin q).toNat : ℕ) : ℚ) /
      ((q.den * 2 ^ (qexp p emin q).toNat : ℕ) : ℚ) = _
    generalize qexp p emin q = e
    rw [zpow_split e]
    conv_rhs => rw [← num_div hq]
    push_cast
    field_simp

theorem qsig_eq (hq : 0 < q) (s : ℕ)
    (h : |(s : ℚ) - q / 2 ^ qexp p emin q| < 1 / 2 ∨
      (s % 2 = 0 ∧ |(s : ℚ) - q / 2 ^ qexp p emin q| ≤ 1 / 2)) : qsig p emin q = s := by
  obtain ⟨n, d, hd, he, hr⟩ := qsig_ratio (p := p) (emin := emin) hq
  rw [he]
  exact rneDiv_eq n d hd s (by rw [hr]; exact h)

theorem qsig_le (hq : 0 < q) (s : ℕ) (h : q ≤ s * 2 ^ qexp p emin q) : qsig p emin q ≤ s := by
  obtain ⟨n, d, hd, he, hr⟩ := qsig_ratio (p := p) (emin := emin) hq
  rw [he]
  exact rneDiv_le n d hd s (by rw [hr, div_le_iff₀ (zp _)]; exact h)

theorem le_qsig (hq : 0 < q) (s : ℕ) (h : s * 2 ^ qexp p emin q ≤ q) : s ≤ qsig p emin q := by
  obtain ⟨n, d, hd, he, hr⟩ := qsig_ratio (p := p) (emin := emin) hq
  rw [he]
  exact le_rneDiv n d hd s (by rw [hr, le_div_iff₀ (zp _)]; exact h)

theorem qsig_err (hq : 0 < q) :
    |(qsig p emin q : ℚ) * 2 ^ qexp p emin q - q| ≤ 2 ^ qexp p emin q / 2 := by
  obtain ⟨n, d, hd, he, hr⟩ := qsig_ratio (p := p) (emin := emin) hq
  have := (rneDiv_spec n d hd).1
  rw [← he, hr] at this
  have hz := zp (qexp p emin q)
  have e : (qsig p emin q : ℚ) * 2 ^ qexp p emin q - q =
      ((qsig p emin q : ℚ) - q / 2 ^ qexp p emin q) * 2 ^ qexp p emin q := by
    field_simp
  rw [e, abs_mul, abs_of_pos hz]
  nlinarith

theorem roundRat_pos (hq : 0 < q) : roundRat p emin q = (qsig p emin q : ℚ) * 2 ^ qexp p emin q := by
  have h0 : 0 < q.num := Rat.num_pos.mpr hq
  rw [roundRat, if_neg (by omega), roundPos_eq]
  simp only
  rw [if_neg (by omega), scale_eq]

theorem roundRat_zero : roundRat p emin 0 = 0 := by simp [roundRat]

theorem roundRat_neg (hq : 0 < q) : roundRat p emin (-q) = -roundRat p emin q := by
  have h0 : 0 < q.num := Rat.num_pos.mpr hq
  have h1 : (-q).num = -q.num := Rat.neg_num q
  have h2 : (-q).den = q.den := Rat.neg_den q
  have e1 : ¬ (-q.num = 0) := by omega
  have e2 : ¬ (q.num = 0) := by omega
  have e3 : -q.num < 0 := by omega
  have e4 : ¬ (q.num < 0) := by omega
  simp only [roundRat, h1, h2, Int.natAbs_neg, if_neg e1, if_neg e2, if_pos e3, if_neg e4]

/-- Rounding does not pass a representable number above. -/
theorem roundRat_le (hq : 0 < q) (a : ℕ) (c : ℤ) (hc : emin ≤ c) (ha : a < 2 ^ p)
    (h : q ≤ a * 2 ^ c) : roundRat p emin q ≤ a * 2 ^ c := by
  rw [roundRat_pos hq]
  have hqe := qexp_eq (p := p) (emin := emin) (q := q)
  set e := qexp p emin q with he
  have hce : e ≤ c := by
    by_contra hlt
    push Not at hlt
    have h1 : e = lg q - p + 1 := by omega
    have h2 := (lg_spec hq).1
    have h3 : (a : ℚ) * 2 ^ c < 2 ^ (p + c : ℤ) := by
      rw [zpow_add₀ (by norm_num), zpow_natCast]
      exact mul_lt_mul_of_pos_right (by exact_mod_cast ha) (zp c)
    have h4 := zpow_lt_iff.mp (lt_of_le_of_lt (h2.trans h) h3)
    omega
  have hm : (a : ℚ) * 2 ^ c = ((a * 2 ^ (c - e).toNat : ℕ) : ℚ) * 2 ^ e := by
    have : c = ((c - e).toNat : ℤ) + e := by omega
    conv_lhs => rw [this]
    rw [zpow_add₀ (by norm_num), zpow_natCast]
    push_cast
    ring
  rw [hm] at h ⊢
  have := qsig_le (p := p) (emin := emin) hq _ h
  exact mul_le_mul_of_nonneg_right (by exact_mod_cast this) (zp e).le

/-- Rounding does not pass a representable number below. -/
theorem le_roundRat (hp : 1 ≤ p) (hq : 0 < q) (a : ℕ) (c : ℤ) (hc : emin ≤ c) (ha : a < 2 ^ p)
    (h : a * 2 ^ c ≤ q) : a * 2 ^ c ≤ roundRat p emin q := by
  rw [roundRat_pos hq]
  have hqe := qexp_eq (p := p) (emin := emin) (q := q)
  set e := qexp p emin q with he
  rcases le_or_gt e c with hce | hce
  · have hm : (a : ℚ) * 2 ^ c = ((a * 2 ^ (c - e).toNat : ℕ) : ℚ) * 2 ^ e := by
      have : c = ((c - e).toNat : ℤ) + e := by omega
      conv_lhs => rw [this]
      rw [zpow_add₀ (by norm_num), zpow_natCast]
      push_cast
      ring
    rw [hm] at h ⊢
    have := le_qsig (p := p) (emin := emin) hq _ h
    exact mul_le_mul_of_nonneg_right (by exact_mod_cast this) (zp e).le
  · have h1 : e = lg q - p + 1 := by omega
    have h2 := (lg_spec hq).1
    have h3 : (a : ℚ) * 2 ^ c < 2 ^ (p + c : ℤ) := by
      rw [zpow_add₀ (by norm_num), zpow_natCast]
      exact mul_lt_mul_of_pos_right (by exact_mod_cast ha) (zp c)
    have h4 : (2 : ℚ) ^ (p + c : ℤ) ≤ 2 ^ lg q := zpow_mono (by omega)
    have h5 : (2 : ℚ) ^ lg q = ((2 ^ (p - 1) : ℕ) : ℚ) * 2 ^ e := by
      have : lg q = ((p - 1 : ℕ) : ℤ) + e := by omega
      rw [this, zpow_add₀ (by norm_num), zpow_natCast]
      push_cast
      rfl
    rw [h5] at h2 h4
    have := le_qsig (p := p) (emin := emin) hq _ h2
    have h6 : ((2 ^ (p - 1) : ℕ) : ℚ) * 2 ^ e ≤ (qsig p emin q : ℚ) * 2 ^ e :=
      mul_le_mul_of_nonneg_right (by exact_mod_cast this) (zp e).le
    linarith

/-- `q` lies in the rounding interval of the number `s * 2^g` (`s < 2^p`, and `s ≥ 2^(p-1)` unless
`g = emin`); the interval is closed when `s` is even. -/
structure InInterval (p : Nat) (emin : ℤ) (s : ℕ) (g : ℤ) (q : ℚ) : Prop where
  hi : q < (s + 1 / 2) * 2 ^ g ∨ (s % 2 = 0 ∧ q ≤ (s + 1 / 2) * 2 ^ g)
  lo : (s - 1 / 2) * 2 ^ g < q ∨ (s % 2 = 0 ∧ (s - 1 / 2) * 2 ^ g ≤ q)
  lo' : s = 2 ^ (p - 1) → emin < g → (s - 1 / 4) * 2 ^ g ≤ q

/-- Rounding a number of the interval gives `s * 2^g`, as a significand and exponent up to the carry at a
power of two. -/
theorem round_interval (hp : 2 ≤ p) (hq : 0 < q) (s : ℕ) (g : ℤ) (hs : s < 2 ^ p) (hg : emin ≤ g)
    (hn : emin < g → 2 ^ (p - 1) ≤ s) (h : InInterval p emin s g q) :
    (qexp p emin q = g ∧ qsig p emin q = s) ∨
      (s = 2 ^ (p - 1) ∧ emin < g ∧ qexp p emin q = g - 1 ∧ qsig p emin q = 2 ^ p) := by
  have hz := zp g
  have hqe := qexp_eq (p := p) (emin := emin) (q := q)
  have hpp : 2 ^ p = 2 * 2 ^ (p - 1) := by
    rw [← pow_succ']; congr 1; omega
  have hup : lg q < p + g := by
    apply lg_lt hq
    rw [zpow_add₀ (by norm_num), zpow_natCast]
    have h1 : (s : ℚ) + 1 ≤ 2 ^ p := by exact_mod_cast hs
    have h2 : q ≤ (s + 1 / 2) * 2 ^ g := by
      rcases h.hi with h | h
      · exact h.le
      · exact h.2
    have h3 : ((s : ℚ) + 1 / 2) * 2 ^ g < 2 ^ p * 2 ^ g :=
      mul_lt_mul_of_pos_right (by linarith) hz
    linarith
  have main : qexp p emin q = g → qsig p emin q = s := by
    intro he
    apply qsig_eq hq
    rw [he]
    rcases h.hi with h1 | h1
    · rcases h.lo with h2 | h2
      · left
        rw [abs_lt]
        constructor
        · have : q / 2 ^ g < s + 1 / 2 := by rw [div_lt_iff₀ hz]; exact h1
          linarith
        · have : (s : ℚ) - 1 / 2 < q / 2 ^ g := by rw [lt_div_iff₀ hz]; exact h2
          linarith
      · right
        refine ⟨h2.1, ?_⟩
        rw [abs_le]
        constructor
        · have : q / 2 ^ g < s + 1 / 2 := by rw [div_lt_iff₀ hz]; exact h1
          linarith
        · have : (s : ℚ) - 1 / 2 ≤ q / 2 ^ g := by rw [le_div_iff₀ hz]; exact h2.2
          linarith
    · right
      refine ⟨h1.1, ?_⟩
      rw [abs_le]
      constructor
      · have : q / 2 ^ g ≤ s + 1 / 2 := by rw [div_le_iff₀ hz]; exact h1.2
        linarith
      · have : (s : ℚ) - 1 / 2 ≤ q / 2 ^ g := by
          rw [le_div_iff₀ hz]
          rcases h.lo with h2 | h2
          · exact h2.le
          · exact h2.2
        linarith
  rcases hg.lt_or_eq with hlt | heq
  · have hsn := hn hlt
    rcases le_or_gt ((2 : ℚ) ^ (p - 1 + g : ℤ)) q with hc | hc
    · left
      have := le_lg hq hc
      have he : qexp p emin q = g := by omega
      exact ⟨he, main he⟩
    · right
      have e1 : (2 : ℚ) ^ (p - 1 + g : ℤ) = ((2 ^ (p - 1) : ℕ) : ℚ) * 2 ^ g := by
        have : (p - 1 + g : ℤ) = ((p - 1 : ℕ) : ℤ) + g := by omega
        rw [this, zpow_add₀ (by norm_num), zpow_natCast]
        push_cast
        rfl
      have hs2 : s = 2 ^ (p - 1) := by
        have h2 : ((s : ℚ) - 1 / 2) * 2 ^ g ≤ q := by
          rcases h.lo with h2 | h2
          · exact h2.le
          · exact h2.2
        rw [e1] at hc
        have h3 : ((s : ℚ) - 1 / 2) * 2 ^ g < ((2 ^ (p - 1) : ℕ) : ℚ) * 2 ^ g := by linarith
        have h4 := lt_of_mul_lt_mul_right h3 hz.le
        have h5 : (s : ℚ) < ((2 ^ (p - 1) : ℕ) : ℚ) + 1 := by linarith
        have h6 : s < 2 ^ (p - 1) + 1 := by exact_mod_cast h5
        omega
      have hlo := h.lo' hs2 hlt
      have hlgu := lg_lt hq hc
      have hlgl : p - 2 + g ≤ lg q := by
        apply le_lg hq
        have e2 : (2 : ℚ) ^ (p - 1 + g : ℤ) = 2 ^ (p - 2 + g : ℤ) * 2 := by
          rw [← zpow_add_one₀ (by norm_num)]; congr 1; ring
        have h1 : (1 : ℚ) ≤ ((2 ^ (p - 1) : ℕ) : ℚ) := by exact_mod_cast Nat.one_le_two_pow
        rw [← hs2] at h1 e1
        have : ((s : ℚ) / 2) * 2 ^ g ≤ (s - 1 / 4) * 2 ^ g :=
          mul_le_mul_of_nonneg_right (by linarith) hz.le
        linarith
      have he : qexp p emin q = g - 1 := by omega
      refine ⟨hs2, hlt, he, ?_⟩
      apply qsig_eq hq
      right
      refine ⟨by rw [hpp]; omega, ?_⟩
      rw [he, hpp, ← hs2, zpow_sub_one₀ (by norm_num)]
      rw [e1, ← hs2] at hc
      have h7 : q / (2 ^ g * 2⁻¹) = 2 * (q / 2 ^ g) := by field_simp
      rw [h7]
      push_cast
      have h8 : q / 2 ^ g < s := by rw [div_lt_iff₀ hz]; exact hc
      have h9 : (s : ℚ) - 1 / 4 ≤ q / 2 ^ g := by rw [le_div_iff₀ hz]; exact hlo
      rw [abs_le]
      constructor <;> linarith
  · left
    have he : qexp p emin q = g := by omega
    exact ⟨he, main he⟩

/-- Rounding inside the interval of `s * 2^g` gives that number. -/
theorem roundRat_interval (hp : 2 ≤ p) (hq : 0 < q) (s : ℕ) (g : ℤ) (hs : s < 2 ^ p) (hg : emin ≤ g)
    (hn : emin < g → 2 ^ (p - 1) ≤ s) (h : InInterval p emin s g q) :
    roundRat p emin q = s * 2 ^ g := by
  rw [roundRat_pos hq]
  rcases round_interval hp hq s g hs hg hn h with ⟨h1, h2⟩ | ⟨h1, -, h3, h4⟩
  · rw [h1, h2]
  · rw [h3, h4, h1, zpow_sub_one₀ (by norm_num)]
    have hpp : 2 ^ p = 2 * 2 ^ (p - 1) := by
      rw [← pow_succ']; congr 1; omega
    rw [hpp]
    push_cast
    ring

/-- Bits of a number rounding to `s * 2^g`. -/
theorem encodeMag_interval (hp : 2 ≤ p) (hq : 0 < q) (s : ℕ) (g : ℤ) (hs : s < 2 ^ p) (hg : emin ≤ g)
    (hn : emin < g → 2 ^ (p - 1) ≤ s) (h : InInterval p emin s g q) (top : ℕ)
    (ht : (g - emin).toNat * 2 ^ (p - 1) + s ≤ top) :
    encodeMag p emin top q = (g - emin).toNat * 2 ^ (p - 1) + s := by
  have h0 : 0 < q.num := Rat.num_pos.mpr hq
  rw [encodeMag, if_neg (by omega), roundPos_eq]
  simp only
  rcases round_interval hp hq s g hs hg hn h with ⟨h1, h2⟩ | ⟨h1, h2, h3, h4⟩
  · rw [h1, h2]
    omega
  · rw [h3, h4]
    have hpp : 2 ^ p = 2 * 2 ^ (p - 1) := by
      rw [← pow_succ']; congr 1; omega
    have e : (g - emin).toNat = (g - 1 - emin).toNat + 1 := by omega
    rw [hpp]
    rw [e, h1] at ht ⊢
    rw [Nat.add_mul] at ht ⊢
    omega

/-- A representable number is in its own rounding interval. -/
theorem inInterval_self (s : ℕ) (g : ℤ) : InInterval p emin s g (s * 2 ^ g) := by
  have hz := zp g
  refine ⟨Or.inl ?_, Or.inl ?_, fun _ _ => ?_⟩
  · exact mul_lt_mul_of_pos_right (by linarith) hz
  · exact mul_lt_mul_of_pos_right (by linarith) hz
  · exact mul_le_mul_of_nonneg_right (by linarith) hz.le

end Lexi.Soft
