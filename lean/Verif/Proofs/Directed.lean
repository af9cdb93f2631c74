import Verif.Model.Modes
import Verif.Proofs.ReadNear

/-!
# Directed rounding

Rounding toward zero yields the largest representable number not above, away from zero the least not below.
-/

namespace Lexi
open Spec Soft Dtoa

/-- Representable with `p` bits and quantum at least `2^emin`, exponent unbounded above. -/
def OnGrid (p : ℕ) (emin : ℤ) (x : ℚ) : Prop := ∃ (a : ℕ) (c : ℤ), a < 2 ^ p ∧ emin ≤ c ∧ x = a * 2 ^ c

theorem OnGrid.nonneg {p : ℕ} {emin : ℤ} {x : ℚ} (h : OnGrid p emin x) : 0 ≤ x := by
  obtain ⟨a, c, -, -, rfl⟩ := h
  have := zp c
  positivity

theorem OnGrid.widen {p P : ℕ} {emin E : ℤ} {x : ℚ} (h : OnGrid p emin x) (hp : p ≤ P) (he : E ≤ emin) : OnGrid P E x := by
  obtain ⟨a, c, h1, h2, h3⟩ := h
  exact ⟨a, c, lt_of_lt_of_le h1 (Nat.pow_le_pow_right (by norm_num) hp), by omega, h3⟩

theorem onGrid_zero (p : ℕ) (emin : ℤ) : OnGrid p emin 0 := ⟨0, emin, by positivity, le_rfl, by simp⟩

theorem onGrid_pow {p : ℕ} {emin : ℤ} (hp : 1 ≤ p) {c : ℤ} (h : emin ≤ c) : OnGrid p emin (2 ^ c) :=
  ⟨1, c, Nat.one_lt_two_pow (by omega), h, by simp⟩

namespace Soft
variable {p : ℕ} {emin : ℤ} {q : ℚ}

theorem dirRat_zero (up : Bool) : dirRat up p emin 0 = 0 := by simp [dirRat]

/-- The significand as floor or ceiling of the quotient by the quantum. -/
theorem dirRat_pos (up : Bool) (hq : 0 < q) : ∃ s : ℕ, dirRat up p emin q = s * 2 ^ qexp p emin q ∧
    (up = false → (s : ℚ) * 2 ^ qexp p emin q ≤ q ∧ q < (s + 1) * 2 ^ qexp p emin q) ∧
    (up = true → q ≤ s * 2 ^ qexp p emin q ∧ (s : ℚ) * 2 ^ qexp p emin q < q + 2 ^ qexp p emin q) := by
  have h0 : q.num ≠ 0 := (Rat.num_pos.mpr hq).ne'
  set g := qexp p emin q with hg
  have hz := zp g
  set n := q.num.natAbs * 2 ^ (-g).toNat with hn
  set d := q.den * 2 ^ g.toNat with hd
  have hdp : 0 < d := Nat.mul_pos q.den_pos (by positivity)
  have hdq : (0 : ℚ) < d := by exact_mod_cast hdp
  have hr : (n : ℚ) / d * 2 ^ g = q := by
    conv_rhs => rw [← num_div hq]
    rw [zpow_split g, hn, hd]
    have : (q.den : ℚ) ≠ 0 := by exact_mod_cast q.den_pos.ne'
    push_cast
    field_simp
  refine ⟨if up then (n + d - 1) / d else n / d, ?_, ?_, ?_⟩
  · unfold dirRat
    rw [if_neg h0]
    exact scale_eq _ _
  · rintro rfl
    simp only [Bool.false_eq_true, if_false]
    have e := Nat.div_add_mod n d
    have hm := Nat.mod_lt n hdp
    have e' : (d : ℚ) * (n / d : ℕ) + (n % d : ℕ) = n := by exact_mod_cast e
    have hm' : ((n % d : ℕ) : ℚ) < d := by exact_mod_cast hm
    have hm0 : (0 : ℚ) ≤ (n % d : ℕ) := by positivity
    rw [← hr]
    constructor
    · refine mul_le_mul_of_nonneg_right ?_ hz.le
      rw [le_div_iff₀ hdq]; linarith
    · refine mul_lt_mul_of_pos_right ?_ hz
      rw [div_lt_iff₀ hdq]; linarith
  · rintro rfl
    simp only [if_true]
    have e := Nat.div_add_mod (n + d - 1) d
    have hm := Nat.mod_lt (n + d - 1) hdp
    set s := (n + d - 1) / d
    have h1 : n ≤ d * s := by omega
    have h2 : d * s < n + d := by omega
    have h1' : (n : ℚ) ≤ d * s := by exact_mod_cast h1
    have h2' : (d : ℚ) * s < n + d := by exact_mod_cast h2
    have hq2 : q + 2 ^ g = ((n : ℚ) / d + 1) * 2 ^ g := by rw [add_mul, hr, one_mul]
    rw [hq2, ← hr]
    constructor
    · refine mul_le_mul_of_nonneg_right ?_ hz.le
      rw [div_le_iff₀ hdq]; linarith
    · refine mul_lt_mul_of_pos_right ?_ hz
      have : (n : ℚ) / d + 1 = (n + d) / d := by field_simp
      rw [this, lt_div_iff₀ hdq]; linarith

/-- A representable number at least the quantum of `q` is a multiple of it; a finer one lies below the binade. -/
theorem grid_cases {x : ℚ} (hx : OnGrid p emin x) :
    (∃ k : ℕ, x = k * 2 ^ qexp p emin q) ∨ (x < 2 ^ lg q ∧ qexp p emin q = lg q - p + 1) := by
  obtain ⟨a, c, ha, hc, rfl⟩ := hx
  have hqe := qexp_eq (p := p) (emin := emin) (q := q)
  set g := qexp p emin q
  rcases le_or_gt g c with hgc | hgc
  · obtain ⟨m, hm⟩ : ∃ m : ℕ, c = g + m := ⟨(c - g).toNat, by omega⟩
    refine Or.inl ⟨a * 2 ^ m, ?_⟩
    rw [hm, zpow_add₀ (by norm_num), zpow_natCast]; push_cast; ring
  · have hlg : g = lg q - p + 1 := by omega
    refine Or.inr ⟨?_, hlg⟩
    have ha' : (a : ℚ) < 2 ^ p := by exact_mod_cast ha
    calc (a : ℚ) * 2 ^ c < 2 ^ p * 2 ^ c := mul_lt_mul_of_pos_right ha' (zp c)
      _ ≤ 2 ^ p * 2 ^ (g - 1) := mul_le_mul_of_nonneg_left (zpow_mono (by omega)) (by positivity)
      _ = 2 ^ lg q := by
        rw [← zpow_natCast, ← zpow_add₀ (by norm_num)]; congr 1; omega

theorem binade_bot (hp : 1 ≤ p) (h : qexp p emin q = lg q - p + 1) :
    (2 : ℚ) ^ lg q = ((2 ^ (p - 1) : ℕ) : ℚ) * 2 ^ qexp p emin q := by
  push_cast
  rw [← zpow_natCast, ← zpow_add₀ (by norm_num), h]
  congr 1; omega

theorem binade_top (hq : 0 < q) : q < ((2 ^ p : ℕ) : ℚ) * 2 ^ qexp p emin q := by
  have hqe := qexp_eq (p := p) (emin := emin) (q := q)
  refine lt_of_lt_of_le (lg_spec hq).2 ?_
  push_cast
  rw [← zpow_natCast, ← zpow_add₀ (by norm_num)]
  exact zpow_mono (by omega)

/-- Rounding toward zero. -/
theorem dirRat_down (hp : 1 ≤ p) (hq : 0 ≤ q) : OnGrid p emin (dirRat false p emin q) ∧ dirRat false p emin q ≤ q ∧
    ∀ x, OnGrid p emin x → x ≤ q → x ≤ dirRat false p emin q := by
  rcases hq.lt_or_eq with hq | rfl
  swap
  · rw [dirRat_zero]
    exact ⟨onGrid_zero _ _, le_rfl, fun x _ h => h⟩
  obtain ⟨s, e, h, -⟩ := dirRat_pos (p := p) (emin := emin) false hq
  obtain ⟨h1, h2⟩ := h rfl
  have hqe := qexp_eq (p := p) (emin := emin) (q := q)
  have htop := binade_top (p := p) (emin := emin) hq
  rw [e]
  set g := qexp p emin q with hg
  have hz := zp g
  have hlt : ∀ k : ℕ, (k : ℚ) * 2 ^ g ≤ q → k ≤ s := by
    intro k hk
    have : (k : ℚ) < s + 1 := lt_of_mul_lt_mul_right (lt_of_le_of_lt hk h2) hz.le
    exact Nat.lt_succ_iff.mp (by exact_mod_cast this)
  refine ⟨⟨s, g, ?_, by omega, rfl⟩, h1, fun x hx hxq => ?_⟩
  · have : (s : ℚ) < (2 ^ p : ℕ) := lt_of_mul_lt_mul_right (lt_of_le_of_lt h1 htop) hz.le
    exact_mod_cast this
  · rcases grid_cases (q := q) hx with ⟨k, rfl⟩ | ⟨h3, h4⟩
    · refine mul_le_mul_of_nonneg_right ?_ hz.le
      exact_mod_cast hlt k hxq
    · have h5 := binade_bot hp h4
      rw [h5] at h3
      refine h3.le.trans (mul_le_mul_of_nonneg_right ?_ hz.le)
      exact_mod_cast hlt _ (h5 ▸ (lg_spec hq).1)

/-- Rounding away from zero. -/
theorem dirRat_up (hp : 1 ≤ p) (hq : 0 ≤ q) : OnGrid p emin (dirRat true p emin q) ∧ q ≤ dirRat true p emin q ∧
    ∀ x, OnGrid p emin x → q ≤ x → dirRat true p emin q ≤ x := by
  rcases hq.lt_or_eq with hq | rfl
  swap
  · rw [dirRat_zero]
    exact ⟨onGrid_zero _ _, le_rfl, fun x _ h => h⟩
  obtain ⟨s, e, -, h⟩ := dirRat_pos (p := p) (emin := emin) true hq
  obtain ⟨h1, h2⟩ := h rfl
  have hqe := qexp_eq (p := p) (emin := emin) (q := q)
  have htop := binade_top (p := p) (emin := emin) hq
  rw [e]
  set g := qexp p emin q with hg
  have hz := zp g
  have hlt : ∀ k : ℕ, q ≤ (k : ℚ) * 2 ^ g → s ≤ k := by
    intro k hk
    have h3 : (s : ℚ) * 2 ^ g < (k + 1) * 2 ^ g := by rw [add_mul, one_mul]; linarith
    have : (s : ℚ) < k + 1 := lt_of_mul_lt_mul_right h3 hz.le
    exact Nat.lt_succ_iff.mp (by exact_mod_cast this)
  refine ⟨?_, h1, fun x hx hxq => ?_⟩
  · have hs := hlt (2 ^ p) htop.le
    rcases hs.lt_or_eq with hs | hs
    · exact ⟨s, g, hs, by omega, rfl⟩
    · rw [hs]
      have : ((2 ^ p : ℕ) : ℚ) * 2 ^ g = 2 ^ (p + g) := by
        push_cast; rw [zpow_add₀ (by norm_num), zpow_natCast]
      rw [this]
      exact onGrid_pow hp (by omega)
  · rcases grid_cases (q := q) hx with ⟨k, rfl⟩ | ⟨h3, h4⟩
    · refine mul_le_mul_of_nonneg_right ?_ hz.le
      exact_mod_cast hlt k hxq
    · exact absurd (hxq.trans_lt h3) (not_lt.mpr (lg_spec hq).1)

end Soft

/-! ### Formats -/

theorem FpFormat.largest_eq (F : FpFormat) : F.largest = 2 ^ F.emax - 2 ^ ((F.emax : ℤ) - F.p) := by
  unfold FpFormat.largest
  rw [scale_eq]
  have h : 1 ≤ 2 ^ F.p := Nat.one_le_two_pow
  push_cast [Nat.cast_sub h]
  rw [sub_mul, one_mul, ← zpow_natCast (2 : ℚ) F.p, ← zpow_add₀ (by norm_num), ← zpow_natCast (2 : ℚ) F.emax]
  congr 2; omega

theorem largest_mono {F G : FpFormat} (hp : G.p ≤ F.p) (hM : G.emax ≤ F.emax) : G.largest ≤ F.largest := by
  unfold FpFormat.largest
  rw [scale_eq, scale_eq]
  have e : ∀ H : FpFormat, (((2 ^ H.p - 1 : ℕ) : ℚ)) * 2 ^ ((H.emax : ℤ) - H.p) = (1 - 1 / 2 ^ H.p) * 2 ^ H.emax := by
    intro H
    have h : 1 ≤ 2 ^ H.p := Nat.one_le_two_pow
    rw [zpow_sub₀ (by norm_num), zpow_natCast, zpow_natCast]
    push_cast [Nat.cast_sub h]
    field_simp
  rw [e, e]
  have h1 : (1 : ℚ) / 2 ^ F.p ≤ 1 / 2 ^ G.p := by
    apply one_div_le_one_div_of_le (by positivity)
    exact pow_le_pow_right₀ (by norm_num) hp
  have h2 : (2 : ℚ) ^ G.emax ≤ 2 ^ F.emax := pow_le_pow_right₀ (by norm_num) hM
  have h3 : (1 : ℚ) / 2 ^ F.p ≤ 1 := by
    rw [div_le_one (by positivity)]; exact one_le_pow₀ (by norm_num)
  exact mul_le_mul (by linarith) h2 (by positivity) (by linarith)

theorem largest_lt (F : FpFormat) : F.largest < 2 ^ F.emax := by
  rw [F.largest_eq]; have := zp ((F.emax : ℤ) - F.p); linarith

theorem largest_nonneg (F : FpFormat) : 0 ≤ F.largest := by
  unfold FpFormat.largest
  rw [scale_eq]
  have := zp ((F.emax : ℤ) - F.p)
  positivity

theorem largest_onGrid (F : FpFormat) (h : F.emin ≤ (F.emax : ℤ) - F.p) : OnGrid F.p F.emin F.largest :=
  ⟨2 ^ F.p - 1, (F.emax : ℤ) - F.p, Nat.sub_lt (by positivity) (by norm_num), h, by
    unfold FpFormat.largest; exact scale_eq _ _⟩

/-- Representable below the overflow bound is at most the largest. -/
theorem le_largest (F : FpFormat) {x : ℚ} (hx : OnGrid F.p F.emin x) (h : x < 2 ^ F.emax) : x ≤ F.largest := by
  obtain ⟨a, c, ha, -, rfl⟩ := hx
  set g : ℤ := (F.emax : ℤ) - F.p with hg
  have hM : (2 : ℚ) ^ F.emax = ((2 ^ F.p : ℕ) : ℚ) * 2 ^ g := by
    push_cast
    rw [← zpow_natCast (2 : ℚ) F.p, ← zpow_add₀ (by norm_num), ← zpow_natCast]; congr 1; omega
  have e : F.largest = ((2 ^ F.p - 1 : ℕ) : ℚ) * 2 ^ g := scale_eq _ _
  rw [e]
  rcases le_or_gt c g with hc | hc
  · refine mul_le_mul ?_ (zpow_mono hc) (zp c).le (by positivity)
    exact_mod_cast Nat.le_sub_one_of_lt ha
  · obtain ⟨m, hm⟩ : ∃ m : ℕ, c = g + m := ⟨(c - g).toNat, by omega⟩
    have e2 : (a : ℚ) * 2 ^ c = ((a * 2 ^ m : ℕ) : ℚ) * 2 ^ g := by
      rw [hm, zpow_add₀ (by norm_num), zpow_natCast]; push_cast; ring
    rw [e2] at h ⊢
    rw [hM] at h
    have := lt_of_mul_lt_mul_right h (zp g).le
    refine mul_le_mul_of_nonneg_right ?_ (zp g).le
    have h3 : a * 2 ^ m < 2 ^ F.p := by exact_mod_cast this
    exact_mod_cast Nat.le_sub_one_of_lt h3

/-- Toward zero, into one format: never above, and above everything representable that is not above. -/
theorem roundIn_zero (F : FpFormat) (hp : 1 ≤ F.p) {m : RMode} {neg : Bool} (hm : m.dir neg = .zero) {q : ℚ} (hq : 0 ≤ q) :
    ∃ r, F.roundIn m neg q = .fin neg r ∧ 0 ≤ r ∧ r ≤ q ∧ r ≤ F.largest ∧
      (F.emin ≤ (F.emax : ℤ) - F.p → OnGrid F.p F.emin r) ∧
      (∀ x, OnGrid F.p F.emin x → x ≤ q → x ≤ F.largest → x ≤ r) := by
  obtain ⟨h1, h2, h3⟩ := dirRat_down (p := F.p) (emin := F.emin) hp hq
  unfold FpFormat.roundIn
  rw [hm]
  dsimp only
  push_cast
  split
  · rename_i h
    exact ⟨_, rfl, largest_nonneg F, (largest_lt F).le.trans (h.trans h2), le_rfl, largest_onGrid F, fun x _ _ h => h⟩
  · rename_i h
    exact ⟨_, rfl, h1.nonneg, h2, le_largest F h1 (not_le.mp h), fun _ => h1, fun x hx hxq _ => h3 x hx hxq⟩

/-- Away from zero, into one format. -/
theorem roundIn_away (F : FpFormat) (hp : 1 ≤ F.p) {m : RMode} {neg : Bool} (hm : m.dir neg = .away) {q : ℚ} (hq : 0 ≤ q) :
    (∃ r, F.roundIn m neg q = .fin neg r ∧ 0 ≤ r ∧ q ≤ r ∧ r ≤ F.largest ∧ OnGrid F.p F.emin r ∧
      (∀ x, OnGrid F.p F.emin x → q ≤ x → r ≤ x)) ∨
    (F.roundIn m neg q = .inf neg ∧ ∀ x, OnGrid F.p F.emin x → x < 2 ^ F.emax → x < q) := by
  obtain ⟨h1, h2, h3⟩ := dirRat_up (p := F.p) (emin := F.emin) hp hq
  unfold FpFormat.roundIn
  rw [hm]
  dsimp only
  push_cast
  split
  · rename_i h
    refine Or.inr ⟨rfl, fun x hx hlt => ?_⟩
    by_contra hc
    exact absurd (h.trans (h3 x hx (not_lt.mp hc))) (not_le.mpr hlt)
  · rename_i h
    exact Or.inl ⟨_, rfl, h1.nonneg, h2, le_largest F h1 (not_le.mp h), h1, fun x hx hxq => h3 x hx hxq⟩

section
variable {F G : FpFormat} (hp : G.p ≤ F.p) (he : F.emin ≤ G.emin) (hM : G.emax ≤ F.emax) (h1 : 1 ≤ G.p)
  (hG : G.emin ≤ (G.emax : ℤ) - G.p) {m : RMode} {neg : Bool} {q : ℚ} (hq : 0 ≤ q)
include hp he hM h1 hG hq

/-- Toward zero through a wider format: as if directly. -/
theorem chain_zero (hm : m.dir neg = .zero) :
    ∃ r, (F.roundIn m neg q).convIn m G = .fin neg r ∧ OnGrid G.p G.emin r ∧ r ≤ G.largest ∧ r ≤ q ∧
      ∀ x, OnGrid G.p G.emin x → x < 2 ^ G.emax → x ≤ q → x ≤ r := by
  obtain ⟨r, e, a0, a1, a2, a3, a4⟩ := roundIn_zero F (h1.trans hp) hm hq
  obtain ⟨s, e', b0, b1, b2, b3, b4⟩ := roundIn_zero G h1 hm a0
  rw [e]
  refine ⟨s, e', b3 hG, b2, b1.trans a1, fun x hx hlt hxq => ?_⟩
  have hl := le_largest G hx hlt
  exact b4 x hx (a4 x (hx.widen hp he) hxq (hl.trans (largest_mono hp hM))) hl

omit hG in
/-- Away from zero through a wider format: as if directly. -/
theorem chain_away (hm : m.dir neg = .away) :
    (∃ r, (F.roundIn m neg q).convIn m G = .fin neg r ∧ OnGrid G.p G.emin r ∧ r ≤ G.largest ∧ q ≤ r ∧
      ∀ x, OnGrid G.p G.emin x → q ≤ x → r ≤ x) ∨
    ((F.roundIn m neg q).convIn m G = .inf neg ∧ ∀ x, OnGrid G.p G.emin x → x < 2 ^ G.emax → x < q) := by
  rcases roundIn_away F (h1.trans hp) hm hq with ⟨r, e, a0, a1, a2, a3, a4⟩ | ⟨e, a⟩
  · rw [e]
    rcases roundIn_away G h1 hm a0 with ⟨s, e', b0, b1, b2, b3, b4⟩ | ⟨e', b⟩
    · exact Or.inl ⟨s, e', b3, b2, a1.trans b1, fun x hx hxq => b4 x hx (a4 x (hx.widen hp he) hxq)⟩
    · refine Or.inr ⟨e', fun x hx hlt => ?_⟩
      by_contra hc
      exact absurd (b x hx hlt) (not_lt.mpr (a4 x (hx.widen hp he) (not_lt.mp hc)))
  · rw [e]
    refine Or.inr ⟨rfl, fun x hx hlt => a x (hx.widen hp he) (hlt.trans_le ?_)⟩
    exact pow_le_pow_right₀ (by norm_num) hM

end

end Lexi
