import Verif.Proofs.Cached
import Verif.Proofs.Itoa

/-! # The digit loops of generateDigits -/

namespace Lexi.Dtoa

open Spec

/-- Memory `M` with `ds` written at `base`, cursor behind it. -/
def at_ (M : Bytes) (base : Nat) (ds : Bytes) : Cur :=
  ⟨M.take base ++ ds ++ M.drop (base + ds.length), base + ds.length⟩

theorem at_put (M : Bytes) (base : Nat) (ds : Bytes) (c : UInt8) (h : base + ds.length < M.length) :
    (at_ M base ds).put c = .ok (at_ M base (ds ++ [c])) := by
  have hb : (M.take base).length = base := by simp; omega
  have hl : (M.take base ++ ds).length = base + ds.length := by simp; omega
  unfold Cur.put at_
  rw [if_pos (by simp; omega)]
  have e1 : (M.take base ++ ds ++ M.drop (base + ds.length)).set (base + ds.length) c
      = M.take base ++ (ds ++ [c]) ++ M.drop (base + (ds ++ [c]).length) := by
    rw [List.set_append_right _ _ (by omega), hl, Nat.sub_self, List.drop_eq_getElem_cons h, List.set_cons_zero]
    simp [Nat.add_assoc]
  rw [e1]; simp [Nat.add_assoc]

theorem at_decLast (M : Bytes) (base : Nat) (ds : Bytes) (c : UInt8) (h : base + ds.length < M.length) :
    decLast base (at_ M base (ds ++ [c])) = .ok (at_ M base (ds ++ [c - 1])) := by
  have hb : (M.take base).length = base := by simp; omega
  have hp : (at_ M base (ds ++ [c])).pos = base + ds.length + 1 := by simp [at_]; omega
  have hm : (at_ M base (ds ++ [c])).mem
      = (M.take base ++ ds) ++ c :: M.drop (base + ds.length + 1) := by simp [at_, Nat.add_assoc]
  have hm' : (at_ M base (ds ++ [c - 1])).mem
      = (M.take base ++ ds) ++ (c - 1) :: M.drop (base + ds.length + 1) := by simp [at_, Nat.add_assoc]
  have hl : (M.take base ++ ds).length = base + ds.length := by simp; omega
  unfold decLast
  rw [hp, if_pos (by omega), hm]
  have e : base + ds.length + 1 - 1 = (M.take base ++ ds).length := by omega
  rw [e, List.getElem?_append_right (by omega), Nat.sub_self]
  simp only [List.getElem?_cons_zero]
  rw [List.set_append_right _ _ (by omega), Nat.sub_self, List.set_cons_zero, ← hm']
  congr 1
  show (⟨_, _⟩ : Cur) = ⟨_, _⟩
  congr 1
  simp; omega

/-- Digits of a positive number; nothing for 0. -/
def decN' (D : Nat) : Bytes := if D = 0 then [] else decN D

theorem decN'_step (D d : Nat) (hd : d < 10) (h : 10 * D + d ≠ 0) :
    decN' (10 * D + d) = decN' D ++ [dig d] := by
  unfold decN'
  rw [if_neg h]
  by_cases hD : D = 0
  · subst hD; rw [if_pos rfl, decN]; simp [hd]
  · rw [if_neg hD, decN, dif_neg (by omega)]
    congr 2
    · omega
    · congr 1; omega

theorem decN'_length (D : Nat) (k : Nat) (h : D < 10 ^ k) : (decN' D).length ≤ k := by
  unfold decN'
  split
  · simp
  · next hD =>
    apply decN_length_le _ _ h
    by_contra hk
    obtain rfl : k = 0 := by omega
    omega

theorem dig_sub_one (d : Nat) (h0 : 0 < d) (h : d < 10) : dig d - 1 = dig (d - 1) := by
  have : ∀ d : Fin 10, 0 < d.1 → dig d.1 - 1 = dig (d.1 - 1) := by decide
  exact this ⟨d, h⟩ h0

/-- `grisuRound`: whatever `wp_w` is, the last digit is decremented `j` times, never below `'0'`, and the
remainder stays within `delta`; it is then as near to `wp_w` as any remainder within `delta`. -/
theorem grisuRound_spec (delta ten wpw : UInt64) :
    ∀ (d : Nat) (fuel : Nat) (rest : UInt64), d < 10 → d < fuel →
      rest.toNat ≤ delta.toNat → delta.toNat < rest.toNat + (d + 1) * ten.toNat →
      ∃ j, j ≤ d ∧ rest.toNat + j * ten.toNat ≤ delta.toNat ∧
        (∀ i, rest.toNat + i * ten.toNat ≤ delta.toNat →
          |((rest.toNat + j * ten.toNat : ℕ) : ℤ) - wpw.toNat| ≤ |((rest.toNat + i * ten.toNat : ℕ) : ℤ) - wpw.toNat|) ∧
        ∀ (M : Bytes) (base : Nat) (ds : Bytes), base + ds.length < M.length →
          grisuRound base delta ten wpw fuel (at_ M base (ds ++ [dig d])) rest =
            .ok (at_ M base (ds ++ [dig (d - j)])) := by
  intro d
  induction d with
  | zero =>
    intro fuel rest _ hf hle hlt
    obtain ⟨n, rfl⟩ : ∃ n, fuel = n + 1 := ⟨fuel - 1, by omega⟩
    refine ⟨0, le_refl _, by omega, fun i hi => ?_, ?_⟩
    · have : i = 0 := by
        by_contra h
        have : 1 * ten.toNat ≤ i * ten.toNat := Nat.mul_le_mul_right _ (by omega)
        omega
      rw [this]
    intro M base ds hM
    rw [grisuRound, if_neg]
    rintro ⟨-, h2, -⟩
    rw [ge_iff_le, UInt64.le_iff_toNat_le, UInt64.toNat_sub_of_le _ _ (UInt64.le_iff_toNat_le.2 hle)] at h2
    omega
  | succ d ih =>
    intro fuel rest hd hf hle hlt
    obtain ⟨n, rfl⟩ : ∃ n, fuel = n + 1 := ⟨fuel - 1, by omega⟩
    by_cases hc : rest < wpw ∧ delta - rest ≥ ten ∧ (rest + ten < wpw ∨ wpw - rest > rest + ten - wpw)
    · obtain ⟨h1, h2, h3⟩ := id hc
      rw [ge_iff_le, UInt64.le_iff_toNat_le, UInt64.toNat_sub_of_le _ _ (UInt64.le_iff_toNat_le.2 hle)] at h2
      rw [UInt64.lt_iff_toNat_lt] at h1
      have hlt64 := delta.toNat_lt
      have hadd : (rest + ten).toNat = rest.toNat + ten.toNat := by
        rw [UInt64.toNat_add, Nat.mod_eq_of_lt (by omega)]
      obtain ⟨j, j1, j2, j4, j3⟩ := ih n (rest + ten) (by omega) (by omega) (by omega)
        (by rw [hadd]; rw [show d + 1 + 1 = (d + 1) + 1 from rfl, Nat.add_mul (d + 1)] at hlt; omega)
      rw [hadd] at j2 j4
      refine ⟨j + 1, by omega, ?_, fun i hi => ?_, ?_⟩
      · rw [Nat.add_mul]; omega
      · have e : rest.toNat + (j + 1) * ten.toNat = rest.toNat + ten.toNat + j * ten.toNat := by ring
        rw [e]
        cases i with
        | zero =>
          refine (j4 0 (by omega)).trans ?_
          have h3' : rest.toNat + ten.toNat < wpw.toNat ∨
              rest.toNat + ten.toNat - wpw.toNat < wpw.toNat - rest.toNat := by
            by_cases h4 : rest.toNat + ten.toNat < wpw.toNat
            · exact Or.inl h4
            · right
              rcases h3 with h3 | h3
              · rw [UInt64.lt_iff_toNat_lt, hadd] at h3; exact absurd h3 h4
              · rw [gt_iff_lt, UInt64.lt_iff_toNat_lt, UInt64.toNat_sub_of_le _ _ (by rw [UInt64.le_iff_toNat_le, hadd]; omega),
                  UInt64.toNat_sub_of_le _ _ (by rw [UInt64.le_iff_toNat_le]; omega), hadd] at h3
                exact h3
          rw [abs_le, abs_of_nonpos (by push_cast; omega)]
          push_cast
          constructor <;> omega
        | succ i =>
          have e' : rest.toNat + (i + 1) * ten.toNat = rest.toNat + ten.toNat + i * ten.toNat := by ring
          rw [e'] at hi ⊢
          exact j4 i hi
      · intro M base ds hM
        rw [grisuRound, if_pos hc, at_decLast _ _ _ _ hM, Res.ok_bind, dig_sub_one _ (by omega) hd]
        have : d + 1 - (j + 1) = d - j := by omega
        rw [this]; exact j3 M base ds hM
    · refine ⟨0, by omega, by omega, fun i hi => ?_, fun M base ds _ => by rw [grisuRound, if_neg hc]; rfl⟩
      have hlt64 := delta.toNat_lt
      by_cases h1 : wpw.toNat ≤ rest.toNat
      · rw [abs_of_nonneg (by push_cast; omega), abs_of_nonneg (by push_cast; nlinarith)]
        push_cast; nlinarith
      cases i with
      | zero => exact le_rfl
      | succ i =>
        have h5 : (i + 1) * ten.toNat = i * ten.toNat + ten.toNat := by ring
        rw [h5] at hi ⊢
        have hadd : (rest + ten).toNat = rest.toNat + ten.toNat := by
          rw [UInt64.toNat_add, Nat.mod_eq_of_lt (by omega)]
        have h4 : wpw.toNat ≤ rest.toNat + ten.toNat ∧ wpw.toNat - rest.toNat ≤ rest.toNat + ten.toNat - wpw.toNat := by
          by_contra h6
          apply hc
          refine ⟨by rw [UInt64.lt_iff_toNat_lt]; omega, ?_, ?_⟩
          · rw [ge_iff_le, UInt64.le_iff_toNat_le, UInt64.toNat_sub_of_le _ _ (UInt64.le_iff_toNat_le.2 hle)]; omega
          · by_cases h7 : rest.toNat + ten.toNat < wpw.toNat
            · left; rw [UInt64.lt_iff_toNat_lt, hadd]; exact h7
            · right
              rw [gt_iff_lt, UInt64.lt_iff_toNat_lt, UInt64.toNat_sub_of_le _ _ (by rw [UInt64.le_iff_toNat_le, hadd]; omega),
                UInt64.toNat_sub_of_le _ _ (by rw [UInt64.le_iff_toNat_le]; omega), hadd]
              omega
        rw [abs_of_nonpos (by push_cast; omega), abs_of_nonneg (by push_cast; omega)]
        push_cast; omega

theorem putDigit_spec (M : Bytes) (base : Nat) (D d : Nat) (hd : d < 10) (x : UInt8) (hx : x.toNat = d)
    (hne : 10 * D + d ≠ 0) (hM : base + (decN' D).length < M.length) :
    putDigit base (at_ M base (decN' D)) x = .ok (at_ M base (decN' D ++ [dig d])) := by
  unfold putDigit
  rw [if_pos]
  · have : 48 + x = dig d := by
      apply UInt8.toNat_inj.mp
      rw [UInt8.toNat_add, dig_toNat _ hd, hx]
      have : (48 : UInt8).toNat = 48 := rfl
      rw [this]; omega
    rw [this]; exact at_put _ _ _ _ hM
  · by_cases h0 : d = 0
    · right
      have hD : D ≠ 0 := by omega
      have : (at_ M base (decN' D)).pos - base = (decN' D).length := by simp [at_]
      rw [this, decN', if_neg hD]
      intro h; exact decN_ne_nil D (List.length_eq_zero_iff.1 h)
    · left
      intro h; rw [h] at hx; have : (0 : UInt8).toNat = 0 := rfl; omega

/-- The relation between the scaled upper boundary `Wp`, the printed integer `D` at decimal position `kap`
and the width `delta`, in units of `2^-sh`. -/
def Inside (sh : Nat) (Wp delta D : Nat) (kap : ℤ) : Prop :=
  (D : ℚ) * 10 ^ kap * 2 ^ sh ≤ Wp ∧ (Wp : ℚ) - delta ≤ (D : ℚ) * 10 ^ kap * 2 ^ sh

/-- An out-of-range read of POWER10 gives some word. -/
def OobOk (env : Env) : Prop := ∀ i, ∃ w, env.oob i = .ok w

theorem power10_ok (env : Env) (h : OobOk env) (i : Nat) : ∃ w, power10 env i = .ok w := by
  unfold power10
  split
  · exact ⟨_, rfl⟩
  · exact h i

/-- No decimal with one digit less lies in the interval. -/
def Short (sh Wp delta : Nat) (kap : ℤ) : Prop :=
  ∀ m : ℕ, ¬ ((m : ℚ) * 10 ^ (kap + 1) * 2 ^ sh ≤ Wp ∧ (Wp : ℚ) - delta < (m : ℚ) * 10 ^ (kap + 1) * 2 ^ sh)

/-- No other decimal with the same last position in the interval is nearer to `Wp - wpw`. -/
def Closest (sh Wp delta wpw D : Nat) (kap : ℤ) : Prop :=
  ∀ m : ℕ, Inside sh Wp delta m kap →
    |(D : ℚ) * 10 ^ kap * 2 ^ sh - (Wp - wpw)| ≤ |(m : ℚ) * 10 ^ kap * 2 ^ sh - (Wp - wpw)|

/-- The table is continued with the powers of ten (as C103 assumes; not so in the code). -/
def Continued (env : Env) : Prop := ∀ j, 10 ≤ j → j ≤ 18 → env.oob j = .ok (UInt64.ofNat (10 ^ j))

/-- What the digit loops deliver, whatever the memory they write to; `good` says that the table is continued. -/
def Digits (good : Prop) (sh Wp delta wpw : Nat) (k : ℤ) (r : Bytes → Nat → Res (Cur × Int)) : Prop :=
  ∃ (D : Nat) (kap : ℤ), D < 10 ^ 17 ∧ Inside sh Wp delta D kap ∧ Short sh Wp delta kap ∧
    (-9 ≤ kap ∨ good → Closest sh Wp delta wpw D kap) ∧
    ∀ (M : Bytes) (base : Nat), base + 17 ≤ M.length → r M base = .ok (at_ M base (decN D), k + kap)

theorem closest_core {N T rest delta wpw X j m : ℕ} (hX : X = N * T + rest) (hrest : rest < T) (hj : j ≤ N)
    (hbest : ∀ i, rest + i * T ≤ delta → |((rest + j * T : ℕ) : ℤ) - wpw| ≤ |((rest + i * T : ℕ) : ℤ) - wpw|)
    (h1 : m * T ≤ X) (h2 : X ≤ m * T + delta) :
    |(((N - j) * T : ℕ) : ℤ) - (X - wpw)| ≤ |((m * T : ℕ) : ℤ) - (X - wpw)| := by
  have hm : m ≤ N := by
    by_contra hc
    have : (N + 1) * T ≤ m * T := Nat.mul_le_mul_right _ (by omega)
    rw [Nat.add_mul] at this; omega
  have e1 : N * T = m * T + (N - m) * T := by rw [← Nat.add_mul]; congr 1; omega
  have e2 : N * T = (N - j) * T + j * T := by rw [← Nat.add_mul]; congr 1; omega
  have := hbest (N - m) (by omega)
  rw [abs_sub_comm (((N - j) * T : ℕ) : ℤ), abs_sub_comm ((m * T : ℕ) : ℤ)]
  have f1 : ((X : ℤ) - wpw) - (((N - j) * T : ℕ) : ℤ) = ((rest + j * T : ℕ) : ℤ) - wpw := by omega
  have f2 : ((X : ℤ) - wpw) - ((m * T : ℕ) : ℤ) = ((rest + (N - m) * T : ℕ) : ℤ) - wpw := by omega
  rw [f1, f2]; exact this

theorem closest_int {sh Wp κ N rest delta wpw j : ℕ} (hX : Wp = N * (10 ^ κ * 2 ^ sh) + rest)
    (hrest : rest < 10 ^ κ * 2 ^ sh) (hj : j ≤ N)
    (hbest : ∀ i, rest + i * (10 ^ κ * 2 ^ sh) ≤ delta →
      |((rest + j * (10 ^ κ * 2 ^ sh) : ℕ) : ℤ) - wpw| ≤ |((rest + i * (10 ^ κ * 2 ^ sh) : ℕ) : ℤ) - wpw|) :
    Closest sh Wp delta wpw (N - j) (κ : ℤ) := by
  rintro m ⟨h1, h2⟩
  rw [zpow_natCast, mul_assoc] at h1 h2
  rw [zpow_natCast, mul_assoc, mul_assoc]
  have h1' : m * (10 ^ κ * 2 ^ sh) ≤ Wp := by exact_mod_cast h1
  rw [sub_le_iff_le_add] at h2
  have h2' : Wp ≤ m * (10 ^ κ * 2 ^ sh) + delta := by exact_mod_cast h2
  have := closest_core hX hrest hj hbest h1' h2'
  exact_mod_cast this

theorem closest_frac {sh Wp i N rest delta0 wpw0 j : ℕ} (hX : Wp * 10 ^ i = N * 2 ^ sh + rest)
    (hrest : rest < 2 ^ sh) (hj : j ≤ N)
    (hbest : ∀ n, rest + n * 2 ^ sh ≤ delta0 * 10 ^ i →
      |((rest + j * 2 ^ sh : ℕ) : ℤ) - (wpw0 * 10 ^ i : ℕ)| ≤ |((rest + n * 2 ^ sh : ℕ) : ℤ) - (wpw0 * 10 ^ i : ℕ)|) :
    Closest sh Wp delta0 wpw0 (N - j) (-(i : ℤ)) := by
  rintro m ⟨h1, h2⟩
  have hp : (0 : ℚ) < 10 ^ i := by positivity
  have e : ∀ x : ℕ, (x : ℚ) * 10 ^ (-(i : ℤ)) * 2 ^ sh = x * 2 ^ sh / 10 ^ i := by
    intro x; rw [zpow_neg, zpow_natCast]; field_simp
  rw [e] at h1 h2
  rw [e, e]
  rw [div_le_iff₀ hp] at h1
  rw [le_div_iff₀ hp, sub_mul, sub_le_iff_le_add] at h2
  have h1' : m * 2 ^ sh ≤ Wp * 10 ^ i := by exact_mod_cast h1
  have h2' : Wp * 10 ^ i ≤ m * 2 ^ sh + delta0 * 10 ^ i := by exact_mod_cast h2
  have := closest_core hX hrest hj hbest h1' h2'
  have g : ∀ x : ℚ, x / 10 ^ i - (Wp - wpw0) = (x - (Wp * 10 ^ i - wpw0 * 10 ^ i)) / 10 ^ i := by
    intro x; field_simp
  rw [g, g, abs_div, abs_div]
  refine div_le_div_of_nonneg_right ?_ (abs_nonneg _)
  exact_mod_cast this

theorem short_frac {sh Wp delta0 i D p2 delta : ℕ} (hspos : 0 < 2 ^ sh) (hp2 : p2 < 2 ^ sh)
    (hdel : delta = delta0 * 10 ^ i) (hle : delta ≤ p2) (hinv : Wp * 10 ^ i = D * 2 ^ sh + p2) :
    Short sh Wp delta0 (-((i + 1 : ℕ) : ℤ)) := by
  rintro m ⟨h1, h2⟩
  have e : -((i + 1 : ℕ) : ℤ) + 1 = -((i : ℕ) : ℤ) := by push_cast; ring
  rw [e, zpow_neg, zpow_natCast, mul_right_comm, ← div_eq_mul_inv] at h1 h2
  rw [div_le_iff₀ (by positivity)] at h1
  rw [lt_div_iff₀ (by positivity), sub_mul] at h2
  have h1' : m * 2 ^ sh ≤ Wp * 10 ^ i := by exact_mod_cast h1
  have h2' : (Wp : ℚ) * 10 ^ i < m * 2 ^ sh + delta0 * 10 ^ i := by linarith
  have h2'' : Wp * 10 ^ i < m * 2 ^ sh + delta0 * 10 ^ i := by exact_mod_cast h2'
  have hm : m ≤ D := by
    by_contra hc
    have : (D + 1) * 2 ^ sh ≤ m * 2 ^ sh := Nat.mul_le_mul_right _ (by omega)
    rw [Nat.add_mul] at this; omega
  have : m * 2 ^ sh ≤ D * 2 ^ sh := Nat.mul_le_mul_right _ hm
  omega

theorem short_int {sh Wp κ D p1 p2 delta : ℕ} (hspos : 0 < 2 ^ sh) (hp1 : p1 < 10 ^ (κ + 1)) (hp2 : p2 < 2 ^ sh)
    (hd0 : delta < Wp) (hD1 : D ≠ 0 → delta < p1 * 2 ^ sh + p2)
    (hinv : Wp = D * 10 ^ (κ + 1) * 2 ^ sh + p1 * 2 ^ sh + p2) : Short sh Wp delta (κ : ℤ) := by
  rintro m ⟨h1, h2⟩
  have e : (κ : ℤ) + 1 = ((κ + 1 : ℕ) : ℤ) := by push_cast; ring
  rw [e, zpow_natCast] at h1 h2
  have h1' : m * 10 ^ (κ + 1) * 2 ^ sh ≤ Wp := by exact_mod_cast h1
  have h2' : (Wp : ℚ) < m * 10 ^ (κ + 1) * 2 ^ sh + delta := by linarith
  have h2'' : Wp < m * 10 ^ (κ + 1) * 2 ^ sh + delta := by exact_mod_cast h2'
  have hlt : p1 * 2 ^ sh + p2 < 10 ^ (κ + 1) * 2 ^ sh := by
    have : (p1 + 1) * 2 ^ sh ≤ 10 ^ (κ + 1) * 2 ^ sh := Nat.mul_le_mul_right _ (by omega)
    rw [Nat.add_mul] at this; omega
  rw [mul_assoc] at h1' h2'' hinv
  generalize 10 ^ (κ + 1) * 2 ^ sh = T at *
  have hm : m ≤ D := by
    by_contra hc
    have : (D + 1) * T ≤ m * T := Nat.mul_le_mul_right _ (by omega)
    rw [Nat.add_mul] at this; omega
  have hmT : m * T ≤ D * T := Nat.mul_le_mul_right _ hm
  by_cases h0 : D = 0
  · subst h0; omega
  · have := hD1 h0; omega

theorem power10_small (env : Env) (κ : Nat) (h : κ < 10) : ∃ w, power10 env κ = .ok w ∧ w.toNat = 10 ^ κ := by
  match κ, h with
  | 0, _ => exact ⟨_, rfl, rfl⟩
  | 1, _ => exact ⟨_, rfl, rfl⟩
  | 2, _ => exact ⟨_, rfl, rfl⟩
  | 3, _ => exact ⟨_, rfl, rfl⟩
  | 4, _ => exact ⟨_, rfl, rfl⟩
  | 5, _ => exact ⟨_, rfl, rfl⟩
  | 6, _ => exact ⟨_, rfl, rfl⟩
  | 7, _ => exact ⟨_, rfl, rfl⟩
  | 8, _ => exact ⟨_, rfl, rfl⟩
  | 9, _ => exact ⟨_, rfl, rfl⟩

theorem power10_pow (env : Env) (κ : Nat) (h : κ ≤ 18) (hg : κ < 10 ∨ Continued env) :
    ∃ w, power10 env κ = .ok w ∧ w.toNat = 10 ^ κ := by
  by_cases h10 : κ < 10
  · exact power10_small env κ h10
  · refine ⟨UInt64.ofNat (10 ^ κ), ?_, ?_⟩
    · have : POWER10[κ]? = none := List.getElem?_eq_none (by simpa [POWER10] using h10)
      rw [power10, this]
      exact hg.resolve_left h10 κ (by omega) h
    · have : 10 ^ κ ≤ 10 ^ 18 := Nat.pow_le_pow_right (by omega) h
      rw [UInt64.toNat_ofNat', Nat.mod_eq_of_lt (by omega)]

theorem toUInt64_toNat (x : UInt32) : x.toUInt64.toNat = x.toNat := by simp

theorem loop2_spec (env : Env) (sh : Nat) (hsh : sh ≤ 60) (one_f wpw : UInt64) (hone : one_f.toNat = 2 ^ sh) (k : ℤ)
    (Wp delta0 : Nat) (hratio : Wp < 10 ^ 16 * delta0) (hd1 : 64 ≤ delta0) (hwpw : wpw.toNat ≤ delta0) :
    ∀ (fuel i : Nat) (D : Nat) (p2 delta : UInt64), 18 ≤ fuel + i → D ≠ 0 →
      (∀ j, 10 ≤ j → j ≤ 18 → ∃ w, env.oob j = .ok w) →
      p2.toNat < 2 ^ sh → delta.toNat = delta0 * 10 ^ i → delta.toNat ≤ p2.toNat →
      Wp * 10 ^ i = D * 2 ^ sh + p2.toNat →
      Digits (Continued env) sh Wp delta0 wpw.toNat k
        (fun M base => loop2 env base sh one_f wpw k fuel i (at_ M base (decN' D)) p2 delta) := by
  intro fuel
  induction fuel with
  | zero =>
    intro i D p2 delta hf hD hoob hp2 hdel hle hinv
    exfalso
    have h1 : 64 * 10 ^ 18 ≤ delta0 * 10 ^ i :=
      Nat.mul_le_mul hd1 (Nat.pow_le_pow_right (by omega) (by omega))
    have h2 : 2 ^ sh ≤ 2 ^ 60 := Nat.pow_le_pow_right (by omega) hsh
    norm_num at h1 h2
    omega
  | succ n ih =>
    intro i D p2 delta hf hD hoob hp2 hdel hle hinv
    have hpow : 2 ^ sh ≤ 2 ^ 60 := Nat.pow_le_pow_right (by omega) hsh
    have hspos : 0 < 2 ^ sh := by positivity
    have ten_t : (10 : UInt64).toNat = 10 := rfl
    -- no overflow in the two multiplications
    have hp10 : (p2 * 10).toNat = p2.toNat * 10 := by
      rw [UInt64.toNat_mul, ten_t, Nat.mod_eq_of_lt]; norm_num at hpow ⊢; omega
    have hd10 : (delta * 10).toNat = delta.toNat * 10 := by
      rw [UInt64.toNat_mul, ten_t, Nat.mod_eq_of_lt]; norm_num at hpow ⊢; omega
    -- the digit
    set q := p2.toNat * 10 / 2 ^ sh with hq
    set r := p2.toNat * 10 % 2 ^ sh with hr
    have hqr : p2.toNat * 10 = q * 2 ^ sh + r := by
      rw [hq, hr]; exact (Nat.div_add_mod' _ _).symm
    have hq10 : q < 10 := by
      rw [hq, Nat.div_lt_iff_lt_mul hspos]; omega
    have hrlt : r < 2 ^ sh := Nat.mod_lt _ hspos
    have hshr : shr64 (p2 * 10) sh = .ok (UInt64.ofNat q) := by
      rw [shr64_ok _ _ (by omega)]; congr 1
      apply UInt64.toNat_inj.mp
      rw [shr_toNat _ _ (by omega), hp10, toNat_ofNat_lt _ (by omega)]
    have hdig : (UInt64.ofNat q).toUInt8.toNat = q := by
      rw [UInt64.toNat_toUInt8, toNat_ofNat_lt _ (by omega), Nat.mod_eq_of_lt (by omega)]
    have hmask : ((p2 * 10) &&& (one_f - 1)).toNat = r := by
      have h1 : (one_f - 1).toNat = 2 ^ sh - 1 := by
        have one_t : (1 : UInt64).toNat = 1 := rfl
        rw [UInt64.toNat_sub_of_le _ _ (by rw [UInt64.le_iff_toNat_le, hone, one_t]; omega), hone, one_t]
      rw [toNat_and_mask _ _ sh h1, hp10]
    -- the digits generated so far are few
    have hDlt : D < 10 ^ 16 := by
      by_contra hge
      have h1 : 10 ^ 16 * 2 ^ sh ≤ D * 2 ^ sh := Nat.mul_le_mul_right _ (by omega)
      have h2 : delta0 * 10 ^ i < 2 ^ sh := by omega
      have h3 : Wp * 10 ^ i < 10 ^ 16 * delta0 * 10 ^ i := Nat.mul_lt_mul_of_pos_right hratio (by positivity)
      have h4 : 10 ^ 16 * (delta0 * 10 ^ i) < 10 ^ 16 * 2 ^ sh := Nat.mul_lt_mul_of_pos_left h2 (by norm_num)
      rw [mul_assoc] at h3
      omega
    have hlen := decN'_length D 16 hDlt
    have hput := fun (M : Bytes) (base : Nat) (hM : base + 17 ≤ M.length) =>
      putDigit_spec M base D q hq10 _ hdig (by omega) (by omega)
    have hinv' : Wp * 10 ^ (i + 1) = (10 * D + q) * 2 ^ sh + r := by
      have : Wp * 10 ^ (i + 1) = (D * 2 ^ sh + p2.toNat) * 10 := by rw [← hinv, pow_succ]; ring
      rw [this, Nat.add_mul, hqr]; ring
    have hdel' : (delta * 10).toNat = delta0 * 10 ^ (i + 1) := by rw [hd10, hdel, pow_succ]; ring
    have hi18 : i + 1 ≤ 18 := by
      by_contra hi
      have h1 : 64 * 10 ^ 18 ≤ delta0 * 10 ^ i :=
        Nat.mul_le_mul hd1 (Nat.pow_le_pow_right (by omega) (by omega))
      norm_num at h1 hpow
      omega
    by_cases hlt : (p2 * 10) &&& (one_f - 1) < delta * 10
    · have hlt' : r < delta.toNat * 10 := by
        rw [UInt64.lt_iff_toNat_lt, hmask, hd10] at hlt; exact hlt
      obtain ⟨w, hw⟩ : ∃ w, power10 env (i + 1) = .ok w := by
        unfold power10
        split
        · exact ⟨_, rfl⟩
        · next h =>
          apply hoob _ _ hi18
          have := List.getElem?_eq_none_iff.1 h
          simpa [POWER10] using this
      obtain ⟨j, j1, j2, j4, j3⟩ := grisuRound_spec (delta * 10) one_f
        (wpw * w) q ROUND_FUEL ((p2 * 10) &&& (one_f - 1)) hq10
        (by unfold ROUND_FUEL; omega) (by rw [hmask, hd10]; omega)
        (by rw [hmask, hd10, hone]; rw [Nat.add_mul]; omega)
      refine ⟨10 * D + (q - j), -((i + 1 : Nat) : ℤ), by omega, ⟨?_, ?_⟩, short_frac hspos hp2 hdel hle hinv, ?_, ?_⟩
      · rw [hmask, hd10, hone] at j2
        have e1 : (10 * D + (q - j)) * 2 ^ sh ≤ Wp * 10 ^ (i + 1) := by
          rw [hinv']
          have : (10 * D + (q - j)) * 2 ^ sh ≤ (10 * D + q) * 2 ^ sh := Nat.mul_le_mul_right _ (by omega)
          omega
        have e2 : ((10 * D + (q - j) : Nat) : ℚ) * 2 ^ sh ≤ (Wp : ℚ) * 10 ^ (i + 1) := by exact_mod_cast e1
        rw [zpow_neg, zpow_natCast, mul_right_comm, ← div_eq_mul_inv, div_le_iff₀ (by positivity)]
        exact e2
      · rw [hmask, hd10, hone] at j2
        have e1 : Wp * 10 ^ (i + 1) ≤ (10 * D + (q - j)) * 2 ^ sh + delta0 * 10 ^ (i + 1) := by
          rw [hinv', ← hdel', hd10]
          have : (10 * D + q) * 2 ^ sh = (10 * D + (q - j)) * 2 ^ sh + j * 2 ^ sh := by
            rw [← Nat.add_mul]; congr 1; omega
          omega
        have e2 : (Wp : ℚ) * 10 ^ (i + 1) ≤ ((10 * D + (q - j) : Nat) : ℚ) * 2 ^ sh + delta0 * 10 ^ (i + 1) := by
          exact_mod_cast e1
        rw [zpow_neg, zpow_natCast, mul_right_comm, ← div_eq_mul_inv, le_div_iff₀ (by positivity), sub_mul]
        linarith
      · intro hi
        have hwn : w.toNat = 10 ^ (i + 1) := by
          obtain ⟨w', hw', hwn⟩ := power10_pow env (i + 1) (by omega) (hi.imp (fun h => by omega) id)
          rw [hw] at hw'; rw [Res.ok.inj hw']; exact hwn
        have hprod : (wpw * w).toNat = wpw.toNat * 10 ^ (i + 1) := by
          have h3 : wpw.toNat * 10 ^ (i + 1) ≤ delta0 * 10 ^ (i + 1) := Nat.mul_le_mul_right _ hwpw
          have h4 := (delta * 10).toNat_lt
          rw [UInt64.toNat_mul, hwn, Nat.mod_eq_of_lt (by omega)]
        rw [hmask, hdel', hone, hprod] at j4
        have := closest_frac hinv' hrlt (by omega) j4
        rwa [show 10 * D + q - j = 10 * D + (q - j) by omega] at this
      · intro M base hM
        have hne : 10 * D + (q - j) ≠ 0 := by omega
        beta_reduce
        rw [loop2]
        simp only [hshr, Res.ok_bind, hput M base hM]
        rw [if_pos hlt, hw]
        simp only [Res.ok_bind, j3 M base (decN' D) (by omega), Res.pure_eq]
        rw [← decN'_step D (q - j) (by omega) hne, decN', if_neg hne]
    · have hge : delta.toNat * 10 ≤ r := by
        rw [UInt64.lt_iff_toNat_lt, hmask, hd10] at hlt; omega
      obtain ⟨E, kap, hE, hin, hsh', hcl, hr⟩ := ih (i + 1) (10 * D + q) _ _ (by omega) (by omega) hoob (by rw [hmask]; exact hrlt) hdel'
        (by rw [hmask, hd10]; exact hge) (by rw [hmask]; exact hinv')
      refine ⟨E, kap, hE, hin, hsh', hcl, fun M base hM => ?_⟩
      refine Eq.trans ?_ (hr M base hM)
      beta_reduce
      rw [loop2]
      simp only [hshr, Res.ok_bind, hput M base hM]
      rw [if_neg hlt, ← decN'_step D q hq10 (by omega)]

theorem switchDiv_eq (κ : Nat) (h : κ < 10) : ∃ w, switchDiv (κ + 1) = .ok w ∧ w.toNat = 10 ^ κ := by
  have : ∀ κ : Fin 10, ∃ w, switchDiv (κ.1 + 1) = .ok w ∧ w.toNat = 10 ^ κ.1 := by
    intro κ
    match κ with
    | ⟨0, _⟩ => exact ⟨_, rfl, rfl⟩
    | ⟨1, _⟩ => exact ⟨_, rfl, rfl⟩
    | ⟨2, _⟩ => exact ⟨_, rfl, rfl⟩
    | ⟨3, _⟩ => exact ⟨_, rfl, rfl⟩
    | ⟨4, _⟩ => exact ⟨_, rfl, rfl⟩
    | ⟨5, _⟩ => exact ⟨_, rfl, rfl⟩
    | ⟨6, _⟩ => exact ⟨_, rfl, rfl⟩
    | ⟨7, _⟩ => exact ⟨_, rfl, rfl⟩
    | ⟨8, _⟩ => exact ⟨_, rfl, rfl⟩
    | ⟨9, _⟩ => exact ⟨_, rfl, rfl⟩
  exact this ⟨κ, h⟩

theorem loop1_spec (env : Env) (hoob : ∀ j, 10 ≤ j → j ≤ 18 → ∃ w, env.oob j = .ok w)
    (sh : Nat) (hsh : sh ≤ 60) (one_f wpw p2 delta : UInt64) (hone : one_f.toNat = 2 ^ sh) (k : ℤ)
    (Wp : Nat) (hW : Wp < 2 ^ 64) (hratio : Wp < 10 ^ 16 * delta.toNat) (hd0 : delta.toNat < Wp)
    (hd1 : 64 ≤ delta.toNat) (hwpw : wpw.toNat ≤ delta.toNat) (hp2 : p2.toNat < 2 ^ sh) :
    ∀ (κ D : Nat) (p1 : UInt32), κ ≤ 10 → p1.toNat < 10 ^ κ → (D = 0 → 0 < κ ∧ 10 ^ (κ - 1) ≤ p1.toNat) →
      (D ≠ 0 → delta.toNat < p1.toNat * 2 ^ sh + p2.toNat) →
      Wp = D * 10 ^ κ * 2 ^ sh + p1.toNat * 2 ^ sh + p2.toNat →
      Digits (Continued env) sh Wp delta.toNat wpw.toNat k
        (fun M base => loop1 env base sh one_f wpw p2 delta k κ (at_ M base (decN' D)) p1) := by
  intro κ
  induction κ with
  | zero =>
    intro D p1 hκ hp1 hD0 hD1 hinv
    have hD : D ≠ 0 := fun h => by have := (hD0 h).1; omega
    have hp10 : p1.toNat = 0 := by simpa using hp1
    have hlt := hD1 hD
    simp only [loop1]
    exact loop2_spec env sh hsh one_f wpw hone k Wp delta.toNat hratio hd1 hwpw LOOP_FUEL 0 D p2 delta
      (by unfold LOOP_FUEL; omega) hD hoob hp2 (by simp) (by rw [hp10] at hlt; omega)
      (by rw [hinv, hp10]; ring)
  | succ κ ih =>
    intro D p1 hκ hp1 hD0 hD1 hinv
    have hspos : 0 < 2 ^ sh := by positivity
    have hkpos : 0 < 10 ^ κ := by positivity
    obtain ⟨div, hdiv, hdivn⟩ := switchDiv_eq κ (by omega)
    have hq : (p1 / div).toNat = p1.toNat / 10 ^ κ := by rw [UInt32.toNat_div, hdivn]
    have hr : (p1 % div).toNat = p1.toNat % 10 ^ κ := by rw [UInt32.toNat_mod, hdivn]
    have hqr : p1.toNat = p1.toNat / 10 ^ κ * 10 ^ κ + p1.toNat % 10 ^ κ := (Nat.div_add_mod' _ _).symm
    have hq10 : p1.toNat / 10 ^ κ < 10 := by
      rw [Nat.div_lt_iff_lt_mul hkpos]; rw [pow_succ] at hp1; omega
    have hrlt : p1.toNat % 10 ^ κ < 10 ^ κ := Nat.mod_lt _ hkpos
    have hne : 10 * D + p1.toNat / 10 ^ κ ≠ 0 := by
      by_cases h0 : D = 0
      · have := (hD0 h0).2
        have : 0 < p1.toNat / 10 ^ κ := Nat.div_pos (by simpa using this) hkpos
        omega
      · omega
    generalize hQ : p1.toNat / 10 ^ κ = q at *
    generalize hR : p1.toNat % 10 ^ κ = r at *
    have hinv' : Wp = (10 * D + q) * 10 ^ κ * 2 ^ sh + r * 2 ^ sh + p2.toNat := by
      rw [hinv, hqr, pow_succ]; ring
    have hdig : (p1 / div).toUInt8.toNat = q := by
      rw [UInt32.toNat_toUInt8, hq, Nat.mod_eq_of_lt (by omega)]
    -- few digits so far
    have hDlt : D < 10 ^ 16 := by
      by_contra hge
      have hD : D ≠ 0 := by intro h; subst h; norm_num at hge
      have h2 := hD1 hD
      have h3 : p1.toNat * 2 ^ sh + p2.toNat < 10 ^ (κ + 1) * 2 ^ sh := by
        have : (p1.toNat + 1) * 2 ^ sh ≤ 10 ^ (κ + 1) * 2 ^ sh := Nat.mul_le_mul_right _ (by omega)
        rw [Nat.add_mul] at this; omega
      have h4 : 10 ^ 16 * delta.toNat < 10 ^ 16 * (10 ^ (κ + 1) * 2 ^ sh) :=
        Nat.mul_lt_mul_of_pos_left (by omega) (by norm_num)
      have h5 : 10 ^ 16 * (10 ^ (κ + 1) * 2 ^ sh) ≤ D * (10 ^ (κ + 1) * 2 ^ sh) :=
        Nat.mul_le_mul_right _ (by omega)
      rw [← mul_assoc D] at h5
      omega
    have hlen := decN'_length D 16 hDlt
    have hput := fun (M : Bytes) (base : Nat) (hM : base + 17 ≤ M.length) =>
      putDigit_spec M base D q hq10 _ hdig hne (by omega)
    -- tmp
    have hrle : r * 2 ^ sh < 2 ^ 64 := by omega
    have hshl : shl64 (p1 % div).toUInt64 sh = .ok ((p1 % div).toUInt64 <<< UInt64.ofNat sh) :=
      shl64_ok _ _ (by omega)
    have htmp : ((p1 % div).toUInt64 <<< UInt64.ofNat sh + p2).toNat = r * 2 ^ sh + p2.toNat := by
      rw [UInt64.toNat_add, shl_toNat _ _ (by omega) (by rw [toUInt64_toNat, hr]; exact hrle), toUInt64_toNat, hr,
        Nat.mod_eq_of_lt (by omega)]
    have hrest : r * 2 ^ sh + p2.toNat < 10 ^ κ * 2 ^ sh := by
      have : (r + 1) * 2 ^ sh ≤ 10 ^ κ * 2 ^ sh := Nat.mul_le_mul_right _ (by omega)
      rw [Nat.add_mul] at this; omega
    by_cases hle0 : (p1 % div).toUInt64 <<< UInt64.ofNat sh + p2 ≤ delta
    · have hle := hle0
      rw [UInt64.le_iff_toNat_le, htmp] at hle
      obtain ⟨w, hw, hwn⟩ := power10_small env κ (by omega)
      have hu : 10 ^ κ * 2 ^ sh ≤ (10 * D + q) * (10 ^ κ * 2 ^ sh) := Nat.le_mul_of_pos_left _ (by omega)
      have hu64 : w.toNat * 2 ^ sh < 2 ^ 64 := by
        rw [hwn]; rw [← mul_assoc] at hu; omega
      have hten : (w <<< UInt64.ofNat sh).toNat = 10 ^ κ * 2 ^ sh := by
        rw [shl_toNat _ _ (by omega) hu64, hwn]
      obtain ⟨j, j1, j2, j4, j3⟩ := grisuRound_spec delta
        (w <<< UInt64.ofNat sh) wpw q ROUND_FUEL _ hq10 (by unfold ROUND_FUEL; omega)
        (by rw [htmp]; exact hle)
        (by
          rw [htmp, hten, Nat.add_mul]
          by_cases h0 : D = 0
          · subst h0
            have : Wp = q * (10 ^ κ * 2 ^ sh) + r * 2 ^ sh + p2.toNat := by rw [hinv']; ring
            omega
          · have h2 := hD1 h0
            have : p1.toNat * 2 ^ sh = q * (10 ^ κ * 2 ^ sh) + r * 2 ^ sh := by rw [hqr]; ring
            omega)
      rw [htmp, hten] at j2 j4
      have hsplit : (10 * D + q) * 10 ^ κ * 2 ^ sh = (10 * D + (q - j)) * 10 ^ κ * 2 ^ sh + j * (10 ^ κ * 2 ^ sh) := by
        have : 10 * D + q = 10 * D + (q - j) + j := by omega
        rw [this]; ring
      have hne' : 10 * D + (q - j) ≠ 0 := by
        intro h0
        rw [h0] at hsplit
        omega
      refine ⟨10 * D + (q - j), (κ : ℤ), by omega, ⟨?_, ?_⟩, short_int hspos hp1 hp2 hd0 hD1 hinv, fun _ => ?_, ?_⟩
      · have e1 : (10 * D + (q - j)) * 10 ^ κ * 2 ^ sh ≤ Wp := by omega
        rw [zpow_natCast]
        exact_mod_cast e1
      · have e1 : Wp ≤ (10 * D + (q - j)) * 10 ^ κ * 2 ^ sh + delta.toNat := by omega
        rw [zpow_natCast, sub_le_iff_le_add]
        exact_mod_cast e1
      · have := closest_int (N := 10 * D + q) (show Wp = _ by rw [hinv']; ring) hrest (by omega) j4
        rwa [show 10 * D + q - j = 10 * D + (q - j) by omega] at this
      · intro M base hM
        beta_reduce
        rw [loop1]
        simp only [hdiv, Res.ok_bind, hput M base hM, hshl]
        rw [if_pos hle0, hw]
        simp only [Res.ok_bind, shl64_ok _ _ (show sh < 64 by omega), j3 M base (decN' D) (by omega), Res.pure_eq]
        rw [← decN'_step D (q - j) (by omega) hne', decN', if_neg hne']
    · have hle := hle0
      rw [UInt64.le_iff_toNat_le, htmp] at hle
      obtain ⟨E, kap, hE, hin, hsh', hcl, hres⟩ := ih (10 * D + q) _ (by omega) (by rw [hr]; exact hrlt) (fun h => absurd h hne)
        (fun _ => by rw [hr]; omega) (by rw [hr]; exact hinv')
      refine ⟨E, kap, hE, hin, hsh', hcl, fun M base hM => ?_⟩
      refine Eq.trans ?_ (hres M base hM)
      beta_reduce
      rw [loop1]
      simp only [hdiv, Res.ok_bind, hput M base hM, hshl]
      rw [if_neg hle0, ← decN'_step D q hq10 hne]

theorem decimalCount_spec (n : UInt32) (h : 0 < n.toNat) :
    0 < decimalCount n ∧ decimalCount n ≤ 10 ∧ 10 ^ (decimalCount n - 1) ≤ n.toNat ∧ n.toNat < 10 ^ decimalCount n := by
  have hlt := n.toNat_lt
  unfold decimalCount
  simp only [UInt32.lt_iff_toNat_lt]
  have e : ∀ m : Nat, m < 2 ^ 32 → (UInt32.ofNat m).toNat = m := fun m hm => by
    rw [UInt32.toNat_ofNat']; omega
  have c1 : (10 : UInt32).toNat = 10 := rfl
  have c2 : (100 : UInt32).toNat = 100 := rfl
  have c3 : (1000 : UInt32).toNat = 1000 := rfl
  have c4 : (10000 : UInt32).toNat = 10000 := rfl
  have c5 : (100000 : UInt32).toNat = 100000 := rfl
  have c6 : (1000000 : UInt32).toNat = 1000000 := rfl
  have c7 : (10000000 : UInt32).toNat = 10000000 := rfl
  have c8 : (100000000 : UInt32).toNat = 100000000 := rfl
  have c9 : (1000000000 : UInt32).toNat = 1000000000 := rfl
  rw [c1, c2, c3, c4, c5, c6, c7, c8, c9]
  repeat' split
  all_goals norm_num
  all_goals omega

/-- `generateDigits`. -/
theorem generateDigits_spec (env : Env) (hoob : ∀ j, 10 ≤ j → j ≤ 18 → ∃ w, env.oob j = .ok w)
    (W Mp : DiyFp) (sh : Nat) (h1 : 32 ≤ sh) (h2 : sh ≤ 60) (he : Mp.e = -(sh : ℤ)) (delta : UInt64) (k : ℤ)
    (hbig : 2 ^ sh ≤ Mp.f.toNat) (hratio : Mp.f.toNat < 10 ^ 16 * delta.toNat)
    (hd0 : delta.toNat < Mp.f.toNat) (hd1 : 64 ≤ delta.toNat) (hwpw : (Mp.sub W).f.toNat ≤ delta.toNat) :
    Digits (Continued env) sh Mp.f.toNat delta.toNat (Mp.sub W).f.toNat k (fun M base => generateDigits env W Mp delta ⟨M, base⟩ k) := by
  have hspos : 0 < 2 ^ sh := by positivity
  have hW := Mp.f.toNat_lt
  have hneg : -Mp.e = (sh : ℤ) := by omega
  have one_t : (1 : UInt64).toNat = 1 := rfl
  have hone : ((1 : UInt64) <<< UInt64.ofNat sh).toNat = 2 ^ sh := by
    have hlt : 2 ^ sh < 2 ^ 64 := Nat.pow_lt_pow_right (by omega) (by omega)
    rw [shl_toNat _ _ (by omega) (by rw [one_t]; omega), one_t, Nat.one_mul]
  have hp1lt : Mp.f.toNat / 2 ^ sh < 2 ^ 32 := by
    rw [Nat.div_lt_iff_lt_mul hspos]
    calc Mp.f.toNat < 2 ^ 64 := hW
      _ = 2 ^ 32 * 2 ^ 32 := by norm_num
      _ ≤ 2 ^ 32 * 2 ^ sh := Nat.mul_le_mul_left _ (Nat.pow_le_pow_right (by omega) h1)
  have hp1 : (Mp.f >>> UInt64.ofNat sh).toUInt32.toNat = Mp.f.toNat / 2 ^ sh := by
    rw [UInt64.toNat_toUInt32, shr_toNat _ _ (by omega), Nat.mod_eq_of_lt hp1lt]
  have hp2 : (Mp.f &&& ((1 : UInt64) <<< UInt64.ofNat sh - 1)).toNat = Mp.f.toNat % 2 ^ sh := by
    apply toNat_and_mask
    rw [UInt64.toNat_sub_of_le _ _ (by rw [UInt64.le_iff_toNat_le, hone, one_t]; omega), hone, one_t]
  have hp1pos : 0 < Mp.f.toNat / 2 ^ sh := Nat.div_pos hbig hspos
  obtain ⟨c1, c2, c3, c4⟩ := decimalCount_spec (Mp.f >>> UInt64.ofNat sh).toUInt32 (by rw [hp1]; exact hp1pos)
  unfold generateDigits
  simp only [hneg, shl64_ok _ _ (show sh < 64 by omega), shr64_ok _ _ (show sh < 64 by omega), Res.ok_bind]
  have hstart : ∀ (M : Bytes) (base : Nat), (⟨M, base⟩ : Cur) = at_ M base (decN' 0) := by
    intro M base; simp [at_, decN']
  simp only [hstart]
  apply loop1_spec env hoob sh h2 _ _ _ delta hone k Mp.f.toNat hW hratio hd0 hd1 hwpw
  · rw [hp2]; exact Nat.mod_lt _ hspos
  · exact c2
  · exact c4
  · intro _; exact ⟨c1, c3⟩
  · intro h; exact absurd rfl h
  · rw [hp1, hp2, Nat.zero_mul, Nat.zero_mul, Nat.zero_add]; exact (Nat.div_add_mod' _ _).symm

end Lexi.Dtoa
