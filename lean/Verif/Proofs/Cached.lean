import Verif.Model.Dtoa
import Verif.Proofs.DiyFp
import Mathlib.Tactic.Positivity
import Mathlib.Tactic.FieldSimp
import Mathlib.Data.Rat.Floor

namespace Lexi.Dtoa

/-! ### powers with integer exponents as quotients of natural powers -/

theorem zpow_toNat (b : ℚ) (_hb : b ≠ 0) (z : ℤ) : b ^ z = b ^ z.toNat / b ^ (-z).toNat := by
  rcases le_total 0 z with h | h
  · obtain ⟨n, rfl⟩ := Int.eq_ofNat_of_zero_le h
    simp
  · obtain ⟨n, hn⟩ := Int.eq_ofNat_of_zero_le (Int.neg_nonneg_of_nonpos h)
    obtain rfl : z = -(n : ℤ) := by omega
    simp

/-! ### the table -/

/-- Integer form of: `f * 2^e` is within 255/512 units of `10^K`, and `f` has its top bit set. -/
def entryOk (f : Nat) (e K : Int) : Bool :=
  let a := f * 2 ^ e.toNat * 10 ^ (-K).toNat
  let b := 10 ^ K.toNat * 2 ^ (-e).toNat
  let unit := 2 ^ e.toNat * 10 ^ (-K).toNat
  decide (512 * a ≤ 512 * b + 255 * unit) && decide (512 * b ≤ 512 * a + 255 * unit) && decide (2 ^ 63 ≤ f)

def tableOk : Bool :=
  (List.range 87).all fun i =>
    match CACHED_POWERS_F[i]?, CACHED_POWERS_E[i]? with
    | some f, some e => entryOk f.toNat e (-348 + 8 * (i : Int))
    | _, _ => false

theorem tableOk_true : tableOk = true := by decide +kernel

theorem entryOk_sound (f : Nat) (e K : Int) (h : entryOk f e K = true) :
    |(f : ℚ) * 2 ^ e - 10 ^ K| ≤ 255 / 512 * 2 ^ e ∧ 2 ^ 63 ≤ f := by
  simp only [entryOk, Bool.and_eq_true, decide_eq_true_eq] at h
  obtain ⟨⟨h1, h2⟩, h3⟩ := h
  refine ⟨?_, h3⟩
  have h1' : (512 * (f * 2 ^ e.toNat * 10 ^ (-K).toNat) : ℚ)
      ≤ 512 * (10 ^ K.toNat * 2 ^ (-e).toNat) + 255 * (2 ^ e.toNat * 10 ^ (-K).toNat) := by exact_mod_cast h1
  have h2' : (512 * (10 ^ K.toNat * 2 ^ (-e).toNat) : ℚ)
      ≤ 512 * (f * 2 ^ e.toNat * 10 ^ (-K).toNat) + 255 * (2 ^ e.toNat * 10 ^ (-K).toNat) := by exact_mod_cast h2
  rw [zpow_toNat 2 (by norm_num) e, zpow_toNat 10 (by norm_num) K]
  have pa : (0 : ℚ) < 2 ^ (-e).toNat := by positivity
  have pb : (0 : ℚ) < 10 ^ (-K).toNat := by positivity
  generalize (2 : ℚ) ^ e.toNat = a at *
  generalize (2 : ℚ) ^ (-e).toNat = b at *
  generalize (10 : ℚ) ^ K.toNat = c at *
  generalize (10 : ℚ) ^ (-K).toNat = d at *
  rw [abs_le]
  constructor
  · rw [← sub_nonneg]
    have : (f : ℚ) * (a / b) - c / d - -(255 / 512 * (a / b)) =
        (512 * (f * a * d) + 255 * (a * d) - 512 * (c * b)) / (512 * b * d) := by
      field_simp; ring
    rw [this]; apply div_nonneg <;> [linarith; positivity]
  · rw [← sub_nonneg]
    have : 255 / 512 * (a / b) - ((f : ℚ) * (a / b) - c / d) =
        (512 * (c * b) + 255 * (a * d) - 512 * (f * a * d)) / (512 * b * d) := by
      field_simp; ring
    rw [this]; apply div_nonneg <;> [linarith; positivity]

theorem table_entry (i : Nat) (h : i < 87) :
    ∃ f e, CACHED_POWERS_F[i]? = some f ∧ CACHED_POWERS_E[i]? = some e ∧
      |(f.toNat : ℚ) * 2 ^ e - 10 ^ (-348 + 8 * (i : ℤ))| ≤ 2 ^ e / 2 ∧ 2 ^ 63 ≤ f.toNat ∧
      |(f.toNat : ℚ) * 2 ^ e - 10 ^ (-348 + 8 * (i : ℤ))| ≤ 255 / 512 * 2 ^ e := by
  have := tableOk_true
  rw [tableOk, List.all_eq_true] at this
  have h' := this i (List.mem_range.2 h)
  cases hf : CACHED_POWERS_F[i]? with
  | none => rw [hf] at h'; simp at h'
  | some f =>
    cases he : CACHED_POWERS_E[i]? with
    | none => rw [hf, he] at h'; simp at h'
    | some e =>
      rw [hf, he] at h'
      obtain ⟨h1, h2⟩ := entryOk_sound _ _ _ h'
      have hp : (0 : ℚ) < 2 ^ e := by positivity
      exact ⟨f, e, rfl, rfl, h1.trans (by linarith), h2, h1⟩

/-! ### the index -/

/-- The exact value of `(-61 - e) * 0.30102999566398114 + 347`, decimal literal read exactly. -/
def dkExact (e : Int) : ℚ := ((-61 - e : Int) : ℚ) * (30102999566398114 / 10 ^ 17) + 347

/-- The evaluation of the floating expression is within 2^-11 of the exact value. -/
def DkOk (dk : Int → ℚ) : Prop := ∀ e : Int, -1137 ≤ e → e ≤ 960 → |dk e - dkExact e| ≤ 1 / 2048

/-- Scaled `dkExact e + 1`. -/
def dkScaled (e : Int) : Int := (-61 - e) * 30102999566398114 + 348 * 10 ^ 17

/-- The index selected. -/
def idx (e : Int) : Int := dkScaled e / (8 * 10 ^ 17) + 1

def idxOk (e : Int) : Bool :=
  let r := dkScaled e % (8 * 10 ^ 17)
  decide (10 ^ 17 < 2048 * r) && decide (2048 * r < 2048 * (8 * 10 ^ 17) - 10 ^ 17) &&
  decide (0 ≤ dkScaled e / (8 * 10 ^ 17)) && decide (idx e < 87) &&
  (match CACHED_POWERS_E[(idx e).toNat]? with
   | some ce => decide (-60 ≤ e + ce + 64) && decide (e + ce + 64 ≤ -34)
   | none => false)

theorem idxOk_all : (List.range 2098).all (fun i => idxOk ((i : Int) - 1137)) = true := by decide +kernel

theorem idxOk_range (e : Int) (h1 : -1137 ≤ e) (h2 : e ≤ 960) : idxOk e = true := by
  have := List.all_eq_true.1 idxOk_all (e + 1137).toNat (List.mem_range.2 (by omega))
  have he : (((e + 1137).toNat : Nat) : Int) - 1137 = e := by omega
  rwa [he] at this

theorem dkScaled_cast (e : Int) : ((dkScaled e : Int) : ℚ) = (dkExact e + 1) * 10 ^ 17 := by
  simp only [dkScaled, dkExact]; push_cast; ring

theorem kk_eq_ceil (q : ℚ) (h : 0 ≤ q) :
    (if ((truncInt q : Int) : ℚ) ≠ q then truncInt q + 1 else truncInt q) = ⌈q⌉ := by
  have ht : truncInt q = ⌊q⌋ := by
    rw [truncInt, if_pos h]; rfl
  rw [ht]
  split
  · next hne =>
    symm
    rw [Int.ceil_eq_iff]
    have h1 := Int.floor_le q
    have h2 := (Int.lt_floor_add_one q).le
    refine ⟨?_, by push_cast; exact h2⟩
    push_cast
    have := lt_of_le_of_ne h1 hne
    linarith
  · next heq =>
    rw [not_not] at heq
    conv_rhs => rw [← heq]
    simp

theorem index_eq (dk : Int → ℚ) (hdk : DkOk dk) (e : Int) (h1 : -1137 ≤ e) (h2 : e ≤ 960) :
    0 ≤ dk e ∧ ⌈dk e⌉ / 8 + 1 = idx e := by
  have hok := idxOk_range e h1 h2
  simp only [idxOk, Bool.and_eq_true, decide_eq_true_eq] at hok
  obtain ⟨⟨⟨⟨r1, r2⟩, r3⟩, r4⟩, -⟩ := hok
  have habs := abs_le.1 (hdk e h1 h2)
  have hc := dkScaled_cast e
  set S := dkScaled e with hS
  set m := S / (8 * 10 ^ 17) with hm
  set r := S % (8 * 10 ^ 17) with hr
  have hdiv : S = m * (8 * 10 ^ 17) + r := by
    rw [hm, hr]; exact (Int.ediv_mul_add_emod S _).symm
  have hq : (S : ℚ) = m * (8 * 10 ^ 17) + r := by exact_mod_cast hdiv
  have r1' : (10 : ℚ) ^ 17 < 2048 * r := by exact_mod_cast r1
  have r2' : 2048 * (r : ℚ) < 2048 * (8 * 10 ^ 17) - 10 ^ 17 := by exact_mod_cast r2
  have r3' : (0 : ℚ) ≤ m := by exact_mod_cast r3
  have hD : dkExact e = (m * (8 * 10 ^ 17) + r) / 10 ^ 17 - 1 := by
    rw [← hq, hc]; field_simp; ring
  rw [hD] at habs
  have lo : 8 * (m : ℚ) - 1 < dk e := by
    have : 1 / 2048 < (r : ℚ) / 10 ^ 17 := by
      rw [div_lt_div_iff₀ (by norm_num) (by norm_num)]; linarith
    have e2 : (m * (8 * 10 ^ 17) + r : ℚ) / 10 ^ 17 = 8 * m + r / 10 ^ 17 := by field_simp
    rw [e2] at habs; linarith [habs.1]
  have hi : dk e < 8 * (m : ℚ) + 7 := by
    have : (r : ℚ) / 10 ^ 17 < 8 - 1 / 2048 := by
      rw [div_lt_iff₀ (by norm_num)]; linarith
    have e2 : (m * (8 * 10 ^ 17) + r : ℚ) / 10 ^ 17 = 8 * m + r / 10 ^ 17 := by field_simp
    rw [e2] at habs; linarith [habs.2]
  have c1 : 8 * m ≤ ⌈dk e⌉ := by
    have : 8 * m - 1 < ⌈dk e⌉ := by
      rw [Int.lt_ceil]; push_cast; exact lo
    omega
  have c2 : ⌈dk e⌉ ≤ 8 * m + 7 := by
    rw [Int.ceil_le]; push_cast; exact hi.le
  have hi0 : idx e = m + 1 := rfl
  have hpos : 0 ≤ dk e := by
    by_contra hneg
    have : ⌈dk e⌉ ≤ 0 := by rw [Int.ceil_le]; push_cast; linarith
    -- then m = 0, but the exact value is at least 39
    have hE : (39 : ℚ) ≤ dkExact e := by
      rw [dkExact]
      have : (-1021 : ℚ) ≤ ((-61 - e : Int) : ℚ) := by exact_mod_cast (by omega : (-1021 : Int) ≤ -61 - e)
      nlinarith
    rw [hD] at hE
    linarith [habs.1]
  exact ⟨hpos, by rw [hi0]; omega⟩

/-- `getCachedPower` on every exponent that occurs. -/
theorem getCachedPower_eq (env : Env) (hdk : DkOk env.dk) (e : Int) (h1 : -1137 ≤ e) (h2 : e ≤ 960) :
    ∃ f ce K, getCachedPower env e = .ok (⟨f, ce⟩, -K) ∧ K = -348 + 8 * idx e ∧
      |(f.toNat : ℚ) * 2 ^ ce - 10 ^ K| ≤ 2 ^ ce / 2 ∧ 2 ^ 63 ≤ f.toNat ∧
      -60 ≤ e + ce + 64 ∧ e + ce + 64 ≤ -34 ∧ |(f.toNat : ℚ) * 2 ^ ce - 10 ^ K| ≤ 255 / 512 * 2 ^ ce := by
  obtain ⟨hpos, hidx⟩ := index_eq env.dk hdk e h1 h2
  have hok := idxOk_range e h1 h2
  simp only [idxOk, Bool.and_eq_true, decide_eq_true_eq] at hok
  obtain ⟨⟨⟨-, r3⟩, r4⟩, r5⟩ := hok
  have hi1 : 1 ≤ idx e := by unfold idx; omega
  obtain ⟨f, ce, hf, hce, hacc, htop, htight⟩ := table_entry (idx e).toNat (by omega)
  rw [hce] at r5
  simp only [Bool.and_eq_true, decide_eq_true_eq] at r5
  refine ⟨f, ce, -348 + 8 * idx e, ?_, rfl, ?_, htop, r5.1, r5.2, ?_⟩
  · unfold getCachedPower
    simp only [kk_eq_ceil _ hpos, hidx]
    unfold tableAt
    simp only [hf, hce, if_neg (show ¬ idx e < 0 by omega), Res.ok_bind, Res.pure_eq]
    congr 3; ring
  · have : ((idx e).toNat : ℤ) = idx e := by omega
    rwa [this] at hacc
  · have : ((idx e).toNat : ℤ) = idx e := by omega
    rwa [this] at htight

end Lexi.Dtoa
