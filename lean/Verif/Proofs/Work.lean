import Verif.Model.Work
import Verif.Proofs.LastDigit

/-!
# How often the loops of `grisu2` turn

The counted functions of `Model/Work` against the functions of the model, and bounds on the counters.
-/

namespace Lexi

/-- A counted result without its counter. -/
def erase {α γ : Type} (r : Res (α × γ)) : Res α := r >>= fun x => pure x.1

@[simp] theorem erase_okp {α γ : Type} (x : α × γ) : erase (.ok x) = .ok x.1 := rfl
@[simp] theorem erase_throws {α γ : Type} : erase (.throws : Res (α × γ)) = .throws := rfl
@[simp] theorem erase_ub {α γ : Type} : erase (.ub : Res (α × γ)) = .ub := rfl

theorem erase_bind {α β γ : Type} (r : Res β) (f : β → Res (α × γ)) :
    erase (r >>= f) = r >>= fun x => erase (f x) := by cases r <;> rfl

theorem erase_map {α γ δ : Type} (r : Res (α × γ)) (g : γ → δ) :
    erase (r >>= fun x => pure (x.1, g x.2)) = erase r := by cases r <;> rfl

theorem erase_ok {α γ : Type} {r : Res (α × γ)} {a : α} (h : erase r = .ok a) : ∃ c, r = .ok (a, c) := by
  cases r with
  | ok x => exact ⟨x.2, by rw [← Res.ok.inj h]⟩
  | throws => cases h
  | ub => cases h

namespace DiyFp
open Spec

theorem shiftUpC_erase (bit : UInt64) : ∀ (n : Nat) (x : DiyFp), erase (shiftUpC bit n x) = shiftUp bit n x
  | 0, _ => rfl
  | n + 1, x => by
    unfold shiftUpC shiftUp
    split
    · rfl
    · exact (erase_map _ (· + 1)).trans (shiftUpC_erase bit n _)

theorem shiftUpC_turns (bit : UInt64) : ∀ (n : Nat) {x r : DiyFp} {c : Nat}, shiftUpC bit n x = .ok (r, c) → r.e = x.e - c
  | 0, _, _, _, h => by cases h
  | n + 1, x, r, c, h => by
    unfold shiftUpC at h
    split at h
    · cases h; simp
    · obtain ⟨⟨y, d⟩, h1, h2⟩ := bind_ok h
      have := shiftUpC_turns bit n h1
      cases h2
      push_cast
      rw [this]; show x.e - 1 - _ = _; omega

theorem normalizeC_erase (v : NormImpl) (x : DiyFp) : erase (normalizeC v x) = normalize v x := by
  cases v
  · show erase (normClz x >>= _) = normClz x; rw [erase_bind]; cases normClz x <;> rfl
  · show erase (normClz x >>= _) = normClz x; rw [erase_bind]; cases normClz x <;> rfl
  · show erase (shiftUpC HIDDEN_BIT 65 x >>= _) = (shiftUp HIDDEN_BIT 65 x >>= _)
    rw [← shiftUpC_erase]
    cases shiftUpC HIDDEN_BIT 65 x with
    | ok r => rw [Res.ok_bind, erase_okp, Res.ok_bind, erase_bind]; rfl
    | throws => rfl
    | ub => rfl

theorem normalizeBoundaryC_erase (v : BoundImpl) (x : DiyFp) : erase (normalizeBoundaryC v x) = normalizeBoundary v x := by
  cases v
  · show erase (normClz x >>= _) = normClz x; rw [erase_bind]; cases normClz x <;> rfl
  · show erase (shiftUpC (HIDDEN_BIT <<< 1) 65 x >>= _) = (shiftUp (HIDDEN_BIT <<< 1) 65 x >>= _)
    rw [← shiftUpC_erase]
    cases shiftUpC (HIDDEN_BIT <<< 1) 65 x with
    | ok r => rw [Res.ok_bind, erase_okp, Res.ok_bind, erase_bind]; rfl
    | throws => rfl
    | ub => rfl

theorem normalizedBoundariesC_erase (v : BoundImpl) (x : DiyFp) :
    erase (normalizedBoundariesC v x) = normalizedBoundaries v x := by
  unfold normalizedBoundariesC normalizedBoundaries
  rw [← normalizeBoundaryC_erase]
  cases normalizeBoundaryC v ⟨(x.f <<< 1) + 1, x.e - 1⟩ with
  | ok r => rw [Res.ok_bind, erase_okp, Res.ok_bind, erase_bind]; rfl
  | throws => rfl
  | ub => rfl

theorem normalizeC_spec (v : NormImpl) (x : DiyFp) (h : x.f ≠ 0) (hlt : x.f.toNat < 2 ^ 53) :
    erase (normalizeC v x) = normalize v x ∧ ∃ r, normalizeC v x = .ok (r, if v = .generic then 52 - x.f.toNat.log2 else 0) := by
  cases v
  · refine ⟨by show erase (normClz x >>= _) = normClz x; rw [erase_bind]; cases normClz x <;> rfl, ?_⟩
    obtain ⟨r, hr, -⟩ := normClz_eq x h
    exact ⟨r, by show (normClz x >>= _) = _; rw [hr]; rfl⟩
  · refine ⟨by show erase (normClz x >>= _) = normClz x; rw [erase_bind]; cases normClz x <;> rfl, ?_⟩
    obtain ⟨r, hr, -⟩ := normClz_eq x h
    exact ⟨r, by show (normClz x >>= _) = _; rw [hr]; rfl⟩
  · have hn : x.f.toNat ≠ 0 := fun h' => h (UInt64.toNat_inj.mp h')
    have hl : x.f.toNat.log2 < 53 := (Nat.log2_lt hn).2 hlt
    obtain ⟨r, h1, h2, h3⟩ := shiftUp_eq HIDDEN_BIT 52 (by omega) (by decide) (52 - x.f.toNat.log2) 65 x h (by omega) (by omega)
    obtain ⟨c, hc⟩ := erase_ok ((shiftUpC_erase HIDDEN_BIT 65 x).trans h1)
    have ht := shiftUpC_turns _ _ hc
    obtain rfl : c = 52 - x.f.toNat.log2 := by omega
    have e1 : shl64 r.f (DIY_SIGNIFICAND_SIZE - DP_SIGNIFICAND_SIZE - 1) = .ok (r.f <<< UInt64.ofNat 11) :=
      shl64_ok _ 11 (by omega)
    constructor
    · show erase (shiftUpC HIDDEN_BIT 65 x >>= _) = (shiftUp HIDDEN_BIT 65 x >>= _)
      rw [hc, h1, Res.ok_bind, Res.ok_bind]; dsimp only; rw [e1]; rfl
    · refine ⟨⟨r.f <<< UInt64.ofNat 11, r.e - (DIY_SIGNIFICAND_SIZE - DP_SIGNIFICAND_SIZE - 1)⟩, ?_⟩
      · show (shiftUpC HIDDEN_BIT 65 x >>= _) = _
        rw [hc, Res.ok_bind]; dsimp only; rw [e1]; rfl

theorem normalizeBoundaryC_spec (v : BoundImpl) (x : DiyFp) (h : x.f ≠ 0) (hlt : x.f.toNat < 2 ^ 54) :
    erase (normalizeBoundaryC v x) = normalizeBoundary v x ∧
      ∃ r, normalizeBoundaryC v x = .ok (r, if v = .generic then 53 - x.f.toNat.log2 else 0) := by
  cases v
  · refine ⟨by show erase (normClz x >>= _) = normClz x; rw [erase_bind]; cases normClz x <;> rfl, ?_⟩
    obtain ⟨r, hr, -⟩ := normClz_eq x h
    exact ⟨r, by show (normClz x >>= _) = _; rw [hr]; rfl⟩
  · have hn : x.f.toNat ≠ 0 := fun h' => h (UInt64.toNat_inj.mp h')
    have hl : x.f.toNat.log2 < 54 := (Nat.log2_lt hn).2 hlt
    obtain ⟨r, h1, h2, h3⟩ := shiftUp_eq (HIDDEN_BIT <<< 1) 53 (by omega) (by decide) (53 - x.f.toNat.log2) 65 x h (by omega) (by omega)
    obtain ⟨c, hc⟩ := erase_ok ((shiftUpC_erase (HIDDEN_BIT <<< 1) 65 x).trans h1)
    have ht := shiftUpC_turns _ _ hc
    obtain rfl : c = 53 - x.f.toNat.log2 := by omega
    have e1 : shl64 r.f (DIY_SIGNIFICAND_SIZE - DP_SIGNIFICAND_SIZE - 2) = .ok (r.f <<< UInt64.ofNat 10) :=
      shl64_ok _ 10 (by omega)
    constructor
    · show erase (shiftUpC (HIDDEN_BIT <<< 1) 65 x >>= _) = (shiftUp (HIDDEN_BIT <<< 1) 65 x >>= _)
      rw [hc, h1, Res.ok_bind, Res.ok_bind]; dsimp only; rw [e1]; rfl
    · refine ⟨⟨r.f <<< UInt64.ofNat 10, r.e - (DIY_SIGNIFICAND_SIZE - DP_SIGNIFICAND_SIZE - 2)⟩, ?_⟩
      · show (shiftUpC (HIDDEN_BIT <<< 1) 65 x >>= _) = _
        rw [hc, Res.ok_bind]; dsimp only; rw [e1]; rfl

end DiyFp

namespace Dtoa
open Spec DiyFp

theorem grisuRoundC_erase (base : Nat) (delta ten wp : UInt64) : ∀ (n : Nat) (b : Cur) (rest : UInt64),
    erase (grisuRoundC base delta ten wp n b rest) = grisuRound base delta ten wp n b rest
  | 0, _, _ => rfl
  | n + 1, b, rest => by
    unfold grisuRoundC grisuRound
    split
    · rw [erase_bind]
      cases decLast base b with
      | ok c => exact (erase_map _ (· + 1)).trans (grisuRoundC_erase base delta ten wp n c _)
      | throws => rfl
      | ub => rfl
    · rfl

/-- Every turn of `grisuRound` uses up `ten_kappa` of the room up to `delta`. -/
theorem grisuRoundC_room {base : Nat} {delta ten wp : UInt64} : ∀ (n : Nat) {b c : Cur} {rest : UInt64} {j : Nat},
    grisuRoundC base delta ten wp n b rest = .ok (c, j) → rest.toNat ≤ delta.toNat → rest.toNat + j * ten.toNat ≤ delta.toNat
  | 0, _, _, _, _, h, _ => by cases h
  | n + 1, b, c, rest, j, h, hle => by
    unfold grisuRoundC at h
    split at h
    · next hc =>
      obtain ⟨d, -, h⟩ := bind_ok h
      obtain ⟨⟨e, i⟩, h1, h⟩ := bind_ok h
      cases h
      have h2 := hc.2.1
      rw [ge_iff_le, UInt64.le_iff_toNat_le, UInt64.toNat_sub_of_le _ _ (UInt64.le_iff_toNat_le.2 hle)] at h2
      have hlt := delta.toNat_lt
      have hadd : (rest + ten).toNat = rest.toNat + ten.toNat := by
        rw [UInt64.toNat_add, Nat.mod_eq_of_lt (by omega)]
      have := grisuRoundC_room n h1 (by omega)
      show rest.toNat + (i + 1) * ten.toNat ≤ _
      rw [Nat.add_mul]; omega
    · cases h; simpa using hle

theorem grisuRoundC_pos {base : Nat} {delta ten wp : UInt64} {n : Nat} {b c : Cur} {rest : UInt64} {j : Nat}
    (h : grisuRoundC base delta ten wp n b rest = .ok (c, j)) : c.pos = b.pos := by
  have h' := grisuRoundC_erase base delta ten wp n b rest
  rw [h] at h'
  obtain ⟨x, hx⟩ := grisuRound_last n h'.symm
  rw [show c = _ from hx]

theorem loop2C_erase (env : Env) (base : Nat) (sh : Int) (one wp : UInt64) (k : Int) : ∀ (n i : Nat) (b : Cur) (p2 delta : UInt64),
    erase (loop2C env base sh one wp k n i b p2 delta) = loop2 env base sh one wp k n i b p2 delta
  | 0, _, _, _, _ => rfl
  | n + 1, i, b, p2, delta => by
    unfold loop2C loop2
    dsimp only
    rw [erase_bind]; congr 1; funext x
    rw [erase_bind]; congr 1; funext y
    split
    · rw [erase_bind]; congr 1; funext w
      rw [← grisuRoundC_erase, erase_bind]
      cases grisuRoundC base (delta * 10) one (wp * w) ROUND_FUEL y (p2 * 10 &&& one - 1) <;> rfl
    · exact (erase_map _ Tally.pass).trans (loop2C_erase env base sh one wp k n _ _ _ _)

theorem loop1C_erase (env : Env) (base : Nat) (sh : Int) (one wp p2 delta : UInt64) (k : Int) : ∀ (κ : Nat) (b : Cur) (p1 : UInt32),
    erase (loop1C env base sh one wp p2 delta k κ b p1) = loop1 env base sh one wp p2 delta k κ b p1
  | 0, b, p1 => by unfold loop1C loop1; exact loop2C_erase ..
  | κ + 1, b, p1 => by
    unfold loop1C loop1
    dsimp only
    rw [erase_bind]; congr 1; funext x
    rw [erase_bind]; congr 1; funext y
    rw [erase_bind]; congr 1; funext z
    split
    · rw [erase_bind]; congr 1; funext w
      rw [erase_bind]; congr 1; funext t
      rw [← grisuRoundC_erase, erase_bind]
      cases grisuRoundC base delta t wp ROUND_FUEL y (z + p2) <;> rfl
    · exact (erase_map _ Tally.pass).trans (loop1C_erase env base sh one wp p2 delta k κ _ _)

theorem generateDigitsC_erase (env : Env) (W Mp : DiyFp) (delta : UInt64) (b : Cur) (k : Int) :
    erase (generateDigitsC env W Mp delta b k) = generateDigits env W Mp delta b k := by
  unfold generateDigitsC generateDigits
  dsimp only
  rw [erase_bind]; congr 1; funext x
  rw [erase_bind]; congr 1; funext y
  exact loop1C_erase ..

/-! ### the number of passes -/

theorem putDigit_wrote {base : Nat} {b c : Cur} {d : UInt8} (h : putDigit base b d = .ok c) (hd : d ≠ 0 ∨ b.pos - base ≠ 0) :
    c.pos = b.pos + 1 := by
  unfold putDigit at h
  rw [if_pos hd] at h
  unfold Cur.put at h
  split at h
  · rw [← Res.ok.inj h]
  · cases h

/-- Once a digit has been written, every turn of the second loop writes one. -/
theorem loop2C_passes {env : Env} {base : Nat} {sh : Int} {one wp : UInt64} {k : Int} : ∀ (n : Nat) {i : Nat} {b : Cur}
    {p2 delta : UInt64} {r : Cur × Int} {t : Tally}, loop2C env base sh one wp k n i b p2 delta = .ok (r, t) →
    base < b.pos → r.1.pos = b.pos + t.passes
  | 0, _, _, _, _, _, _, h, _ => by cases h
  | n + 1, i, b, p2, delta, r, t, h, hb => by
    unfold loop2C at h
    dsimp only at h
    obtain ⟨d, -, h⟩ := bind_ok h
    obtain ⟨c, h2, h⟩ := bind_ok h
    have hc := putDigit_wrote h2 (Or.inr (by omega))
    split at h
    · obtain ⟨w, -, h⟩ := bind_ok h
      obtain ⟨e, h4, h⟩ := bind_ok h
      have := grisuRoundC_pos h4
      cases h
      show e.1.pos = b.pos + 1
      omega
    · obtain ⟨⟨r', t'⟩, h1, h⟩ := bind_ok h
      have := loop2C_passes n h1 (by omega)
      cases h
      show r'.1.pos = b.pos + (t'.passes + 1)
      omega

theorem loop1C_passes {env : Env} {base : Nat} {sh : Int} {one wp p2 delta : UInt64} {k : Int} : ∀ (κ : Nat) {b : Cur}
    {p1 : UInt32} {r : Cur × Int} {t : Tally}, loop1C env base sh one wp p2 delta k κ b p1 = .ok (r, t) →
    (base < b.pos ∨ (0 < κ ∧ κ ≤ 10 ∧ 10 ^ (κ - 1) ≤ p1.toNat ∧ p1.toNat < 10 ^ κ ∧ b.pos = base)) → r.1.pos = b.pos + t.passes
  | 0, b, p1, r, t, h, hb => by
    unfold loop1C at h
    exact loop2C_passes _ h (by omega)
  | κ + 1, b, p1, r, t, h, hb => by
    unfold loop1C at h
    dsimp only at h
    obtain ⟨d, h0, h⟩ := bind_ok h
    obtain ⟨c, h2, h⟩ := bind_ok h
    have hc : c.pos = b.pos + 1 := by
      refine putDigit_wrote h2 ?_
      rcases hb with hb | ⟨-, h3, h4, h5, -⟩
      · exact Or.inr (by omega)
      · left
        obtain ⟨w, hw, hwn⟩ := switchDiv_eq κ (by omega)
        rw [hw] at h0
        rw [← Res.ok.inj h0]
        intro hz
        have hz' : (p1 / w).toUInt8.toNat = 0 := by rw [hz]; rfl
        rw [UInt32.toNat_toUInt8, UInt32.toNat_div, hwn] at hz'
        have hkpos : 0 < 10 ^ κ := by positivity
        have hq10 : p1.toNat / 10 ^ κ < 10 := by
          rw [Nat.div_lt_iff_lt_mul hkpos]; rw [pow_succ] at h5; omega
        have : 0 < p1.toNat / 10 ^ κ := Nat.div_pos (by simpa using h4) hkpos
        omega
    have hbase : base < c.pos := by rcases hb with hb | hb <;> omega
    obtain ⟨z, -, h⟩ := bind_ok h
    split at h
    · obtain ⟨w, -, h⟩ := bind_ok h
      obtain ⟨t', -, h⟩ := bind_ok h
      obtain ⟨e, h4, h⟩ := bind_ok h
      have := grisuRoundC_pos h4
      cases h
      show e.1.pos = b.pos + 1
      omega
    · obtain ⟨⟨r', t'⟩, h1, h⟩ := bind_ok h
      have := loop1C_passes κ h1 (Or.inl hbase)
      cases h
      show r'.1.pos = b.pos + (t'.passes + 1)
      omega

/-! ### the number of corrections -/

theorem loop2C_fixes {env : Env} {base sh : Nat} (hsh : sh ≤ 60) {one wp : UInt64} (hone : one.toNat = 2 ^ sh) {k : Int} :
    ∀ (n : Nat) {i : Nat} {b : Cur} {p2 delta : UInt64} {r : Cur × Int} {t : Tally},
      loop2C env base sh one wp k n i b p2 delta = .ok (r, t) → delta.toNat < 2 ^ sh → t.fixes ≤ 9
  | 0, _, _, _, _, _, _, h, _ => by cases h
  | n + 1, i, b, p2, delta, r, t, h, hd => by
    unfold loop2C at h
    dsimp only at h
    obtain ⟨d, -, h⟩ := bind_ok h
    obtain ⟨c, h2, h⟩ := bind_ok h
    have hpow : 2 ^ sh ≤ 2 ^ 60 := Nat.pow_le_pow_right (by omega) hsh
    have ten_t : (10 : UInt64).toNat = 10 := rfl
    have hd10 : (delta * 10).toNat = delta.toNat * 10 := by
      rw [UInt64.toNat_mul, ten_t, Nat.mod_eq_of_lt]; norm_num at hpow ⊢; omega
    split at h
    · next hlt =>
      obtain ⟨w, -, h⟩ := bind_ok h
      obtain ⟨e, h4, h⟩ := bind_ok h
      have := grisuRoundC_room _ h4 (by rw [UInt64.lt_iff_toNat_lt] at hlt; omega)
      cases h
      show e.2 ≤ 9
      rw [hone, hd10] at this
      by_contra hc
      have : 10 * 2 ^ sh ≤ e.2 * 2 ^ sh := Nat.mul_le_mul_right _ (by omega)
      omega
    · next hlt =>
      obtain ⟨⟨r', t'⟩, h1, h⟩ := bind_ok h
      have hm : ((p2 * 10) &&& (one - 1)).toNat < 2 ^ sh := by
        have one_t : (1 : UInt64).toNat = 1 := rfl
        have h1 : (one - 1).toNat = 2 ^ sh - 1 := by
          have : 0 < 2 ^ sh := by positivity
          rw [UInt64.toNat_sub_of_le _ _ (by rw [UInt64.le_iff_toNat_le, hone, one_t]; omega), hone, one_t]
        rw [toNat_and_mask _ _ sh h1]
        exact Nat.mod_lt _ (by positivity)
      have := loop2C_fixes hsh hone n h1 (by rw [UInt64.lt_iff_toNat_lt] at hlt; omega)
      cases h
      exact this

theorem loop1C_fixes {env : Env} {base sh : Nat} (hsh : sh ≤ 60) {one wp p2 delta : UInt64} (hone : one.toNat = 2 ^ sh)
    (hp2 : p2.toNat < 2 ^ sh) {k : Int} :
    ∀ (κ : Nat) {b : Cur} {p1 : UInt32} {r : Cur × Int} {t : Tally},
      loop1C env base sh one wp p2 delta k κ b p1 = .ok (r, t) → κ ≤ 10 → 10 ^ (κ - 1) * 2 ^ sh < 2 ^ 64 →
      delta.toNat < 10 ^ κ * 2 ^ sh → t.fixes ≤ 9
  | 0, b, p1, r, t, h, _, _, hd => by
    unfold loop1C at h
    exact loop2C_fixes hsh hone _ h (by simpa using hd)
  | κ + 1, b, p1, r, t, h, hκ, hov, hd => by
    unfold loop1C at h
    dsimp only at h
    obtain ⟨div, h0, h⟩ := bind_ok h
    obtain ⟨c, -, h⟩ := bind_ok h
    obtain ⟨z, hz, h⟩ := bind_ok h
    rw [Nat.add_sub_cancel] at hov
    have hspos : 0 < 2 ^ sh := by positivity
    split at h
    · next hle =>
      obtain ⟨w, hw, h⟩ := bind_ok h
      obtain ⟨ten, ht, h⟩ := bind_ok h
      obtain ⟨e, h4, h⟩ := bind_ok h
      obtain ⟨w', hw', hwn⟩ := power10_small env κ (by omega)
      rw [hw] at hw'
      rw [← Res.ok.inj hw'] at hwn
      rw [shl64_ok _ _ (by omega)] at ht
      have htn : ten.toNat = 10 ^ κ * 2 ^ sh := by
        rw [← Res.ok.inj ht, shl_toNat _ _ (by omega) (by rw [hwn]; exact hov), hwn]
      have := grisuRoundC_room _ h4 (UInt64.le_iff_toNat_le.1 hle)
      cases h
      show e.2 ≤ 9
      rw [htn] at this
      by_contra hc
      have h10 : 10 * (10 ^ κ * 2 ^ sh) ≤ e.2 * (10 ^ κ * 2 ^ sh) := Nat.mul_le_mul_right _ (by omega)
      rw [pow_succ] at hd
      have : 10 ^ κ * 10 * 2 ^ sh = 10 * (10 ^ κ * 2 ^ sh) := by ring
      omega
    · next hle =>
      obtain ⟨⟨r', t'⟩, h1, h⟩ := bind_ok h
      obtain ⟨w, hw, hwn⟩ := switchDiv_eq κ (by omega)
      rw [hw] at h0
      rw [← Res.ok.inj h0] at hz
      rw [shl64_ok _ _ (by omega)] at hz
      have hr : (p1 % w).toNat = p1.toNat % 10 ^ κ := by rw [UInt32.toNat_mod, hwn]
      have hrlt : p1.toNat % 10 ^ κ < 10 ^ κ := Nat.mod_lt _ (by positivity)
      have hrest : p1.toNat % 10 ^ κ * 2 ^ sh + p2.toNat < 10 ^ κ * 2 ^ sh := by
        have : (p1.toNat % 10 ^ κ + 1) * 2 ^ sh ≤ 10 ^ κ * 2 ^ sh := Nat.mul_le_mul_right _ (by omega)
        rw [Nat.add_mul] at this; omega
      have htmp : (z + p2).toNat = p1.toNat % 10 ^ κ * 2 ^ sh + p2.toNat := by
        rw [← Res.ok.inj hz, UInt64.toNat_add, shl_toNat _ _ (by omega) (by rw [toUInt64_toNat, hr]; omega),
          toUInt64_toNat, hr, Nat.mod_eq_of_lt (by omega)]
      rw [UInt64.le_iff_toNat_le, htmp] at hle
      have hov' : 10 ^ (κ - 1) * 2 ^ sh < 2 ^ 64 :=
        lt_of_le_of_lt (Nat.mul_le_mul_right _ (Nat.pow_le_pow_right (by omega) (by omega))) hov
      have := loop1C_fixes hsh hone hp2 κ h1 (by omega) hov' (by omega)
      cases h
      exact this

theorem generateDigitsC_bounds {env : Env} {W Mp : DiyFp} {sh : Nat} (h1 : 32 ≤ sh) (h2 : sh ≤ 60) (he : Mp.e = -(sh : ℤ))
    {delta : UInt64} {k : ℤ} (hbig : 2 ^ sh ≤ Mp.f.toNat) (hd0 : delta.toNat < Mp.f.toNat) {b : Cur} {r : Cur × Int} {t : Tally}
    (h : generateDigitsC env W Mp delta b k = .ok (r, t)) : r.1.pos = b.pos + t.passes ∧ t.fixes ≤ 9 := by
  have hspos : 0 < 2 ^ sh := by positivity
  have hW := Mp.f.toNat_lt
  have hneg : -Mp.e = (sh : ℤ) := by omega
  have one_t : (1 : UInt64).toNat = 1 := rfl
  have hone : ((1 : UInt64) <<< UInt64.ofNat sh).toNat = 2 ^ sh := by
    have hlt : 2 ^ sh < 2 ^ 64 := Nat.pow_lt_pow_right (by omega) (by omega)
    rw [shl_toNat _ _ (by omega) (by rw [one_t]; omega), one_t, Nat.one_mul]
  have hp1lt : Mp.f.toNat / 2 ^ sh < 2 ^ 32 := by
    rw [Nat.div_lt_iff_lt_mul hspos]
    calc Mp.f.toNat < 2 ^ 64 := hW
      _ = 2 ^ 32 * 2 ^ 32 := by norm_num
      _ ≤ 2 ^ 32 * 2 ^ sh := Nat.mul_le_mul_left _ (Nat.pow_le_pow_right (by omega) h1)
  have hp1 : (Mp.f >>> UInt64.ofNat sh).toUInt32.toNat = Mp.f.toNat / 2 ^ sh := by
    rw [UInt64.toNat_toUInt32, shr_toNat _ _ (by omega), Nat.mod_eq_of_lt hp1lt]
  have hp2 : (Mp.f &&& ((1 : UInt64) <<< UInt64.ofNat sh - 1)).toNat = Mp.f.toNat % 2 ^ sh := by
    apply toNat_and_mask
    rw [UInt64.toNat_sub_of_le _ _ (by rw [UInt64.le_iff_toNat_le, hone, one_t]; omega), hone, one_t]
  have hp1pos : 0 < Mp.f.toNat / 2 ^ sh := Nat.div_pos hbig hspos
  obtain ⟨c1, c2, c3, c4⟩ := decimalCount_spec (Mp.f >>> UInt64.ofNat sh).toUInt32 (by rw [hp1]; exact hp1pos)
  have hdm := Nat.div_add_mod' Mp.f.toNat (2 ^ sh)
  have hml := Nat.mod_lt Mp.f.toNat hspos
  unfold generateDigitsC at h
  simp only [hneg, shl64_ok _ _ (show sh < 64 by omega), shr64_ok _ _ (show sh < 64 by omega), Res.ok_bind] at h
  refine ⟨loop1C_passes _ h (Or.inr ⟨c1, c2, c3, c4, rfl⟩), loop1C_fixes h2 hone (by rw [hp2]; exact hml) _ h c2 ?_ ?_⟩
  · rw [hp1] at c3
    have := Nat.mul_le_mul_right (2 ^ sh) c3
    omega
  · rw [hp1] at c4
    have : (Mp.f.toNat / 2 ^ sh + 1) * 2 ^ sh ≤ 10 ^ decimalCount (Mp.f >>> UInt64.ofNat sh).toUInt32 * 2 ^ sh :=
      Nat.mul_le_mul_right _ c4
    rw [Nat.add_mul] at this
    omega

/-- How `grisu2` calls `generateDigits`. -/
theorem grisu2_call (env : Env) (hdk : DkOk env.dk) (u : UInt64) (hfin : DFinite u) (hnz : ¬ DZero u) :
    ∃ (mi pl c_mk : DiyFp) (K : ℤ) (sh : ℕ), normalizedBoundaries env.v.bound (ofDouble u) = .ok (mi, pl) ∧
      getCachedPower env pl.e = .ok (c_mk, K) ∧ 32 ≤ sh ∧ sh ≤ 60 ∧ (DiyFp.mul env.v.mul pl c_mk).e = -(sh : ℤ) ∧
      2 ^ sh ≤ ((DiyFp.mul env.v.mul pl c_mk).f - 1).toNat ∧
      (((DiyFp.mul env.v.mul pl c_mk).f - 1) - ((DiyFp.mul env.v.mul mi c_mk).f + 1)).toNat <
        ((DiyFp.mul env.v.mul pl c_mk).f - 1).toNat := by
  have hlt := dSig_lt u
  have hpos := dSig_pos hnz
  set f := dSig u with hf
  set e := dUlpExp u with he
  set s := 63 - f.log2 with hs
  have hl : f.log2 < 53 := (Nat.log2_lt (by omega)).2 hlt
  have hself := Nat.lt_log2_self (n := f)
  have hself' := Nat.log2_self_le (show f ≠ 0 by omega)
  have hfs : f * 2 ^ s < 2 ^ 64 := by
    calc _ < 2 ^ (f.log2 + 1) * 2 ^ s := Nat.mul_lt_mul_of_pos_right hself (by positivity)
      _ = 2 ^ 64 := by rw [← pow_add]; congr 1; omega
  have hfs' : 2 ^ 63 ≤ f * 2 ^ s := by
    calc 2 ^ 63 = 2 ^ f.log2 * 2 ^ s := by rw [← pow_add]; congr 1; omega
      _ ≤ f * 2 ^ s := Nat.mul_le_mul_right _ hself'
  have hs11 : 11 ≤ s := by omega
  -- range of the exponent
  have hrange : -1137 ≤ e - s ∧ e - s ≤ 960 := by
    have hE : dExp u ≤ 2046 := by
      have := dExp_lt u; unfold DFinite at hfin; omega
    rw [he]; unfold dUlpExp
    split
    · omega
    · next h0 =>
      have : 2 ^ 52 ≤ f := by rw [hf]; unfold dSig; rw [if_neg h0]; omega
      have : 52 ≤ f.log2 := (Nat.le_log2 (by omega)).2 this
      omega
  obtain ⟨mi, pl, hb, hplf, hple, hmif, hmie⟩ := normalizedBoundaries_eq env.v.bound u hnz s hs
  obtain ⟨cf, ce, K, hc, hK, hacc, htop, r1, r2, htight⟩ := getCachedPower_eq env hdk (e - s) hrange.1 hrange.2
  -- the boundaries as natural numbers
  set PL := (2 * f + 1) * 2 ^ (s - 1) with hPL
  set MI := miSig f s with hMI
  have hpow : 2 ^ s = 2 * 2 ^ (s - 1) := by rw [← pow_succ']; congr 1; omega
  have hpow2 : 2 ^ (s - 1) = 2 * 2 ^ (s - 2) := by rw [← pow_succ']; congr 1; omega
  have hs9 : 2 ^ 9 ≤ 2 ^ (s - 2) := Nat.pow_le_pow_right (by omega) (by omega)
  have hPLe : PL = f * 2 ^ s + 2 ^ (s - 1) := by rw [hPL, hpow]; ring
  have hPLlt : PL < 2 ^ 64 := by
    -- f < 2^(l+1), so 2f+1 < 2^(l+2) and the shift fills 64 bits
    calc PL < 2 ^ (f.log2 + 2) * 2 ^ (s - 1) :=
          Nat.mul_lt_mul_of_pos_right (by rw [pow_succ]; omega) (by positivity)
      _ = 2 ^ 64 := by rw [← pow_add]; congr 1; omega
  have hdiff : MI + 3 * 2 ^ (s - 2) ≤ PL ∧ PL ≤ 2 ^ 53 * (PL - MI) := by
    rw [hMI]; unfold miSig
    split
    · next h52 =>
      have e1 : (4 * f - 1) * 2 ^ (s - 2) + 3 * 2 ^ (s - 2) = PL := by
        rw [hPL, hpow2, ← Nat.add_mul, ← mul_assoc]; congr 1; omega
      have e2 : PL - (4 * f - 1) * 2 ^ (s - 2) = 3 * 2 ^ (s - 2) := by omega
      refine ⟨by omega, ?_⟩
      rw [e2, hPL, hpow2, h52, ← mul_assoc, ← mul_assoc]
      exact Nat.mul_le_mul_right _ (by norm_num)
    · have e1 : (2 * f - 1) * 2 ^ (s - 1) + 2 * 2 ^ (s - 1) = PL := by
        rw [hPL, ← Nat.add_mul]; congr 1; omega
      have e2 : PL - (2 * f - 1) * 2 ^ (s - 1) = 2 * 2 ^ (s - 1) := by omega
      refine ⟨by omega, ?_⟩
      rw [e2, hPL, ← mul_assoc]
      exact Nat.mul_le_mul_right _ (by omega)
  have hMIlt : MI < 2 ^ 64 := by omega
  have hPLge : 2 ^ 63 ≤ PL := by omega
  have hcf := cf.toNat_lt
  set A := PL * cf.toNat with hA
  set B := MI * cf.toNat with hB
  have hA126 : 2 ^ 126 ≤ A := by
    calc 2 ^ 126 = 2 ^ 63 * 2 ^ 63 := by norm_num
      _ ≤ PL * cf.toNat := Nat.mul_le_mul hPLge htop
  have hA128 : A < 2 ^ 128 := by
    calc A < 2 ^ 64 * 2 ^ 64 := Nat.mul_lt_mul'' hPLlt hcf
      _ = 2 ^ 128 := by norm_num
  have hABd : A - B = (PL - MI) * cf.toNat := by rw [hA, hB, Nat.sub_mul]
  have hBA : B ≤ A := Nat.mul_le_mul_right _ (by omega)
  have hAB1 : B + 1536 * 2 ^ 63 ≤ A := by
    have : 1536 * 2 ^ 63 ≤ (PL - MI) * cf.toNat := Nat.mul_le_mul (by omega) htop
    omega
  have hAB2 : A ≤ 2 ^ 53 * (A - B) := by
    rw [hABd, ← mul_assoc]; exact Nat.mul_le_mul_right _ hdiff.2
  obtain ⟨w1, w2, w3, w4⟩ := width_bounds A B hA126 hA128 hAB1 hAB2
  -- the products
  have hP : (DiyFp.mul env.v.mul pl ⟨cf, ce⟩).f.toNat = (A + 2 ^ 63) / 2 ^ 64 := by rw [mul_toNat, hplf]
  have hQ : (DiyFp.mul env.v.mul mi ⟨cf, ce⟩).f.toNat = (B + 2 ^ 63) / 2 ^ 64 := by rw [mul_toNat, hmif]
  have one_t : (1 : UInt64).toNat = 1 := rfl
  set P := (A + 2 ^ 63) / 2 ^ 64 with hPdef
  set Q := (B + 2 ^ 63) / 2 ^ 64 with hQdef
  have hWm : ((DiyFp.mul env.v.mul mi ⟨cf, ce⟩).f + 1).toNat = Q + 1 := by
    rw [UInt64.toNat_add, hQ, one_t, Nat.mod_eq_of_lt w4]
  have hWp : ((DiyFp.mul env.v.mul pl ⟨cf, ce⟩).f - 1).toNat = P - 1 := by
    rw [UInt64.toNat_sub_of_le _ _ (by rw [UInt64.le_iff_toNat_le, hP, one_t]; omega), hP, one_t]
  have hdelta : (((DiyFp.mul env.v.mul pl ⟨cf, ce⟩).f - 1) - ((DiyFp.mul env.v.mul mi ⟨cf, ce⟩).f + 1)).toNat
      = (P - 1) - (Q + 1) := by
    rw [UInt64.toNat_sub_of_le _ _ (by rw [UInt64.le_iff_toNat_le, hWp, hWm]; omega), hWp, hWm]
  obtain ⟨sh, hsh⟩ : ∃ sh : ℕ, (sh : ℤ) = -(e - s + ce + 64) := ⟨(-(e - s + ce + 64)).toNat, by omega⟩
  refine ⟨mi, pl, ⟨cf, ce⟩, -K, sh, hb, ?_, by omega, by omega, ?_, ?_, ?_⟩
  · rw [show pl.e = e - s from hple]; exact hc
  · rw [mul_e]; show pl.e + ce + 64 = _; omega
  · rw [hWp]
    have : 2 ^ sh ≤ 2 ^ 60 := Nat.pow_le_pow_right (by omega) (by omega)
    norm_num at this w1 ⊢; omega
  · rw [hWp, hdelta]; omega

/-- The counted `grisu2` returns what `grisu2` returns. -/
theorem grisu2C_erase (env : Env) (u : UInt64) (b : Cur) : erase (grisu2C env u b) = grisu2 env u b := by
  unfold grisu2C grisu2
  dsimp only
  rw [← normalizedBoundariesC_erase, ← normalizeC_erase]
  cases normalizedBoundariesC env.v.bound (ofDouble u) with
  | ok r =>
    rw [Res.ok_bind, erase_okp, Res.ok_bind, erase_bind]
    congr 1; funext ck
    cases normalizeC env.v.norm (ofDouble u) with
    | ok n =>
      rw [Res.ok_bind, erase_okp, Res.ok_bind]
      exact (erase_map _ (fun t => (⟨r.2, n.2, t⟩ : Work))).trans (generateDigitsC_erase ..)
    | throws => rfl
    | ub => rfl
  | throws => rfl
  | ub => rfl

/-- `grisu2` and its counted version: the same result, as many passes as digits, and bounded counters. -/
theorem grisu2C_spec (env : Env) (hdk : DkOk env.dk) (u : UInt64) (hfin : DFinite u) (hnz : ¬ DZero u) {b c : Cur} {k : Int}
    (h : grisu2 env u b = .ok (c, k)) : ∃ w, grisu2C env u b = .ok ((c, k), w) ∧ c.pos = b.pos + w.tally.passes ∧
      w.tally.fixes ≤ 9 ∧ w.bound = (if env.v.bound = .generic then 52 - (dSig u).log2 else 0) ∧
      w.norm = (if env.v.norm = .generic then 52 - (dSig u).log2 else 0) := by
  obtain ⟨mi, pl, c_mk, K, sh, hb, hc, s1, s2, he, hbig, hd⟩ := grisu2_call env hdk u hfin hnz
  have hpos := dSig_pos hnz
  have hlt := dSig_lt u
  have hof := ofDouble_eq u
  have hf0 : (ofDouble u).f ≠ 0 := fun h0 => by
    have h1 : (ofDouble u).f.toNat = 0 := by rw [h0]; rfl
    rw [hof.1] at h1; omega
  obtain ⟨n1, vn, n2⟩ := normalizeC_spec env.v.norm (ofDouble u) hf0 (by rw [hof.1]; exact hlt)
  rw [hof.1] at n2
  rw [n2] at n1
  have hvn : normalize env.v.norm (ofDouble u) = .ok vn := n1.symm
  have hx : (((ofDouble u).f <<< 1) + 1).toNat = 2 * dSig u + 1 := by
    have h1 : ((ofDouble u).f <<< 1).toNat = (ofDouble u).f.toNat * 2 := by
      have := shl_toNat (ofDouble u).f 1 (by omega) (by rw [hof.1]; omega)
      simpa using this
    have one_t : (1 : UInt64).toNat = 1 := rfl
    rw [UInt64.toNat_add, h1, hof.1, one_t, Nat.mod_eq_of_lt (by omega)]; omega
  obtain ⟨m1, pl', m2⟩ := normalizeBoundaryC_spec env.v.bound ⟨((ofDouble u).f <<< 1) + 1, (ofDouble u).e - 1⟩
    (fun h0 => by
      have h1 : (((ofDouble u).f <<< 1) + 1).toNat = 0 := by rw [show ((ofDouble u).f <<< 1) + 1 = 0 from h0]; rfl
      omega)
    (by show (((ofDouble u).f <<< 1) + 1).toNat < _; omega)
  have e53 : 53 - (((ofDouble u).f <<< 1) + 1).toNat.log2 = 52 - (dSig u).log2 := by
    rw [hx, log2_two_mul_add_one _ (by omega)]; omega
  have m3 : normalizeBoundaryC env.v.bound ⟨((ofDouble u).f <<< 1) + 1, (ofDouble u).e - 1⟩ =
      .ok (pl', if env.v.bound = .generic then 52 - (dSig u).log2 else 0) := by
    rw [m2]; dsimp only; rw [e53]
  rw [m3] at m1
  have hbC : normalizedBoundariesC env.v.bound (ofDouble u) =
      .ok ((mi, pl), if env.v.bound = .generic then 52 - (dSig u).log2 else 0) := by
    have hb' := hb
    unfold normalizedBoundaries at hb'
    rw [← m1] at hb'
    dsimp only [erase_okp] at hb'
    rw [Res.ok_bind] at hb'
    unfold normalizedBoundariesC
    rw [m3, Res.ok_bind]
    dsimp only
    obtain ⟨f, h1, h2⟩ := bind_ok hb'
    rw [h1]
    cases h2
    rfl
  unfold grisu2 at h
  simp only [hb, Res.ok_bind, hc, hvn] at h
  rw [← generateDigitsC_erase] at h
  obtain ⟨t, ht⟩ := erase_ok h
  have hbd := generateDigitsC_bounds (Mp := ⟨(DiyFp.mul env.v.mul pl c_mk).f - 1, (DiyFp.mul env.v.mul pl c_mk).e⟩)
    s1 s2 he hbig hd ht
  refine ⟨⟨_, _, t⟩, ?_, hbd.1, hbd.2, rfl, rfl⟩
  unfold grisu2C
  simp only [hbC, Res.ok_bind, hc, n2, ht]
  rfl

end Dtoa

end Lexi
