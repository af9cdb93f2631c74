import Verif.Proofs.BigInt

/-!
# Multiplication of big integers
-/

namespace Lexi
namespace BigInt

theorem mulAddMsvc_spec (a b k : UInt64) :
    (mulAddMsvc a b k).1.toNat + 2 ^ 64 * (mulAddMsvc a b k).2.toNat = a.toNat * b.toNat + k.toNat := by
  have ha := a.toNat_lt
  have hb := b.toNat_lt
  have hk := k.toNat_lt
  have hP : a.toNat * b.toNat ≤ (2 ^ 64 - 1) * (2 ^ 64 - 1) := Nat.mul_le_mul (by omega) (by omega)
  have hdef : mulAddMsvc a b k = (UInt64.ofNat (a.toNat * b.toNat) + k,
      if UInt64.ofNat (a.toNat * b.toNat) + k < k then UInt64.ofNat (a.toNat * b.toNat / 2 ^ 64) + 1
      else UInt64.ofNat (a.toNat * b.toNat / 2 ^ 64)) := rfl
  rw [hdef]
  dsimp only
  have h1 : (UInt64.ofNat (a.toNat * b.toNat) + k).toNat = (a.toNat * b.toNat % 2 ^ 64 + k.toNat) % 2 ^ 64 := by
    rw [UInt64.toNat_add, UInt64.toNat_ofNat']
  have h2 : (UInt64.ofNat (a.toNat * b.toNat / 2 ^ 64)).toNat = a.toNat * b.toNat / 2 ^ 64 :=
    toNat_ofNat_lt _ (by omega)
  have h3 : (UInt64.ofNat (a.toNat * b.toNat / 2 ^ 64) + 1).toNat = a.toNat * b.toNat / 2 ^ 64 + 1 := by
    rw [UInt64.toNat_add, h2, show (1 : UInt64).toNat = 1 from rfl]; omega
  by_cases hc : UInt64.ofNat (a.toNat * b.toNat) + k < k
  · rw [if_pos hc, h1, h3]
    rw [UInt64.lt_iff_toNat_lt, h1] at hc
    omega
  · rw [if_neg hc, h1, h2]
    rw [UInt64.lt_iff_toNat_lt, h1] at hc
    omega

theorem mulAddGnu_spec (a b k : UInt64) :
    (mulAddGnu a b k).1.toNat + 2 ^ 64 * (mulAddGnu a b k).2.toNat = a.toNat * b.toNat + k.toNat := by
  have ha := a.toNat_lt
  have hb := b.toNat_lt
  have hk := k.toNat_lt
  simp only [mulAddGnu]
  have hP : a.toNat * b.toNat ≤ (2 ^ 64 - 1) * (2 ^ 64 - 1) := Nat.mul_le_mul (by omega) (by omega)
  generalize a.toNat * b.toNat = P at hP ⊢
  have e : (P % 2 ^ 128 + k.toNat) % 2 ^ 128 = P + k.toNat := by omega
  rw [e, UInt64.toNat_ofNat', UInt64.toNat_ofNat']
  omega

theorem mulAddGeneric_spec (a b k : UInt64) :
    (mulAddGeneric a b k).1.toNat + 2 ^ 64 * (mulAddGeneric a b k).2.toNat = a.toNat * b.toNat + k.toNat := by
  have ha := a.toNat_lt
  have hb := b.toNat_lt
  have hk := k.toNat_lt
  have ha0 : (a &&& (0xFFFFFFFF : UInt64)).toNat = a.toNat % 2 ^ 32 := toNat_and_mask a _ 32 rfl
  have hb0 : (b &&& (0xFFFFFFFF : UInt64)).toNat = b.toNat % 2 ^ 32 := toNat_and_mask b _ 32 rfl
  have sh : ∀ x : UInt64, (x >>> 32).toNat = x.toNat / 2 ^ 32 := fun x => shr_toNat x 32 (by norm_num)
  have sl : ∀ x : UInt64, (x <<< 32).toNat = x.toNat * 2 ^ 32 % 2 ^ 64 := fun x => by
    rw [UInt64.toNat_shiftLeft]; simp [Nat.shiftLeft_eq]
  have e1 : ((1 : UInt64) <<< 32).toNat = 2 ^ 32 := rfl
  have hm : ∀ x : UInt64, (x &&& (0xFFFFFFFF : UInt64)).toNat = x.toNat % 2 ^ 32 := fun x => toNat_and_mask x _ 32 rfl
  simp only [mulAddGeneric]
  have lim : ∀ x y : ℕ, x < 2 ^ 32 → y < 2 ^ 32 → x * y ≤ (2 ^ 32 - 1) * (2 ^ 32 - 1) := fun x y hx hy =>
    Nat.mul_le_mul (by omega) (by omega)
  have hprod : a.toNat * b.toNat = a.toNat % 2 ^ 32 * (b.toNat % 2 ^ 32) +
      2 ^ 32 * (a.toNat % 2 ^ 32 * (b.toNat / 2 ^ 32)) + 2 ^ 32 * (a.toNat / 2 ^ 32 * (b.toNat % 2 ^ 32)) +
      2 ^ 64 * (a.toNat / 2 ^ 32 * (b.toNat / 2 ^ 32)) := by
    conv_lhs => rw [← Nat.mod_add_div a.toNat (2 ^ 32), ← Nat.mod_add_div b.toNat (2 ^ 32)]
    ring
  have x0 : ((a &&& (0xFFFFFFFF : UInt64)) * (b &&& (0xFFFFFFFF : UInt64))).toNat = a.toNat % 2 ^ 32 * (b.toNat % 2 ^ 32) := by
    rw [UInt64.toNat_mul, ha0, hb0, Nat.mod_eq_of_lt]
    exact lt_of_le_of_lt (lim _ _ (by omega) (by omega)) (by norm_num)
  have x1 : ((a &&& (0xFFFFFFFF : UInt64)) * (b >>> 32)).toNat = a.toNat % 2 ^ 32 * (b.toNat / 2 ^ 32) := by
    rw [UInt64.toNat_mul, ha0, sh, Nat.mod_eq_of_lt]
    exact lt_of_le_of_lt (lim _ _ (by omega) (by omega)) (by norm_num)
  have x2 : ((a >>> 32) * (b &&& (0xFFFFFFFF : UInt64))).toNat = a.toNat / 2 ^ 32 * (b.toNat % 2 ^ 32) := by
    rw [UInt64.toNat_mul, hb0, sh, Nat.mod_eq_of_lt]
    exact lt_of_le_of_lt (lim _ _ (by omega) (by omega)) (by norm_num)
  have x3 : ((a >>> 32) * (b >>> 32)).toNat = a.toNat / 2 ^ 32 * (b.toNat / 2 ^ 32) := by
    rw [UInt64.toNat_mul, sh, sh, Nat.mod_eq_of_lt]
    exact lt_of_le_of_lt (lim _ _ (by omega) (by omega)) (by norm_num)
  have l0 := lim (a.toNat % 2 ^ 32) (b.toNat % 2 ^ 32) (by omega) (by omega)
  have l1 := lim (a.toNat % 2 ^ 32) (b.toNat / 2 ^ 32) (by omega) (by omega)
  have l2 := lim (a.toNat / 2 ^ 32) (b.toNat % 2 ^ 32) (by omega) (by omega)
  have l3 := lim (a.toNat / 2 ^ 32) (b.toNat / 2 ^ 32) (by omega) (by omega)
  rw [hprod]
  generalize (a &&& (0xFFFFFFFF : UInt64)) * (b &&& (0xFFFFFFFF : UInt64)) = X0 at *
  generalize (a &&& (0xFFFFFFFF : UInt64)) * (b >>> 32) = X1 at *
  generalize (a >>> 32) * (b &&& (0xFFFFFFFF : UInt64)) = X2 at *
  generalize (a >>> 32) * (b >>> 32) = X3 at *
  rw [← x0, ← x1, ← x2, ← x3]
  rw [← x0] at l0
  rw [← x1] at l1
  rw [← x2] at l2
  rw [← x3] at l3
  clear x0 x1 x2 x3 hprod ha0 hb0 lim ha hb
  have y1 : (X1 + (X0 >>> 32)).toNat = X1.toNat + X0.toNat / 2 ^ 32 := by
    rw [UInt64.toNat_add, sh]; omega
  have y2 : (X1 + (X0 >>> 32) + X2).toNat = (X1.toNat + X0.toNat / 2 ^ 32 + X2.toNat) % 2 ^ 64 := by
    rw [UInt64.toNat_add, y1]
  generalize X1 + (X0 >>> 32) + X2 = Y at *
  have z : (Y <<< 32 + (X0 &&& (0xFFFFFFFF : UInt64))).toNat = Y.toNat % 2 ^ 32 * 2 ^ 32 + X0.toNat % 2 ^ 32 := by
    rw [UInt64.toNat_add, sl, hm]; omega
  generalize Y <<< 32 + (X0 &&& (0xFFFFFFFF : UInt64)) = Z at *
  by_cases hc : Y < X2
  · rw [if_pos hc]
    rw [UInt64.lt_iff_toNat_lt] at hc
    have w : (X3 + (1 : UInt64) <<< 32 + (Y >>> 32)).toNat = (X3.toNat + 2 ^ 32 + Y.toNat / 2 ^ 32) % 2 ^ 64 := by
      rw [UInt64.toNat_add, UInt64.toNat_add, e1, sh]; omega
    generalize X3 + (1 : UInt64) <<< 32 + (Y >>> 32) = H at *
    by_cases hc2 : Z + k < k
    · rw [if_pos hc2]
      rw [UInt64.lt_iff_toNat_lt, UInt64.toNat_add] at hc2
      rw [UInt64.toNat_add, UInt64.toNat_add, show (1 : UInt64).toNat = 1 from rfl]
      omega
    · rw [if_neg hc2]
      rw [UInt64.lt_iff_toNat_lt, UInt64.toNat_add] at hc2
      rw [UInt64.toNat_add]
      omega
  · rw [if_neg hc]
    rw [UInt64.lt_iff_toNat_lt] at hc
    have w : (X3 + (Y >>> 32)).toNat = (X3.toNat + Y.toNat / 2 ^ 32) % 2 ^ 64 := by
      rw [UInt64.toNat_add, sh]
    generalize X3 + (Y >>> 32) = H at *
    by_cases hc2 : Z + k < k
    · rw [if_pos hc2]
      rw [UInt64.lt_iff_toNat_lt, UInt64.toNat_add] at hc2
      rw [UInt64.toNat_add, UInt64.toNat_add, show (1 : UInt64).toNat = 1 from rfl]
      omega
    · rw [if_neg hc2]
      rw [UInt64.lt_iff_toNat_lt, UInt64.toNat_add] at hc2
      rw [UInt64.toNat_add]
      omega

theorem mulAdd_spec (v : MulImpl) (a b k : UInt64) :
    (mulAdd v a b k).1.toNat + 2 ^ 64 * (mulAdd v a b k).2.toNat = a.toNat * b.toNat + k.toNat := by
  cases v
  · exact mulAddMsvc_spec a b k
  · exact mulAddGnu_spec a b k
  · exact mulAddGeneric_spec a b k

theorem mulAdd_variant (v w : MulImpl) (a b k : UInt64) : mulAdd v a b k = mulAdd w a b k := by
  have h1 := mulAdd_spec v a b k
  have h2 := mulAdd_spec w a b k
  have := (mulAdd v a b k).1.toNat_lt
  have := (mulAdd w a b k).1.toNat_lt
  apply Prod.ext
  · apply UInt64.toNat_inj.mp; omega
  · apply UInt64.toNat_inj.mp; omega

/-- Loop shared by the two multiplications. -/
def genLoop (f : UInt64 → UInt64 → UInt64 × UInt64) : Nat → Nat → UInt64 → BigInt → Res (BigInt × UInt64)
  | 0, _, k, b => .ok (b, k)
  | n + 1, i, k, b => do
    let d ← rd b i
    let b ← wr b i (f d k).1
    genLoop f n (i + 1) (f d k).2 b

theorem mulLoop_gen (v : MulImpl) (d : UInt64) (n : ℕ) : ∀ i k b,
    mulLoop v d n i k b = genLoop (fun w k => mulAdd v w d k) n i k b := by
  induction n with
  | zero => intro i k b; rfl
  | succ n ih => intro i k b; rw [mulLoop, genLoop]; simp only [ih]

/-- One step of the 32-bit loop. -/
def step32 (digit : UInt64) (w k : UInt64) : UInt64 × UInt64 :=
  let p0 := digit * (w &&& (0xFFFFFFFF : UInt64)) + k
  let p1 := digit * (w >>> 32) + (p0 >>> 32)
  ((p0 &&& (0xFFFFFFFF : UInt64)) ||| (p1 <<< 32), p1 >>> 32)

theorem mul32Loop_gen (d : UInt64) (n : ℕ) : ∀ i k b, mul32Loop d n i k b = genLoop (step32 d) n i k b := by
  induction n with
  | zero => intro i k b; rfl
  | succ n ih => intro i k b; rw [mul32Loop, genLoop]; simp only [ih, step32]

theorem step32_spec (d w k : UInt64) (hd : d.toNat < 2 ^ 32) (hk : k.toNat < 2 ^ 32) :
    (step32 d w k).1.toNat + 2 ^ 64 * (step32 d w k).2.toNat = w.toNat * d.toNat + k.toNat ∧
    (step32 d w k).2.toNat < 2 ^ 32 := by
  have hw := w.toNat_lt
  have sh : ∀ x : UInt64, (x >>> 32).toNat = x.toNat / 2 ^ 32 := fun x => shr_toNat x 32 (by norm_num)
  have sl : ∀ x : UInt64, (x <<< 32).toNat = x.toNat * 2 ^ 32 % 2 ^ 64 := fun x => by
    rw [UInt64.toNat_shiftLeft]; simp [Nat.shiftLeft_eq]
  have hm : ∀ x : UInt64, (x &&& (0xFFFFFFFF : UInt64)).toNat = x.toNat % 2 ^ 32 := fun x => toNat_and_mask x _ 32 rfl
  have lim : ∀ x y : ℕ, x < 2 ^ 32 → y < 2 ^ 32 → x * y ≤ (2 ^ 32 - 1) * (2 ^ 32 - 1) := fun x y hx hy =>
    Nat.mul_le_mul (by omega) (by omega)
  simp only [step32]
  have l0 := lim d.toNat (w.toNat % 2 ^ 32) hd (by omega)
  have l1 := lim d.toNat (w.toNat / 2 ^ 32) hd (by omega)
  have q0 : (d * (w &&& (0xFFFFFFFF : UInt64)) + k).toNat = d.toNat * (w.toNat % 2 ^ 32) + k.toNat := by
    rw [UInt64.toNat_add, UInt64.toNat_mul, hm]
    omega
  have q1 : (d * (w >>> 32) + ((d * (w &&& (0xFFFFFFFF : UInt64)) + k) >>> 32)).toNat =
      d.toNat * (w.toNat / 2 ^ 32) + (d.toNat * (w.toNat % 2 ^ 32) + k.toNat) / 2 ^ 32 := by
    rw [UInt64.toNat_add, UInt64.toNat_mul, sh, sh, q0]
    omega
  have hor : ∀ x y : UInt64, ((x &&& (0xFFFFFFFF : UInt64)) ||| (y <<< 32)).toNat = x.toNat % 2 ^ 32 + y.toNat % 2 ^ 32 * 2 ^ 32 := by
    intro x y
    rw [UInt64.toNat_or, hm, sl, show y.toNat * 2 ^ 32 % 2 ^ 64 = y.toNat % 2 ^ 32 * 2 ^ 32 by omega,
      Nat.or_comm, ← Nat.shiftLeft_eq, ← Nat.shiftLeft_add_eq_or_of_lt (by omega), Nat.shiftLeft_eq]
    omega
  rw [hor, sh, q0, q1]
  have hprod : w.toNat * d.toNat = d.toNat * (w.toNat % 2 ^ 32) + 2 ^ 32 * (d.toNat * (w.toNat / 2 ^ 32)) := by
    conv_lhs => rw [← Nat.mod_add_div w.toNat (2 ^ 32)]
    ring
  rw [hprod]
  omega

/-- The loop multiplies the words from `i` on and adds the carry. -/
theorem genLoop_spec (f : UInt64 → UInt64 → UInt64 × UInt64) (d : ℕ) (K : UInt64 → Prop)
    (hf : ∀ w k, K k → (f w k).1.toNat + 2 ^ 64 * (f w k).2.toNat = w.toNat * d + k.toNat ∧ K (f w k).2) (n : ℕ) :
    ∀ (i : ℕ) (k : UInt64) (b : BigInt), K k → i + n ≤ CAPACITY →
      ∃ m k', genLoop f n i k b = .ok (⟨m, b.count⟩, k') ∧
        wordsValue m (i + n) + k'.toNat * 2 ^ (64 * (i + n)) =
          wordsValue b.digits i + 2 ^ (64 * i) * (d * wordsValue (fun j => b.digits (i + j)) n + k.toNat) := by
  induction n with
  | zero =>
    intro i k b hk hn
    refine ⟨b.digits, k, rfl, ?_⟩
    simp [wordsValue]; ring
  | succ n ih =>
    intro i k b hk hn
    rw [genLoop, rd_ok (by omega), Res.ok_bind, wr_ok (by omega), Res.ok_bind]
    obtain ⟨h1, h2⟩ := hf (b.digits i) k hk
    obtain ⟨m, k', hr, hv⟩ := ih (i + 1) (f (b.digits i) k).2 ⟨upd b.digits i (f (b.digits i) k).1, b.count⟩ h2 (by omega)
    refine ⟨m, k', hr, ?_⟩
    rw [show i + (n + 1) = i + 1 + n by ring, hv]
    simp only
    rw [wordsValue, wordsValue_upd_ge _ _ _ _ le_rfl, upd_same, pow64_succ i]
    have e1 : wordsValue (fun j => upd b.digits i (f (b.digits i) k).1 (i + 1 + j)) n =
        wordsValue (fun j => b.digits (i + (1 + j))) n := by
      apply wordsValue_congr
      intro j _
      rw [upd_ne _ _ (by omega), add_assoc]
    rw [e1]
    have e2 := wordsValue_add (fun j => b.digits (i + j)) 1 n
    rw [add_comm 1 n] at e2
    rw [e2]
    have e3 : wordsValue (fun j => b.digits (i + j)) 1 = (b.digits i).toNat := by simp [wordsValue]
    rw [e3, mul_one]
    have h3 := congrArg (fun x => 2 ^ (64 * i) * x) h1
    simp only [mul_add] at h3
    generalize wordsValue b.digits i = W
    generalize 2 ^ (64 * i) = P at h3 ⊢
    generalize wordsValue (fun j => b.digits (i + (1 + j))) n = R
    generalize (f (b.digits i) k).1.toNat = F1 at h3 ⊢
    generalize (f (b.digits i) k).2.toNat = F2 at h3 ⊢
    have h4 : P * F1 + P * (2 ^ 64 * F2) + (W + 2 ^ 64 * P * (d * R)) =
        P * ((b.digits i).toNat * d) + P * k.toNat + (W + 2 ^ 64 * P * (d * R)) := by rw [h3]
    linarith

/-- Both multiplications after the loop. -/
theorem gen_mul (f : UInt64 → UInt64 → UInt64 × UInt64) (d : ℕ) (hd : 1 ≤ d) (K : UInt64 → Prop)
    (hf : ∀ w k, K k → (f w k).1.toNat + 2 ^ 64 * (f w k).2.toNat = w.toNat * d + k.toNat ∧ K (f w k).2) (h0 : K 0)
    {b : BigInt} (h : Inv b) :
    Yields (do
      let r ← genLoop f b.count 0 0 b
      if r.2 > 0 then pushBack r.1 r.2 else .ok r.1) (b.value * d) := by
  obtain ⟨m, k', hr, hv⟩ := genLoop_spec f d K hf b.count 0 0 b h0 (by have := h.le; omega)
  rw [hr, Res.ok_bind]
  simp only [Nat.zero_add, Nat.mul_zero, Nat.pow_zero, one_mul, wordsValue] at hv
  have hv2 : (⟨m, b.count⟩ : BigInt).value + k'.toNat * 2 ^ (64 * b.count) = b.value * d := by
    simp only [value]
    rw [hv]; simp; ring
  dsimp only
  by_cases hk : k' = 0
  · rw [if_neg (by rw [hk]; decide)]
    left
    refine ⟨_, rfl, ?_, ?_⟩
    · refine inv_of_value (b' := ⟨m, b.count⟩) h rfl ?_
      rw [hk] at hv2; simp at hv2
      rw [hv2]; nlinarith
    · rw [hk] at hv2; simpa using hv2
  · rw [if_pos (by rw [gt_iff_lt, UInt64.lt_iff_toNat_lt]; exact toNat_pos_of_ne hk)]
    have := pushBack_spec (b := ⟨m, b.count⟩) h.le k' hk
    simp only at this
    rw [hv2] at this
    exact this

theorem mul64_spec (v : MulImpl) {b : BigInt} (h : Inv b) (d : UInt64) : Yields (mul64 v b d) (b.value * d.toNat) := by
  unfold mul64
  by_cases h0 : d = 0
  · rw [if_pos h0, h0]; left
    exact ⟨_, rfl, assignWord_inv _ _, by rw [assignWord_value]; simp⟩
  rw [if_neg h0]
  by_cases h1 : d = 1
  · rw [if_pos h1, h1]; left
    exact ⟨_, rfl, h, by simp⟩
  rw [if_neg h1]
  by_cases h2 : b.eqWord 1 = true
  · rw [if_pos h2]; left
    refine ⟨_, rfl, assignWord_inv _ _, ?_⟩
    rw [assignWord_value, (eqWord_iff h 1).mp h2]; simp
  rw [if_neg h2]
  simp only [mulLoop_gen]
  exact gen_mul _ d.toNat (toNat_pos_of_ne h0) (fun _ => True)
    (fun w k _ => ⟨by simpa using mulAdd_spec v w d k, trivial⟩) trivial h

theorem mul32_spec {b : BigInt} (h : Inv b) (d : UInt32) : Yields (mul32 b d) (b.value * d.toNat) := by
  have hd : d.toUInt64.toNat = d.toNat := by simp
  have hdl : d.toUInt64.toNat < 2 ^ 32 := by rw [hd]; exact d.toNat_lt
  unfold mul32
  by_cases h0 : d = 0
  · rw [if_pos h0, h0]; left
    exact ⟨_, rfl, assignWord_inv _ _, by rw [assignWord_value]; simp⟩
  rw [if_neg h0]
  by_cases h1 : d = 1
  · rw [if_pos h1, h1]; left
    exact ⟨_, rfl, h, by simp⟩
  rw [if_neg h1]
  by_cases h2 : b.eqWord 1 = true
  · rw [if_pos h2]; left
    refine ⟨_, rfl, assignWord_inv _ _, ?_⟩
    rw [assignWord_value, (eqWord_iff h 1).mp h2]; simp
  rw [if_neg h2]
  simp only [mul32Loop_gen]
  have hpos : 1 ≤ d.toNat := by
    rcases Nat.eq_zero_or_pos d.toNat with h' | h'
    · exact absurd (UInt32.toNat_inj.mp (by simpa using h')) h0
    · exact h'
  exact gen_mul _ d.toNat hpos (fun k => k.toNat < 2 ^ 32)
    (fun w k hk => by have := step32_spec d.toUInt64 w k hdl hk; rw [hd] at this; exact this) (by decide) h

/-- Chaining two exact operations. -/
theorem Yields.bind {r : Res BigInt} {T d : ℕ} (h : Yields r T) (hd : 1 ≤ d) {f : BigInt → Res BigInt}
    (hf : ∀ b, Inv b → b.value = T → Yields (f b) (T * d)) : Yields (r >>= f) (T * d) := by
  rcases h with ⟨b', rfl, hi, hv⟩ | ⟨rfl, ht⟩
  · exact hf b' hi hv
  · right; exact ⟨rfl, ht.trans (Nat.le_mul_of_pos_right _ hd)⟩

theorem pow5_27 : (0x6765C793FA10079D : UInt64).toNat = 5 ^ 27 := by decide
theorem pow5_13 : (1220703125 : UInt32).toNat = 5 ^ 13 := by decide
theorem POWER5_get : ∀ e, 1 ≤ e → e < 13 → ∃ d, POWER5[e - 1]? = some d ∧ d.toNat = 5 ^ e := by
  intro e h1 h2
  have : ∀ e < 13, 1 ≤ e → ∃ d, POWER5[e - 1]? = some d ∧ d.toNat = 5 ^ e := by
    intro e he h
    rcases e with _ | e
    · omega
    · have hl : e < POWER5.length := by change e < 12; omega
      refine ⟨POWER5[e], by simp [hl], ?_⟩
      have : ∀ i : Fin 12, (POWER5[i.val]'(i.isLt)).toNat = 5 ^ (i.val + 1) := by decide
      exact this ⟨e, hl⟩
  exact this e h2 h1

/-- The remainder of `mulPow5` after the two loops. -/
theorem pow5Tail_spec {b : BigInt} (h : Inv b) {e : ℕ} (he : e < 13) :
    Yields (if e > 0 then match POWER5[e - 1]? with
      | some d => mul32 b d
      | none => .ub
     else .ok b) (b.value * 5 ^ e) := by
  by_cases h0 : e > 0
  · rw [if_pos h0]
    obtain ⟨d, hd, hv⟩ := POWER5_get e h0 he
    rw [hd, ← hv]
    exact mul32_spec h d
  · rw [if_neg h0, show e = 0 by omega]
    left; exact ⟨b, rfl, h, by simp⟩

theorem pow5Loop13_spec (fuel : ℕ) : ∀ (e : ℕ) (b : BigInt), Inv b → e ≤ fuel →
    Yields (do
      let r ← pow5Loop13 fuel e b
      if r.2 > 0 then match POWER5[r.2 - 1]? with
        | some d => mul32 r.1 d
        | none => .ub
      else .ok r.1) (b.value * 5 ^ e) := by
  induction fuel with
  | zero =>
    intro e b h he
    rw [pow5Loop13.eq_def]; dsimp only; rw [if_neg (by omega), Res.ok_bind]
    exact pow5Tail_spec h (by omega)
  | succ fuel ih =>
    intro e b h he
    rw [pow5Loop13.eq_def]; dsimp only
    by_cases h13 : 13 ≤ e
    · rw [if_pos h13]
      have e1 : b.value * 5 ^ e = b.value * 5 ^ 13 * 5 ^ (e - 13) := by
        rw [mul_assoc, ← pow_add]; congr 2; omega
      rw [e1, Res.bind_assoc']
      have hm := mul32_spec h 1220703125
      rw [pow5_13] at hm
      refine hm.bind (Nat.one_le_pow _ _ (by norm_num)) fun b' hb' hv' => ?_
      rw [← hv']
      exact ih (e - 13) b' hb' (by omega)
    · rw [if_neg h13, Res.ok_bind]
      exact pow5Tail_spec h (by omega)

theorem pow5Loop27_spec (v : MulImpl) (fuel : ℕ) : ∀ (e : ℕ) (b : BigInt), Inv b → e ≤ fuel →
    Yields (do
      let r ← pow5Loop27 v fuel e b
      let r ← pow5Loop13 r.2 r.2 r.1
      if r.2 > 0 then match POWER5[r.2 - 1]? with
        | some d => mul32 r.1 d
        | none => .ub
      else .ok r.1) (b.value * 5 ^ e) := by
  induction fuel with
  | zero =>
    intro e b h he
    rw [pow5Loop27.eq_def]; dsimp only; rw [if_neg (by omega), Res.ok_bind]
    exact pow5Loop13_spec _ _ _ h le_rfl
  | succ fuel ih =>
    intro e b h he
    rw [pow5Loop27.eq_def]; dsimp only
    by_cases h27 : 27 ≤ e
    · rw [if_pos h27]
      have e1 : b.value * 5 ^ e = b.value * 5 ^ 27 * 5 ^ (e - 27) := by
        rw [mul_assoc, ← pow_add]; congr 2; omega
      rw [e1, Res.bind_assoc']
      have hm := mul64_spec v h 0x6765C793FA10079D
      rw [pow5_27] at hm
      refine hm.bind (Nat.one_le_pow _ _ (by norm_num)) fun b' hb' hv' => ?_
      rw [← hv']
      exact ih (e - 27) b' hb' (by omega)
    · rw [if_neg h27, Res.ok_bind]
      exact pow5Loop13_spec _ _ _ h le_rfl

theorem mulPow5_spec (v : MulImpl) {b : BigInt} (h : Inv b) (e : ℕ) : Yields (mulPow5 v b e) (b.value * 5 ^ e) := by
  unfold mulPow5
  by_cases h0 : e = 0
  · rw [if_pos h0, h0]; left; exact ⟨b, rfl, h, by simp⟩
  · rw [if_neg h0]
    exact pow5Loop27_spec v e e b h le_rfl

end BigInt
end Lexi
