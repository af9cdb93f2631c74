import Verif.Proofs.BigThrow
import Verif.Proofs.BigCmp

/-!
# C100: what is left of a big integer when an operation throws
-/

namespace Lexi
namespace BigInt

/-- C100: forgetting the object left behind gives the operations of Model/BigInt.lean. -/
theorem C100_same (v : MulImpl) (b : BigInt) (d : UInt64) (w : UInt32) (n : ℕ) :
    (pushBackL b d).res = pushBack b d ∧ (addL b d).res = add b d ∧ (mul64L v b d).res = mul64 v b d ∧
    (mul32L b w).res = mul32 b w ∧ (shlL b n).res = shl b n ∧ (mulPow5L v b n).res = mulPow5 v b n :=
  ⟨pushBackL_res b d, addL_res b d, mul64L_res v b d, mul32L_res b w, shlL_res b n, mulPow5L_res v b n⟩

theorem Leaves.thrown {r : Left BigInt} {T : ℕ} {b' : BigInt} (h : Leaves r T) (hr : r = .thrown b') :
    b'.count = CAPACITY ∧ 2 ^ (64 * CAPACITY) ≤ T ∧ b'.value = T % 2 ^ (64 * CAPACITY) := by
  rcases h with ⟨c, h1, -⟩ | ⟨c, h1, h2⟩
  · rw [hr] at h1; cases h1
  · rw [hr] at h1; cases h1; exact h2

/-- C100: an addition that throws has already wrapped around: the object has lost `2^26624`, holds a number below the
summand in all 416 words, is no longer normalised, is not recognised as zero and compares as greater than and
different from every shorter number, whatever that number is. -/
theorem C100_add (b b' : BigInt) (h : Inv b) (d : UInt64) (hr : addL b d = .thrown b') :
    b'.count = 416 ∧ b'.value + 2 ^ (64 * 416) = b.value + d.toNat ∧ b'.value < d.toNat ∧ ¬ Inv b' ∧
    b'.isZero = false ∧
    ∀ c : BigInt, Inv c → c.count < 416 → compare b' c = .ok 1 ∧ compare c b' = .ok (-1) ∧ eq b' c = .ok false := by
  obtain ⟨h1, h2, h3⟩ := (addL_spec h.weak d).thrown hr
  rw [CAPACITY_eq] at h1 h2 h3
  have hb := h.value_lt
  rw [CAPACITY_eq] at hb
  have hd := d.toNat_lt
  have hM : 2 ^ 64 ≤ 2 ^ (64 * 416) := Nat.pow_le_pow_right (by norm_num) (by norm_num)
  have hv : b'.value = b.value + d.toNat - 2 ^ (64 * 416) := by
    rw [h3, Nat.mod_eq_sub_mod h2, Nat.mod_eq_of_lt]
    generalize 2 ^ (64 * 416) = M at *
    omega
  have h415 : 2 ^ 64 ≤ 2 ^ (64 * 415) := Nat.pow_le_pow_right (by norm_num) (by norm_num)
  refine ⟨h1, ?_, ?_, fun hi => ?_, ?_, fun c hc hlt => ⟨?_, ?_, ?_⟩⟩
  · generalize 2 ^ (64 * 416) = M at *; omega
  · generalize 2 ^ (64 * 416) = M at *; omega
  · have := hi.ge (by omega)
    rw [h1] at this
    generalize 2 ^ (64 * 416) = M at *
    have e : 416 - 1 = 415 := rfl
    rw [e] at this
    generalize 2 ^ (64 * 415) = N at *
    omega
  · simp [isZero, h1]
  · unfold compare; rw [if_pos (by omega), if_neg (by omega)]
  · unfold compare; rw [if_pos (by omega), if_pos (by omega)]
  · unfold eq; rw [if_pos (by omega)]

theorem inv_iff_of_full {b : BigInt} (h : b.count = 416) : Inv b ↔ 2 ^ (64 * 415) ≤ b.value := by
  have := top_iff b (by omega)
  rw [h] at this
  constructor
  · intro hi
    exact this.mp (by have := hi.top; rw [h] at this; exact this.resolve_left (by norm_num))
  · intro hv
    exact ⟨by omega, by rw [h]; decide, Or.inr (by rw [h]; exact this.mpr hv)⟩

/-- C100: a multiplication that throws leaves the product modulo `2^26624` in all 416 words; the object is normalised
exactly if the top word of that is not zero. -/
theorem C100_mul (v : MulImpl) (b b' : BigInt) (h : Inv b) (d : UInt64) (w : UInt32) :
    (mul64L v b d = .thrown b' → b'.count = 416 ∧ b'.value = b.value * d.toNat % 2 ^ (64 * 416) ∧
      (Inv b' ↔ 2 ^ (64 * 415) ≤ b'.value)) ∧
    (mul32L b w = .thrown b' → b'.count = 416 ∧ b'.value = b.value * w.toNat % 2 ^ (64 * 416) ∧
      (Inv b' ↔ 2 ^ (64 * 415) ≤ b'.value)) := by
  refine ⟨fun hr => ?_, fun hr => ?_⟩
  · obtain ⟨h1, -, h3⟩ := (mul64L_spec v h.weak d).thrown hr
    exact ⟨h1, h3, inv_iff_of_full h1⟩
  · obtain ⟨h1, -, h3⟩ := (mul32L_spec h.weak w).thrown hr
    exact ⟨h1, h3, inv_iff_of_full h1⟩

/-- C100: `mulPow5` that throws has stopped at the first of its steps whose product does not fit, and leaves that
product modulo `2^26624`. -/
theorem C100_mulPow5 (v : MulImpl) (b b' : BigInt) (h : Inv b) (e : ℕ) (hr : mulPow5L v b e = .thrown b') :
    ∃ j, Checkpoint e j ∧ j ≤ e ∧ 2 ^ (64 * 416) ≤ b.value * 5 ^ j ∧
      (∀ i < j, Checkpoint e i → b.value * 5 ^ i < 2 ^ (64 * 416)) ∧
      b'.count = 416 ∧ b'.value = b.value * 5 ^ j % 2 ^ (64 * 416) := by
  rcases mulPow5L_spec v h.weak e with ⟨c, h1, -⟩ | ⟨c, j, h1, h2, h3, h4, h5, h6, h7⟩
  · rw [hr] at h1; cases h1
  · rw [hr] at h1; cases h1
    exact ⟨j, h3, h4, h5, h6, h2, h7⟩

/-- C100: a shift that throws has changed nothing. -/
theorem C100_shift (b b' : BigInt) (s : ℕ) (hr : shlL b s = .thrown b') : b' = b := by
  have mem_nt : ∀ {α : Type} (r : Res α) (c : BigInt), Left.mem r ≠ .thrown c := by
    intro α r c; cases r <;> simp [Left.mem]
  have bind_nt : ∀ {α β : Type} (r : Res α) (f : α → Left β), (∀ a c, f a ≠ .thrown c) →
      ∀ c, (Left.mem r >>= f) ≠ .thrown c := by
    intro α β r f hf c
    cases r with
    | ok a => exact hf a c
    | throws => intro h; cases h
    | ub => intro h; cases h
  unfold shlL at hr
  split at hr
  · cases hr
  · dsimp only at hr
    split at hr
    · cases hr; rfl
    · split at hr
      · cases hr
      · split at hr
        · exact absurd hr (bind_nt _ _ (fun _ _ => mem_nt _ _) _)
        · exact absurd hr (bind_nt _ _ (fun _ => bind_nt _ _ (fun _ => bind_nt _ _ (fun _ => bind_nt _ _ (fun _ =>
            bind_nt _ _ (fun _ _ => mem_nt _ _))))) _)

/-- The operation on the object. -/
def AccOp.run (v : MulImpl) (b : BigInt) : AccOp → Left BigInt
  | .set d => .done (assignWord b d)
  | .add d => addL b d
  | .mul64 d => mul64L v b d
  | .mul32 d => mul32L b d

/-- A caller that catches every exception and goes on with the object. -/
def caughtRun (v : MulImpl) : BigInt → List AccOp → Res BigInt
  | b, [] => .ok b
  | b, o :: os =>
    match o.run v b with
    | .done b' => caughtRun v b' os
    | .thrown b' => caughtRun v b' os
    | .ub => .ub

/-- C100: a caller that catches every exception of assignments, additions and multiplications and goes on with the
object meets no undefined behaviour and computes modulo `2^26624`. -/
theorem C100_history (v : MulImpl) (ops : List AccOp) : ∀ (b : BigInt) (x : ℕ), Weak b → b.value = x % 2 ^ (64 * 416) →
    ∃ b', caughtRun v b ops = .ok b' ∧ Weak b' ∧ b'.value = ops.foldl AccOp.nat x % 2 ^ (64 * 416) := by
  induction ops with
  | nil => intro b x h hx; exact ⟨b, rfl, h, hx⟩
  | cons o os ih =>
    intro b x h hx
    have key : Leaves (o.run v b) (o.nat b.value) := by
      cases o with
      | set d =>
        left
        exact ⟨_, rfl, (assignWord_inv b d).weak, assignWord_value b d⟩
      | add d => exact addL_spec h d
      | mul64 d => exact mul64L_spec v h d
      | mul32 d => exact mul32L_spec h d
    have hmod : o.nat b.value % 2 ^ (64 * 416) = o.nat x % 2 ^ (64 * 416) := by
      rw [hx]
      cases o with
      | set d => rfl
      | add d => exact Nat.mod_add_mod _ _ _
      | mul64 d => exact Nat.mod_mul_mod _ _ _
      | mul32 d => exact Nat.mod_mul_mod _ _ _
    rw [List.foldl_cons, caughtRun]
    rcases key with ⟨c, h1, h2, h3⟩ | ⟨c, h1, h2, -, h3⟩
    · rw [h1]
      refine ih c _ h2 ?_
      rw [← hmod, ← h3, Nat.mod_eq_of_lt]
      exact h2.value_lt
    · rw [h1]
      refine ih c _ ⟨by rw [h2]; decide, by rw [h2]⟩ ?_
      rw [← hmod, h3, CAPACITY_eq]

/-! ### An object that meets the hypotheses -/

/-- The greatest number: 416 words of ones. -/
def fullBig : BigInt := ⟨fun _ => 0xFFFFFFFFFFFFFFFF, 416⟩

theorem fullBig_inv : Inv fullBig := ⟨by decide, by decide, Or.inr (by decide)⟩

theorem fullBig_value : fullBig.value + 1 = 2 ^ (64 * 416) := by
  have : ∀ n, wordsValue (fun _ => 0xFFFFFFFFFFFFFFFF) n + 1 = 2 ^ (64 * n) := by
    intro n
    induction n with
    | zero => rfl
    | succ n ih =>
      rw [wordsValue, pow64_succ]
      have : (0xFFFFFFFFFFFFFFFF : UInt64).toNat = 2 ^ 64 - 1 := rfl
      rw [this]
      generalize 2 ^ (64 * n) = P at *
      omega
  exact this 416

theorem leaves_thrown {r : Left BigInt} {T : ℕ} (h : Leaves r T) (hT : 2 ^ (64 * 416) ≤ T) : ∃ b', r = .thrown b' := by
  rcases h with ⟨c, -, h2, h3⟩ | ⟨c, h1, -⟩
  · have := h2.value_lt
    rw [h3, CAPACITY_eq] at this
    omega
  · exact ⟨c, h1⟩

/-- Adding one to the greatest number throws and leaves zero in 416 words: not zero for `isZero`, greater than one. -/
example : ∃ b', addL fullBig 1 = .thrown b' ∧ b'.value = 0 ∧ b'.isZero = false ∧
    compare b' (ofWord (fun _ => 7) 1) = .ok 1 := by
  have hv := fullBig_value
  have e1 : (1 : UInt64).toNat = 1 := rfl
  obtain ⟨b', hb⟩ := leaves_thrown (addL_spec fullBig_inv.weak 1) (by rw [e1, hv])
  obtain ⟨-, -, h3, -, h5, h6⟩ := C100_add fullBig b' fullBig_inv 1 hb
  refine ⟨b', hb, by rw [e1] at h3; omega, h5, (h6 _ ⟨le_rfl, by decide, Or.inl rfl⟩ (by decide)).1⟩

/-- Doubling it throws and leaves a normalised number. -/
example (v : MulImpl) : ∃ b', mul64L v fullBig 2 = .thrown b' ∧ Inv b' ∧ b'.value + 2 = 2 ^ (64 * 416) := by
  have hv := fullBig_value
  have e2 : (2 : UInt64).toNat = 2 := rfl
  have hM : 2 * 2 ^ (64 * 415) ≤ 2 ^ (64 * 416) := by
    rw [pow64_succ 415]; exact Nat.mul_le_mul_right _ (by norm_num)
  have h4 : 4 ≤ 2 ^ (64 * 415) := le_trans (by norm_num : 4 ≤ 2 ^ 2) (Nat.pow_le_pow_right (by norm_num) (by norm_num))
  obtain ⟨b', hb⟩ := leaves_thrown (mul64L_spec v fullBig_inv.weak 2) (by
    rw [e2]; generalize 2 ^ (64 * 416) = M at *; omega)
  obtain ⟨-, h2, h3⟩ := (C100_mul v fullBig b' fullBig_inv 2 0).1 hb
  have hval : b'.value + 2 = 2 ^ (64 * 416) := by
    rw [h2, e2, Nat.mod_eq_sub_mod, Nat.mod_eq_of_lt]
    all_goals
      generalize 2 ^ (64 * 416) = M at *
      omega
  refine ⟨b', hb, h3.mpr ?_, hval⟩
  generalize 2 ^ (64 * 416) = M at *
  omega

/-- `mulPow5 50` goes through the powers 27, 40 and 50. -/
example : Checkpoint 50 27 ∧ Checkpoint 50 40 ∧ Checkpoint 50 50 ∧ ¬ Checkpoint 50 13 := by
  refine ⟨Or.inl ⟨by norm_num, by norm_num⟩, Or.inr (Or.inl ⟨1, by norm_num, by norm_num⟩), Or.inr (Or.inr rfl), ?_⟩
  rintro (⟨h, -⟩ | ⟨k, h, -⟩ | h)
  · revert h; decide
  · omega
  · omega

/-- `mulPow5` on the greatest number throws. -/
example (v : MulImpl) : ∃ b', mulPow5L v fullBig 50 = .thrown b' := by
  rcases mulPow5L_spec v fullBig_inv.weak 50 with ⟨c, -, h2, h3⟩ | ⟨c, j, h1, -⟩
  · have h := h2.value_lt
    have hv := fullBig_value
    rw [h3, CAPACITY_eq] at h
    have : 2 ≤ 5 ^ 50 := by norm_num
    have h1 : 2 ≤ 2 ^ (64 * 416) := le_trans (by norm_num : 2 ≤ 2 ^ 1) (Nat.pow_le_pow_right (by norm_num) (by norm_num))
    generalize 2 ^ (64 * 416) = M at *
    generalize 5 ^ 50 = Q at *
    nlinarith
  · exact ⟨c, h1⟩

/-- Shifting a one by 416 words throws. -/
example : shlL (ofWord (fun _ => 7) 1) 26624 = .thrown (ofWord (fun _ => 7) 1) := by
  unfold shlL
  rw [if_neg (by simp [isZero, ofWord, upd])]
  exact if_pos (by decide)

/-- A caught overflow followed by more work. -/
example (v : MulImpl) : ∃ b', caughtRun v fullBig [.add 1, .add 5, .mul64 3] = .ok b' ∧ b'.value = 15 := by
  have hv := fullBig_value
  have hp : 1 ≤ 2 ^ (64 * 416) := Nat.one_le_two_pow
  obtain ⟨b', h1, -, h3⟩ := C100_history v [.add 1, .add 5, .mul64 3] fullBig fullBig.value fullBig_inv.weak
    (Nat.mod_eq_of_lt (by generalize 2 ^ (64 * 416) = M at *; omega)).symm
  refine ⟨b', h1, ?_⟩
  have e1 : (1 : UInt64).toNat = 1 := rfl
  have e5 : (5 : UInt64).toNat = 5 := rfl
  have e3 : (3 : UInt64).toNat = 3 := rfl
  have hM : 2 ^ 64 ≤ 2 ^ (64 * 416) := Nat.pow_le_pow_right (by norm_num) (by norm_num)
  rw [h3]
  simp only [List.foldl_cons, List.foldl_nil, AccOp.nat, e1, e5, e3, hv]
  rw [show (2 ^ (64 * 416) + 5) * 3 = 15 + 3 * 2 ^ (64 * 416) by ring, Nat.add_mul_mod_self_right, Nat.mod_eq_of_lt]
  generalize 2 ^ (64 * 416) = M at *
  omega

end BigInt
end Lexi
