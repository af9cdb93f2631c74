import Verif.Model.BigThrow
import Verif.Proofs.BigMul
import Verif.Spec.BigThrow

/-!
# Lemmas on the objects left behind by exceptions (C100)
-/

namespace Lexi
namespace BigInt
namespace Left

@[simp] theorem done_bind {α β : Type} (a : α) (f : α → Left β) : (done a >>= f) = f a := rfl
@[simp] theorem thrown_bind {α β : Type} (b : BigInt) (f : α → Left β) : (thrown b >>= f) = thrown b := rfl
@[simp] theorem ub_bind {α β : Type} (f : α → Left β) : ((ub : Left α) >>= f) = ub := rfl
@[simp] theorem res_done {α : Type} (a : α) : (done a).res = .ok a := rfl
@[simp] theorem res_thrown {α : Type} (b : BigInt) : (thrown b : Left α).res = .throws := rfl
@[simp] theorem res_ub {α : Type} : (ub : Left α).res = .ub := rfl
@[simp] theorem mem_ok {α : Type} (a : α) : mem (.ok a) = done a := rfl

theorem bind_assoc' {α β γ : Type} (x : Left α) (f : α → Left β) (g : β → Left γ) :
    x >>= f >>= g = x >>= fun a => f a >>= g := by
  cases x <;> rfl

theorem res_bind {α β : Type} (x : Left α) (f : α → Left β) : (x >>= f).res = x.res >>= fun a => (f a).res := by
  cases x <;> rfl

theorem res_ite {α : Type} {c : Prop} [Decidable c] (x y : Left α) :
    (if c then x else y).res = if c then x.res else y.res := by
  split <;> rfl

theorem res_mem {α : Type} {r : Res α} (h : r ≠ .throws) : (mem r).res = r := by
  cases r <;> first | rfl | exact absurd rfl h

end Left

theorem rd_nt (b : BigInt) (i : ℕ) : rd b i ≠ .throws := by unfold rd; split <;> simp
theorem wr_nt (b : BigInt) (i : ℕ) (w : UInt64) : wr b i w ≠ .throws := by unfold wr; split <;> simp
theorem memmove_nt (b : BigInt) (x y z : ℕ) : memmove b x y z ≠ .throws := by unfold memmove; split <;> simp
theorem memzero_nt (b : BigInt) (x : ℕ) : memzero b x ≠ .throws := by unfold memzero; split <;> simp

theorem genLoop_nt (f : UInt64 → UInt64 → UInt64 × UInt64) (n : ℕ) : ∀ i k b, genLoop f n i k b ≠ .throws := by
  induction n with
  | zero => intro i k b; simp [genLoop]
  | succ n ih =>
    intro i k b
    rw [genLoop]
    unfold rd wr
    by_cases h : i < CAPACITY
    · rw [if_pos h, Res.ok_bind, if_pos h, Res.ok_bind]
      exact ih _ _ _
    · rw [if_neg h]; simp

theorem shlLoop_nt (o s : ℕ) (n : ℕ) : ∀ b, shlLoop o s n b ≠ .throws := by
  induction n with
  | zero => intro b; simp [shlLoop]
  | succ n ih =>
    intro b
    rw [shlLoop]
    unfold rd wr
    by_cases h1 : n + 1 < CAPACITY
    · rw [if_pos h1, Res.ok_bind, if_pos (by omega), Res.ok_bind]
      by_cases h2 : n + 1 + o < CAPACITY
      · rw [if_pos h2, Res.ok_bind]; exact ih _
      · rw [if_neg h2]; simp
    · rw [if_neg h1]; simp

/-! ### Forgetting the object -/

theorem pushBackL_res (b : BigInt) (d : UInt64) : (pushBackL b d).res = pushBack b d := by
  unfold pushBackL pushBack
  rw [Left.res_ite, Left.res_bind, Left.res_mem (wr_nt _ _ _)]
  rfl

theorem addLoopL_res (n : ℕ) : ∀ i k b, (addLoopL n i k b).res = addLoop n i k b := by
  induction n with
  | zero =>
    intro i k b
    rw [addLoopL, addLoop, Left.res_bind, Left.res_mem (rd_nt _ _)]
    simp only [Left.res_ite, pushBackL_res, Left.res_done]
  | succ n ih =>
    intro i k b
    rw [addLoopL, addLoop]
    simp only [Left.res_bind, Left.res_mem (rd_nt _ _), Left.res_mem (wr_nt _ _ _), Left.res_ite, ih, Left.res_done]

theorem addL_res (b : BigInt) (d : UInt64) : (addL b d).res = add b d := by
  unfold addL add
  simp only [Left.res_ite, Left.res_bind, Left.res_mem (rd_nt _ _), Left.res_mem (wr_nt _ _ _), addLoopL_res, Left.res_ub]

theorem mul64L_res (v : MulImpl) (b : BigInt) (d : UInt64) : (mul64L v b d).res = mul64 v b d := by
  unfold mul64L mul64
  simp only [mulLoop_gen, Left.res_ite, Left.res_bind, Left.res_mem (genLoop_nt _ _ _ _ _), pushBackL_res, Left.res_done]

theorem mul32L_res (b : BigInt) (d : UInt32) : (mul32L b d).res = mul32 b d := by
  unfold mul32L mul32
  simp only [mul32Loop_gen, Left.res_ite, Left.res_bind, Left.res_mem (genLoop_nt _ _ _ _ _), pushBackL_res, Left.res_done]

theorem shlL_res (b : BigInt) (s : ℕ) : (shlL b s).res = shl b s := by
  unfold shlL shl
  simp only [Left.res_ite, Left.res_bind, Left.res_mem (rd_nt _ _), Left.res_mem (wr_nt _ _ _), Left.res_mem (memmove_nt _ _ _ _),
    Left.res_mem (memzero_nt _ _), Left.res_mem (shlLoop_nt _ _ _ _), Left.res_done, Left.res_ub, Left.res_thrown]

theorem pow5Loop27L_res (v : MulImpl) (fuel : ℕ) : ∀ e b, (pow5Loop27L v fuel e b).res = pow5Loop27 v fuel e b := by
  induction fuel with
  | zero => intro e b; rw [pow5Loop27L.eq_def, pow5Loop27.eq_def]; dsimp only; rw [Left.res_ite]; rfl
  | succ fuel ih =>
    intro e b
    rw [pow5Loop27L.eq_def, pow5Loop27.eq_def]; dsimp only
    simp only [Left.res_ite, Left.res_bind, mul64L_res, ih, Left.res_done]

theorem pow5Loop13L_res (fuel : ℕ) : ∀ e b, (pow5Loop13L fuel e b).res = pow5Loop13 fuel e b := by
  induction fuel with
  | zero => intro e b; rw [pow5Loop13L.eq_def, pow5Loop13.eq_def]; dsimp only; rw [Left.res_ite]; rfl
  | succ fuel ih =>
    intro e b
    rw [pow5Loop13L.eq_def, pow5Loop13.eq_def]; dsimp only
    simp only [Left.res_ite, Left.res_bind, mul32L_res, ih, Left.res_done]

theorem mulPow5L_res (v : MulImpl) (b : BigInt) (e : ℕ) : (mulPow5L v b e).res = mulPow5 v b e := by
  unfold mulPow5L mulPow5
  simp only [Left.res_ite, Left.res_bind, pow5Loop27L_res, pow5Loop13L_res, Left.res_done]
  congr 2
  funext r
  congr 1
  funext r
  congr 1
  cases POWER5[r.2 - 1]? with
  | none => rfl
  | some d => exact mul32L_res _ _

/-! ### What is left -/

/-- What every object has, also after an exception: a word count between 1 and the capacity. -/
def Weak (b : BigInt) : Prop := 1 ≤ b.count ∧ b.count ≤ CAPACITY

theorem Inv.weak {b : BigInt} (h : Inv b) : Weak b := ⟨h.pos, h.le⟩

theorem Weak.value_lt {b : BigInt} (h : Weak b) : b.value < 2 ^ (64 * CAPACITY) :=
  lt_of_lt_of_le (BigInt.value_lt b) (Nat.pow_le_pow_right (by norm_num) (by have := h.2; omega))

/-- Outcome of an operation whose exact result is `T`: it stores `T`, or throws because `T` does not fit and leaves
all words in use and `T` modulo the capacity. -/
def Leaves (r : Left BigInt) (T : ℕ) : Prop :=
  (∃ b', r = .done b' ∧ Weak b' ∧ b'.value = T) ∨
  (∃ b', r = .thrown b' ∧ b'.count = CAPACITY ∧ 2 ^ (64 * CAPACITY) ≤ T ∧ b'.value = T % 2 ^ (64 * CAPACITY))

theorem pushBackL_spec {b : BigInt} (h : Weak b) (d : UInt64) (hd : d ≠ 0) :
    Leaves (pushBackL b d) (b.value + d.toNat * 2 ^ (64 * b.count)) := by
  unfold pushBackL
  have hc := h.2
  by_cases hlt : b.count < CAPACITY
  · left
    rw [if_neg (by simpa using hlt), wr_ok hlt]
    refine ⟨_, rfl, ⟨by simp, hlt⟩, ?_⟩
    simp only [value]
    rw [wordsValue, wordsValue_upd_ge _ _ _ _ le_rfl, upd_same]
  · right
    rw [if_pos hlt]
    have e : b.count = CAPACITY := by omega
    have hp := toNat_pos_of_ne hd
    refine ⟨b, rfl, e, ?_, ?_⟩
    · rw [e]
      nlinarith [Nat.one_le_two_pow (n := 64 * CAPACITY)]
    · rw [e, Nat.add_mul_mod_self_right, Nat.mod_eq_of_lt h.value_lt]

theorem addLoopL_spec (n : ℕ) : ∀ (i : ℕ) (backup : UInt64) (b : BigInt), Weak b → i + n + 1 = b.count →
    Leaves (addLoopL n i backup b) (b.value + if b.digits i < backup then 2 ^ (64 * (i + 1)) else 0) := by
  induction n with
  | zero =>
    intro i backup b h hi
    have hle := h.2
    have e : b.count - 1 = i := by omega
    rw [addLoopL, e, rd_ok (by omega)]
    simp only [Left.mem_ok, Left.done_bind]
    by_cases hlt : b.digits i < backup
    · rw [if_pos hlt, if_pos hlt]
      have := pushBackL_spec h 1 (by decide)
      rw [show i + 1 = b.count by omega]
      simpa using this
    · rw [if_neg hlt, if_neg hlt]
      left
      exact ⟨b, rfl, h, rfl⟩
  | succ n ih =>
    intro i backup b h hi
    have hle := h.2
    rw [addLoopL, rd_ok (by omega)]
    simp only [Left.mem_ok, Left.done_bind]
    by_cases hlt : b.digits i < backup
    · have hnge : ¬ b.digits i ≥ backup := by
        rw [ge_iff_le, UInt64.le_iff_toNat_le]; rw [UInt64.lt_iff_toNat_lt] at hlt; omega
      rw [if_neg hnge, if_pos hlt, rd_ok (by omega), Left.mem_ok, Left.done_bind, wr_ok (by omega), Left.mem_ok, Left.done_bind]
      have hu := wordsValue_upd b.digits (i + 1) b.count (b.digits (i + 1) + 1) (by omega)
      have hw : ((b.digits (i + 1) + 1 : UInt64)).toNat +
          (if (b.digits (i + 1) + 1 : UInt64) < b.digits (i + 1) then 2 ^ 64 else 0) =
          (b.digits (i + 1)).toNat + 1 := by
        have := (b.digits (i + 1)).toNat_lt
        simp only [UInt64.lt_iff_toNat_lt, UInt64.toNat_add]
        rw [show (1 : UInt64).toNat = 1 from rfl]
        split <;> omega
      have hT : (⟨upd b.digits (i + 1) (b.digits (i + 1) + 1), b.count⟩ : BigInt).value +
          (if (upd b.digits (i + 1) (b.digits (i + 1) + 1)) (i + 1) < b.digits (i + 1)
            then 2 ^ (64 * (i + 1 + 1)) else 0) = b.value + 2 ^ (64 * (i + 1)) := by
        rw [upd_same]
        simp only [value]
        rw [pow64_succ (i + 1)]
        generalize 2 ^ (64 * (i + 1)) = P at hu ⊢
        have hw' := congrArg (· * P) hw
        simp only [add_mul, one_mul] at hw'
        by_cases hh : b.digits (i + 1) + 1 < b.digits (i + 1)
        · rw [if_pos hh] at hw' ⊢
          linarith
        · rw [if_neg hh] at hw' ⊢
          linarith
      have := ih (i + 1) (b.digits (i + 1)) ⟨upd b.digits (i + 1) (b.digits (i + 1) + 1), b.count⟩ h (by simp only; omega)
      rw [hT] at this
      exact this
    · have hge : b.digits i ≥ backup := by
        rw [ge_iff_le, UInt64.le_iff_toNat_le]; rw [UInt64.lt_iff_toNat_lt] at hlt; omega
      rw [if_pos hge, if_neg hlt]
      left
      exact ⟨b, rfl, h, rfl⟩

theorem addL_spec {b : BigInt} (h : Weak b) (d : UInt64) : Leaves (addL b d) (b.value + d.toNat) := by
  have hp := h.1
  have hle := h.2
  unfold addL
  rw [if_neg (by omega), rd_ok (by omega), Left.mem_ok, Left.done_bind, wr_ok (by omega), Left.mem_ok, Left.done_bind]
  have hu := wordsValue_upd b.digits 0 b.count (b.digits 0 + d) (by omega)
  have hT : (⟨upd b.digits 0 (b.digits 0 + d), b.count⟩ : BigInt).value +
      (if (upd b.digits 0 (b.digits 0 + d)) 0 < b.digits 0 then 2 ^ (64 * (0 + 1)) else 0) = b.value + d.toNat := by
    rw [upd_same]
    simp only [value]
    have h1 := (b.digits 0).toNat_lt
    have h2 := d.toNat_lt
    simp only [UInt64.lt_iff_toNat_lt, UInt64.toNat_add] at hu ⊢
    split <;> omega
  have := addLoopL_spec (b.count - 1) 0 (b.digits 0) ⟨upd b.digits 0 (b.digits 0 + d), b.count⟩ h (by simp only; omega)
  rw [hT] at this
  exact this

theorem gen_mulL (f : UInt64 → UInt64 → UInt64 × UInt64) (d : ℕ) (K : UInt64 → Prop)
    (hf : ∀ w k, K k → (f w k).1.toNat + 2 ^ 64 * (f w k).2.toNat = w.toNat * d + k.toNat ∧ K (f w k).2) (h0 : K 0)
    {b : BigInt} (h : Weak b) :
    Leaves (do
      let r ← Left.mem (genLoop f b.count 0 0 b)
      if r.2 > 0 then pushBackL r.1 r.2 else .done r.1) (b.value * d) := by
  obtain ⟨m, k', hr, hv⟩ := genLoop_spec f d K hf b.count 0 0 b h0 (by have := h.2; omega)
  rw [hr, Left.mem_ok, Left.done_bind]
  simp only [Nat.zero_add, Nat.mul_zero, Nat.pow_zero, one_mul, wordsValue] at hv
  have hv2 : (⟨m, b.count⟩ : BigInt).value + k'.toNat * 2 ^ (64 * b.count) = b.value * d := by
    simp only [value]
    rw [hv]; simp; ring
  dsimp only
  by_cases hk : k' = 0
  · rw [if_neg (by rw [hk]; decide)]
    left
    refine ⟨_, rfl, h, ?_⟩
    rw [hk] at hv2; simpa using hv2
  · rw [if_pos (by rw [gt_iff_lt, UInt64.lt_iff_toNat_lt]; exact toNat_pos_of_ne hk)]
    have := pushBackL_spec (b := ⟨m, b.count⟩) h k' hk
    simp only at this
    rw [hv2] at this
    exact this

theorem eqWord_one_value {b : BigInt} (h : b.eqWord 1 = true) : b.value = 1 := by
  simp only [eqWord, Bool.and_eq_true, beq_iff_eq] at h
  simp [value, h.1, wordsValue, h.2]

theorem mul64L_spec (v : MulImpl) {b : BigInt} (h : Weak b) (d : UInt64) : Leaves (mul64L v b d) (b.value * d.toNat) := by
  unfold mul64L
  by_cases h0 : d = 0
  · rw [if_pos h0, h0]; left
    exact ⟨_, rfl, (assignWord_inv _ _).weak, by rw [assignWord_value]; simp⟩
  rw [if_neg h0]
  by_cases h1 : d = 1
  · rw [if_pos h1, h1]; left
    exact ⟨_, rfl, h, by simp⟩
  rw [if_neg h1]
  by_cases h2 : b.eqWord 1 = true
  · rw [if_pos h2]; left
    refine ⟨_, rfl, (assignWord_inv _ _).weak, ?_⟩
    rw [assignWord_value, eqWord_one_value h2]; simp
  rw [if_neg h2]
  simp only [mulLoop_gen]
  exact gen_mulL _ d.toNat (fun _ => True) (fun w k _ => ⟨by simpa using mulAdd_spec v w d k, trivial⟩) trivial h

theorem mul32L_spec {b : BigInt} (h : Weak b) (d : UInt32) : Leaves (mul32L b d) (b.value * d.toNat) := by
  have hd : d.toUInt64.toNat = d.toNat := by simp
  have hdl : d.toUInt64.toNat < 2 ^ 32 := by rw [hd]; exact d.toNat_lt
  unfold mul32L
  by_cases h0 : d = 0
  · rw [if_pos h0, h0]; left
    exact ⟨_, rfl, (assignWord_inv _ _).weak, by rw [assignWord_value]; simp⟩
  rw [if_neg h0]
  by_cases h1 : d = 1
  · rw [if_pos h1, h1]; left
    exact ⟨_, rfl, h, by simp⟩
  rw [if_neg h1]
  by_cases h2 : b.eqWord 1 = true
  · rw [if_pos h2]; left
    refine ⟨_, rfl, (assignWord_inv _ _).weak, ?_⟩
    rw [assignWord_value, eqWord_one_value h2]; simp
  rw [if_neg h2]
  simp only [mul32Loop_gen]
  exact gen_mulL _ d.toNat (fun k => k.toNat < 2 ^ 32)
    (fun w k hk => by have := step32_spec d.toUInt64 w k hdl hk; rw [hd] at this; exact this) (by decide) h

/-- Outcome of multiplying `b` by `5 ^ e` in steps. -/
def Pow5Leaves (C : ℕ → Prop) (r : Left BigInt) (V e : ℕ) : Prop :=
  (∃ b', r = .done b' ∧ Weak b' ∧ b'.value = V * 5 ^ e) ∨
  (∃ b' j, r = .thrown b' ∧ b'.count = CAPACITY ∧ C j ∧ j ≤ e ∧ 2 ^ (64 * CAPACITY) ≤ V * 5 ^ j ∧
    (∀ i < j, C i → V * 5 ^ i < 2 ^ (64 * CAPACITY)) ∧ b'.value = V * 5 ^ j % 2 ^ (64 * CAPACITY))

theorem Pow5Leaves.of_leaves {C : ℕ → Prop} {r : Left BigInt} {V e : ℕ} (hV : V < 2 ^ (64 * CAPACITY)) (hC : C e)
    (hmin : ∀ i < e, C i → i = 0) (h : Leaves r (V * 5 ^ e)) : Pow5Leaves C r V e := by
  rcases h with h | ⟨b', h1, h2, h3, h4⟩
  · exact Or.inl h
  · refine Or.inr ⟨b', e, h1, h2, hC, le_rfl, h3, fun i hi hci => ?_, h4⟩
    rw [hmin i hi hci]; simpa using hV

/-- One step of `s` powers, then the rest. -/
theorem Pow5Leaves.step {C C' : ℕ → Prop} {x : Left BigInt} {f : BigInt → Left BigInt} {V s e : ℕ}
    (hV : V < 2 ^ (64 * CAPACITY)) (hx : Leaves x (V * 5 ^ s)) (hCs : C s)
    (hC : ∀ i, C (s + i) ↔ C' i) (hlow : ∀ i < s, C i → i = 0)
    (hf : ∀ b, Weak b → b.value = V * 5 ^ s → Pow5Leaves C' (f b) (V * 5 ^ s) e) : Pow5Leaves C (x >>= f) V (s + e) := by
  rcases hx with ⟨b', rfl, hw, hv⟩ | ⟨b', rfl, h2, h3, h4⟩
  · rw [Left.done_bind]
    rcases hf b' hw hv with ⟨c, h1, h2, h3⟩ | ⟨c, j, h1, h2, h3, h4, h5, h6, h7⟩
    · exact Or.inl ⟨c, h1, h2, by rw [h3, pow_add, mul_assoc]⟩
    · rw [mul_assoc, ← pow_add] at h5 h7
      refine Or.inr ⟨c, s + j, h1, h2, (hC j).mpr h3, by omega, h5, fun i hi hci => ?_, h7⟩
      by_cases his : i < s
      · rw [hlow i his hci]; simpa using hV
      · obtain ⟨t, rfl⟩ := Nat.exists_eq_add_of_le (Nat.le_of_not_lt his)
        have := h6 t (by omega) ((hC t).mp hci)
        rwa [mul_assoc, ← pow_add] at this
  · refine Or.inr ⟨b', s, rfl, h2, hCs, by omega, h3, fun i hi hci => ?_, h4⟩
    rw [hlow i hi hci]; simpa using hV

/-- The steps of the second loop and the rest. -/
def Check13 (e j : ℕ) : Prop := (13 ∣ j ∧ j ≤ e) ∨ j = e

theorem pow5TailL_spec {b : BigInt} (h : Weak b) {e : ℕ} (he : e < 13) :
    Pow5Leaves (Check13 e) (if e > 0 then match POWER5[e - 1]? with
      | some d => mul32L b d
      | none => .ub
     else .done b) b.value e := by
  by_cases h0 : e > 0
  · rw [if_pos h0]
    obtain ⟨d, hd, hv⟩ := POWER5_get e h0 he
    rw [hd]
    refine Pow5Leaves.of_leaves h.value_lt (Or.inr rfl) (fun i hi hc => ?_) (by rw [← hv]; exact mul32L_spec h d)
    rcases hc with ⟨⟨k, rfl⟩, _⟩ | hc <;> omega
  · rw [if_neg h0, show e = 0 by omega]
    left; exact ⟨b, rfl, h, by simp⟩

theorem pow5Loop13L_spec (fuel : ℕ) : ∀ (e : ℕ) (b : BigInt), Weak b → e ≤ fuel →
    Pow5Leaves (Check13 e) (do
      let r ← pow5Loop13L fuel e b
      if r.2 > 0 then match POWER5[r.2 - 1]? with
        | some d => mul32L r.1 d
        | none => .ub
      else .done r.1) b.value e := by
  induction fuel with
  | zero =>
    intro e b h he
    rw [pow5Loop13L.eq_def]; dsimp only; rw [if_neg (by omega), Left.done_bind]
    exact pow5TailL_spec h (by omega)
  | succ fuel ih =>
    intro e b h he
    rw [pow5Loop13L.eq_def]; dsimp only
    by_cases h13 : 13 ≤ e
    · rw [if_pos h13, Left.bind_assoc']
      obtain ⟨t, rfl⟩ := Nat.exists_eq_add_of_le h13
      have hm := mul32L_spec h 1220703125
      rw [pow5_13] at hm
      refine Pow5Leaves.step (C' := Check13 t) h.value_lt hm (Or.inl ⟨dvd_rfl, h13⟩) ?_ ?_ ?_
      · intro i
        unfold Check13
        rw [Nat.dvd_add_right dvd_rfl]
        constructor <;> rintro (⟨h1, h2⟩ | h1)
        · exact Or.inl ⟨h1, by omega⟩
        · exact Or.inr (by omega)
        · exact Or.inl ⟨h1, by omega⟩
        · exact Or.inr (by omega)
      · rintro i hi (⟨⟨k, rfl⟩, _⟩ | hc) <;> omega
      · intro b' hw hv
        rw [Nat.add_sub_cancel_left, ← hv]
        exact ih t b' hw (by omega)
    · rw [if_neg h13, Left.done_bind]
      exact pow5TailL_spec h (by omega)

theorem checkpoint_small {e : ℕ} (h : e < 27) (j : ℕ) : Check13 e j ↔ Checkpoint e j := by
  unfold Check13 Checkpoint
  rw [Nat.div_eq_of_lt h]
  constructor
  · rintro (⟨⟨k, rfl⟩, h2⟩ | h2)
    · exact Or.inr (Or.inl ⟨k, by omega, h2⟩)
    · exact Or.inr (Or.inr h2)
  · rintro (⟨⟨k, rfl⟩, h2⟩ | ⟨k, rfl, h2⟩ | h2)
    · exact Or.inl ⟨⟨0, by omega⟩, h2⟩
    · exact Or.inl ⟨⟨k, by omega⟩, h2⟩
    · exact Or.inr h2

theorem Pow5Leaves.congr {C C' : ℕ → Prop} {r : Left BigInt} {V e : ℕ} (hC : ∀ j, C j ↔ C' j) (h : Pow5Leaves C r V e) :
    Pow5Leaves C' r V e := by
  have : C = C' := funext fun j => propext (hC j)
  rwa [← this]

theorem pow5Loop27L_spec (v : MulImpl) (fuel : ℕ) : ∀ (e : ℕ) (b : BigInt), Weak b → e ≤ fuel →
    Pow5Leaves (Checkpoint e) (do
      let r ← pow5Loop27L v fuel e b
      let r ← pow5Loop13L r.2 r.2 r.1
      if r.2 > 0 then match POWER5[r.2 - 1]? with
        | some d => mul32L r.1 d
        | none => .ub
      else .done r.1) b.value e := by
  induction fuel with
  | zero =>
    intro e b h he
    rw [pow5Loop27L.eq_def]; dsimp only; rw [if_neg (by omega), Left.done_bind]
    exact (pow5Loop13L_spec _ _ _ h le_rfl).congr (checkpoint_small (by omega))
  | succ fuel ih =>
    intro e b h he
    rw [pow5Loop27L.eq_def]; dsimp only
    by_cases h27 : 27 ≤ e
    · rw [if_pos h27, Left.bind_assoc']
      obtain ⟨t, rfl⟩ := Nat.exists_eq_add_of_le h27
      have hm := mul64L_spec v h 0x6765C793FA10079D
      rw [pow5_27] at hm
      refine Pow5Leaves.step (C' := Checkpoint t) h.value_lt hm (Or.inl ⟨dvd_rfl, h27⟩) ?_ ?_ ?_
      · intro i
        unfold Checkpoint
        rw [Nat.dvd_add_right dvd_rfl, show (27 + t) / 27 = t / 27 + 1 by omega]
        constructor
        · rintro (⟨h1, h2⟩ | ⟨k, h1, h2⟩ | h1)
          · exact Or.inl ⟨h1, by omega⟩
          · exact Or.inr (Or.inl ⟨k, by omega, by omega⟩)
          · exact Or.inr (Or.inr (by omega))
        · rintro (⟨h1, h2⟩ | ⟨k, h1, h2⟩ | h1)
          · exact Or.inl ⟨h1, by omega⟩
          · exact Or.inr (Or.inl ⟨k, by omega, by omega⟩)
          · exact Or.inr (Or.inr (by omega))
      · rintro i hi (⟨⟨k, rfl⟩, _⟩ | ⟨k, hc, _⟩ | hc) <;> omega
      · intro b' hw hv
        rw [Nat.add_sub_cancel_left, ← hv]
        exact ih t b' hw (by omega)
    · rw [if_neg h27, Left.done_bind]
      exact (pow5Loop13L_spec _ _ _ h le_rfl).congr (checkpoint_small (by omega))

theorem mulPow5L_spec (v : MulImpl) {b : BigInt} (h : Weak b) (e : ℕ) :
    Pow5Leaves (Checkpoint e) (mulPow5L v b e) b.value e := by
  unfold mulPow5L
  by_cases h0 : e = 0
  · rw [if_pos h0, h0]; left; exact ⟨b, rfl, h, by simp⟩
  · rw [if_neg h0]
    exact pow5Loop27L_spec v e e b h le_rfl

end BigInt
end Lexi
