import Verif.Model.Itoa
import Verif.Proofs.Decimal

/-! # Integer formatting writes the canonical numeral -/

namespace Lexi

/-- Sequential writes through a cursor. -/
def Cur.puts (b : Cur) : Bytes → Res Cur
  | [] => .ok b
  | c :: cs => b.put c >>= fun b => Cur.puts b cs

@[simp] theorem Cur.puts_nil (b : Cur) : b.puts [] = .ok b := rfl
theorem Cur.puts_cons (b : Cur) (c : UInt8) (cs : Bytes) :
    b.puts (c :: cs) = (b.put c >>= fun b => b.puts cs) := rfl

theorem Cur.puts_append (b : Cur) (cs ds : Bytes) :
    b.puts (cs ++ ds) = (b.puts cs >>= fun b => b.puts ds) := by
  induction cs generalizing b with
  | nil => rfl
  | cons c cs ih =>
    simp only [List.cons_append, Cur.puts_cons, Res.bind_assoc', ih]

theorem Cur.puts_ok (b : Cur) (cs : Bytes) (h : b.pos + cs.length ≤ b.mem.length) :
    b.puts cs = .ok ⟨b.mem.take b.pos ++ cs ++ b.mem.drop (b.pos + cs.length), b.pos + cs.length⟩ := by
  induction cs generalizing b with
  | nil => simp
  | cons c cs ih =>
    have hlt : b.pos < b.mem.length := by simp at h; omega
    rw [Cur.puts_cons, Cur.put, if_pos hlt, Res.ok_bind, ih _ (by simp at h ⊢; omega)]
    congr 1
    have e : b.pos + 1 + cs.length = b.pos + (c :: cs).length := by simp; omega
    simp only [e]
    congr 1
    rw [List.take_add_one, List.take_set_of_le (by omega), List.getElem?_set_self hlt,
      List.drop_set_of_lt (by simp)]
    simp

theorem Cur.puts_ub (b : Cur) (cs : Bytes) (hp : b.pos ≤ b.mem.length)
    (h : b.mem.length < b.pos + cs.length) : b.puts cs = .ub := by
  induction cs generalizing b with
  | nil => simp at h; omega
  | cons c cs ih =>
    rw [Cur.puts_cons, Cur.put]
    split
    · rw [Res.ok_bind]; exact ih _ (by simp; omega) (by simp at h ⊢; omega)
    · rfl

namespace Itoa
open Spec

theorem table_even (n : Nat) (h : n < 100) : DIGITS[2 * n]? = some (dig (n / 10)) := by
  have : ∀ n : Fin 100, DIGITS[2 * n.1]? = some (dig (n.1 / 10)) := by decide
  exact this ⟨n, h⟩

theorem table_odd (n : Nat) (h : n < 100) : DIGITS[2 * n + 1]? = some (dig (n % 10)) := by
  have : ∀ n : Fin 100, DIGITS[2 * n.1 + 1]? = some (dig (n.1 % 10)) := by decide
  exact this ⟨n, h⟩

theorem shl1_toNat (x : UInt32) (h : x.toNat < 100) : (x <<< 1).toNat = 2 * x.toNat := by
  rw [UInt32.toNat_shiftLeft]
  simp [Nat.shiftLeft_eq]
  omega

theorem putD_even (b : Cur) (x : UInt32) (h : x.toNat < 100) :
    putD b (x <<< 1) = b.put (dig (x.toNat / 10)) := by
  rw [putD, digitAt, shl1_toNat x h, table_even _ h]; rfl

theorem putD_odd (b : Cur) (x : UInt32) (h : x.toNat < 100) :
    putD b (x <<< 1 + 1) = b.put (dig (x.toNat % 10)) := by
  have e : (x <<< 1 + 1).toNat = 2 * x.toNat + 1 := by
    rw [UInt32.toNat_add, shl1_toNat x h]; simp; omega
  rw [putD, digitAt, e, table_odd _ h]; rfl

theorem putChar_eq (b : Cur) (x : UInt32) (h : x.toNat < 10) :
    putChar b x = b.put (dig x.toNat) := by
  rw [putChar]; congr 1
  apply UInt8.toNat_inj.mp
  rw [dig_toNat _ h, UInt8.toNat_add]
  simp; omega

theorem put_eq_puts (b : Cur) (c : UInt8) : b.put c = b.puts [c] := by
  rw [Cur.puts_cons]; cases b.put c <;> rfl

theorem put_bind_puts (b : Cur) (c : UInt8) (cs : Bytes) :
    (b.put c >>= fun b => b.puts cs) = b.puts (c :: cs) := rfl

theorem putDIf_even (c : Bool) (b : Cur) (x : UInt32) (h : x.toNat < 100) :
    putDIf c b (x <<< 1) = b.puts (if c then [dig (x.toNat / 10)] else []) := by
  cases c
  · rfl
  · simp only [putDIf, if_true]; rw [putD_even _ _ h, put_eq_puts]

theorem putDIf_odd (c : Bool) (b : Cur) (x : UInt32) (h : x.toNat < 100) :
    putDIf c b (x <<< 1 + 1) = b.puts (if c then [dig (x.toNat % 10)] else []) := by
  cases c
  · rfl
  · simp only [putDIf, if_true]; rw [putD_odd _ _ h, put_eq_puts]

theorem puts_congr (b : Cur) {cs ds : Bytes} (h : cs = ds) : b.puts cs = b.puts ds := by rw [h]

theorem decN_split (k n : Nat) (h : 10 ^ k ≤ n) : decN n = decN (n / 10 ^ k) ++ decW k n := by
  induction k generalizing n with
  | zero => simp [decW]
  | succ k ih =>
    have h10 : 10 ^ (k + 1) = 10 ^ k * 10 := Nat.pow_succ ..
    have hp : 0 < 10 ^ k := Nat.pow_pos (by omega)
    rw [decN, dif_neg (by omega), ih (n / 10) (by omega), decW, Nat.div_div_eq_div_mul,
      Nat.mul_comm 10, ← h10, List.append_assoc]

theorem sing_congr {a b : Nat} (h : a = b) : dig a = dig b := by rw [h]

theorem dec4 (n : Nat) (h : n < 10000) :
    (if 1000 ≤ n then [dig (n / 100 / 10)] else []) ++
      ((if 100 ≤ n then [dig (n / 100 % 10)] else []) ++
        ((if 10 ≤ n then [dig (n % 100 / 10)] else []) ++ [dig (n % 100 % 10)])) = decN n := by
  by_cases h1 : n < 10
  · rw [decN_eq_decW 0 n (by omega) (by omega)]
    rw [if_neg (by omega), if_neg (by omega), if_neg (by omega)]
    simp [decW]
  by_cases h2 : n < 100
  · rw [decN_eq_decW 1 n (by omega) (by omega)]
    rw [if_neg (by omega), if_neg (by omega), if_pos (by omega)]
    simp only [decW, List.nil_append, List.cons_append, List.cons.injEq, and_true]
    refine ⟨?_, ?_⟩ <;> (apply sing_congr; omega)
  by_cases h3 : n < 1000
  · rw [decN_eq_decW 2 n (by omega) (by omega)]
    rw [if_neg (by omega), if_pos (by omega), if_pos (by omega)]
    simp only [decW, List.nil_append, List.cons_append, List.cons.injEq, and_true]
    refine ⟨?_, ?_, ?_⟩ <;> (apply sing_congr; omega)
  · rw [decN_eq_decW 3 n (by omega) (by omega)]
    rw [if_pos (by omega), if_pos (by omega), if_pos (by omega)]
    simp only [decW, List.nil_append, List.cons_append, List.cons.injEq, and_true]
    refine ⟨?_, ?_, ?_, ?_⟩ <;> (apply sing_congr; omega)

theorem decW4 (n : Nat) :
    decW 4 n = [dig (n % 10000 / 100 / 10), dig (n % 10000 / 100 % 10),
      dig (n % 10000 % 100 / 10), dig (n % 10000 % 100 % 10)] := by
  simp only [decW, List.nil_append, List.cons_append, List.cons.injEq, and_true]
  refine ⟨?_, ?_, ?_, ?_⟩ <;> (apply sing_congr; omega)

theorem decW8 (n : Nat) :
    decW 8 n = [dig (n % 100000000 / 10000 / 100 / 10), dig (n % 100000000 / 10000 / 100 % 10),
      dig (n % 100000000 / 10000 % 100 / 10), dig (n % 100000000 / 10000 % 100 % 10),
      dig (n % 100000000 % 10000 / 100 / 10), dig (n % 100000000 % 10000 / 100 % 10),
      dig (n % 100000000 % 10000 % 100 / 10), dig (n % 100000000 % 10000 % 100 % 10)] := by
  simp only [decW, List.nil_append, List.cons_append, List.cons.injEq, and_true]
  refine ⟨?_, ?_, ?_, ?_, ?_, ?_, ?_, ?_⟩ <;> (apply sing_congr; omega)

theorem decW_add (j k n : Nat) : decW (j + k) n = decW j (n / 10 ^ k) ++ decW k n := by
  induction k generalizing n with
  | zero => simp [decW]
  | succ k ih =>
    rw [← Nat.add_assoc, decW, ih, decW, Nat.div_div_eq_div_mul, Nat.mul_comm 10, ← Nat.pow_succ,
      List.append_assoc]

theorem u32toa_eq (v : UInt32) (b : Cur) : u32toa v b = b.puts (decN v.toNat) := by
  have hv : v.toNat < 2 ^ 32 := v.toNat_lt
  unfold u32toa
  simp only [UInt32.lt_iff_toNat_lt, ge_iff_le, UInt32.le_iff_toNat_le]
  split
  · rename_i h1
    replace h1 : v.toNat < 10000 := h1
    have e1 : (v / 100).toNat = v.toNat / 100 := by rw [UInt32.toNat_div]; rfl
    have e2 : (v % 100).toNat = v.toNat % 100 := by rw [UInt32.toNat_mod]; rfl
    have h1' : (v / 100).toNat < 100 := by omega
    have h2' : (v % 100).toNat < 100 := by omega
    simp only [putDIf_even, putDIf_odd, putD_odd, h1', h2', put_eq_puts, ← Cur.puts_append]
    simp only [e1, e2]
    apply puts_congr
    rw [← dec4 _ h1]
    simp
  · rename_i h0
    replace h0 : ¬ v.toNat < 10000 := h0
    split
    · rename_i h1
      replace h1 : v.toNat < 100000000 := h1
      have e1 : (v / 10000 / 100).toNat = v.toNat / 10000 / 100 := by
        simp [UInt32.toNat_div]
      have e2 : (v / 10000 % 100).toNat = v.toNat / 10000 % 100 := by
        simp [UInt32.toNat_div, UInt32.toNat_mod]
      have e3 : (v % 10000 / 100).toNat = v.toNat % 10000 / 100 := by
        simp [UInt32.toNat_div, UInt32.toNat_mod]
      have e4 : (v % 10000 % 100).toNat = v.toNat % 10000 % 100 := by
        simp [UInt32.toNat_mod]
      have h1' : (v / 10000 / 100).toNat < 100 := by omega
      have h2' : (v / 10000 % 100).toNat < 100 := by omega
      have h3' : (v % 10000 / 100).toNat < 100 := by omega
      have h4' : (v % 10000 % 100).toNat < 100 := by omega
      simp only [putDIf_even, putDIf_odd, putD_odd, putD_even, h1', h2', h3', h4', put_eq_puts,
        ← Cur.puts_append]
      simp only [e1, e2, e3, e4]
      apply puts_congr
      rw [decN_split 4 _ (by omega), ← dec4 _ (by omega), decW4]
      have g1 : UInt32.toNat 10000000 ≤ v.toNat ↔ 1000 ≤ v.toNat / 10 ^ 4 := by simp; omega
      have g2 : UInt32.toNat 1000000 ≤ v.toNat ↔ 100 ≤ v.toNat / 10 ^ 4 := by simp; omega
      have g3 : UInt32.toNat 100000 ≤ v.toNat ↔ 10 ≤ v.toNat / 10 ^ 4 := by simp; omega
      simp only [g1, g2, g3, decide_eq_true_eq, List.append_assoc, List.cons_append, List.nil_append]
    · rename_i h1
      replace h1 : ¬ v.toNat < 100000000 := h1
      have e0 : (v / 100000000).toNat = v.toNat / 100000000 := by
        simp [UInt32.toNat_div]
      have e1 : (v % 100000000 / 10000 / 100).toNat = v.toNat % 100000000 / 10000 / 100 := by
        simp [UInt32.toNat_div, UInt32.toNat_mod]
      have e2 : (v % 100000000 / 10000 % 100).toNat = v.toNat % 100000000 / 10000 % 100 := by
        simp [UInt32.toNat_div, UInt32.toNat_mod]
      have e3 : (v % 100000000 % 10000 / 100).toNat = v.toNat % 100000000 % 10000 / 100 := by
        simp [UInt32.toNat_div, UInt32.toNat_mod]
      have e4 : (v % 100000000 % 10000 % 100).toNat = v.toNat % 100000000 % 10000 % 100 := by
        simp [UInt32.toNat_mod]
      have h0' : (v / 100000000).toNat < 100 := by omega
      have h1' : (v % 100000000 / 10000 / 100).toNat < 100 := by omega
      have h2' : (v % 100000000 / 10000 % 100).toNat < 100 := by omega
      have h3' : (v % 100000000 % 10000 / 100).toNat < 100 := by omega
      have h4' : (v % 100000000 % 10000 % 100).toNat < 100 := by omega
      have hfirst : (if UInt32.toNat 10 ≤ (v / 100000000).toNat then do
            let b ← putD b ((v / 100000000) <<< 1)
            putD b ((v / 100000000) <<< 1 + 1)
          else putChar b (v / 100000000)) = b.puts (decN (v.toNat / 10 ^ 8)) := by
        rw [← dec4 _ (by omega)]
        split
        · rename_i h2
          replace h2 : 10 ≤ (v / 100000000).toNat := h2
          simp only [putD_odd, putD_even, h0', put_eq_puts, ← Cur.puts_append]
          apply puts_congr
          rw [if_neg (by omega), if_neg (by omega), if_pos (by omega), e0]
          simp only [List.nil_append, List.cons_append, List.cons.injEq, and_true]
          refine ⟨?_, ?_⟩ <;> (apply sing_congr; omega)
        · rename_i h2
          replace h2 : ¬ 10 ≤ (v / 100000000).toNat := h2
          rw [putChar_eq _ _ (by omega), put_eq_puts]
          apply puts_congr
          rw [if_neg (by omega), if_neg (by omega), if_neg (by omega), e0]
          simp only [List.nil_append, List.cons.injEq, and_true]
          apply sing_congr; omega
      rw [hfirst]
      simp only [putD_odd, putD_even, h1', h2', h3', h4', put_eq_puts,
        ← Cur.puts_append]
      simp only [e1, e2, e3, e4]
      apply puts_congr
      rw [decN_split 8 v.toNat (by omega), decW8]
      simp only [List.cons_append, List.nil_append]

theorem dec8 (n : Nat) (h1 : 1 ≤ n) (h : n < 100000000) :
    (if 10000000 ≤ n then [dig (n / 10000 / 100 / 10)] else []) ++
    ((if 1000000 ≤ n then [dig (n / 10000 / 100 % 10)] else []) ++
    ((if 100000 ≤ n then [dig (n / 10000 % 100 / 10)] else []) ++
    ((if 10000 ≤ n then [dig (n / 10000 % 100 % 10)] else []) ++
    ((if 1000 ≤ n then [dig (n % 10000 / 100 / 10)] else []) ++
    ((if 100 ≤ n then [dig (n % 10000 / 100 % 10)] else []) ++
    ((if 10 ≤ n then [dig (n % 10000 % 100 / 10)] else []) ++
    (if 1 ≤ n then [dig (n % 10000 % 100 % 10)] else []))))))) = decN n := by
  rw [if_pos h1]
  by_cases h4 : n < 10000
  · rw [if_neg (by omega), if_neg (by omega), if_neg (by omega), if_neg (by omega), ← dec4 n h4]
    have : n % 10000 = n := by omega
    simp only [this, List.nil_append]
  · rw [decN_split 4 n (by omega), ← dec4 _ (by omega), decW4, if_pos (c := 1000 ≤ n) (by omega),
      if_pos (c := 100 ≤ n) (by omega), if_pos (c := 10 ≤ n) (by omega),
      if_pos (c := 10000 ≤ n) (by omega)]
    have g1 : 10000000 ≤ n ↔ 1000 ≤ n / 10 ^ 4 := by omega
    have g2 : 1000000 ≤ n ↔ 100 ≤ n / 10 ^ 4 := by omega
    have g3 : 100000 ≤ n ↔ 10 ≤ n / 10 ^ 4 := by omega
    simp only [g1, g2, g3, List.append_assoc, List.cons_append, List.nil_append, Nat.reducePow]

theorem u64toa_eq (v : UInt64) (b : Cur) : u64toa v b = b.puts (decN v.toNat) := by
  have hv : v.toNat < 2 ^ 64 := v.toNat_lt
  unfold u64toa
  have t8 : TEN8.toNat = 100000000 := rfl
  have t9 : TEN9.toNat = 1000000000 := rfl
  have t10 : TEN10.toNat = 10000000000 := rfl
  have t11 : TEN11.toNat = 100000000000 := rfl
  have t12 : TEN12.toNat = 1000000000000 := rfl
  have t13 : TEN13.toNat = 10000000000000 := rfl
  have t14 : TEN14.toNat = 100000000000000 := rfl
  have t15 : TEN15.toNat = 1000000000000000 := rfl
  have t16 : TEN16.toNat = 10000000000000000 := rfl
  split
  · rename_i h8
    rw [UInt64.lt_iff_toNat_lt, t8] at h8
    have ev : v.toUInt32.toNat = v.toNat := by simp; omega
    have := u32toa_eq v.toUInt32 b
    rw [ev] at this
    rw [← this, u32toa]
    have a1 : v.toUInt32 < 100000000 := by rw [UInt32.lt_iff_toNat_lt, ev]; exact h8
    have c1 : (v ≥ 10000000) = (v.toUInt32 ≥ 10000000) := by
      simp only [ge_iff_le, UInt64.le_iff_toNat_le, UInt32.le_iff_toNat_le, ev]; rfl
    have c2 : (v ≥ 1000000) = (v.toUInt32 ≥ 1000000) := by
      simp only [ge_iff_le, UInt64.le_iff_toNat_le, UInt32.le_iff_toNat_le, ev]; rfl
    have c3 : (v ≥ 100000) = (v.toUInt32 ≥ 100000) := by
      simp only [ge_iff_le, UInt64.le_iff_toNat_le, UInt32.le_iff_toNat_le, ev]; rfl
    simp only [a1, if_true, c1, c2, c3]
  · rename_i h8
    rw [UInt64.lt_iff_toNat_lt, t8] at h8
    split
    · rename_i h16
      rw [UInt64.lt_iff_toNat_lt, t16] at h16
      have e0 : (v / TEN8).toUInt32.toNat = v.toNat / 100000000 := by
        rw [UInt64.toNat_toUInt32, UInt64.toNat_div, t8]; omega
      have e1 : (v % TEN8).toUInt32.toNat = v.toNat % 100000000 := by
        rw [UInt64.toNat_toUInt32, UInt64.toNat_mod, t8]; omega
      generalize (v / TEN8).toUInt32 = v0 at *
      generalize (v % TEN8).toUInt32 = v1 at *
      have f1 : (v0 / 10000 / 100).toNat = v0.toNat / 10000 / 100 := by simp [UInt32.toNat_div]
      have f2 : (v0 / 10000 % 100).toNat = v0.toNat / 10000 % 100 := by
        simp [UInt32.toNat_div, UInt32.toNat_mod]
      have f3 : (v0 % 10000 / 100).toNat = v0.toNat % 10000 / 100 := by
        simp [UInt32.toNat_div, UInt32.toNat_mod]
      have f4 : (v0 % 10000 % 100).toNat = v0.toNat % 10000 % 100 := by simp [UInt32.toNat_mod]
      have f5 : (v1 / 10000 / 100).toNat = v1.toNat / 10000 / 100 := by simp [UInt32.toNat_div]
      have f6 : (v1 / 10000 % 100).toNat = v1.toNat / 10000 % 100 := by
        simp [UInt32.toNat_div, UInt32.toNat_mod]
      have f7 : (v1 % 10000 / 100).toNat = v1.toNat % 10000 / 100 := by
        simp [UInt32.toNat_div, UInt32.toNat_mod]
      have f8 : (v1 % 10000 % 100).toNat = v1.toNat % 10000 % 100 := by simp [UInt32.toNat_mod]
      have g1 : (v0 / 10000 / 100).toNat < 100 := by omega
      have g2 : (v0 / 10000 % 100).toNat < 100 := by omega
      have g3 : (v0 % 10000 / 100).toNat < 100 := by omega
      have g4 : (v0 % 10000 % 100).toNat < 100 := by omega
      have g5 : (v1 / 10000 / 100).toNat < 100 := by omega
      have g6 : (v1 / 10000 % 100).toNat < 100 := by omega
      have g7 : (v1 % 10000 / 100).toNat < 100 := by omega
      have g8 : (v1 % 10000 % 100).toNat < 100 := by omega
      simp only [putDIf_even, putDIf_odd, putD_odd, putD_even, g1, g2, g3, g4, g5, g6, g7, g8,
        put_eq_puts, ← Cur.puts_append]
      simp only [f1, f2, f3, f4, f5, f6, f7, f8, e0, e1]
      apply puts_congr
      rw [decN_split 8 _ (by omega), ← dec8 _ (by omega) (by omega), decW8]
      simp only [ge_iff_le, UInt64.le_iff_toNat_le, t8, t9, t10, t11, t12, t13, t14, t15,
        decide_eq_true_eq, List.append_assoc, List.cons_append, List.nil_append]
      have k1 : 1000000000000000 ≤ v.toNat ↔ 10000000 ≤ v.toNat / 10 ^ 8 := by omega
      have k2 : 100000000000000 ≤ v.toNat ↔ 1000000 ≤ v.toNat / 10 ^ 8 := by omega
      have k3 : 10000000000000 ≤ v.toNat ↔ 100000 ≤ v.toNat / 10 ^ 8 := by omega
      have k4 : 1000000000000 ≤ v.toNat ↔ 10000 ≤ v.toNat / 10 ^ 8 := by omega
      have k5 : 100000000000 ≤ v.toNat ↔ 1000 ≤ v.toNat / 10 ^ 8 := by omega
      have k6 : 10000000000 ≤ v.toNat ↔ 100 ≤ v.toNat / 10 ^ 8 := by omega
      have k7 : 1000000000 ≤ v.toNat ↔ 10 ≤ v.toNat / 10 ^ 8 := by omega
      have k8 : 100000000 ≤ v.toNat ↔ 1 ≤ v.toNat / 10 ^ 8 := by omega
      simp only [k1, k2, k3, k4, k5, k6, k7, k8, Nat.reducePow]
    · rename_i h16
      rw [UInt64.lt_iff_toNat_lt, t16] at h16
      dsimp only
      have ea : (v / TEN16).toUInt32.toNat = v.toNat / 10000000000000000 := by
        rw [UInt64.toNat_toUInt32, UInt64.toNat_div, t16]; omega
      have e0 : (v % TEN16 / TEN8).toUInt32.toNat = v.toNat % 10000000000000000 / 100000000 := by
        rw [UInt64.toNat_toUInt32, UInt64.toNat_div, UInt64.toNat_mod, t8, t16]; omega
      have e1 : (v % TEN16 % TEN8).toUInt32.toNat = v.toNat % 100000000 := by
        rw [UInt64.toNat_toUInt32, UInt64.toNat_mod, UInt64.toNat_mod, t8, t16]; omega
      generalize (v % TEN16 / TEN8).toUInt32 = v0 at *
      generalize (v % TEN16 % TEN8).toUInt32 = v1 at *
      generalize (v / TEN16).toUInt32 = a at *
      have hfirst : (if a < 10 then putChar b a
          else if a < 100 then do
            let b ← putD b (a <<< 1)
            putD b (a <<< 1 + 1)
          else if a < 1000 then do
            let b ← putChar b (a / 100)
            let b ← putD b ((a % 100) <<< 1)
            putD b ((a % 100) <<< 1 + 1)
          else do
            let b ← putD b ((a / 100) <<< 1)
            let b ← putD b ((a / 100) <<< 1 + 1)
            let b ← putD b ((a % 100) <<< 1)
            putD b ((a % 100) <<< 1 + 1)) = b.puts (decN a.toNat) := by
        have w1 : (a / 100).toNat = a.toNat / 100 := by rw [UInt32.toNat_div]; rfl
        have w2 : (a % 100).toNat = a.toNat % 100 := by rw [UInt32.toNat_mod]; rfl
        have x1 : (a / 100).toNat < 100 := by omega
        have x2 : (a % 100).toNat < 100 := by omega
        rw [← dec4 _ (by omega)]
        simp only [UInt32.lt_iff_toNat_lt]
        split
        · rename_i q
          replace q : a.toNat < 10 := q
          rw [putChar_eq _ _ q, put_eq_puts]
          apply puts_congr
          rw [if_neg (by omega), if_neg (by omega), if_neg (by omega)]
          simp only [List.nil_append, List.cons.injEq, and_true]
          apply sing_congr; omega
        · rename_i q
          replace q : ¬ a.toNat < 10 := q
          split
          · rename_i q2
            replace q2 : a.toNat < 100 := q2
            simp only [putD_odd, putD_even, q2, put_eq_puts, ← Cur.puts_append]
            apply puts_congr
            rw [if_neg (by omega), if_neg (by omega), if_pos (by omega)]
            simp only [List.nil_append, List.cons_append, List.cons.injEq, and_true]
            refine ⟨?_, ?_⟩ <;> (apply sing_congr; omega)
          · rename_i q2
            replace q2 : ¬ a.toNat < 100 := q2
            split
            · rename_i q3
              replace q3 : a.toNat < 1000 := q3
              have q4 : (a / 100).toNat < 10 := by omega
              simp only [putD_odd, putD_even, putChar_eq, q4, x2, put_eq_puts, ← Cur.puts_append]
              apply puts_congr
              rw [if_neg (by omega), if_pos (by omega), if_pos (by omega)]
              simp only [w1, w2, List.nil_append, List.cons_append, List.cons.injEq, and_true]
              apply sing_congr; omega
            · rename_i q3
              replace q3 : ¬ a.toNat < 1000 := q3
              simp only [putD_odd, putD_even, x1, x2, put_eq_puts, ← Cur.puts_append]
              apply puts_congr
              rw [if_pos (by omega), if_pos (by omega), if_pos (by omega)]
              simp only [w1, w2, List.cons_append, List.nil_append]
      rw [hfirst]
      have f1 : (v0 / 10000 / 100).toNat = v0.toNat / 10000 / 100 := by simp [UInt32.toNat_div]
      have f2 : (v0 / 10000 % 100).toNat = v0.toNat / 10000 % 100 := by
        simp [UInt32.toNat_div, UInt32.toNat_mod]
      have f3 : (v0 % 10000 / 100).toNat = v0.toNat % 10000 / 100 := by
        simp [UInt32.toNat_div, UInt32.toNat_mod]
      have f4 : (v0 % 10000 % 100).toNat = v0.toNat % 10000 % 100 := by simp [UInt32.toNat_mod]
      have f5 : (v1 / 10000 / 100).toNat = v1.toNat / 10000 / 100 := by simp [UInt32.toNat_div]
      have f6 : (v1 / 10000 % 100).toNat = v1.toNat / 10000 % 100 := by
        simp [UInt32.toNat_div, UInt32.toNat_mod]
      have f7 : (v1 % 10000 / 100).toNat = v1.toNat % 10000 / 100 := by
        simp [UInt32.toNat_div, UInt32.toNat_mod]
      have f8 : (v1 % 10000 % 100).toNat = v1.toNat % 10000 % 100 := by simp [UInt32.toNat_mod]
      have g1 : (v0 / 10000 / 100).toNat < 100 := by omega
      have g2 : (v0 / 10000 % 100).toNat < 100 := by omega
      have g3 : (v0 % 10000 / 100).toNat < 100 := by omega
      have g4 : (v0 % 10000 % 100).toNat < 100 := by omega
      have g5 : (v1 / 10000 / 100).toNat < 100 := by omega
      have g6 : (v1 / 10000 % 100).toNat < 100 := by omega
      have g7 : (v1 % 10000 / 100).toNat < 100 := by omega
      have g8 : (v1 % 10000 % 100).toNat < 100 := by omega
      simp only [putD_odd, putD_even, g1, g2, g3, g4, g5, g6, g7, g8,
        put_eq_puts, ← Cur.puts_append]
      simp only [f1, f2, f3, f4, f5, f6, f7, f8, e0, e1, ea]
      apply puts_congr
      have y : v.toNat % 10000000000000000 / 100000000 = v.toNat / 10 ^ 8 % 100000000 := by omega
      rw [decN_split 16 v.toNat (by omega), decW_add 8 8, decW8, decW8, y]
      simp only [List.cons_append, List.nil_append, Nat.reducePow]

theorem toUInt32_toNat (v : Int32) : (v.toUInt32.toNat : Int) = v.toInt % 2 ^ 32 := by
  rw [← Int32.toInt_toBitVec, ← Int32.toNat_toBitVec, BitVec.toInt_eq_toNat_cond]
  have := v.toBitVec.isLt
  split <;> omega

theorem toUInt64_toNat (v : Int64) : (v.toUInt64.toNat : Int) = v.toInt % 2 ^ 64 := by
  rw [← Int64.toInt_toBitVec, ← Int64.toNat_toBitVec, BitVec.toInt_eq_toNat_cond]
  have := v.toBitVec.isLt
  split <;> omega

theorem neg32_toNat (u : UInt32) : (~~~u + 1).toNat = (2 ^ 32 - u.toNat) % 2 ^ 32 := by
  have := u.toNat_lt
  rw [UInt32.toNat_add, UInt32.toNat_not]
  show (4294967296 - 1 - u.toNat + 1) % _ = _
  omega

theorem neg64_toNat (u : UInt64) : (~~~u + 1).toNat = (2 ^ 64 - u.toNat) % 2 ^ 64 := by
  have := u.toNat_lt
  rw [UInt64.toNat_add, UInt64.toNat_not]
  show (18446744073709551616 - 1 - u.toNat + 1) % _ = _
  omega

theorem i32toa_eq (v : Int32) (b : Cur) : i32toa v b = b.puts (decimalText v.toInt) := by
  have hlo := v.le_toInt
  have hhi := v.toInt_lt
  have hz : (v < 0) ↔ v.toInt < 0 := by rw [Int32.lt_iff_toInt_lt]; rfl
  have hu := toUInt32_toNat v
  have hm := neg32_toNat v.toUInt32
  unfold i32toa
  simp only [hz]
  split
  · rename_i h
    have hm : (~~~v.toUInt32 + 1).toNat = v.toInt.natAbs := by omega
    simp only [u32toa_eq, hm, decimalText_neg _ h]
    rfl
  · rename_i h
    rw [u32toa_eq, decimalText_nonneg _ (by omega)]
    congr 2; omega

theorem i64toa_eq (v : Int64) (b : Cur) : i64toa v b = b.puts (decimalText v.toInt) := by
  have hlo := v.le_toInt
  have hhi := v.toInt_lt
  have hz : (v < 0) ↔ v.toInt < 0 := by rw [Int64.lt_iff_toInt_lt]; rfl
  have hu := toUInt64_toNat v
  have hm := neg64_toNat v.toUInt64
  unfold i64toa
  simp only [hz]
  split
  · rename_i h
    have hm : (~~~v.toUInt64 + 1).toNat = v.toInt.natAbs := by omega
    simp only [u64toa_eq, hm, decimalText_neg _ h]
    rfl
  · rename_i h
    rw [u64toa_eq, decimalText_nonneg _ (by omega)]
    congr 2; omega

end Lexi.Itoa
