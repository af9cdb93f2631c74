import Verif.Props.Int
import Verif.Proofs.FloatText
import Verif.Props.Records

/-!
# C101: texts of integers cut short, run together or in a list
-/

namespace Lexi
open Spec

theorem wrapInt_between (v : IntVal) (z : Int) (h : z.natAbs ≤ v.toInt.natAbs) (hs : 0 ≤ z ∧ 0 ≤ v.toInt ∨ z ≤ 0 ∧ v.toInt ≤ 0) :
    wrapInt v.ty.signed v.ty.width z = z := by
  have e : ∀ w : Nat, ((2 ^ w : Nat) : Int) = 2 ^ w := by intro w; push_cast; rfl
  cases v <;> simp only [IntVal.toInt, wrapInt, IntTy.signed, IntTy.width, IntVal.ty, if_true] at * <;>
    rename_i x
  · have := x.le_toInt; have := x.toInt_lt; exact bmod_small _ 7 (by omega) (by omega)
  · have := x.toNat_lt; simp; omega
  · have := x.le_toInt; have := x.toInt_lt; exact bmod_small _ 15 (by omega) (by omega)
  · have := x.toNat_lt; simp; omega
  · have := x.le_toInt; have := x.toInt_lt; exact bmod_small _ 31 (by omega) (by omega)
  · have := x.toNat_lt; simp; omega
  · have := x.le_toInt; have := x.toInt_lt; exact bmod_small _ 31 (by omega) (by omega)
  · have := x.toNat_lt; simp; omega
  · have := x.le_toInt; have := x.toInt_lt; exact bmod_small _ 63 (by omega) (by omega)
  · have := x.toNat_lt; simp; omega
  · have := x.le_toInt; have := x.toInt_lt; exact bmod_small _ 63 (by omega) (by omega)
  · have := x.toNat_lt; simp; omega

theorem digitsValue_lt (ds : Bytes) (h : ∀ b ∈ ds, IsDigit b) : digitsValue ds < 10 ^ ds.length := by
  induction ds using List.reverseRecOn with
  | nil => simp [digitsValue]
  | append_singleton ds c ih =>
    have hc : IsDigit c := h c (by simp)
    have hlt := ih (fun b hb => h b (by simp [hb]))
    rw [digitsValue_append_singleton, List.length_append, List.length_singleton, pow_succ]
    have h9 : c.toNat ≤ 57 := by have := hc.2; rw [UInt8.le_iff_toNat_le] at this; simpa using this
    omega

/-- Cutting a numeral divides its value. -/
theorem digitsValue_take (ds : Bytes) (h : ∀ b ∈ ds, IsDigit b) (j : Nat) :
    digitsValue (ds.take j) = digitsValue ds / 10 ^ (ds.length - j) := by
  have e := Dtoa.digitsValue_append (ds.take j) (ds.drop j)
  rw [List.take_append_drop, List.length_drop] at e
  have hlt := digitsValue_lt (ds.drop j) (fun b hb => h b (List.mem_of_mem_drop hb))
  rw [List.length_drop] at hlt
  rw [e, Nat.mul_comm, Nat.mul_add_div (by positivity), Nat.div_eq_of_lt hlt, Nat.add_zero]

theorem digitsValue_drop (ds : Bytes) (h : ∀ b ∈ ds, IsDigit b) (j : Nat) :
    digitsValue (ds.drop j) = digitsValue ds % 10 ^ (ds.length - j) := by
  have e := Dtoa.digitsValue_append (ds.take j) (ds.drop j)
  rw [List.take_append_drop, List.length_drop] at e
  have hlt := digitsValue_lt (ds.drop j) (fun b hb => h b (List.mem_of_mem_drop hb))
  rw [List.length_drop] at hlt
  rw [e, Nat.mul_comm, Nat.mul_add_mod, Nat.mod_eq_of_lt hlt]

theorem not_intText_short {s : Bytes} (h : s = [] ∨ s = [45]) : ∀ neg ds, ¬ IntText s neg ds := by
  rintro neg ds ⟨t, ws, sg, rest, hc, ht, hw, -, hne, hd, -⟩
  have hs : ∀ b ∈ t, b = 45 := by
    rcases hc.2 with hs | ⟨r, hs⟩
    · rcases h with h | h <;> rw [← hs, h] <;> simp
    · intro b hb
      have : b ∈ s := by rw [hs]; simp [hb]
      rcases h with h | h <;> rw [h] at this <;> simp at this
      exact this
  obtain ⟨d, hdm⟩ := List.exists_mem_of_ne_nil ds hne
  have h1 := hs d (by rw [ht]; simp [hdm])
  have h2 := hd d hdm
  rw [h1] at h2
  exact absurd h2 (by decide)

/-- A sign and a run of digits. -/
theorem read_signed (t : IntTy) (neg : Bool) (ds : Bytes) (hd : ∀ b ∈ ds, IsDigit b) (hlt : digitsValue ds < 2 ^ 64) :
    ∃ w, lexiInt t ((if neg then [45] else []) ++ ds) = .ok w ∧ w.ty = t ∧
      w.toInt = wrapInt t.signed t.width (if neg then -(digitsValue ds : Int) else digitsValue ds) := by
  obtain ⟨w, h1, h2, h3, h4⟩ := C07_int_extraction t ((if neg then [45] else []) ++ ds)
  refine ⟨w, h1, h2, ?_⟩
  by_cases hne : ds = []
  · subst hne
    rw [h4 (not_intText_short (by cases neg <;> simp))]
    simp [digitsValue, wrapInt]
  · have := h3 neg ds (by
      have := intText_of_parts [] (if neg then [45] else []) ds [] neg (by simp) (by cases neg <;> simp) hne hd (by simp)
      simpa using this)
    rw [this, textNumber, if_neg (by omega)]

theorem decimalText_sign (n : Int) : decimalText n = (if decide (n < 0) then [45] else []) ++ decN n.natAbs := by
  by_cases h : n < 0
  · rw [decimalText_neg n h]; simp [h]
  · rw [decimalText_nonneg n (by omega)]; simp [h]

theorem natAbs_lt (v : IntVal) : v.toInt.natAbs < 2 ^ 64 := by
  have := v.toInt_bounds; omega

theorem tdiv_nonneg_nat {n : Int} (h : 0 ≤ n) (m : Nat) : n.tdiv (10 ^ m) = ((n.natAbs / 10 ^ m : Nat) : Int) := by
  obtain ⟨a, rfl⟩ := Int.eq_ofNat_of_zero_le h
  rw [Int.tdiv_eq_ediv_of_nonneg (by omega), Int.natAbs_natCast]
  push_cast
  rfl

theorem tdiv_neg_nat {n : Int} (h : n < 0) (m : Nat) : n.tdiv (10 ^ m) = -((n.natAbs / 10 ^ m : Nat) : Int) := by
  rw [← Int.neg_neg n, Int.neg_tdiv, tdiv_nonneg_nat (by omega), Int.natAbs_neg, Int.neg_neg]

/-- C101: reading the first `k` bytes of the text of an integer gives the integer divided by `10` to the number of
bytes missing, rounded toward zero: also if only the sign is left, or nothing. -/
theorem C101_prefix (p : Platform) (hp : p.Supported) (junk : Bytes) (hj : junk.length = INTEGER_SIZE) (v : IntVal)
    (hv : v.Fits p) (k : Nat) :
    ∃ t w, stringInt p junk v = .ok t ∧ lexiInt v.ty (t.take k) = .ok w ∧ w.ty = v.ty ∧
      w.toInt = v.toInt.tdiv (10 ^ (t.length - k)) := by
  refine ⟨decimalText v.toInt, ?_⟩
  have hn := natAbs_lt v
  have hds := decN_digits v.toInt.natAbs
  have hlen : (decimalText v.toInt).length = (if v.toInt < 0 then 1 else 0) + (decN v.toInt.natAbs).length := by
    rw [decimalText_sign]; by_cases h : v.toInt < 0 <;> simp [h]; omega
  have hcut : (decimalText v.toInt).take k = (if decide (v.toInt < 0) && decide (1 ≤ k) then [45] else []) ++
      (decN v.toInt.natAbs).take (k - if v.toInt < 0 then 1 else 0) := by
    rw [decimalText_sign]
    by_cases h : v.toInt < 0
    · cases k with
      | zero => simp [h]
      | succ k => simp [h]
    · simp [h]
  generalize hds' : (decN v.toInt.natAbs).take (k - if v.toInt < 0 then 1 else 0) = ds at hcut
  have hdsd : ∀ b ∈ ds, IsDigit b := fun b hb => hds b (by rw [← hds'] at hb; exact List.mem_of_mem_take hb)
  have hval : digitsValue ds = v.toInt.natAbs / 10 ^ ((decN v.toInt.natAbs).length - (k - if v.toInt < 0 then 1 else 0)) := by
    rw [← hds']
    by_cases hk : (k - if v.toInt < 0 then 1 else 0) ≤ (decN v.toInt.natAbs).length
    · rw [digitsValue_take _ hds, digitsValue_decN]
    · rw [List.take_of_length_le (by omega), digitsValue_decN, Nat.sub_eq_zero_of_le (by omega)]; simp
  have hle : digitsValue ds ≤ v.toInt.natAbs := by rw [hval]; exact Nat.div_le_self _ _
  obtain ⟨w, h1, h2, h3⟩ := read_signed v.ty (decide (v.toInt < 0) && decide (1 ≤ k)) ds hdsd (by omega)
  refine ⟨w, stringInt_eq p hp junk hj v hv, by rw [hcut]; exact h1, h2, ?_⟩
  rw [h3]
  have hlen10 : (v.toInt.natAbs : Nat) < 10 ^ (decN v.toInt.natAbs).length := by
    have := digitsValue_lt _ hds
    rwa [digitsValue_decN] at this
  by_cases hneg : v.toInt < 0
  · by_cases hk : 1 ≤ k
    · rw [wrapInt_between v _ (by simp [hneg, hk]; omega) (by right; simp [hneg, hk]; omega)]
      simp only [hneg, hk, decide_true, Bool.and_self, if_true]
      rw [tdiv_neg_nat hneg, hval, hlen, if_pos hneg]
      congr 4
      omega
    · have hk0 : k = 0 := by omega
      subst hk0
      have hd0 : ds = [] := by rw [← hds']; simp
      subst hd0
      rw [hlen, if_pos hneg, tdiv_neg_nat hneg, Nat.div_eq_of_lt]
      · simp [digitsValue, wrapInt]
      · rw [Nat.sub_zero, Nat.add_comm, pow_succ]; omega
  · rw [wrapInt_between v _ (by simp [hneg]; omega) (by left; simp [hneg]; omega)]
    rw [tdiv_nonneg_nat (by omega), hlen, hval]
    simp only [hneg, decide_false, Bool.false_and, if_false, Nat.zero_add, Nat.sub_zero]
    simp

/-- C101: without its first `k` bytes, the sign among them if there is one, the text reads as the remainder of the
absolute value; only the least value of a signed type does not fit, and comes back as itself. -/
theorem C101_suffix (p : Platform) (hp : p.Supported) (junk : Bytes) (hj : junk.length = INTEGER_SIZE) (v : IntVal)
    (hv : v.Fits p) (k : Nat) (hk : v.toInt < 0 → 1 ≤ k) :
    ∃ t w, stringInt p junk v = .ok t ∧ lexiInt v.ty (t.drop k) = .ok w ∧ w.ty = v.ty ∧
      w.toInt = wrapInt v.ty.signed v.ty.width (v.toInt.natAbs % 10 ^ (t.length - k)) := by
  refine ⟨decimalText v.toInt, ?_⟩
  have hds := decN_digits v.toInt.natAbs
  have hn := natAbs_lt v
  have hcut : (decimalText v.toInt).drop k = (decN v.toInt.natAbs).drop (k - if v.toInt < 0 then 1 else 0) ∧
      (decimalText v.toInt).length - k = (decN v.toInt.natAbs).length - (k - if v.toInt < 0 then 1 else 0) := by
    rw [decimalText_sign]
    by_cases h : v.toInt < 0
    · obtain ⟨j, rfl⟩ : ∃ j, k = j + 1 := ⟨k - 1, by have := hk h; omega⟩
      simp [h]
    · simp [h]
  obtain ⟨w, h1, h2, h3⟩ := read_signed v.ty false ((decN v.toInt.natAbs).drop (k - if v.toInt < 0 then 1 else 0))
    (fun b hb => hds b (List.mem_of_mem_drop hb)) (by
      rw [digitsValue_drop _ hds, digitsValue_decN]
      exact lt_of_le_of_lt (Nat.mod_le _ _) hn)
  refine ⟨w, stringInt_eq p hp junk hj v hv, by rw [hcut.1]; simpa using h1, h2, ?_⟩
  rw [h3, hcut.2, digitsValue_drop _ hds, digitsValue_decN]
  push_cast
  simp

/-- C101: two texts run together: a second text that begins with a minus sign is not seen; otherwise its digits
continue the first number, up to 2^64 - 1. -/
theorem C101_joined (p : Platform) (hp : p.Supported) (junk : Bytes) (hj : junk.length = INTEGER_SIZE) (v u : IntVal)
    (hv : v.Fits p) (hu : u.Fits p) :
    ∃ s t w, stringInt p junk v = .ok s ∧ stringInt p junk u = .ok t ∧ lexiInt v.ty (s ++ t) = .ok w ∧
      (u.toInt < 0 → w = v) ∧
      (0 ≤ u.toInt → v.toInt.natAbs * 10 ^ t.length + u.toInt.natAbs < 2 ^ 64 →
        w.toInt = wrapInt v.ty.signed v.ty.width
          (v.toInt * 10 ^ t.length + if v.toInt < 0 then -u.toInt else u.toInt)) ∧
      (0 ≤ u.toInt → 2 ^ 64 ≤ v.toInt.natAbs * 10 ^ t.length + u.toInt.natAbs →
        w.toInt = wrapInt v.ty.signed v.ty.width (2 ^ 64 - 1)) := by
  have hds := decN_digits v.toInt.natAbs
  have hdu := decN_digits u.toInt.natAbs
  obtain ⟨w, h1, h2, h3, -⟩ := C07_int_extraction v.ty (decimalText v.toInt ++ decimalText u.toInt)
  have hall : 0 ≤ u.toInt → digitsValue (decN v.toInt.natAbs ++ decimalText u.toInt) =
        v.toInt.natAbs * 10 ^ (decimalText u.toInt).length + u.toInt.natAbs ∧
      w.toInt = wrapInt v.ty.signed v.ty.width
        (textNumber (decide (v.toInt < 0)) (decN v.toInt.natAbs ++ decimalText u.toInt)) := by
    intro hpos
    have et : decimalText u.toInt = decN u.toInt.natAbs := decimalText_nonneg _ hpos
    have hval : digitsValue (decN v.toInt.natAbs ++ decimalText u.toInt) =
        v.toInt.natAbs * 10 ^ (decimalText u.toInt).length + u.toInt.natAbs := by
      rw [Dtoa.digitsValue_append, digitsValue_decN, et, digitsValue_decN]
    have hT := h3 (decide (v.toInt < 0)) (decN v.toInt.natAbs ++ decimalText u.toInt) (by
      have := intText_of_parts [] (if decide (v.toInt < 0) then [45] else []) (decN v.toInt.natAbs ++ decimalText u.toInt) []
        (decide (v.toInt < 0)) (by simp) (by by_cases h : v.toInt < 0 <;> simp [h]) (by simp [decN_ne_nil]) (by
          intro b hb
          rw [et] at hb
          rcases List.mem_append.mp hb with hb | hb
          · exact hds b hb
          · exact hdu b hb) (by simp)
      rw [decimalText_sign v.toInt]
      simpa using this)
    exact ⟨hval, hT⟩
  refine ⟨_, _, w, stringInt_eq p hp junk hj v hv, stringInt_eq p hp junk hj u hu, h1, fun hneg => ?_, fun hpos hfit => ?_, fun hpos hfit => ?_⟩
  · have hT := h3 (decide (v.toInt < 0)) (decN v.toInt.natAbs) (by
      have := intText_of_parts [] (if decide (v.toInt < 0) then [45] else []) (decN v.toInt.natAbs) (decimalText u.toInt)
        (decide (v.toInt < 0)) (by simp) (by by_cases h : v.toInt < 0 <;> simp [h]) (decN_ne_nil _) hds (by
          rw [decimalText_neg _ hneg]
          intro b hb
          simp at hb
          subst hb
          decide)
      rw [decimalText_sign v.toInt]
      simpa using this)
    refine IntVal.ext' h2 ?_
    rw [hT, textNumber_decimal _ v.toInt_bounds.1 v.toInt_bounds.2, wrapInt_self]
  · obtain ⟨hval, hT⟩ := hall hpos
    rw [hT, textNumber, hval, if_neg (by omega)]
    congr 1
    by_cases h : v.toInt < 0
    · simp only [h, decide_true, if_true]
      push_cast
      rw [abs_of_neg h, abs_of_nonneg hpos]
      ring
    · simp only [h, decide_false, if_false]
      push_cast
      rw [abs_of_nonneg (by omega), abs_of_nonneg hpos]
  · obtain ⟨hval, hT⟩ := hall hpos
    rw [hT, textNumber, hval, if_pos hfit]

theorem decimalText_bytes (n : Int) (d : UInt8) (hd : ¬ IsDigit d) (hm : d ≠ 45) : d ∉ decimalText n := by
  rw [decimalText_sign]
  intro h
  rcases List.mem_append.mp h with h | h
  · split at h
    · simp at h; exact hm h
    · simp at h
  · exact hd (decN_digits _ _ h)

/-- C101: a list of integers written with a separator that is no digit and no minus sign, split and read, is the
list. -/
theorem C101_list (p : Platform) (hp : p.Supported) (junk : Bytes) (hj : junk.length = INTEGER_SIZE) (t : IntTy)
    (vs : List IntVal) (hne : vs ≠ []) (hv : ∀ v ∈ vs, v.Fits p ∧ v.ty = t) (d : UInt8) (hd : ¬ IsDigit d) (hm : d ≠ 45) :
    ∃ ts, vs.map (stringInt p junk) = ts.map .ok ∧ (lines d (record d ts)).map (lexiInt t) = vs.map .ok := by
  refine ⟨vs.map fun v => decimalText v.toInt, ?_, ?_⟩
  · rw [List.map_map]
    exact List.map_congr_left fun v hvm => stringInt_eq p hp junk hj v (hv v hvm).1
  · rw [lines_record _ _ (by simpa using hne)]
    · rw [List.map_map]
      exact List.map_congr_left fun v hvm => by
        have := lexiInt_decimal v
        rw [(hv v hvm).2] at this
        exact this
    · intro f hf
      obtain ⟨v, -, rfl⟩ := List.mem_map.mp hf
      exact decimalText_bytes _ _ hd hm

/-! ### Instances -/

example : lexiInt .i32 ((ascii "-1234567").take 5) = .ok (.i32 (-1234)) := by decide +kernel
example : lexiInt .i32 ((ascii "-1234567").take 1) = .ok (.i32 0) := by decide +kernel
example : lexiInt .i8 ((ascii "-128").drop 1) = .ok (.i8 (-128)) := by decide +kernel
example : lexiInt .i32 (ascii "12" ++ ascii "-5") = .ok (.i32 12) ∧ lexiInt .i32 (ascii "-12" ++ ascii "5") = .ok (.i32 (-125)) ∧
    lexiInt .u8 (ascii "12" ++ ascii "99") = .ok (.u8 19) := by decide +kernel
example : (lines 44 (record 44 [ascii "1", ascii "-20", ascii "300"])).map (lexiInt .i16) =
    [.ok (.i16 1), .ok (.i16 (-20)), .ok (.i16 300)] := by decide +kernel
example : lp64.Supported ∧ (IntVal.i32 (-1234567)).Fits lp64 ∧ ¬ IsDigit 44 := by
  refine ⟨by simp [Platform.Supported, lp64], trivial, by decide⟩

end Lexi
