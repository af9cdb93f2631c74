import Verif.Proofs.Digits

/-! # prettify writes the expected text -/

namespace Lexi.Dtoa

open Spec

theorem at_len (M : Bytes) (base : Nat) (ds : Bytes) (h : base + ds.length ≤ M.length) :
    (at_ M base ds).mem.length = M.length := by
  simp [at_]; omega

theorem wr_end (M : Bytes) (base : Nat) (ds : Bytes) (c : UInt8) (i : Int) (hi : i = ds.length)
    (h : base + ds.length < M.length) :
    wr (at_ M base ds).mem base i c = .ok (at_ M base (ds ++ [c])).mem := by
  subst hi
  have := at_put M base ds c h
  unfold Cur.put at this
  rw [if_pos (by rw [at_len _ _ _ (by omega)]; simp [at_]; omega)] at this
  unfold wr
  rw [if_pos (by rw [at_len _ _ _ (by omega)]; omega)]
  injection this with this
  have h2 := congrArg Cur.mem this
  simp only at h2
  rw [← h2]
  congr 2

theorem wr_mid (M : Bytes) (base : Nat) (p q : Bytes) (x c : UInt8) (i : Int) (hi : i = p.length)
    (h : base + (p ++ x :: q).length ≤ M.length) :
    wr (at_ M base (p ++ x :: q)).mem base i c = .ok (at_ M base (p ++ c :: q)).mem := by
  subst hi
  unfold wr
  have hlen : base + (p.length + (q.length + 1)) ≤ M.length := by simpa using h
  rw [if_pos (by rw [at_len _ _ _ h]; omega)]
  congr 1
  have e : (base + (p.length : Int)).toNat = base + p.length := by omega
  rw [e]
  have hb : (M.take base).length = base := by simp; omega
  have hm : (at_ M base (p ++ x :: q)).mem = M.take base ++ (p ++ (x :: (q ++ M.drop (base + (p.length + (q.length + 1)))))) := by
    simp [at_]
  have hm' : (at_ M base (p ++ c :: q)).mem = M.take base ++ (p ++ (c :: (q ++ M.drop (base + (p.length + (q.length + 1)))))) := by
    simp [at_]
  rw [hm, hm', List.set_append_right _ _ (by omega), hb, List.set_append_right _ _ (by omega)]
  have : base + p.length - base - p.length = 0 := by omega
  rw [this, List.set_cons_zero]

theorem fill_end (M : Bytes) (base : Nat) (n : Nat) : ∀ (ds : Bytes) (i : Int), i = ds.length →
    base + ds.length + n ≤ M.length →
    fillZero (at_ M base ds).mem base i n = .ok (at_ M base (ds ++ List.replicate n 48)).mem := by
  induction n with
  | zero => intro ds i hi h; simp [fillZero]
  | succ n ih =>
    intro ds i hi h
    rw [fillZero, wr_end M base ds 48 i hi (by omega), Res.ok_bind, ih (ds ++ [48]) (i + 1) (by simp; omega) (by simp; omega)]
    simp [List.replicate_succ]

theorem fill_mid (M : Bytes) (base : Nat) (y : Bytes) : ∀ (p q : Bytes) (i : Int), i = p.length →
    base + (p ++ y ++ q).length ≤ M.length →
    fillZero (at_ M base (p ++ y ++ q)).mem base i y.length
      = .ok (at_ M base (p ++ List.replicate y.length 48 ++ q)).mem := by
  induction y with
  | nil => intro p q i hi h; simp [fillZero]
  | cons x y ih =>
    intro p q i hi h
    have e : p ++ x :: y ++ q = p ++ x :: (y ++ q) := by simp
    rw [e] at h ⊢
    rw [List.length_cons, fillZero, wr_mid M base p (y ++ q) x 48 i hi h, Res.ok_bind]
    have e2 : p ++ 48 :: (y ++ q) = (p ++ [48]) ++ y ++ q := by simp
    rw [e2, ih (p ++ [48]) q (i + 1) (by simp; omega) (by simp at h ⊢; omega)]
    simp [List.replicate_succ]

theorem memmove_tail (M : Bytes) (base : Nat) (p q : Bytes) (dst src n : Int) (hs : src = p.length)
    (hn : n = q.length) (hd : (p.length : Int) ≤ dst) (h : base + dst + q.length ≤ M.length)
    (h' : base + (p ++ q).length ≤ M.length) :
    ∃ Z : Bytes, (Z.length : Int) = dst - p.length ∧
      memmove (at_ M base (p ++ q)).mem base dst src n = .ok (at_ M base (p ++ Z ++ q)).mem := by
  subst hs hn
  obtain ⟨d, rfl⟩ : ∃ d : Nat, dst = d := ⟨dst.toNat, by omega⟩
  have hb : (M.take base).length = base := by simp; simp at h'; omega
  have hpq : base + p.length + q.length ≤ M.length := by simpa [Nat.add_assoc] using h'
  have hm : (at_ M base (p ++ q)).mem = (M.take base ++ p) ++ (q ++ M.drop (base + p.length + q.length)) := by
    simp [at_, Nat.add_assoc]
  set X := q ++ M.drop (base + p.length + q.length) with hX
  have hXl : X.length = M.length - base - p.length := by rw [hX]; simp; omega
  refine ⟨X.take (d - p.length), ?_, ?_⟩
  · simp only [List.length_take, hXl]; omega
  · unfold memmove
    rw [if_pos (by rw [at_len _ _ _ h']; omega)]
    have e1 : (base + (d : Int)).toNat = base + d := by omega
    have e2 : (base + (p.length : Int)).toNat = base + p.length := by omega
    have e3 : (q.length : Int).toNat = q.length := by omega
    simp only [e1, e2, e3, hm]
    have hAl : (M.take base ++ p).length = base + p.length := by simp; omega
    have t1 : ((M.take base ++ p) ++ X).take (base + d) = M.take base ++ p ++ X.take (d - p.length) := by
      rw [List.take_append, hAl, List.take_of_length_le (by omega)]
      congr 2; omega
    have t2 : (((M.take base ++ p) ++ X).drop (base + p.length)).take q.length = q := by
      rw [← hAl, List.drop_left, hX, List.take_left]
    have t3 : ((M.take base ++ p) ++ X).drop (base + d + q.length) = M.drop (base + d + q.length) := by
      rw [List.drop_append, hAl, List.drop_eq_nil_of_le (by omega), List.nil_append, hX, List.drop_append,
        List.drop_eq_nil_of_le (by omega), List.nil_append, List.drop_drop]
      congr 1; omega
    rw [t1, t2, t3]
    have e4 : base + (p ++ X.take (d - p.length) ++ q).length = base + d + q.length := by
      simp only [List.length_append, List.length_take, hXl]
      omega
    unfold at_
    simp only [e4]
    simp only [List.append_assoc]

/-! ### exponent -/

theorem table_even (n : Nat) (h : n < 100) : DIGITS[2 * n]? = some (dig (n / 10)) := by
  have : ∀ n : Fin 100, DIGITS[2 * n.1]? = some (dig (n.1 / 10)) := by decide
  exact this ⟨n, h⟩

theorem table_odd (n : Nat) (h : n < 100) : DIGITS[2 * n + 1]? = some (dig (n % 10)) := by
  have : ∀ n : Fin 100, DIGITS[2 * n.1 + 1]? = some (dig (n.1 % 10)) := by decide
  exact this ⟨n, h⟩

theorem digitAt_even (n : Nat) (h : n < 100) (i : Int) (hi : i = 2 * n) : digitAt i = .ok (dig (n / 10)) := by
  subst hi
  unfold digitAt tableAt
  rw [if_neg (by omega)]
  have : (2 * (n : Int)).toNat = 2 * n := by omega
  rw [this, table_even n h]

theorem digitAt_odd (n : Nat) (h : n < 100) (i : Int) (hi : i = 2 * n + 1) : digitAt i = .ok (dig (n % 10)) := by
  subst hi
  unfold digitAt tableAt
  rw [if_neg (by omega)]
  have : (2 * (n : Int) + 1).toNat = 2 * n + 1 := by omega
  rw [this, table_odd n h]

theorem decN_lt10 (n : Nat) (h : n < 10) : decN n = [dig n] := by rw [decN, dif_pos h]
theorem decN_lt100 (n : Nat) (h0 : 10 ≤ n) (h : n < 100) : decN n = [dig (n / 10), dig (n % 10)] := by
  rw [decN, dif_neg (by omega), decN_lt10 _ (by omega)]; rfl
theorem decN_lt1000 (n : Nat) (h0 : 100 ≤ n) (h : n < 1000) :
    decN n = [dig (n / 100), dig (n % 100 / 10), dig (n % 100 % 10)] := by
  rw [decN, dif_neg (by omega), decN_lt100 _ (by omega) (by omega)]
  have e1 : n / 10 / 10 = n / 100 := by omega
  have e2 : n / 10 % 10 = n % 100 / 10 := by omega
  have e3 : n % 10 = n % 100 % 10 := by omega
  rw [e1, e2, e3]; rfl

theorem char_dig (n : Nat) : (48 : UInt8) + UInt8.ofNat n = dig n := by
  unfold dig; rw [UInt8.ofNat_add]; rfl

/-- The unsigned part of `writeExponent`. -/
theorem writeExponent_nat (M : Bytes) (base : Nat) (ds : Bytes) (n : Nat) (hn : n < 1000)
    (h : base + ds.length + (decN n).length < M.length) :
    (do
      let b ← if (n : Int) ≥ 100 then do
          let b ← (at_ M base ds).put (48 + UInt8.ofNat ((n : Int).toNat / 100))
          let k := (n : Int) % 100
          let b ← b.put (← digitAt (k * 2))
          b.put (← digitAt (k * 2 + 1))
        else if (n : Int) ≥ 10 then do
          let b ← (at_ M base ds).put (← digitAt ((n : Int) * 2))
          b.put (← digitAt ((n : Int) * 2 + 1))
        else (at_ M base ds).put (48 + UInt8.ofNat (n : Int).toNat)
      let e ← b.put 0
      (pure ⟨e.mem, b.pos⟩ : Res Cur))
    = .ok ⟨(at_ M base (ds ++ decN n ++ [0])).mem, base + (ds ++ decN n).length⟩ := by
  have htn : (n : Int).toNat = n := by omega
  by_cases h100 : 100 ≤ n
  · rw [decN_lt1000 n h100 hn] at h ⊢
    simp only [List.length_cons, List.length_nil] at h
    rw [if_pos (by omega)]
    simp only [htn, char_dig]
    have d1 := digitAt_even (n % 100) (by omega) ((n : Int) % 100 * 2) (by omega)
    have d2 := digitAt_odd (n % 100) (by omega) ((n : Int) % 100 * 2 + 1) (by omega)
    rw [d1, d2]
    simp only [Res.ok_bind]
    rw [at_put _ _ _ _ (by omega)]
    simp only [Res.ok_bind]
    rw [at_put _ _ _ _ (by simp; omega)]
    simp only [Res.ok_bind]
    rw [at_put _ _ _ _ (by simp; omega)]
    simp only [Res.ok_bind]
    rw [at_put _ _ _ _ (by simp; omega)]
    simp only [Res.ok_bind, Res.pure_eq]
    simp [at_]
  · rw [if_neg (by omega)]
    by_cases h10 : 10 ≤ n
    · rw [decN_lt100 n h10 (by omega)] at h ⊢
      simp only [List.length_cons, List.length_nil] at h
      rw [if_pos (by omega)]
      rw [digitAt_even n (by omega) ((n : Int) * 2) (by omega), digitAt_odd n (by omega) ((n : Int) * 2 + 1) (by omega)]
      simp only [Res.ok_bind]
      rw [at_put _ _ _ _ (by omega)]
      simp only [Res.ok_bind]
      rw [at_put _ _ _ _ (by simp; omega)]
      simp only [Res.ok_bind]
      rw [at_put _ _ _ _ (by simp; omega)]
      simp only [Res.ok_bind, Res.pure_eq]
      simp [at_]
    · rw [decN_lt10 n (by omega)] at h ⊢
      simp only [List.length_cons, List.length_nil] at h
      rw [if_neg (by omega), htn, char_dig, at_put _ _ _ _ (by omega)]
      simp only [Res.ok_bind]
      rw [at_put _ _ _ _ (by simp; omega)]
      simp only [Res.ok_bind, Res.pure_eq]
      simp [at_]

theorem writeExponent_spec (M : Bytes) (base : Nat) (ds : Bytes) (k : Int) (h1 : -1000 < k) (h2 : k < 1000)
    (h : base + ds.length + (decimalText k).length < M.length) :
    writeExponent k (at_ M base ds)
      = .ok ⟨(at_ M base (ds ++ decimalText k ++ [0])).mem, base + (ds ++ decimalText k).length⟩ := by
  unfold writeExponent
  by_cases hk : k < 0
  · rw [decimalText_neg k hk] at h ⊢
    simp only [List.length_cons] at h
    rw [if_pos hk, at_put _ _ _ _ (by omega)]
    simp only [Res.ok_bind, Res.pure_eq]
    obtain ⟨n, hn⟩ : ∃ n : Nat, -k = n := ⟨(-k).toNat, by omega⟩
    have hna : k.natAbs = n := by omega
    rw [hn, hna]
    have := writeExponent_nat M base (ds ++ [45]) n (by omega) (by rw [hna] at h; simp; omega)
    simp only [List.append_assoc, List.cons_append, List.nil_append] at this ⊢
    exact this
  · rw [decimalText_nonneg k (by omega)] at h ⊢
    rw [if_neg hk]
    simp only [Res.ok_bind, Res.pure_eq]
    obtain ⟨n, rfl⟩ : ∃ n : Nat, k = n := ⟨k.toNat, by omega⟩
    simp only [Int.natAbs_natCast] at h ⊢
    exact writeExponent_nat M base ds n (by omega) h

/-! ### prettify -/

/-- Text produced by `prettify` from the digits `ds` and the exponent `k`. -/
def prettyText (ds : Bytes) (k : Int) : Bytes :=
  let kk := (ds.length : Int) + k
  if ds.length ≤ kk ∧ kk ≤ 21 then ds ++ List.replicate (kk - ds.length).toNat 48 ++ [46, 48]
  else if 0 < kk ∧ kk ≤ 21 then ds.take kk.toNat ++ 46 :: ds.drop kk.toNat
  else if -6 < kk ∧ kk ≤ 0 then 48 :: 46 :: (List.replicate (-kk).toNat 48 ++ ds)
  else if ds.length = 1 then ds ++ 101 :: decimalText (kk - 1)
  else ds.take 1 ++ 46 :: (ds.drop 1 ++ 101 :: decimalText (kk - 1))

theorem prettify_spec (M : Bytes) (base : Nat) (ds : Bytes) (k : Int) (hds : ds ≠ [])
    (hlen : base + ds.length ≤ M.length)
    (hcap : base + (prettyText ds k).length < M.length)
    (h1 : -999 < ds.length + k) (h2 : (ds.length : Int) + k < 1000) :
    prettify (at_ M base ds).mem base ds.length k
      = .ok ⟨(at_ M base (prettyText ds k ++ [0])).mem, base + (prettyText ds k).length⟩ := by
  have hpos : 0 < ds.length := List.length_pos_iff.2 hds
  unfold prettify
  simp only
  by_cases c1 : (ds.length : Int) ≤ ds.length + k ∧ (ds.length : Int) + k ≤ 21
  · have ht : prettyText ds k = ds ++ List.replicate ((ds.length : Int) + k - ds.length).toNat 48 ++ [46, 48] := by
      unfold prettyText; simp only; rw [if_pos c1]
    rw [ht] at hcap ⊢
    rw [if_pos c1]
    generalize hn : ((ds.length : Int) + k - ds.length).toNat = n at *
    have hk : k = n := by omega
    subst hk
    simp only [List.length_append, List.length_replicate, List.length_cons, List.length_nil] at hcap
    rw [fill_end M base n ds _ rfl (by omega)]
    simp only [Res.ok_bind]
    rw [wr_end M base _ 46 _ (by simp) (by simp; omega)]
    simp only [Res.ok_bind]
    rw [wr_end M base _ 48 _ (by simp; omega) (by simp; omega)]
    simp only [Res.ok_bind]
    rw [wr_end M base _ 0 _ (by simp; omega) (by simp; omega)]
    simp only [Res.ok_bind, Res.pure_eq]
    congr 2
    · simp
    · simp; omega
  · rw [if_neg c1]
    by_cases c2 : 0 < (ds.length : Int) + k ∧ (ds.length : Int) + k ≤ 21
    · have ht : prettyText ds k = ds.take ((ds.length : Int) + k).toNat ++ 46 :: ds.drop ((ds.length : Int) + k).toNat := by
        unfold prettyText; simp only; rw [if_neg c1, if_pos c2]
      rw [ht] at hcap ⊢
      rw [if_pos c2]
      obtain ⟨n, hn⟩ : ∃ n : Nat, (ds.length : Int) + k = n := ⟨((ds.length : Int) + k).toNat, by omega⟩
      rw [hn] at c1 c2 hcap ⊢
      simp only [Int.toNat_natCast] at hcap ⊢
      have hnl : n < ds.length := by omega
      simp only [List.length_append, List.length_take, List.length_cons, List.length_drop] at hcap
      have hsplit : at_ M base ds = at_ M base (ds.take n ++ ds.drop n) := by rw [List.take_append_drop]
      rw [hsplit]
      obtain ⟨Z, hZ, hmv⟩ := memmove_tail M base (ds.take n) (ds.drop n) (n + 1) n ((ds.length : Int) - n)
        (by simp; omega) (by simp; omega) (by simp <;> omega) (by simp; omega) (by simp; omega)
      obtain ⟨z, rfl⟩ : ∃ z, Z = [z] := List.length_eq_one_iff.1 (by simp at hZ; omega)
      have hmv' := hmv
      rw [hmv']
      simp only [Res.ok_bind]
      have e : ds.take n ++ [z] ++ ds.drop n = ds.take n ++ z :: ds.drop n := by simp
      rw [e, wr_mid M base (ds.take n) (ds.drop n) z 46 n (by simp; omega) (by simp; omega)]
      simp only [Res.ok_bind]
      rw [wr_end M base _ 0 _ (by simp; omega) (by simp; omega)]
      simp only [Res.ok_bind, Res.pure_eq]
      congr 2
      simp; omega
    · rw [if_neg c2]
      by_cases c3 : -6 < (ds.length : Int) + k ∧ (ds.length : Int) + k ≤ 0
      · have ht : prettyText ds k = 48 :: 46 :: (List.replicate (-((ds.length : Int) + k)).toNat 48 ++ ds) := by
          unfold prettyText; simp only; rw [if_neg c1, if_neg c2, if_pos c3]
        rw [ht] at hcap ⊢
        rw [if_pos c3]
        obtain ⟨n, hn⟩ : ∃ n : Nat, -((ds.length : Int) + k) = n := ⟨(-((ds.length : Int) + k)).toNat, by omega⟩
        have hkk : (ds.length : Int) + k = -(n : Int) := by omega
        rw [hn] at hcap ⊢
        simp only [Int.toNat_natCast] at hcap ⊢
        simp only [List.length_cons, List.length_append, List.length_replicate] at hcap
        have hoff : 2 - ((ds.length : Int) + k) = (n : Int) + 2 := by omega
        simp only [hoff]
        have hsplit : at_ M base ds = at_ M base ([] ++ ds) := rfl
        rw [hsplit]
        obtain ⟨Z, hZ, hmv⟩ := memmove_tail M base [] ds (n + 2) 0 (ds.length : Int)
          (by simp) rfl (by simp; omega) (by omega) (by simpa using hlen)
        rw [hmv]
        obtain ⟨z0, Z1, rfl⟩ : ∃ z0 Z1, Z = z0 :: Z1 := by
          cases Z with
          | nil => simp at hZ; omega
          | cons a b => exact ⟨a, b, rfl⟩
        obtain ⟨z1, Y, rfl⟩ : ∃ z1 Y, Z1 = z1 :: Y := by
          cases Z1 with
          | nil => simp at hZ; omega
          | cons a b => exact ⟨a, b, rfl⟩
        have hY : Y.length = n := by simp at hZ; omega
        simp only [Res.ok_bind]
        have e : [] ++ z0 :: z1 :: Y ++ ds = [] ++ z0 :: (z1 :: Y ++ ds) := by simp
        rw [e, wr_mid M base [] _ z0 48 0 (by simp) (by simp; omega)]
        simp only [Res.ok_bind]
        have e : [] ++ 48 :: (z1 :: Y ++ ds) = [48] ++ z1 :: (Y ++ ds) := by simp
        rw [e, wr_mid M base [48] _ z1 46 1 (by simp) (by simp; omega)]
        simp only [Res.ok_bind]
        have e : [48] ++ 46 :: (Y ++ ds) = [48, 46] ++ Y ++ ds := by simp
        have e2 : ((n : Int) + 2 - 2).toNat = Y.length := by omega
        rw [e, e2, fill_mid M base Y [48, 46] ds 2 (by simp) (by simp; omega)]
        simp only [Res.ok_bind]
        rw [wr_end M base _ 0 _ (by simp; omega) (by simp; omega)]
        simp only [Res.ok_bind, Res.pure_eq]
        rw [hY]
        congr 2
        simp; omega
      · rw [if_neg c3]
        by_cases c4 : ds.length = 1
        · have ht : prettyText ds k = ds ++ 101 :: decimalText ((ds.length : Int) + k - 1) := by
            unfold prettyText; simp only; rw [if_neg c1, if_neg c2, if_neg c3, if_pos c4]
          rw [ht] at hcap ⊢
          rw [if_pos (by omega)]
          simp only [List.length_append, List.length_cons] at hcap
          rw [wr_end M base ds 101 1 (by omega) (by omega)]
          simp only [Res.ok_bind]
          have hcur : (⟨(at_ M base (ds ++ [101])).mem, base + 2⟩ : Cur) = at_ M base (ds ++ [101]) := by
            simp [at_]; omega
          rw [hcur, writeExponent_spec M base (ds ++ [101]) _ (by omega) (by omega) (by simp; omega)]
          simp [Nat.add_assoc]
        · have ht : prettyText ds k = ds.take 1 ++ 46 :: (ds.drop 1 ++ 101 :: decimalText ((ds.length : Int) + k - 1)) := by
            unfold prettyText; simp only; rw [if_neg c1, if_neg c2, if_neg c3, if_neg c4]
          rw [ht] at hcap ⊢
          rw [if_neg (by omega)]
          simp only [List.length_append, List.length_cons, List.length_take, List.length_drop] at hcap
          have hsplit : at_ M base ds = at_ M base (ds.take 1 ++ ds.drop 1) := by rw [List.take_append_drop]
          rw [hsplit]
          obtain ⟨Z, hZ, hmv⟩ := memmove_tail M base (ds.take 1) (ds.drop 1) 2 1 ((ds.length : Int) - 1)
            (by simp; omega) (by simp; omega) (by simp <;> omega) (by simp; omega) (by simp; omega)
          obtain ⟨z, rfl⟩ : ∃ z, Z = [z] := List.length_eq_one_iff.1 (by simp at hZ; omega)
          rw [hmv]
          simp only [Res.ok_bind]
          have e : ds.take 1 ++ [z] ++ ds.drop 1 = ds.take 1 ++ z :: ds.drop 1 := by simp
          rw [e, wr_mid M base (ds.take 1) (ds.drop 1) z 46 1 (by simp; omega) (by simp; omega)]
          simp only [Res.ok_bind]
          rw [wr_end M base _ 101 _ (by simp; omega) (by simp; omega)]
          simp only [Res.ok_bind]
          have hcur : ∀ X : Bytes, X.length = ds.length + 2 →
              (⟨(at_ M base X).mem, (base + (0 + (ds.length : Int) + 2)).toNat⟩ : Cur) = at_ M base X := by
            intro X hX; simp [at_]; omega
          rw [hcur _ (by simp; omega), writeExponent_spec M base _ _ (by omega) (by omega) (by simp; omega)]
          simp [Nat.add_assoc]

end Lexi.Dtoa
