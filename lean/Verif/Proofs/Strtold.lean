import Verif.Model.FloatFmt
import Verif.Proofs.JsonNumber
import Verif.Proofs.IntFmt
import Verif.Proofs.Str
import Verif.Proofs.Round

/-! # strtold on JSON number texts -/

namespace Lexi
open Spec Soft

theorem isDig_iff (c : UInt8) : isDig 10 c = true ↔ IsDigit c := by
  have : ∀ c : UInt8, isDig 10 c = true ↔ IsDigit c := by
    refine forall_byte ?_; decide +kernel
  exact this c

theorem digitVal_eq (c : UInt8) (h : IsDigit c) : (digitVal 10 c).getD 0 = c.toNat - 48 := by
  have : ∀ c : UInt8, IsDigit c → (digitVal 10 c).getD 0 = c.toNat - 48 := by
    refine forall_byte ?_; decide +kernel
  exact this c h

theorem digitsNat_eq (ds : Bytes) (h : ∀ b ∈ ds, IsDigit b) : digitsNat 10 ds = digitsValue ds := by
  suffices ∀ a, ds.foldl (fun n c => 10 * n + (digitVal 10 c).getD 0) a =
      ds.foldl (fun acc b => acc * 10 + (b.toNat - 48)) a from this 0
  intro a
  induction ds generalizing a with
  | nil => rfl
  | cons c cs ih =>
    simp only [List.foldl_cons]
    rw [digitVal_eq c (h c (by simp)), Nat.mul_comm]
    exact ih (fun b hb => h b (by simp [hb])) _

theorem takeWhile_digits (ds r : Bytes) (h : ∀ b ∈ ds, IsDigit b) (hr : ∀ b, r.head? = some b → ¬ IsDigit b) :
    (ds ++ r).takeWhile (isDig 10) = ds ∧ (ds ++ r).dropWhile (isDig 10) = r := by
  induction ds with
  | nil =>
    cases r with
    | nil => exact ⟨rfl, rfl⟩
    | cons c cs =>
      have : isDig 10 c = false := by
        rw [Bool.eq_false_iff]; exact fun h' => hr c rfl ((isDig_iff c).mp h')
      simp [List.takeWhile_cons, List.dropWhile_cons, this]
  | cons c cs ih =>
    have hc : isDig 10 c = true := (isDig_iff c).mpr (h c (by simp))
    have := ih (fun b hb => h b (by simp [hb]))
    simp only [List.cons_append, List.takeWhile_cons, List.dropWhile_cons, hc, if_true, this, and_self]

theorem scanExp_digits (t : Bytes) (ds : Bytes) (h : ∀ b ∈ ds, IsDigit b) (ht : t = ds) :
    digitsNat 10 (t.takeWhile (isDig 10)) = digitsValue ds := by
  subst ht
  have := (takeWhile_digits t [] h (by simp)).1
  rw [List.append_nil] at this
  rw [this, digitsNat_eq t h]

/-- Value of an optional exponent part. -/
def optExp : Option JExp → ℤ
  | some e => e.value
  | none => 0

theorem scanExp_eq (e : Option JExp) (h : ∀ x, e = some x → x.WF) :
    scanExp 101 (expText e) = optExp e := by
  cases e with
  | none => rfl
  | some x =>
    obtain ⟨hm, hs, hd, hdd⟩ := h x rfl
    obtain ⟨m, sg, ds⟩ := x
    simp only at hm hs hd hdd
    have hlow : lower m = 101 := by rcases hm with rfl | rfl <;> decide
    simp only [expText, JExp.text, scanExp, hlow, if_true, optExp, JExp.value]
    have key := scanExp_digits ds ds hdd rfl
    rcases hs with rfl | rfl | rfl
    · simp only [List.nil_append]
      rw [if_neg (by simp)]
      cases ds with
      | nil => exact absurd rfl hd
      | cons c cs =>
        have hc : IsDigit c := hdd c (by simp)
        have h1 : c ≠ 45 := by rintro rfl; exact absurd hc (by decide)
        have h2 : c ≠ 43 := by rintro rfl; exact absurd hc (by decide)
        split
        · rename_i heq; exact absurd (List.cons.inj heq).1 h1
        · rename_i heq; exact absurd (List.cons.inj heq).1 h2
        · rw [key]
    · simp only [List.cons_append, List.nil_append, if_true, key]
    · simp only [List.cons_append, List.nil_append, key]
      rw [if_neg (by simp)]

theorem pow_split10 (m : ℕ) (e : ℤ) :
    ((m * 10 ^ e.toNat : ℕ) : ℚ) / ((10 ^ (-e).toNat : ℕ) : ℚ) = (m : ℚ) * 10 ^ e := by
  have : (10 : ℚ) ^ e = 10 ^ e.toNat / 10 ^ (-e).toNat := by
    rcases le_total 0 e with h | h
    · have h1 : (-e).toNat = 0 := by omega
      have h2 : e = (e.toNat : ℤ) := by omega
      rw [h1, pow_zero, div_one]
      conv_lhs => rw [h2]
      rw [zpow_natCast]
    · have h1 : e.toNat = 0 := by omega
      have h2 : e = -((-e).toNat : ℤ) := by omega
      rw [h1, pow_zero]
      conv_lhs => rw [h2]
      rw [zpow_neg, zpow_natCast, one_div]
  rw [this]
  push_cast
  ring

theorem exp_nondigit (n : JNumber) (hn : n.WF) : ∀ c, (expText n.exp).head? = some c → ¬ IsDigit c := by
  intro c hc
  rcases exp_head n.exp hn.exp_ok c hc with rfl | rfl <;> decide

theorem tail_nondigit (n : JNumber) (hn : n.WF) :
    ∀ c, (fracText n.frac ++ expText n.exp).head? = some c → ¬ IsDigit c := by
  intro c hc
  cases hf : n.frac with
  | some f =>
    rw [hf] at hc
    simp only [fracText, List.cons_append, List.head?_cons, Option.some.injEq] at hc
    rw [← hc]; decide
  | none =>
    rw [hf] at hc
    simp only [fracText, List.nil_append] at hc
    exact exp_nondigit n hn c hc

theorem scanNumeral_number (n : JNumber) (hn : n.WF) :
    scanNumeral 10 10 1 101 (n.int ++ (fracText n.frac ++ expText n.exp)) = some n.mag := by
  obtain ⟨h1, h2⟩ := takeWhile_digits n.int _ hn.int_digits (tail_nondigit n hn)
  have hie : n.int.isEmpty = false := by
    cases hi : n.int with
    | nil => exact absurd hi hn.int_ne
    | cons c r => rfl
  have hexp := scanExp_eq n.exp hn.exp_ok
  have hmag : n.mag = (digitsValue (n.int ++ n.fracDigits) : ℚ) * 10 ^ (optExp n.exp - n.fracDigits.length) := rfl
  have hfr : scanFrac 10 true (fracText n.frac ++ expText n.exp) = (n.fracDigits, expText n.exp) := by
    unfold JNumber.fracDigits
    cases hf : n.frac with
    | some f =>
      obtain ⟨hfne, hfd⟩ := hn.frac_ok f hf
      obtain ⟨h3, h4⟩ := takeWhile_digits f (expText n.exp) hfd (exp_nondigit n hn)
      simp [fracText, scanFrac, h3, h4]
    | none =>
      simp only [fracText, List.nil_append, Option.getD_none]
      unfold scanFrac
      split
      · rename_i r h
        have := exp_head n.exp hn.exp_ok 46 (by rw [h]; rfl)
        exact absurd this (by decide)
      · rfl
  have hd : ∀ b ∈ n.int ++ n.fracDigits, IsDigit b := by
    intro b hb
    rcases List.mem_append.mp hb with hb | hb
    · exact hn.int_digits b hb
    · unfold JNumber.fracDigits at hb
      cases hf : n.frac with
      | some f => rw [hf] at hb; exact (hn.frac_ok f hf).2 b hb
      | none => rw [hf] at hb; simp at hb
  unfold scanNumeral
  simp only [h1, h2, hie, Bool.not_false, hfr, hexp, Bool.false_and, Bool.false_eq_true, if_false]
  rw [digitsNat_eq _ hd, pow_split10, hmag]
  simp

theorem text_eq (n : JNumber) :
    n.text = (if n.neg then [45] else []) ++ (n.int ++ (fracText n.frac ++ expText n.exp)) := by
  simp only [JNumber.text, List.append_assoc]
  rfl

theorem scanMagWith_eq (R : Bool → Rat → LVal) (neg : Bool) (t : Bytes) : scanMagWith R neg t =
    if startsWord [105, 110, 102] t then .inf neg
    else if startsWord [110, 97, 110] t then .nan
    else
      match (if startsWord [48, 120] t then scanNumeral 16 2 4 112 (t.drop 2) else none) with
      | some q => R neg q
      | none =>
        match scanNumeral 10 10 1 101 t with
        | some q => R neg q
        | none => .fin false 0 := by
  unfold scanMagWith scan
  split
  · rfl
  split
  · rfl
  dsimp only
  cases (if startsWord [48, 120] t then scanNumeral 16 2 4 112 (t.drop 2) else none) with
  | some q => rfl
  | none =>
    cases scanNumeral 10 10 1 101 t <;> rfl


theorem scanMagWith_number (R : Bool → ℚ → LVal) (neg : Bool) (n : JNumber) (hn : n.WF) :
    scanMagWith R neg (n.int ++ (fracText n.frac ++ expText n.exp)) = R neg n.mag := by
  have hnum := scanNumeral_number n hn
  obtain ⟨c, r, hc, hcd⟩ : ∃ c r, n.int = c :: r ∧ IsDigit c := by
    cases hi : n.int with
    | nil => exact absurd hi hn.int_ne
    | cons c r => exact ⟨c, r, rfl, hn.int_digits c (by rw [hi]; simp)⟩
  have lowd : ∀ c : UInt8, IsDigit c → lower c ≠ 105 ∧ lower c ≠ 110 := by
    refine forall_byte ?_; decide +kernel
  have hx : ∀ d : UInt8, (IsDigit d ∨ d = 46 ∨ d = 101 ∨ d = 69) → lower d ≠ 120 := by
    refine forall_byte ?_; decide +kernel
  set t := n.int ++ (fracText n.frac ++ expText n.exp) with ht
  have htc : t = c :: (r ++ (fracText n.frac ++ expText n.exp)) := by rw [ht, hc]; rfl
  have hinf : startsWord [105, 110, 102] t = false := by
    rw [Bool.eq_false_iff]
    intro h
    rw [htc] at h
    simp only [startsWord, List.length_cons, List.take_succ_cons, List.map_cons, beq_iff_eq, List.cons.injEq] at h
    exact (lowd c hcd).1 h.1
  have hnan : startsWord [110, 97, 110] t = false := by
    rw [Bool.eq_false_iff]
    intro h
    rw [htc] at h
    simp only [startsWord, List.length_cons, List.take_succ_cons, List.map_cons, beq_iff_eq, List.cons.injEq] at h
    exact (lowd c hcd).2 h.1
  have hhex : startsWord [48, 120] t = false := by
    rw [Bool.eq_false_iff]
    intro h
    rw [htc] at h
    have : ∀ d, (r ++ (fracText n.frac ++ expText n.exp)).head? = some d → lower d ≠ 120 := by
      intro d hd
      apply hx
      cases hr : r with
      | cons d' r' =>
        rw [hr] at hd
        simp only [List.cons_append, List.head?_cons, Option.some.injEq] at hd
        subst hd
        exact Or.inl (hn.int_digits _ (by rw [hc, hr]; simp))
      | nil =>
        rw [hr, List.nil_append] at hd
        cases hf : n.frac with
        | some f =>
          rw [hf] at hd
          simp only [fracText, List.cons_append, List.head?_cons, Option.some.injEq] at hd
          exact Or.inr (Or.inl hd.symm)
        | none =>
          rw [hf] at hd
          simp only [fracText, List.nil_append] at hd
          exact Or.inr (Or.inr (exp_head n.exp hn.exp_ok d hd))
    cases hrest : r ++ (fracText n.frac ++ expText n.exp) with
    | nil =>
      rw [hrest] at h
      simp [startsWord] at h
    | cons d ds =>
      rw [hrest] at h this
      simp only [startsWord, List.length_cons, List.take_succ_cons, List.map_cons, beq_iff_eq, List.cons.injEq] at h
      exact this d rfl h.2.1
  simp only [scanMagWith_eq, hinf, hnan, hhex, Bool.false_eq_true, if_false, hnum]

theorem number_bytes (n : JNumber) (hn : n.WF) :
    ∀ b ∈ n.int ++ (fracText n.frac ++ expText n.exp), b ≠ 0 := by
  have hd : ∀ b : UInt8, IsDigit b → b ≠ 0 := by rintro b h rfl; exact absurd h (by decide)
  intro b hb
  rcases List.mem_append.mp hb with hb | hb
  · exact hd b (hn.int_digits b hb)
  · rcases List.mem_append.mp hb with hb | hb
    · cases hf : n.frac with
      | none => rw [hf] at hb; simp [fracText] at hb
      | some f =>
        rw [hf] at hb
        rcases List.mem_cons.mp hb with rfl | hb
        · decide
        · exact hd b ((hn.frac_ok f hf).2 b hb)
    · cases he : n.exp with
      | none => rw [he] at hb; simp [expText] at hb
      | some e =>
        rw [he] at hb
        obtain ⟨hm, hs, -, hdd⟩ := hn.exp_ok e he
        rcases List.mem_cons.mp hb with rfl | hb
        · rcases hm with h | h <;> rw [h] <;> decide
        · rcases List.mem_append.mp hb with hb | hb
          · rcases hs with h | h | h <;> rw [h] at hb <;> simp at hb <;> rw [hb] <;> decide
          · exact hd b (hdd b hb)

/-- `strtold` reads every JSON number text as its value rounded. -/
theorem strtoldWith_number (R : Bool → ℚ → LVal) (n : JNumber) (hn : n.WF) : strtoldWith R n.text = R n.neg n.mag := by
  have hb := number_bytes n hn
  have hmag := scanMagWith_number R n.neg n hn
  obtain ⟨c, r, hc, hcd⟩ : ∃ c r, n.int ++ (fracText n.frac ++ expText n.exp) = c :: r ∧ IsDigit c := by
    cases hi : n.int with
    | nil => exact absurd hi hn.int_ne
    | cons c r => exact ⟨c, _, rfl, hn.int_digits c (by rw [hi]; simp)⟩
  have hcs : cstr n.text = n.text := by
    apply cstr_eq
    refine ⟨fun hb' => ?_, Or.inl rfl⟩
    rw [text_eq] at hb'
    rcases List.mem_append.mp hb' with h | h
    · split at h
      · simp at h
      · simp at h
    · exact hb 0 h rfl
  have hsp : ∀ c : UInt8, IsDigit c → isspace c = false ∧ c ≠ 45 ∧ c ≠ 43 := by
    refine forall_byte ?_; decide +kernel
  obtain ⟨hs1, hs2, hs3⟩ := hsp c hcd
  unfold strtoldWith
  rw [hcs, text_eq]
  by_cases hneg : n.neg = true
  · simp only [hneg, if_true, List.cons_append, List.nil_append]
    have : skipSpace (45 :: (n.int ++ (fracText n.frac ++ expText n.exp))) =
        45 :: (n.int ++ (fracText n.frac ++ expText n.exp)) := by
      rw [skipSpace]; rfl
    rw [this]
    rw [hneg] at hmag
    exact hmag
  · have hneg : n.neg = false := by simpa using hneg
    simp only [hneg, Bool.false_eq_true, if_false, List.nil_append]
    rw [hneg] at hmag
    rw [hc] at hmag ⊢
    have : skipSpace (c :: r) = c :: r := by rw [skipSpace]; simp [hs1]
    rw [this]
    split
    · rename_i heq; exact absurd (List.cons.inj heq).1 hs2
    · rename_i heq; exact absurd (List.cons.inj heq).1 hs3
    · exact hmag

theorem strtold_number (F : FpFormat) (n : JNumber) (hn : n.WF) : strtold F n.text = F.round n.neg n.mag :=
  strtoldWith_number F.round n hn

end Lexi
