import Verif.Spec.CutNumber
import Verif.Props.Cut
import Verif.Props.Cross
import Verif.Props.Locale
import Mathlib.Algebra.Order.Floor.Semifield
import Verif.Props.ReadSingle

/-!
# C106: texts of floating-point numbers cut short
-/

namespace Lexi
open Spec Soft Dtoa

theorem fracText_length (n : JNumber) : (fracText n.frac).length = n.fracLen := by
  unfold JNumber.fracLen
  cases n.frac <;> simp [fracText]

theorem int_take_ne {n : JNumber} (hn : n.WF) {a : ℕ} (ha : a ≠ 0) : n.int.take a ≠ [] := by
  intro h
  rcases List.take_eq_nil_iff.mp h with h | h
  · exact ha h
  · exact hn.int_ne h

/-- What is left of a number is a number. -/
theorem cut_wf {n : JNumber} (hn : n.WF) {k : ℕ} {m : JNumber} (hm : n.cut k = some m) : m.WF := by
  unfold JNumber.cut at hm
  split at hm
  · cases hm
  rename_i hk
  cases hm
  refine ⟨int_take_ne hn (by omega), fun b hb => hn.int_digits b (List.mem_of_mem_take hb), ?_, ?_, ?_⟩
  · intro hl
    have hl' : n.int.length > 1 := by simp only [List.length_take] at hl; omega
    have := hn.int_lead hl'
    simp only [List.length_take] at hl
    rw [List.head?_take, if_neg (by omega)]
    exact this
  · intro f hf
    simp only at hf
    cases hfr : n.frac with
    | none => rw [hfr] at hf; simp at hf
    | some g =>
      rw [hfr] at hf
      simp only [Option.bind_some] at hf
      split at hf
      · cases hf
      · rename_i hk2
        cases hf
        obtain ⟨g1, g2⟩ := hn.frac_ok g hfr
        refine ⟨fun h => ?_, fun b hb => g2 b (List.mem_of_mem_take hb)⟩
        rcases List.take_eq_nil_iff.mp h with h | h
        · omega
        · exact g1 h
  · intro e he
    simp only at he
    cases hex : n.exp with
    | none => rw [hex] at he; simp at he
    | some x =>
      rw [hex] at he
      simp only [Option.bind_some] at he
      unfold JExp.cut at he
      split at he
      · cases he
      · rename_i hk2
        cases he
        obtain ⟨x1, x2, x3, x4⟩ := hn.exp_ok x hex
        refine ⟨x1, x2, fun h => ?_, fun b hb => x4 b (List.mem_of_mem_take hb)⟩
        rcases List.take_eq_nil_iff.mp h with h | h
        · omega
        · exact x3 h

/-- The first `k` bytes are the number that is left and something without a digit. -/
theorem cut_text {n : JNumber} (hn : n.WF) {k : ℕ} {m : JNumber} (hm : n.cut k = some m) :
    ∃ t, n.text.take k = m.text ++ t ∧ Loose t ∧ (t ≠ [] → m.exp = none) ∧ (t = [46] → m.frac = none) := by
  unfold JNumber.cut at hm
  split at hm
  · cases hm
  rename_i hk
  cases hm
  have hs : (if n.neg then [45] else [] : List UInt8).length = n.signLen := by
    unfold JNumber.signLen; cases n.neg <;> rfl
  have hsplit : n.text.take k = (if n.neg then [45] else [] : List UInt8) ++ (n.int.take (k - n.signLen) ++
      ((fracText n.frac).take (k - n.signLen - n.int.length) ++
        (expText n.exp).take (k - n.signLen - n.int.length - n.fracLen))) := by
    rw [text_eq, List.take_append, List.take_append, List.take_append, hs, fracText_length,
      List.take_of_length_le (by rw [hs]; omega)]
  rw [hsplit]
  simp only [text_eq]
  -- the fraction: kept or a lone point, in which case nothing follows
  have hfrac : ∃ t, (fracText n.frac).take (k - n.signLen - n.int.length) =
      fracText (n.frac.bind fun f =>
        if k ≤ n.signLen + n.int.length + 1 then none else some (f.take (k - (n.signLen + n.int.length + 1)))) ++ t ∧
      (t = [] ∨ t = [46] ∧ k = n.signLen + n.int.length + 1 ∧ 1 < n.fracLen) := by
    cases hf : n.frac with
    | none => exact ⟨[], by simp [fracText], Or.inl rfl⟩
    | some f =>
      simp only [Option.bind_some]
      have hfl : 1 < n.fracLen := by
        unfold JNumber.fracLen
        rw [hf]
        have := List.length_pos_iff.mpr (hn.frac_ok f hf).1
        simp only; omega
      by_cases h1 : k ≤ n.signLen + n.int.length
      · refine ⟨[], ?_, Or.inl rfl⟩
        rw [if_pos (by omega), show k - n.signLen - n.int.length = 0 by omega]
        simp [fracText]
      · by_cases h2 : k = n.signLen + n.int.length + 1
        · refine ⟨[46], ?_, Or.inr ⟨rfl, h2, hfl⟩⟩
          rw [if_pos (by omega), show k - n.signLen - n.int.length = 1 by omega]
          simp [fracText]
        · refine ⟨[], ?_, Or.inl rfl⟩
          rw [if_neg (by omega), show k - n.signLen - n.int.length = (k - (n.signLen + n.int.length + 1)) + 1 by omega]
          simp [fracText]
  have hexp : ∃ t, (expText n.exp).take (k - n.signLen - n.int.length - n.fracLen) =
      expText (n.exp.bind fun e => e.cut (k - (n.signLen + n.int.length + n.fracLen))) ++ t ∧ Loose t ∧ t ≠ [46] ∧
      (t ≠ [] → (n.exp.bind fun e => e.cut (k - (n.signLen + n.int.length + n.fracLen))) = none) ∧
      (k - n.signLen - n.int.length - n.fracLen = 0 → t = []) := by
    rw [show k - n.signLen - n.int.length - n.fracLen = k - (n.signLen + n.int.length + n.fracLen) by omega]
    generalize k - (n.signLen + n.int.length + n.fracLen) = j
    cases he : n.exp with
    | none => exact ⟨[], by simp [expText], Or.inl rfl, by simp, by simp, fun _ => rfl⟩
    | some x =>
      obtain ⟨x1, x2, x3, x4⟩ := hn.exp_ok x he
      obtain ⟨mk, sg, ds⟩ := x
      simp only at x1 x2 x3 x4
      simp only [Option.bind_some, JExp.cut]
      by_cases hj : j ≤ 1 + sg.length
      · rw [if_pos hj]
        refine ⟨(mk :: sg).take j, ?_, ?_, ?_, by simp, ?_⟩
        · simp only [expText, JExp.text, List.nil_append]
          rw [show mk :: (sg ++ ds) = (mk :: sg) ++ ds from rfl, List.take_append,
            show j - (mk :: sg).length = 0 by simp only [List.length_cons]; omega]
          simp
        · have : j = 0 ∨ j = 1 ∨ j = 2 := by
            rcases x2 with h | h | h <;> rw [h] at hj <;> simp at hj <;> omega
          unfold Loose
          rcases x1 with rfl | rfl <;> rcases x2 with rfl | rfl | rfl <;> rcases this with rfl | rfl | rfl <;>
            simp_all
        · intro h
          cases j with
          | zero => simp at h
          | succ j =>
            simp only [List.take_succ_cons, List.cons.injEq] at h
            rcases x1 with rfl | rfl <;> simp at h
        · rintro rfl; rfl
      · rw [if_neg hj]
        refine ⟨[], ?_, Or.inl rfl, by simp, by simp, fun _ => rfl⟩
        simp only [expText, JExp.text, List.append_nil]
        rw [show mk :: (sg ++ ds) = (mk :: sg) ++ ds from rfl, List.take_append,
          List.take_of_length_le (by simp only [List.length_cons]; omega), List.length_cons,
          Nat.add_comm sg.length 1]
        rfl
  obtain ⟨t1, ht1, h1⟩ := hfrac
  obtain ⟨t2, ht2, hl2, hp2, hn2, hz2⟩ := hexp
  rw [ht1, ht2]
  rcases h1 with rfl | ⟨rfl, hk1, hfl⟩
  · refine ⟨t2, by simp, hl2, hn2, fun h => absurd h hp2⟩
  · have := hz2 (by omega)
    subst this
    have hex : (n.exp.bind fun e => e.cut (k - (n.signLen + n.int.length + n.fracLen))) = none := by
      rw [show k - (n.signLen + n.int.length + n.fracLen) = 0 by omega]
      cases n.exp <;> simp [JExp.cut]
    refine ⟨[46], ?_, Or.inr (Or.inl rfl), fun _ => hex, fun _ => ?_⟩
    · rw [hex]; simp [expText]
    · cases hf : n.frac with
      | none => rfl
      | some f => simp only [Option.bind_some]; rw [if_pos (by omega)]

/-- Something without a digit after a number changes nothing. -/
theorem strtoldWith_loose (R : Bool → ℚ → LVal) (m : JNumber) (hm : m.WF) (t : Bytes) (hl : Loose t)
    (he : t ≠ [] → m.exp = none) (hf : t = [46] → m.frac = none) :
    strtoldWith R (m.text ++ t) = R m.neg m.mag := by
  by_cases ht0 : t = []
  · rw [ht0, List.append_nil]; exact strtoldWith_number R m hm
  have he := he ht0
  obtain ⟨c0, r0, hc0, hcd0⟩ : ∃ c r, m.int = c :: r ∧ IsDigit c := by
    cases hi : m.int with
    | nil => exact absurd hi hm.int_ne
    | cons c r => exact ⟨c, r, rfl, hm.int_digits c (by rw [hi]; simp)⟩
  have htail : ∀ c, (fracText m.frac ++ t).head? = some c → c = 46 ∨ c = 101 ∨ c = 69 := by
    intro c hc
    cases hfr : m.frac with
    | some f =>
      rw [hfr] at hc
      simp only [fracText, List.cons_append, List.head?_cons, Option.some.injEq] at hc
      exact Or.inl hc.symm
    | none =>
      rw [hfr] at hc
      simp only [fracText, List.nil_append] at hc
      rcases hl with rfl | rfl | rfl | rfl | rfl | rfl | rfl | rfl <;> simp at hc <;> simp [hc.symm]
  have hnd : ∀ c, (fracText m.frac ++ t).head? = some c → ¬ IsDigit c := by
    intro c hc
    rcases htail c hc with rfl | rfl | rfl <;> decide
  have htd : ∀ c, t.head? = some c → ¬ IsDigit c := by
    intro c hc
    rcases hl with rfl | rfl | rfl | rfl | rfl | rfl | rfl | rfl <;> simp at hc <;> rw [← hc] <;> decide
  obtain ⟨h1, h2⟩ := takeWhile_digits m.int _ hm.int_digits hnd
  have hie : m.int.isEmpty = false := by rw [hc0]; rfl
  have hd : ∀ b ∈ m.int ++ m.fracDigits, IsDigit b := by
    intro b hb
    rcases List.mem_append.mp hb with hb | hb
    · exact hm.int_digits b hb
    · unfold JNumber.fracDigits at hb
      cases hf : m.frac with
      | some f => rw [hf] at hb; exact (hm.frac_ok f hf).2 b hb
      | none => rw [hf] at hb; simp at hb
  have hfr : ∃ t', scanFrac 10 true (fracText m.frac ++ t) = (m.fracDigits, t') ∧ scanExp 101 t' = 0 := by
    unfold JNumber.fracDigits
    cases hfr : m.frac with
    | some f =>
      obtain ⟨hfne, hfd⟩ := hm.frac_ok f hfr
      obtain ⟨h3, h4⟩ := takeWhile_digits f t hfd htd
      refine ⟨t, by simp [fracText, scanFrac, h3, h4], ?_⟩
      have : t ≠ [46] := fun h => by rw [hf h] at hfr; cases hfr
      rcases hl with rfl | rfl | rfl | rfl | rfl | rfl | rfl | rfl
      · exact absurd rfl ht0
      · exact absurd rfl this
      all_goals decide +kernel
    | none =>
      simp only [fracText, List.nil_append, Option.getD_none]
      rcases hl with rfl | rfl | rfl | rfl | rfl | rfl | rfl | rfl
      · exact absurd rfl ht0
      · exact ⟨[], by decide +kernel⟩
      · exact ⟨[101], by decide +kernel⟩
      · exact ⟨[69], by decide +kernel⟩
      · exact ⟨[101, 45], by decide +kernel⟩
      · exact ⟨[101, 43], by decide +kernel⟩
      · exact ⟨[69, 45], by decide +kernel⟩
      · exact ⟨[69, 43], by decide +kernel⟩
  have hnum : scanNumeral 10 10 1 101 (m.int ++ (fracText m.frac ++ t)) = some m.mag := by
    obtain ⟨t', hfr, hexp⟩ := hfr
    have hmag : m.mag = (digitsValue (m.int ++ m.fracDigits) : ℚ) * 10 ^ ((0 : ℤ) - m.fracDigits.length) := by
      unfold JNumber.mag JNumber.expValue; rw [he]
    unfold scanNumeral
    simp only [h1, h2, hie, Bool.not_false, hfr, hexp, Bool.false_and, Bool.false_eq_true, if_false]
    rw [digitsNat_eq _ hd, pow_split10, hmag]
    simp
  have hscan : scanMagWith R m.neg (m.int ++ (fracText m.frac ++ t)) = R m.neg m.mag := by
    have lowd : ∀ c : UInt8, IsDigit c → lower c ≠ 105 ∧ lower c ≠ 110 := by
      refine forall_byte ?_; decide +kernel
    have hx : ∀ d : UInt8, (IsDigit d ∨ d = 46 ∨ d = 101 ∨ d = 69) → lower d ≠ 120 := by
      refine forall_byte ?_; decide +kernel
    have hw : ∀ w r, m.int ++ (fracText m.frac ++ t) = c0 :: (r0 ++ (fracText m.frac ++ t)) →
        startsWord (w :: r) (m.int ++ (fracText m.frac ++ t)) = true → lower c0 = w := by
      intro w r e h
      rw [e] at h
      simp only [startsWord, List.length_cons, List.take_succ_cons, List.map_cons, beq_iff_eq, List.cons.injEq] at h
      exact h.1
    have e0 : m.int ++ (fracText m.frac ++ t) = c0 :: (r0 ++ (fracText m.frac ++ t)) := by rw [hc0]; rfl
    have hinf : startsWord [105, 110, 102] (m.int ++ (fracText m.frac ++ t)) = false := by
      rw [Bool.eq_false_iff]; exact fun h => (lowd c0 hcd0).1 (hw _ _ e0 h)
    have hnan : startsWord [110, 97, 110] (m.int ++ (fracText m.frac ++ t)) = false := by
      rw [Bool.eq_false_iff]; exact fun h => (lowd c0 hcd0).2 (hw _ _ e0 h)
    have hhex : startsWord [48, 120] (m.int ++ (fracText m.frac ++ t)) = false := by
      rw [Bool.eq_false_iff]
      intro h
      rw [e0] at h
      have : ∀ d, (r0 ++ (fracText m.frac ++ t)).head? = some d → lower d ≠ 120 := by
        intro d hd
        apply hx
        cases hr : r0 with
        | cons d' r' =>
          rw [hr] at hd
          simp only [List.cons_append, List.head?_cons, Option.some.injEq] at hd
          subst hd
          exact Or.inl (hm.int_digits _ (by rw [hc0, hr]; simp))
        | nil =>
          rw [hr, List.nil_append] at hd
          exact Or.inr (htail d hd)
      cases hrest : r0 ++ (fracText m.frac ++ t) with
      | nil => rw [hrest] at h; simp [startsWord] at h
      | cons d ds =>
        rw [hrest] at h this
        simp only [startsWord, List.length_cons, List.take_succ_cons, List.map_cons, beq_iff_eq, List.cons.injEq] at h
        exact this d rfl h.2.1
    simp only [scanMagWith_eq, hinf, hnan, hhex, Bool.false_eq_true, if_false, hnum]
  have htext : m.text ++ t = (if m.neg then [45] else []) ++ (m.int ++ (fracText m.frac ++ t)) := by
    rw [text_eq, he]; simp [expText]
  have hb : ∀ b ∈ m.text ++ t, b ≠ 0 := by
    intro b hb
    rcases List.mem_append.mp hb with hb | hb
    · rw [text_eq] at hb
      rcases List.mem_append.mp hb with h | h
      · split at h
        · simp at h; rw [h]; decide
        · simp at h
      · exact number_bytes m hm b h
    · rcases hl with rfl | rfl | rfl | rfl | rfl | rfl | rfl | rfl <;> simp at hb <;>
        first | (rw [hb]; decide) | (rcases hb with rfl | rfl <;> decide)
  have hcs : cstr (m.text ++ t) = m.text ++ t := cstr_eq ⟨fun h => hb 0 h rfl, Or.inl rfl⟩
  have hsp : ∀ c : UInt8, IsDigit c → isspace c = false ∧ c ≠ 45 ∧ c ≠ 43 := by
    refine forall_byte ?_; decide +kernel
  obtain ⟨hs1, hs2, hs3⟩ := hsp c0 hcd0
  unfold strtoldWith
  rw [hcs, htext]
  by_cases hneg : m.neg = true
  · simp only [hneg, if_true, List.cons_append, List.nil_append]
    have : ∀ x : Bytes, skipSpace (45 :: x) = 45 :: x := by intro x; rw [skipSpace]; rfl
    rw [this]
    rw [hneg] at hscan
    exact hscan
  · have hneg : m.neg = false := by simpa using hneg
    simp only [hneg, Bool.false_eq_true, if_false, List.nil_append]
    rw [hneg] at hscan
    rw [show m.int ++ (fracText m.frac ++ t) = c0 :: (r0 ++ (fracText m.frac ++ t)) by rw [hc0]; rfl] at hscan ⊢
    have : ∀ x : Bytes, skipSpace (c0 :: x) = c0 :: x := by intro x; rw [skipSpace]; simp [hs1]
    rw [this]
    split
    · rename_i heq; exact absurd (List.cons.inj heq).1 hs2
    · rename_i heq; exact absurd (List.cons.inj heq).1 hs3
    · exact hscan

theorem cut_none {n : JNumber} {k : ℕ} (h : n.cut k = none) : n.text.take k = [] ∨ n.text.take k = [45] := by
  unfold JNumber.cut at h
  split at h
  · rename_i hk
    unfold JNumber.signLen at hk
    rw [text_eq]
    cases hn : n.neg with
    | false => rw [hn] at hk; simp at hk; left; rw [hk]; rfl
    | true =>
      rw [hn] at hk
      simp only [if_true] at hk
      have : k = 0 ∨ k = 1 := by omega
      rcases this with rfl | rfl
      · exact Or.inl rfl
      · exact Or.inr rfl
  · cases h

/-- C106: the first `k` bytes of a JSON number are read as the number that is left of it; without a digit they are
read as zero. -/
theorem C106_read (F : FpFormat) (n : JNumber) (hn : n.WF) (k : ℕ) :
    (∀ m, n.cut k = some m → m.WF ∧ (∃ t, n.text.take k = m.text ++ t ∧ Loose t) ∧
      lexiDouble F (n.text.take k) = lexiDouble F m.text ∧ lexiFloat F (n.text.take k) = lexiFloat F m.text) ∧
    (n.cut k = none → (n.text.take k = [] ∨ n.text.take k = [45]) ∧
      lexiDouble F (n.text.take k) = 0 ∧ lexiFloat F (n.text.take k) = 0) := by
  refine ⟨fun m hm => ?_, fun h => ?_⟩
  · have hw := cut_wf hn hm
    obtain ⟨t, ht, hl, he, hf⟩ := cut_text hn hm
    refine ⟨hw, ⟨t, ht, hl⟩, ?_, ?_⟩
    · rw [lexi_eq F m hw]
      unfold lexiDouble extractLongDouble strtold
      rw [ht, strtoldWith_loose F.round m hw t hl he hf]
    · rw [flexi_eq F m hw]
      unfold lexiFloat extractLongDouble strtold
      rw [ht, strtoldWith_loose F.round m hw t hl he hf]
  · have hs := cut_none h
    have hz : strtold F (n.text.take k) = .fin false 0 := by
      rcases hs with h | h <;> rw [h] <;> rfl
    refine ⟨hs, ?_, ?_⟩
    · unfold lexiDouble extractLongDouble; rw [hz]; decide +kernel
    · unfold lexiFloat extractLongDouble; rw [hz]; decide +kernel

theorem significand_mag (n : JNumber) : n.mag = n.significand * 10 ^ n.expValue := by
  unfold JNumber.mag JNumber.significand
  rw [zpow_sub₀ (by norm_num), zpow_natCast]
  ring

theorem floor_div_pow (a b : ℕ) : ⌊(a : ℚ) / b⌋₊ = a / b := by
  exact Nat.floor_div_eq_div a b

/-- C106: the value of the number that is left.  In the integer part the digits that are missing divide it; in the
fraction it is the significand truncated; in the exponent the missing digits divide the exponent. -/
theorem C106_value (n : JNumber) (hn : n.WF) (k : ℕ) (m : JNumber) (hm : n.cut k = some m) :
    m.neg = n.neg ∧
    (k ≤ n.signLen + n.int.length → m.mag = ⌊n.significand / 10 ^ (n.signLen + n.int.length - k)⌋₊) ∧
    (∀ j, n.signLen + n.int.length < k → k ≤ n.signLen + n.int.length + n.fracLen + n.headLen →
      j = min (k - (n.signLen + n.int.length + 1)) n.fracDigits.length →
      m.mag = ⌊n.significand * 10 ^ j⌋₊ / 10 ^ j) ∧
    (n.signLen + n.int.length + n.fracLen + n.headLen < k →
      m.mag = n.significand * 10 ^ n.expValue.tdiv (10 ^ (n.text.length - k))) := by
  have hfd : ∀ b ∈ n.fracDigits, IsDigit b := by
    intro b hb
    unfold JNumber.fracDigits at hb
    cases hf : n.frac with
    | some f => rw [hf] at hb; exact (hn.frac_ok f hf).2 b hb
    | none => rw [hf] at hb; simp at hb
  have hall : ∀ b ∈ n.int ++ n.fracDigits, IsDigit b := by
    intro b hb
    rcases List.mem_append.mp hb with hb | hb
    · exact hn.int_digits b hb
    · exact hfd b hb
  have hfl : n.fracDigits.length = n.fracLen - 1 ∧ (n.fracLen = 0 → n.frac = none) := by
    unfold JNumber.fracDigits JNumber.fracLen; cases n.frac <;> simp
  -- the digits kept, `i` of them, and the significand
  have htrunc : ∀ i : ℕ, digitsValue ((n.int ++ n.fracDigits).take i) =
      digitsValue (n.int ++ n.fracDigits) / 10 ^ (n.int.length + n.fracDigits.length - i) := by
    intro i
    rw [digitsValue_take _ hall, List.length_append]
  unfold JNumber.cut at hm
  split at hm
  · cases hm
  rename_i hk
  cases hm
  refine ⟨rfl, fun hk1 => ?_, fun j hk1 hk2 hj => ?_, fun hk1 => ?_⟩
  · have hfrac : (n.frac.bind fun f => if k ≤ n.signLen + n.int.length + 1 then none
        else some (f.take (k - (n.signLen + n.int.length + 1)))) = none := by
      cases n.frac with
      | none => rfl
      | some f => simp only [Option.bind_some]; rw [if_pos (by omega)]
    have hexp : (n.exp.bind fun e => e.cut (k - (n.signLen + n.int.length + n.fracLen))) = none := by
      rw [show k - (n.signLen + n.int.length + n.fracLen) = 0 by omega]
      cases n.exp <;> simp [JExp.cut]
    simp only [JNumber.mag, JNumber.fracDigits, JNumber.expValue, hfrac, hexp, Option.getD_none, List.append_nil,
      List.length_nil, Nat.cast_zero, sub_zero, zpow_zero, mul_one]
    have h1 : n.int.take (k - n.signLen) = (n.int ++ n.fracDigits).take (k - n.signLen) := by
      rw [List.take_append_of_le_length (by omega)]
    rw [h1, htrunc]
    have h2 : n.significand / 10 ^ (n.signLen + n.int.length - k) =
        (digitsValue (n.int ++ n.fracDigits) : ℚ) / ((10 ^ (n.int.length + n.fracDigits.length - (k - n.signLen)) : ℕ) : ℚ) := by
      unfold JNumber.significand
      rw [div_div, ← pow_add]
      push_cast
      congr 2
      omega
    rw [h2, floor_div_pow]
  · have hexp : (n.exp.bind fun e => e.cut (k - (n.signLen + n.int.length + n.fracLen))) = none := by
      unfold JNumber.headLen at hk2
      cases he : n.exp with
      | none => rfl
      | some e =>
        rw [he] at hk2
        simp only [Option.bind_some, JExp.cut]
        simp only at hk2
        rw [if_pos (by omega)]
    have hfrac : (n.frac.bind fun f => if k ≤ n.signLen + n.int.length + 1 then none
        else some (f.take (k - (n.signLen + n.int.length + 1)))).getD [] = n.fracDigits.take j := by
      unfold JNumber.fracDigits at hj ⊢
      cases hf : n.frac with
      | none => simp
      | some f =>
        simp only [Option.bind_some, Option.getD_some]
        rw [hf] at hj
        simp only [Option.getD_some] at hj
        split
        · rename_i h
          rw [show j = 0 by omega]; simp
        · rename_i h
          simp only [Option.getD_some]
          rw [hj, ← List.take_eq_take_min]
    have hjl : j ≤ n.fracDigits.length := by omega
    simp only [JNumber.mag, JNumber.expValue, hexp]
    have hfd' : (JNumber.mk n.neg (n.int.take (k - n.signLen)) (n.frac.bind fun f => if k ≤ n.signLen + n.int.length + 1 then none
        else some (f.take (k - (n.signLen + n.int.length + 1)))) none).fracDigits = n.fracDigits.take j := hfrac
    rw [hfd', List.take_of_length_le (by omega), List.length_take, min_eq_left hjl]
    have h1 : n.int ++ n.fracDigits.take j = (n.int ++ n.fracDigits).take (n.int.length + j) := by
      rw [List.take_length_add_append]
    rw [h1, htrunc]
    have h2 : n.significand * 10 ^ j =
        (digitsValue (n.int ++ n.fracDigits) : ℚ) / ((10 ^ (n.int.length + n.fracDigits.length - (n.int.length + j)) : ℕ) : ℚ) := by
      unfold JNumber.significand
      rw [show n.int.length + n.fracDigits.length - (n.int.length + j) = n.fracDigits.length - j by omega]
      have : (10 : ℚ) ^ n.fracDigits.length = 10 ^ (n.fracDigits.length - j) * 10 ^ j := by
        rw [← pow_add]; congr 1; omega
      rw [this]
      push_cast
      field_simp
    rw [h2, floor_div_pow, zero_sub, zpow_neg, zpow_natCast]
    rw [div_eq_mul_inv]
  · have hlen : n.text.length = n.signLen + n.int.length + n.fracLen + (expText n.exp).length := by
      have hs : (if n.neg then [45] else [] : List UInt8).length = n.signLen := by
        unfold JNumber.signLen; cases n.neg <;> rfl
      rw [text_eq, List.length_append, List.length_append, List.length_append, hs, fracText_length]
      omega
    have hfrac : (n.frac.bind fun f => if k ≤ n.signLen + n.int.length + 1 then none
        else some (f.take (k - (n.signLen + n.int.length + 1)))) = n.frac := by
      cases hf : n.frac with
      | none => rfl
      | some f =>
        simp only [Option.bind_some]
        have h0 : n.fracLen = f.length + 1 := by unfold JNumber.fracLen; rw [hf]
        have := List.length_pos_iff.mpr (hn.frac_ok f hf).1
        rw [if_neg (by omega), List.take_of_length_le (by omega)]
    rw [hfrac, List.take_of_length_le (by omega), significand_mag]
    have hsig : (JNumber.mk n.neg n.int n.frac (n.exp.bind fun e =>
        e.cut (k - (n.signLen + n.int.length + n.fracLen)))).significand = n.significand := rfl
    rw [hsig]
    congr 2
    unfold JNumber.expValue
    unfold JNumber.headLen at hk1
    cases he : n.exp with
    | none => simp
    | some e =>
      obtain ⟨-, x2, -, x4⟩ := hn.exp_ok e he
      rw [he] at hk1 hlen
      simp only at hk1
      simp only [Option.bind_some, JExp.cut]
      rw [if_neg (by omega)]
      simp only [JExp.value]
      simp only [expText, JExp.text, List.length_cons, List.length_append] at hlen
      rw [digitsValue_take _ x4, show e.digits.length -
        (k - (n.signLen + n.int.length + n.fracLen) - (1 + e.sign.length)) = n.text.length - k by omega]
      have ht : ((digitsValue e.digits / 10 ^ (n.text.length - k) : ℕ) : ℤ) =
          ((digitsValue e.digits : ℕ) : ℤ).tdiv (10 ^ (n.text.length - k)) := by
        rw [Int.tdiv_eq_ediv_of_nonneg (by positivity)]
        push_cast
        rfl
      split
      · rw [Int.neg_tdiv, ← ht]
      · rw [← ht]

/-- C106: a double written without an exponent, cut anywhere after its point, is read with the bytes of the fraction
that are left: as the printed value truncated to that many places, rounded, hence off by less than one unit of the last
place left before the rounding. -/
theorem C106_printed_plain (env : Env) (henv : EnvOk env) (F : FpFormat) (hp : 53 ≤ F.p) (he : F.emin ≤ -1074)
    (hmax : 1024 ≤ F.emax) (L : Literals) (junk : Bytes) (hj : junk.length = FLOAT_SIZE) (u : UInt64)
    (hlo : dValue micro ≤ |dValue u|) (hhi : |dValue u| < 10 ^ 21) (hfin : DFinite u) :
    ∃ (a b : Bytes) (v : ℚ), stringDouble L env junk u = .ok (a ++ 46 :: b) ∧ IsJsonNumber (a ++ 46 :: b) v ∧
      ∀ j, j ≤ b.length → ∃ q : ℚ, |q| = ⌊|v| * 10 ^ j⌋₊ / 10 ^ j ∧ |v - q| < 1 / 10 ^ j ∧
        Faithful q (lexiDouble F ((a ++ 46 :: b).take (a.length + 1 + j))) := by
  have hnz : ¬ DZero u := by
    intro hz
    have : dValue u = 0 := by unfold dValue; rw [dMag_zero hz]; simp
    rw [this, abs_zero] at hlo
    exact absurd hlo (not_le.mpr (by decide +kernel))
  obtain ⟨n, hn, -, hfe, -, -, -, -, ht⟩ := text_spec env henv u hfin
  have ht := ht L junk hj
  obtain ⟨n', hn', ht', hex', -⟩ := C28_notation env henv L junk hj u hfin hnz
  have hnn : n' = n := JNumber.text_inj hn' hn (Res.ok.inj (ht'.symm.trans ht))
  subst hnn
  have hlo' := (micro_iff henv hfin hj hn ht).mp hlo
  have hhi' : |n'.value| < 10 ^ (21 : ℤ) := by
    rw [← not_le, ← sextillion_iff henv hfin hj hn ht, not_le]; exact hhi
  have hex : n'.exp = none := hex'.mpr ⟨hlo', hhi'⟩
  obtain ⟨f, hf⟩ : ∃ f, n'.frac = some f := by
    rcases hfe with h | h
    · exact Option.isSome_iff_exists.mp h
    · rw [hex] at h; simp at h
  have habs : |n'.value| = n'.mag := by
    rw [value_sgn]; have := mag_nonneg n'; cases n'.neg <;> simp [sgn, abs_of_nonneg this]
  have hsig : n'.significand = n'.mag := by
    rw [significand_mag]; simp [JNumber.expValue, hex]
  have htx : n'.text = ((if n'.neg then [45] else []) ++ n'.int) ++ 46 :: f := by
    rw [text_eq, hf, hex]; simp [fracText, expText]
  have hal : ((if n'.neg then [45] else [] : List UInt8) ++ n'.int).length = n'.signLen + n'.int.length := by
    rw [List.length_append]; congr 1; unfold JNumber.signLen; cases n'.neg <;> rfl
  refine ⟨(if n'.neg then [45] else []) ++ n'.int, f, n'.value, by rw [← htx]; exact ht, ⟨n', hn, htx, rfl⟩, fun j hjl => ?_⟩
  rw [← htx, hal]
  have hil := List.length_pos_iff.mpr hn.int_ne
  obtain ⟨m, hm⟩ : ∃ m, n'.cut (n'.signLen + n'.int.length + 1 + j) = some m := by
    unfold JNumber.cut; rw [if_neg (by omega)]; exact ⟨_, rfl⟩
  obtain ⟨hmw, -, hread, -⟩ := (C106_read F n' hn _).1 m hm
  obtain ⟨hneg, -, hv, -⟩ := C106_value n' hn _ m hm
  have hfl : n'.fracLen = f.length + 1 ∧ n'.fracDigits = f := by
    unfold JNumber.fracLen JNumber.fracDigits; rw [hf]; exact ⟨rfl, rfl⟩
  have hv := hv j (by omega) (by rw [hfl.1]; omega) (by rw [hfl.2]; omega)
  rw [hsig] at hv
  have hp10 : (0 : ℚ) < 10 ^ j := by positivity
  have hle : m.mag ≤ n'.mag := by
    rw [hv, div_le_iff₀ hp10]
    exact Nat.floor_le (mul_nonneg (mag_nonneg _) hp10.le)
  have hgt : n'.mag - m.mag < 1 / 10 ^ j := by
    have := Nat.lt_floor_add_one (n'.mag * 10 ^ j)
    rw [hv, sub_lt_iff_lt_add, ← add_div, lt_div_iff₀ hp10]
    linarith
  refine ⟨m.value, ?_, ?_, ?_⟩
  · rw [habs, ← hv, value_sgn]
    have := mag_nonneg m; cases m.neg <;> simp [sgn, abs_of_nonneg this]
  · have e : |n'.value - m.value| = n'.mag - m.mag := by
      rw [value_sgn, value_sgn, hneg]
      have h0 : 0 ≤ n'.mag - m.mag := by linarith
      cases n'.neg
      · simp only [sgn, Bool.false_eq_true, if_false]; exact abs_of_nonneg h0
      · simp only [sgn, if_true]
        rw [show -n'.mag - -m.mag = -(n'.mag - m.mag) by ring, abs_neg]; exact abs_of_nonneg h0
    rw [e]; exact hgt
  · rw [hread]
    refine (C58_faithful F hp he hmax m hmw).1 (hle.trans ?_)
    rw [← habs]
    refine hhi'.le.trans ?_
    exact_mod_cast sextillion_le_dMax

theorem expDigits_two {e : JExp} (hw : e.WF) (h : 10 ≤ e.value.natAbs) :
    2 ≤ e.digits.length := by
  obtain ⟨-, hs, -, hd⟩ := hw
  have hlt := digitsValue_lt e.digits hd
  have hv : e.value.natAbs = digitsValue e.digits := by unfold JExp.value; split <;> simp
  rw [hv] at h
  by_contra hl
  have : 10 ^ e.digits.length ≤ 10 ^ 1 := Nat.pow_le_pow_right (by norm_num) (by omega)
  omega

/-- C106: a double written with an exponent loses its magnitude with the last byte of its text.  From `1e21` on the
value left is at least `10^19` times too small, and below one millionth at least `10^7` times too large. -/
theorem C106_last_byte (env : Env) (henv : EnvOk env) (L : Literals) (junk : Bytes) (hj : junk.length = FLOAT_SIZE)
    (u : UInt64) (hfin : DFinite u) (hnz : ¬ DZero u) :
    ∃ (t : Bytes) (v w : ℚ) (s : Bytes), stringDouble L env junk u = .ok t ∧ IsJsonNumber t v ∧ IsJsonNumber s w ∧
      (∀ F, lexiDouble F t.dropLast = lexiDouble F s ∧ lexiFloat F t.dropLast = lexiFloat F s) ∧
      (10 ^ 21 ≤ |dValue u| → |w| * 10 ^ 19 ≤ |v|) ∧
      (|dValue u| < dValue micro → |v| * 10 ^ 7 ≤ |w|) := by
  obtain ⟨n, hn, ht, hex, hform⟩ := C28_notation env henv L junk hj u hfin hnz
  have hil := List.length_pos_iff.mpr hn.int_ne
  have habs : ∀ m : JNumber, |m.value| = m.mag := by
    intro m
    rw [value_sgn]; have := mag_nonneg m; cases m.neg <;> simp [sgn, abs_of_nonneg this]
  have hs : (if n.neg then [45] else [] : List UInt8).length = n.signLen := by
    unfold JNumber.signLen; cases n.neg <;> rfl
  have hlen : n.text.length = n.signLen + n.int.length + n.fracLen + (expText n.exp).length := by
    rw [text_eq, List.length_append, List.length_append, List.length_append, hs, fracText_length]
    omega
  have hex2 : n.frac.isSome ∨ n.exp.isSome := by
    obtain ⟨n', hn', -, hfe, -, -, -, -, ht'⟩ := text_spec env henv u hfin
    have := ht' L junk hj
    have : n' = n := JNumber.text_inj hn' hn (Res.ok.inj (this.symm.trans ht))
    rw [← this]; exact hfe
  have hlast : n.signLen + n.int.length + 1 ≤ n.text.length := by
    rcases hex2 with h | h
    · obtain ⟨f, hf⟩ := Option.isSome_iff_exists.mp h
      have : n.fracLen = f.length + 1 := by unfold JNumber.fracLen; rw [hf]
      omega
    · obtain ⟨e, he⟩ := Option.isSome_iff_exists.mp h
      have : 1 ≤ (expText n.exp).length := by rw [he]; simp [expText, JExp.text]
      omega
  obtain ⟨m, hm⟩ : ∃ m, n.cut (n.text.length - 1) = some m := by
    unfold JNumber.cut; rw [if_neg (by omega)]; exact ⟨_, rfl⟩
  have hread := fun F => (C106_read F n hn _).1 m hm
  obtain ⟨hneg, -, hv2, hv3⟩ := C106_value n hn _ m hm
  have hdl : n.text.dropLast = n.text.take (n.text.length - 1) := List.dropLast_eq_take
  refine ⟨n.text, n.value, m.value, m.text, ht, ⟨n, hn, rfl, rfl⟩, ⟨m, (hread .binary64).1, rfl, rfl⟩,
    fun F => by rw [hdl]; exact ⟨(hread F).2.2.1, (hread F).2.2.2⟩, fun h => ?_, fun h => ?_⟩
  · have hbig := (sextillion_iff henv hfin hj hn ht).mp h
    obtain ⟨e, he⟩ : ∃ e, n.exp = some e := by
      cases h' : n.exp with
      | some e => exact ⟨e, rfl⟩
      | none => exact absurd (hex.mp h').2 (not_lt.mpr hbig)
    obtain ⟨-, -, -, -, -, -, -, hup⟩ := hform e he
    have h21 : 21 ≤ e.value := by
      have := (zpow_lt_zpow_iff_right₀ (by norm_num : (1 : ℚ) < 10)).mp (hbig.trans_lt hup)
      omega
    have h2 := expDigits_two (hn.exp_ok e he) (by omega)
    have hel : (expText n.exp).length = 1 + e.sign.length + e.digits.length := by
      rw [he]; simp only [expText, JExp.text, List.length_cons, List.length_append]; omega
    have hhl : n.headLen = 1 + e.sign.length := by unfold JNumber.headLen; rw [he]
    have hv3 := hv3 (by omega)
    have hev : n.expValue = e.value := by unfold JNumber.expValue; rw [he]
    rw [habs, habs, hv3, significand_mag n, hev, show n.text.length - (n.text.length - 1) = 1 by omega, pow_one,
      mul_assoc]
    have hsig : 0 ≤ n.significand := by unfold JNumber.significand; positivity
    refine mul_le_mul_of_nonneg_left ?_ hsig
    rw [show (10 : ℚ) ^ 19 = 10 ^ (19 : ℤ) by norm_num, ← zpow_add₀ (by norm_num)]
    refine zpow_le_zpow_right₀ (by norm_num) ?_
    rw [Int.tdiv_eq_ediv_of_nonneg (by omega)]
    omega
  · have hsm : |n.value| < 10 ^ (-6 : ℤ) := by
      rw [← not_le, ← micro_iff henv hfin hj hn ht, not_le]; exact h
    obtain ⟨e, he⟩ : ∃ e, n.exp = some e := by
      cases h' : n.exp with
      | some e => exact ⟨e, rfl⟩
      | none => exact absurd (hex.mp h').1 (not_le.mpr hsm)
    obtain ⟨-, -, -, -, -, -, hdn, -⟩ := hform e he
    have h7 : e.value ≤ -7 := by
      have := (zpow_lt_zpow_iff_right₀ (by norm_num : (1 : ℚ) < 10)).mp (hdn.trans_lt hsm)
      omega
    have hel : (expText n.exp).length = 1 + e.sign.length + e.digits.length := by
      rw [he]; simp only [expText, JExp.text, List.length_cons, List.length_append]; omega
    have hhl : n.headLen = 1 + e.sign.length := by unfold JNumber.headLen; rw [he]
    have hev : n.expValue = e.value := by unfold JNumber.expValue; rw [he]
    have hsig : 0 ≤ n.significand := by unfold JNumber.significand; positivity
    have hdp := List.length_pos_iff.mpr (hn.exp_ok e he).2.2.1
    by_cases h2 : 2 ≤ e.digits.length
    · have hv3 := hv3 (by omega)
      rw [habs, habs, hv3, significand_mag n, hev, show n.text.length - (n.text.length - 1) = 1 by omega, pow_one,
        mul_assoc]
      refine mul_le_mul_of_nonneg_left ?_ hsig
      rw [show (10 : ℚ) ^ 7 = 10 ^ (7 : ℤ) by norm_num, ← zpow_add₀ (by norm_num)]
      refine zpow_le_zpow_right₀ (by norm_num) ?_
      have : e.value.tdiv 10 = -((-e.value) / 10) := by
        rw [← Int.tdiv_eq_ediv_of_nonneg (by omega), Int.neg_tdiv, _root_.neg_neg]
      rw [this]
      omega
    · have hfl : n.fracDigits.length = n.fracLen - 1 := by
        unfold JNumber.fracDigits JNumber.fracLen; cases n.frac <;> simp
      have hv2 := hv2 n.fracDigits.length (by omega) (by omega) (by omega)
      have hint : n.significand * 10 ^ n.fracDigits.length = (digitsValue (n.int ++ n.fracDigits) : ℚ) := by
        unfold JNumber.significand; field_simp
      have hmm : m.mag = n.significand := by
        rw [hv2, hint, Nat.floor_natCast]; rfl
      rw [habs, habs, hmm, significand_mag n, hev, mul_assoc]
      refine mul_le_of_le_one_right hsig ?_
      rw [show (10 : ℚ) ^ 7 = 10 ^ (7 : ℤ) by norm_num, ← zpow_add₀ (by norm_num)]
      exact zpow_le_one_of_nonpos₀ (by norm_num) (by omega)

theorem text_bytes {n : JNumber} (hn : n.WF) : ∀ d ∈ n.text, NumberByte d := by
  intro d hd
  unfold NumberByte
  rw [text_eq] at hd
  rcases List.mem_append.mp hd with h | h
  · split at h <;> simp at h; exact Or.inr (Or.inl h)
  rcases List.mem_append.mp h with h | h
  · exact Or.inl (hn.int_digits d h)
  rcases List.mem_append.mp h with h | h
  · cases hf : n.frac with
    | none => rw [hf] at h; simp [fracText] at h
    | some f =>
      rw [hf] at h
      simp only [fracText, List.mem_cons] at h
      rcases h with h | h
      · tauto
      · exact Or.inl ((hn.frac_ok f hf).2 d h)
  · cases he : n.exp with
    | none => rw [he] at h; simp [expText] at h
    | some e =>
      rw [he] at h
      obtain ⟨h1, h2, -, h4⟩ := hn.exp_ok e he
      simp only [expText, JExp.text, List.mem_cons, List.mem_append] at h
      rcases h with h | h | h
      · rcases h1 with h1 | h1 <;> rw [h1] at h <;> tauto
      · rcases h2 with h2 | h2 | h2 <;> rw [h2] at h <;> simp at h <;> tauto
      · exact Or.inl (h4 d h)

/-- C106: a list of finite doubles other than zero, written with a separator that no number contains, split and read,
is the list where the reading rounds once to double. -/
theorem C106_list (env : Env) (henv : EnvOk env) (L : Literals) (junk : Bytes) (hj : junk.length = FLOAT_SIZE)
    (us : List UInt64) (hne : us ≠ []) (hu : ∀ u ∈ us, DFinite u ∧ ¬ DZero u) (d : UInt8) (hd : ¬ NumberByte d) :
    ∃ ts, us.map (stringDouble L env junk) = ts.map .ok ∧ (lines d (record d ts)).map (lexiDouble .binary64) = us := by
  have key : ∀ vs : List UInt64, (∀ u ∈ vs, DFinite u ∧ ¬ DZero u) →
      ∃ ts : List Bytes, vs.map (stringDouble L env junk) = ts.map .ok ∧ ts.map (lexiDouble .binary64) = vs ∧
        ∀ t ∈ ts, d ∉ t := by
    intro vs
    induction vs with
    | nil => intro _; exact ⟨[], rfl, rfl, by simp⟩
    | cons u vs ih =>
      intro h
      obtain ⟨ts, h1, h2, h3⟩ := ih fun u hu => h u (by simp [hu])
      obtain ⟨hf, hz⟩ := h u (by simp)
      obtain ⟨t, ht, hr⟩ := C22_round_trip env henv L junk hj u hf hz
      obtain ⟨n, hn, ht', -⟩ := C28_notation env henv L junk hj u hf hz
      have htn : t = n.text := Res.ok.inj (ht.symm.trans ht')
      refine ⟨t :: ts, by simp [ht, h1], by simp [hr, h2], ?_⟩
      intro t' ht'
      rcases List.mem_cons.mp ht' with rfl | ht'
      · rw [htn]; exact fun hm => hd (text_bytes hn d hm)
      · exact h3 t' ht'
  obtain ⟨ts, h1, h2, h3⟩ := key us hu
  refine ⟨ts, h1, ?_⟩
  have hts : ts ≠ [] := by rintro rfl; simp at h1; exact hne h1
  rw [lines_record _ _ hts h3, h2]

/-! ### Instances -/

example : ¬ NumberByte 44 ∧ ¬ NumberByte 32 ∧ ¬ NumberByte 10 := by
  unfold NumberByte; decide

/-- `-1.25e-13` as a parse tree. -/
def cutSample : JNumber := ⟨true, ascii "1", some (ascii "25"), some ⟨101, ascii "-", ascii "13"⟩⟩

theorem cutSample_wf : cutSample.WF := by
  refine ⟨by decide +kernel, by decide +kernel, by decide +kernel, ?_, ?_⟩
  · intro f h
    have : f = ascii "25" := by simpa [cutSample] using h.symm
    subst this; decide +kernel
  · intro e h
    have : e = ⟨101, ascii "-", ascii "13"⟩ := by simpa [cutSample] using h.symm
    subst this
    refine ⟨by decide +kernel, by decide +kernel, by decide +kernel, by decide +kernel⟩

example : (List.range 10).map cutSample.cut =
    [none, none, some ⟨true, ascii "1", none, none⟩, some ⟨true, ascii "1", none, none⟩,
      some ⟨true, ascii "1", some (ascii "2"), none⟩, some ⟨true, ascii "1", some (ascii "25"), none⟩,
      some ⟨true, ascii "1", some (ascii "25"), none⟩, some ⟨true, ascii "1", some (ascii "25"), none⟩,
      some ⟨true, ascii "1", some (ascii "25"), some ⟨101, ascii "-", ascii "1"⟩⟩, some cutSample] := by decide +kernel
example : lexiDouble .x87 ((ascii "1e22").take 3) = 0x4059000000000000 := by decide +kernel
example : EnvOk sampleEnv ∧ DFinite 0x4480F0CF064DD592 ∧ 10 ^ 21 ≤ |dValue 0x4480F0CF064DD592| := by
  refine ⟨sampleEnv_ok, by decide +kernel, by decide +kernel⟩
example : dValue micro ≤ |dValue 0x400921FB54442D18| ∧ |dValue 0x400921FB54442D18| < 10 ^ 21 := by decide +kernel

end Lexi
