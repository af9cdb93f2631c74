import Verif.Model.Locale
import Verif.Props.Cross
import Verif.Props.Subject

/-!
# Reading in a locale with another decimal point: C79
-/

namespace Lexi
open Spec Soft Dtoa DiyFp

/-- A decimal point other than `'.'` that cannot be mistaken for another part of a number: no digit, letter, sign, white
space or terminator. -/
def OtherPoint (dp : UInt8) : Prop :=
  dp ≠ 46 ∧ dp ≠ 0 ∧ dp ≠ 43 ∧ dp ≠ 45 ∧ ¬ IsNChar dp ∧ ¬ IsSpace dp

instance (dp : UInt8) : Decidable (OtherPoint dp) := by unfold OtherPoint IsNChar IsSpace; infer_instance

theorem OtherPoint.facts : ∀ dp : UInt8, OtherPoint dp →
    ¬ IsDigit dp ∧ isDig 10 dp = false ∧ lower dp ≠ 101 ∧ lower dp ≠ 120 ∧ dp ≠ 101 ∧ dp ≠ 69 := by
  refine forall_byte ?_; decide +kernel

theorem swap_other {dp b : UInt8} (h1 : b ≠ dp) (h2 : b ≠ 46) : pointSwap dp b = b := by
  rw [pointSwap, if_neg h1, if_neg h2]

theorem map_swap_other {dp : UInt8} (ds : Bytes) (h : ∀ b ∈ ds, b ≠ dp ∧ b ≠ 46) : ds.map (pointSwap dp) = ds := by
  induction ds with
  | nil => rfl
  | cons b r ih =>
    rw [List.map_cons, swap_other (h b (by simp)).1 (h b (by simp)).2, ih fun c hc => h c (by simp [hc])]

theorem map_swap_digits {dp : UInt8} (h : OtherPoint dp) (ds : Bytes) (hd : ∀ b ∈ ds, IsDigit b) :
    ds.map (pointSwap dp) = ds := by
  refine map_swap_other ds fun b hb => ⟨?_, ?_⟩
  · rintro rfl; exact (OtherPoint.facts _ h).1 (hd b hb)
  · rintro rfl; exact absurd (hd _ hb) (by decide)

theorem map_swap_exp {dp : UInt8} (h : OtherPoint dp) (n : JNumber) (hn : n.WF) :
    (expText n.exp).map (pointSwap dp) = expText n.exp := by
  obtain ⟨f1, -, -, -, f5, f6⟩ := OtherPoint.facts _ h
  cases he : n.exp with
  | none => rfl
  | some e =>
    obtain ⟨h1, h2, -, h4⟩ := hn.exp_ok e he
    apply map_swap_other
    intro b hb
    have hb' : b = e.marker ∨ b ∈ e.sign ∨ b ∈ e.digits := by simpa [expText, JExp.text] using hb
    rcases hb' with rfl | hb' | hb'
    · rcases h1 with h1 | h1 <;> rw [h1]
      · exact ⟨f5.symm, by decide⟩
      · exact ⟨f6.symm, by decide⟩
    · rcases h2 with h2 | h2 | h2 <;> rw [h2] at hb' <;> simp at hb'
      · rw [hb']; exact ⟨h.2.2.2.1.symm, by decide⟩
      · rw [hb']; exact ⟨h.2.2.1.symm, by decide⟩
    · exact ⟨fun e => f1 (e ▸ h4 b hb'), fun e => absurd (h4 b hb') (e ▸ by decide)⟩

/-- The part of a number before the point. -/
def Spec.JNumber.whole (n : JNumber) : JNumber := ⟨n.neg, n.int, none, none⟩

theorem whole_wf {n : JNumber} (hn : n.WF) : n.whole.WF :=
  ⟨hn.int_ne, hn.int_digits, hn.int_lead, by simp [JNumber.whole], by simp [JNumber.whole]⟩

theorem whole_mag (n : JNumber) : n.whole.mag = (digitsValue n.int : ℚ) := by
  simp [JNumber.whole, JNumber.mag, JNumber.fracDigits, JNumber.expValue]

/-- A numeral stops at a foreign decimal point. -/
theorem scanMag_stop (F : FpFormat) (neg : Bool) {dp : UInt8} (h : OtherPoint dp) (ds r : Bytes) (hne : ds ≠ [])
    (hd : ∀ b ∈ ds, IsDigit b) : scanMag F neg (ds ++ dp :: r) = F.round neg (digitsValue ds) := by
  obtain ⟨f1, f2, f3, f4, -, -⟩ := OtherPoint.facts _ h
  obtain ⟨h1, h2⟩ := takeWhile_digits ds (dp :: r) hd (by intro c hc; simp at hc; rw [← hc]; exact f1)
  have hie : ds.isEmpty = false := by
    cases ds with
    | nil => exact absurd rfl hne
    | cons c r => rfl
  have hfr : scanFrac 10 true (dp :: r) = ([], dp :: r) := by
    unfold scanFrac
    split
    · rename_i heq; exact absurd (List.cons.inj heq).1 h.1
    · rfl
  have hex : scanExp 101 (dp :: r) = 0 := by
    rw [scanExp.eq_def]; dsimp only; rw [if_neg f3]
  have hnum : scanNumeral 10 10 1 101 (ds ++ dp :: r) = some (digitsValue ds : ℚ) := by
    unfold scanNumeral
    simp only [h1, h2, hie, Bool.not_false, hfr, hex, Bool.false_and, Bool.false_eq_true, if_false, List.append_nil,
      List.length_nil]
    rw [digitsNat_eq _ hd]
    simp
  obtain ⟨c, cs, rfl⟩ : ∃ c cs, ds = c :: cs := by
    cases ds with
    | nil => exact absurd rfl hne
    | cons c r => exact ⟨c, r, rfl⟩
  have lowd : ∀ c : UInt8, IsDigit c → lower c ≠ 105 ∧ lower c ≠ 110 ∧ lower c ≠ 120 := by
    refine forall_byte ?_; decide +kernel
  have hc := lowd c (hd c (by simp))
  have hinf : startsWord [105, 110, 102] (c :: cs ++ dp :: r) = false := by
    rw [Bool.eq_false_iff]
    intro h
    simp only [startsWord, List.cons_append, List.length_cons, List.take_succ_cons, List.map_cons, beq_iff_eq, List.cons.injEq] at h
    exact hc.1 h.1
  have hnan : startsWord [110, 97, 110] (c :: cs ++ dp :: r) = false := by
    rw [Bool.eq_false_iff]
    intro h
    simp only [startsWord, List.cons_append, List.length_cons, List.take_succ_cons, List.map_cons, beq_iff_eq, List.cons.injEq] at h
    exact hc.2.1 h.1
  have hhex : startsWord [48, 120] (c :: cs ++ dp :: r) = false := by
    rw [Bool.eq_false_iff]
    intro h
    cases cs with
    | nil =>
      simp only [startsWord, List.cons_append, List.nil_append, List.length_cons, List.take_succ_cons, List.map_cons, beq_iff_eq,
        List.cons.injEq] at h
      exact f4 h.2.1
    | cons d cs =>
      simp only [startsWord, List.cons_append, List.length_cons, List.take_succ_cons, List.map_cons, beq_iff_eq,
        List.cons.injEq] at h
      exact (lowd d (hd d (by simp))).2.2 h.2.1
  simp only [scanMag, scanMagWith_eq, hinf, hnan, hhex, Bool.false_eq_true, if_false, hnum]

/-- C79.  In a locale with another decimal point a number text with a point is read as the part before the point, whatever
follows it; a text without a point is read as in the "C" locale. -/
theorem C79_cut_at_point (dp : UInt8) (h : OtherPoint dp) (F : FpFormat) (n : JNumber) (hn : n.WF) :
    strtoldIn dp F n.text = strtold F (if n.frac.isSome then n.whole.text else n.text) := by
  have hsign : ((if n.neg then [45] else []) : Bytes).map (pointSwap dp) = if n.neg then [45] else [] := by
    split
    · exact map_swap_other _ fun b hb => by simp at hb; rw [hb]; exact ⟨h.2.2.2.1.symm, by decide⟩
    · rfl
  unfold strtoldIn
  cases hf : n.frac with
  | none =>
    rw [if_neg (by simp), text_eq, hf]
    rw [List.map_append, List.map_append, List.map_append, hsign, map_swap_digits h _ hn.int_digits, map_swap_exp h n hn]
    rfl
  | some f =>
    rw [if_pos (by simp), strtold_number F _ (whole_wf hn), whole_mag, text_eq, hf]
    rw [List.map_append, List.map_append, List.map_append, hsign, map_swap_digits h _ hn.int_digits, map_swap_exp h n hn]
    have e : (fracText (some f)).map (pointSwap dp) = dp :: f := by
      obtain ⟨-, hfd⟩ := hn.frac_ok f hf
      rw [fracText, List.map_cons, map_swap_digits h f hfd, pointSwap, if_neg h.1.symm, if_pos rfl]
    rw [e, List.cons_append]
    have hmag := fun neg => scanMag_stop F neg h n.int (f ++ expText n.exp) hn.int_ne hn.int_digits
    have hnul : (0 : UInt8) ∉ (if n.neg then [45] else []) ++ (n.int ++ dp :: (f ++ expText n.exp)) := by
      intro h0
      rcases List.mem_append.mp h0 with h0 | h0
      · split at h0 <;> simp at h0
      · have hb := number_bytes n hn
        rw [hf] at hb
        rcases List.mem_append.mp h0 with h0 | h0
        · exact hb 0 (by simp [h0]) rfl
        · rcases List.mem_cons.mp h0 with h0 | h0
          · exact h.2.1 h0.symm
          · refine hb 0 ?_ rfl
            rw [fracText, List.cons_append]
            exact List.mem_append_right _ (List.mem_cons_of_mem _ h0)
    have hcs : cstr ((if n.neg then [45] else []) ++ (n.int ++ dp :: (f ++ expText n.exp))) =
        (if n.neg then [45] else []) ++ (n.int ++ dp :: (f ++ expText n.exp)) := cstr_eq ⟨hnul, Or.inl rfl⟩
    have hsp : ∀ c : UInt8, IsDigit c → isspace c = false ∧ c ≠ 45 ∧ c ≠ 43 := by
      refine forall_byte ?_; decide +kernel
    unfold strtold strtoldWith
    rw [hcs]
    change _ = F.round n.neg _
    cases hneg : n.neg with
    | true =>
      simp only [if_true, List.singleton_append]
      rw [skipSpace]
      exact hmag true
    | false =>
      simp only [Bool.false_eq_true, if_false, List.nil_append]
      have hm := hmag false
      cases hi : n.int with
      | nil => exact absurd hi hn.int_ne
      | cons c r =>
        obtain ⟨hs1, hs2, hs3⟩ := hsp c (hn.int_digits c (by rw [hi]; simp))
        rw [hi] at hm
        rw [List.cons_append] at hm ⊢
        rw [skipSpace, hs1]
        simp only [Bool.false_eq_true, if_false]
        split
        · rename_i heq; exact absurd (List.cons.inj heq).1 hs2
        · rename_i heq; exact absurd (List.cons.inj heq).1 hs3
        · exact hm

/-- A number as it is written in a locale with the decimal point `dp`. -/
def Spec.JNumber.textIn (dp : UInt8) (n : JNumber) : Bytes :=
  (if n.neg then [45] else []) ++ n.int ++ (match n.frac with | none => [] | some f => dp :: f) ++ expText n.exp

/-- C79.  A number written with the decimal point of the locale is read as the "C" locale reads it with a point. -/
theorem C79_local_text (dp : UInt8) (h : OtherPoint dp) (F : FpFormat) (n : JNumber) (hn : n.WF) :
    strtoldIn dp F (n.textIn dp) = strtold F n.text := by
  have hsign : ((if n.neg then [45] else []) : Bytes).map (pointSwap dp) = if n.neg then [45] else [] := by
    split
    · exact map_swap_other _ fun b hb => by simp at hb; rw [hb]; exact ⟨h.2.2.2.1.symm, by decide⟩
    · rfl
  unfold strtoldIn JNumber.textIn
  rw [text_eq, List.map_append, List.map_append, List.map_append, hsign, map_swap_digits h _ hn.int_digits, map_swap_exp h n hn]
  cases hf : n.frac with
  | none => simp [fracText]
  | some f =>
    obtain ⟨-, hfd⟩ := hn.frac_ok f hf
    dsimp only
    rw [List.map_cons, map_swap_digits h f hfd, pointSwap, if_pos rfl]
    simp [fracText]

/-- A double next to an integer holds an integer. -/
theorem faithful_whole {z : ℤ} {u : UInt64} (h : Faithful z u) :
    ∃ N : ℕ, dMag u = N ∧ (z.natAbs ≤ 2 ^ 53 → N = z.natAbs) := by
  have habs : |dValue u| = dMag u := by
    unfold dValue
    split
    · rw [abs_neg, abs_of_nonneg (dMag_nonneg u)]
    · rw [abs_of_nonneg (dMag_nonneg u)]
  by_cases hz : z.natAbs ≤ 2 ^ 53
  · obtain ⟨y, hy, hyv⟩ := whole_is_double z hz
    obtain ⟨h1, h2⟩ := h.2 y hy
    rw [hyv] at h1 h2
    have : dValue u = z := le_antisymm (h1 le_rfl) (h2 le_rfl)
    refine ⟨z.natAbs, ?_, fun _ => rfl⟩
    rw [← habs, this, ← Int.cast_abs, Int.abs_eq_natAbs, Int.cast_natCast]
  · have hge : (2 : ℚ) ^ 53 ≤ dMag u := by
      rw [← habs]
      rcases le_total 0 z with h0 | h0
      · obtain ⟨y, hy, hyv⟩ := whole_is_double (2 ^ 53) (by decide)
        have h1 := (h.2 y hy).2
        rw [hyv] at h1
        have : ((2 ^ 53 : ℤ) : ℚ) ≤ dValue u := h1 (by exact_mod_cast (by omega : (2 ^ 53 : ℤ) ≤ z))
        push_cast at this
        exact this.trans (le_abs_self _)
      · obtain ⟨y, hy, hyv⟩ := whole_is_double (-2 ^ 53) (by decide)
        have h1 := (h.2 y hy).1
        rw [hyv] at h1
        have : dValue u ≤ ((-2 ^ 53 : ℤ) : ℚ) := h1 (by exact_mod_cast (by omega : z ≤ (-2 ^ 53 : ℤ)))
        push_cast at this
        have h2 := neg_le_abs (dValue u)
        linarith
    have hE : 0 ≤ dUlpExp u := by
      by_contra hc
      have h1 : (2 : ℚ) ^ dUlpExp u ≤ 2 ^ (0 : ℤ) := zpow_mono (by omega)
      rw [zpow_zero] at h1
      have h2 : (dSig u : ℚ) < 2 ^ 53 := by exact_mod_cast DiyFp.dSig_lt u
      have h3 : dMag u ≤ dSig u := by
        unfold dMag
        calc (dSig u : ℚ) * 2 ^ dUlpExp u ≤ dSig u * 1 := mul_le_mul_of_nonneg_left h1 (by positivity)
          _ = dSig u := mul_one _
      linarith
    refine ⟨dSig u * 2 ^ (dUlpExp u).toNat, ?_, fun h => absurd h hz⟩
    unfold dMag
    conv_lhs => rw [show dUlpExp u = ((dUlpExp u).toNat : ℤ) by omega]
    rw [zpow_natCast]; push_cast; rfl

theorem Dtoa.Printed.whole_exponent {u : UInt64} {D : ℕ} {k : ℤ} (hnz : ¬ DZero u) (hP : Printed u D k) {N : ℕ}
    (hN : dMag u = N) : 0 ≤ k := by
  have hze := zp (dUlpExp u)
  have hnear : NearMag u ((N : ℚ) * 10 ^ (0 : ℤ)) := by
    unfold NearMag
    rw [zpow_zero, mul_one, hN, sub_self, abs_zero]
    split <;> positivity
  obtain ⟨h1, h2⟩ := hnear.inside hnz
  exact hP.exponent_ge h1 h2

theorem sextillion_le_dMax : (10 : ℚ) ^ 21 ≤ dMax := by
  unfold dMax
  calc (10 : ℚ) ^ 21 ≤ 1 * 2 ^ 70 := by norm_num
    _ ≤ (2 ^ 53 - 1) * 2 ^ 971 :=
      mul_le_mul (by norm_num) (pow_le_pow_right₀ (by norm_num) (by norm_num)) (by positivity) (by norm_num)

/-- What the case of the notation tells about the digits before the point. -/
theorem pretty_cases {u : UInt64} {D : ℕ} {k : ℤ} (hP : Printed u D k) (neg : Bool) :
    ((prettyNumber neg (decN D) k).frac = none ∨
      ((prettyNumber neg (decN D) k).exp = none ∧ (prettyNumber neg (decN D) k).frac = some [48] ∧ 0 ≤ k) ∨
      ((prettyNumber neg (decN D) k).exp = none ∧ k < 0) ∨
      ((prettyNumber neg (decN D) k).exp ≠ none ∧
        (prettyNumber neg (decN D) k).int.length = 1 ∧ (0 ≤ k → 21 < ((decN D).length : ℤ) + k))) ∧
    (prettyNumber neg (decN D) k).int.length ≤ 21 := by
  have hlen0 : 0 < (decN D).length := List.length_pos_iff.mpr (decN_ne_nil _)
  have hlen := decN_length_le 17 D hP.lt17 (by omega)
  constructor
  · unfold prettyNumber
    dsimp only
    split
    · right; left; exact ⟨rfl, rfl, by omega⟩
    · split
      · right; right; left; exact ⟨rfl, by omega⟩
      · split
        · right; right; left; exact ⟨rfl, by omega⟩
        · split
          · left; rfl
          · right; right; right
            refine ⟨by simp, ?_, by omega⟩
            rw [List.length_take]; omega
  · unfold prettyNumber
    dsimp only
    split
    · simp only [List.length_append, List.length_replicate]; omega
    · split
      · rw [List.length_take]; omega
      · split
        · simp
        · split
          · simp only; omega
          · rw [List.length_take]; omega

/-- C79.  The exact condition of the round trip in a locale with another decimal point: a double comes back when it would
in the "C" locale and its text has no point, or it is a whole number in fixed notation.  Every other text is cut at the point. -/
theorem C79_round_trip (dp : UInt8) (h : OtherPoint dp) (F : FpFormat) (hp : 53 ≤ F.p) (he : F.emin ≤ -1074)
    (hmax : 1024 ≤ F.emax) (env : Env) (henv : EnvOk env) (L : Literals) (junk : Bytes) (hj : junk.length = FLOAT_SIZE)
    (u : UInt64) (hfin : DFinite u) (hnz : ¬ DZero u) :
    ∃ n : JNumber, n.WF ∧ stringDouble L env junk u = .ok n.text ∧
      (lexiDoubleIn dp F n.text = u ↔
        lexiDouble F n.text = u ∧ (n.frac = none ∨ n.exp = none ∧ ∃ z : ℤ, dValue u = z)) := by
  obtain ⟨D, k, hP, hs⟩ := stringDouble_finite env henv u hfin hnz
  have ht := hs u rfl L junk hj
  rw [signed_text] at ht
  have hwf := hP.WF hnz (decide (dNeg u))
  have hDp := hP.pos hnz
  have hcut := C79_cut_at_point dp h F _ hwf
  refine ⟨_, hwf, ht, ?_⟩
  obtain ⟨cases4, intlen⟩ := pretty_cases hP (decide (dNeg u))
  generalize prettyNumber (decide (dNeg u)) (decN D) k = n at *
  have hint := BigInt.digitsValue_lt_pow n.int hwf.int_digits
  -- the part before the point as read
  have hfaith := (C58_faithful F hp he hmax n.whole (whole_wf hwf)).1 (by
    rw [whole_mag]
    have h1 : 10 ^ n.int.length ≤ 10 ^ 21 := Nat.pow_le_pow_right (by norm_num) intlen
    have h2 : (digitsValue n.int : ℚ) ≤ 10 ^ 21 := by exact_mod_cast (hint.trans_le h1).le
    exact h2.trans sextillion_le_dMax)
  have hval : n.whole.value = ((if n.neg then -(digitsValue n.int : ℤ) else digitsValue n.int : ℤ) : ℚ) := by
    unfold JNumber.value
    rw [whole_mag]
    change (if n.neg = true then _ else _) = _
    split <;> simp
  rw [hval] at hfaith
  have same : n.exp = none → n.frac = some [48] → lexiDoubleIn dp F n.text = lexiDouble F n.text := by
    intro h1 h2
    unfold lexiDoubleIn lexiDouble extractLongDouble
    rw [hcut, h2, if_pos (by simp), strtold_number F _ (whole_wf hwf), strtold_number F _ hwf, whole_mag]
    have : n.mag = (digitsValue n.int : ℚ) := by
      unfold JNumber.mag JNumber.fracDigits JNumber.expValue
      rw [h1, h2]
      simp only [Option.getD_some, List.length_singleton]
      rw [digitsValue_append, show digitsValue [48] = 0 by decide]
      norm_num
      ring
    rw [this]; rfl
  have same' : n.frac = none → lexiDoubleIn dp F n.text = lexiDouble F n.text := by
    intro h1
    unfold lexiDoubleIn lexiDouble extractLongDouble
    rw [hcut, h1, if_neg (by simp)]
  constructor
  · intro hu
    cases hf : n.frac with
    | none => rw [← same' hf]; exact ⟨hu, Or.inl rfl⟩
    | some f =>
      have e : lexiDoubleIn dp F n.text = lexiDouble F n.whole.text := by
        unfold lexiDoubleIn lexiDouble extractLongDouble
        rw [hcut, hf, if_pos (by simp)]
      rw [← e, hu] at hfaith
      obtain ⟨N, hN, hN'⟩ := faithful_whole hfaith
      have hk := hP.whole_exponent hnz hN
      have hwhole : ∃ z : ℤ, dValue u = z := by
        unfold dValue
        rw [hN]
        split
        · exact ⟨-N, by push_cast; rfl⟩
        · exact ⟨N, by push_cast; rfl⟩
      rcases cases4 with c | ⟨c1, c2, -⟩ | ⟨-, c⟩ | ⟨c1, c2, c3⟩
      · rw [hf] at c; cases c
      · rw [← same c1 c2]; exact ⟨hu, Or.inr ⟨c1, hwhole⟩⟩
      · omega
      · exfalso
        rw [c2] at hint
        have hM : (if n.neg then -(digitsValue n.int : ℤ) else digitsValue n.int : ℤ).natAbs = digitsValue n.int := by
          split <;> simp
        rw [hM] at hN'
        have h9 : N ≤ 9 := by rw [hN' (by omega)]; omega
        obtain ⟨hb, -⟩ := value_bounds D k hDp
        have h21 : (10 : ℚ) ^ (21 : ℤ) ≤ D * 10 ^ k :=
          le_trans (zpow_le_zpow_right₀ (by norm_num) (by have := c3 hk; omega)) hb
        have hup := hP.upper
        rw [highB_eq, hN, zpow_sub_one₀ (by norm_num)] at hup
        have hs1 : (1 : ℚ) ≤ dSig u := by exact_mod_cast dSig_pos hnz
        have hulp : (2 : ℚ) ^ dUlpExp u ≤ N := by
          rw [← hN]; unfold dMag
          have := zp (dUlpExp u)
          nlinarith
        have h9q : (N : ℚ) ≤ 9 := by exact_mod_cast h9
        have : (10 : ℚ) ^ (21 : ℤ) ≥ 100 := by
          rw [show (21 : ℤ) = ((21 : ℕ) : ℤ) by norm_num, zpow_natCast]; norm_num
        linarith
  · rintro ⟨hu, hf | ⟨hx, z, hz⟩⟩
    · rw [same' hf]; exact hu
    · have hN : dMag u = (z.natAbs : ℕ) := by
        have habs : |dValue u| = dMag u := by
          unfold dValue
          split
          · rw [abs_neg, abs_of_nonneg (dMag_nonneg u)]
          · rw [abs_of_nonneg (dMag_nonneg u)]
        rw [← habs, hz, ← Int.cast_abs, Int.abs_eq_natAbs, Int.cast_natCast]
      have hk := hP.whole_exponent hnz hN
      rcases cases4 with c | ⟨c1, c2, -⟩ | ⟨-, c⟩ | ⟨c1, -⟩
      · rw [same' c]; exact hu
      · rw [same c1 c2]; exact hu
      · omega
      · exact absurd hx c1

/-- The float read from up to 21 digits is a whole number, the same one up to `2^23`. -/
theorem float_whole (F : FpFormat) (hp : 53 ≤ F.p) (he : F.emin ≤ -1074) (hmax : 1024 ≤ F.emax) (n : JNumber)
    (hn : n.WF) (hM : digitsValue n.int < 10 ^ 21) {u : UInt32} (h : lexiFloat F n.whole.text = u) :
    ∃ N : ℕ, fMag u = N ∧ (digitsValue n.int ≤ 2 ^ 23 → N = digitsValue n.int) := by
  subst h
  unfold lexiFloat extractLongDouble
  rw [strtold_number F _ (whole_wf hn), whole_mag]
  generalize digitsValue n.int = M at *
  generalize n.whole.neg = b at *
  rcases Nat.eq_zero_or_pos M with rfl | hpos
  · refine ⟨0, ?_, fun _ => rfl⟩
    have e : F.round b ((0 : ℕ) : ℚ) = .fin b 0 := by simp [FpFormat.round, roundRat]
    rw [e, (toFloat_zero b).2.2.1]; simp
  have hq : (0 : ℚ) < M := by exact_mod_cast hpos
  have hM70 : (M : ℚ) ≤ (1 : ℕ) * 2 ^ (70 : ℤ) := by
    have h1 : M ≤ 2 ^ 70 := hM.le.trans (by norm_num)
    have h2 : (M : ℚ) ≤ 2 ^ 70 := by exact_mod_cast h1
    rw [show (70 : ℤ) = ((70 : ℕ) : ℤ) by norm_num, zpow_natCast]
    simpa using h2
  have hr70 := roundRat_le (p := F.p) (emin := F.emin) hq 1 70 (by omega) (Nat.one_lt_two_pow (by omega)) hM70
  set r := roundRat F.p F.emin (M : ℚ) with hr
  have h70 : ((1 : ℕ) : ℚ) * 2 ^ (70 : ℤ) = 2 ^ 70 := by
    rw [show (70 : ℤ) = ((70 : ℕ) : ℤ) by norm_num, zpow_natCast]; simp
  rw [h70] at hr70
  have hround : F.round b (M : ℚ) = .fin b r := by
    refine round_finite F _ _ hmax (lt_of_le_of_lt hr70 ?_)
    exact pow_lt_pow_right₀ (by norm_num) (by norm_num)
  have hsmall : M ≤ 2 ^ 23 → r = M := fun h =>
    roundRat_exact (by omega) hq M 0 (by omega)
      (lt_of_le_of_lt h (Nat.pow_lt_pow_right (by norm_num) (by omega))) (by simp)
  have hr1 : (1 : ℚ) ≤ r := by
    have := le_roundRat (p := F.p) (emin := F.emin) (by omega) hq 1 0 (by omega) (Nat.one_lt_two_pow (by omega))
      (by simpa using (by exact_mod_cast hpos : (1 : ℚ) ≤ M))
    simpa using this
  have hr0 : 0 < r := by linarith
  obtain ⟨hfin, -, hmag, -⟩ := toFloat_pos b hr0 (lt_of_le_of_lt hr70 (by unfold fOverflow; norm_num))
  rw [hround]
  rcases le_or_gt M (2 ^ 23) with hle | hgt
  · refine ⟨M, ?_, fun _ => rfl⟩
    rw [hmag, hsmall hle]
    exact roundRat_exact (by norm_num) hq M 0 (by omega) (lt_of_le_of_lt hle (by norm_num)) (by simp)
  · have h23 : (2 : ℚ) ^ 23 ≤ M := by exact_mod_cast hgt.le
    have hr23 : (2 : ℚ) ^ 23 ≤ r := by
      have := le_roundRat (p := F.p) (emin := F.emin) (by omega) hq (2 ^ 23) 0 (by omega)
        (Nat.pow_lt_pow_right (by norm_num) (by omega)) (by norm_num at h23 ⊢; exact h23)
      norm_num at this ⊢; exact this
    have hm23 : (2 : ℚ) ^ 23 ≤ fMag (LVal.fin b r).toFloat := by
      rw [hmag]
      have := le_roundRat (p := 24) (emin := -149) (by omega) hr0 (2 ^ 23) 0 (by omega) (by norm_num)
        (by norm_num at hr23 ⊢; exact hr23)
      norm_num at this ⊢; exact this
    generalize (LVal.fin b r).toFloat = u at *
    have hE : 0 ≤ fUlpExp u := by
      by_contra hc
      have h1 : (2 : ℚ) ^ fUlpExp u ≤ 2 ^ (-1 : ℤ) := zpow_mono (by omega)
      have h2 : (fSig u : ℚ) < 2 ^ 24 := by exact_mod_cast fSig_lt u
      have h3 : fMag u ≤ fSig u * 2 ^ (-1 : ℤ) := by
        unfold fMag; exact mul_le_mul_of_nonneg_left h1 (by positivity)
      norm_num at h3
      linarith
    refine ⟨fSig u * 2 ^ (fUlpExp u).toNat, ?_, fun h => absurd h (by omega)⟩
    unfold fMag
    conv_lhs => rw [show fUlpExp u = ((fUlpExp u).toNat : ℤ) by omega]
    rw [zpow_natCast]; push_cast; rfl

/-- C79, floats, which come back in the "C" locale wherever `long double` is no narrower than `double`: in a locale with
another decimal point they come back when the text has no point or the float is a whole number in fixed notation. -/
theorem C79_float_round_trip (dp : UInt8) (h : OtherPoint dp) (F : FpFormat) (hp : 53 ≤ F.p) (he : F.emin ≤ -1074)
    (hmax : 1024 ≤ F.emax) (env : Env) (henv : EnvOk env) (L : Literals) (junk : Bytes) (hj : junk.length = FLOAT_SIZE)
    (u : UInt32) (hfin : FFinite u) (hnz : ¬ FZero u) :
    ∃ n : JNumber, n.WF ∧ stringFloat L env junk u = .ok n.text ∧
      (lexiFloatIn dp F n.text = u ↔ n.frac = none ∨ n.exp = none ∧ ∃ z : ℤ, fValue u = z) := by
  obtain ⟨d, hd, hdf, hdz, hneg, hmag, hexp⟩ := widen u hfin hnz
  obtain ⟨D, k, hP, hs⟩ := formatLd_finite env henv d hdf hdz
  have h1 := hs (.ofFloat u) (by rw [hd]) L junk hj
  have ht : stringFloat L env junk u = .ok (signed (dNeg d) (prettyText (decN D) k)) := by
    unfold stringFloat formatFloat
    rw [h1, Res.ok_bind, hd]
    exact readN_prefix _ _
  have hback : lexiFloat F (signed (dNeg d) (prettyText (decN D) k)) = u := by
    obtain ⟨t, e1, e2⟩ := C24_float_round_trip F hp he hmax env henv L junk hj u hfin hnz
    rw [ht] at e1
    rw [Res.ok.inj e1]; exact e2
  rw [signed_text] at ht hback
  have hwf := hP.WF hdz (decide (dNeg d))
  have hDp := hP.pos hdz
  have hcut := C79_cut_at_point dp h F _ hwf
  obtain ⟨cases4, intlen⟩ := pretty_cases hP (decide (dNeg d))
  refine ⟨_, hwf, ht, ?_⟩
  generalize prettyNumber (decide (dNeg d)) (decN D) k = n at *
  have hint := BigInt.digitsValue_lt_pow n.int hwf.int_digits
  have hM21 : digitsValue n.int < 10 ^ 21 := hint.trans_le (Nat.pow_le_pow_right (by norm_num) intlen)
  have same : n.exp = none → n.frac = some [48] → lexiFloatIn dp F n.text = u := by
    intro h1 h2
    rw [← hback]
    unfold lexiFloatIn lexiFloat extractLongDouble
    rw [hcut, h2, if_pos (by simp), strtold_number F _ (whole_wf hwf), strtold_number F _ hwf, whole_mag]
    have : n.mag = (digitsValue n.int : ℚ) := by
      unfold JNumber.mag JNumber.fracDigits JNumber.expValue
      rw [h1, h2]
      simp only [Option.getD_some, List.length_singleton]
      rw [digitsValue_append, show digitsValue [48] = 0 by decide]
      norm_num
      ring
    rw [this]; rfl
  have same' : n.frac = none → lexiFloatIn dp F n.text = u := by
    intro h1
    rw [← hback]
    unfold lexiFloatIn lexiFloat extractLongDouble
    rw [hcut, h1, if_neg (by simp)]
  constructor
  · intro hu
    cases hf : n.frac with
    | none => exact Or.inl rfl
    | some f =>
      have e : lexiFloatIn dp F n.text = lexiFloat F n.whole.text := by
        unfold lexiFloatIn lexiFloat extractLongDouble
        rw [hcut, hf, if_pos (by simp)]
      obtain ⟨N, hN, hN'⟩ := float_whole F hp he hmax n hwf hM21 (e.symm.trans hu)
      have hNd : dMag d = N := hmag.trans hN
      have hk := hP.whole_exponent hdz hNd
      have hwhole : ∃ z : ℤ, fValue u = z := by
        unfold fValue
        rw [hN]
        split
        · exact ⟨-N, by push_cast; rfl⟩
        · exact ⟨N, by push_cast; rfl⟩
      rcases cases4 with c | ⟨c1, c2, -⟩ | ⟨-, c⟩ | ⟨c1, c2, c3⟩
      · rw [hf] at c; cases c
      · exact Or.inr ⟨c1, hwhole⟩
      · omega
      · exfalso
        rw [c2] at hint
        have h9 : N ≤ 9 := by rw [hN' (by omega)]; omega
        obtain ⟨hb, -⟩ := value_bounds D k hDp
        have h21 : (10 : ℚ) ^ (21 : ℤ) ≤ D * 10 ^ k :=
          le_trans (zpow_le_zpow_right₀ (by norm_num) (by have := c3 hk; omega)) hb
        have hup := hP.upper
        rw [highB_eq, hNd, zpow_sub_one₀ (by norm_num)] at hup
        have hs1 : (1 : ℚ) ≤ dSig d := by exact_mod_cast dSig_pos hdz
        have hulp : (2 : ℚ) ^ dUlpExp d ≤ N := by
          rw [← hNd]; unfold dMag
          have := zp (dUlpExp d)
          nlinarith
        have h9q : (N : ℚ) ≤ 9 := by exact_mod_cast h9
        have : (10 : ℚ) ^ (21 : ℤ) ≥ 100 := by
          rw [show (21 : ℤ) = ((21 : ℕ) : ℤ) by norm_num, zpow_natCast]; norm_num
        linarith
  · rintro (hf | ⟨hx, z, hz⟩)
    · exact same' hf
    · have hN : dMag d = (z.natAbs : ℕ) := by
        have habs : |fValue u| = fMag u := by
          unfold fValue
          split
          · rw [abs_neg, abs_of_nonneg (fMag_nonneg u)]
          · rw [abs_of_nonneg (fMag_nonneg u)]
        rw [hmag, ← habs, hz, ← Int.cast_abs, Int.abs_eq_natAbs, Int.cast_natCast]
      have hk := hP.whole_exponent hdz hN
      rcases cases4 with c | ⟨c1, c2, -⟩ | ⟨-, c⟩ | ⟨c1, -⟩
      · exact same' c
      · exact same c1 c2
      · omega
      · exact absurd hx c1

/-- C79.  The texts of NaN and the infinities read as in the "C" locale, zero as zero. -/
theorem C79_special (dp : UInt8) (h : OtherPoint dp) (F : FpFormat) :
    (∀ t ∈ [ascii "NaN", ascii "Infinity", ascii "-Infinity"], strtoldIn dp F t = strtold F t) ∧
    lexiDoubleIn dp F (ascii "0.0") = 0 := by
  obtain ⟨-, -, -, h4, h5, -⟩ := id h
  constructor
  · intro t ht
    have hb : ∀ b ∈ t, b ≠ dp ∧ b ≠ 46 := by
      intro b hb
      have : IsNChar b ∨ b = 45 := by
        simp only [List.mem_cons, List.not_mem_nil, or_false] at ht
        unfold IsNChar
        rcases ht with rfl | rfl | rfl <;> revert b <;> decide
      rcases this with hn | rfl
      · exact ⟨fun e => h5 (e ▸ hn), fun e => by subst e; revert hn; unfold IsNChar; decide⟩
      · exact ⟨h4.symm, by decide⟩
    rw [strtoldIn, map_swap_other t hb]
  · have hwf : (⟨false, [48], some [48], none⟩ : JNumber).WF :=
      ⟨by simp, by simp [IsDigit], by simp, by simp [IsDigit], by simp⟩
    have e1 : (⟨false, [48], some [48], none⟩ : JNumber).text = ascii "0.0" := by decide
    have e2 := C79_cut_at_point dp h F _ hwf
    rw [e1, if_pos (by rfl), strtold_number F _ (whole_wf hwf), whole_mag] at e2
    unfold lexiDoubleIn
    rw [e2]
    have : F.round (JNumber.whole ⟨false, [48], some [48], none⟩).neg ((digitsValue [48] : ℕ) : ℚ) = .fin false 0 := by
      simp [FpFormat.round, roundRat, digitsValue, JNumber.whole]
    change (F.round (JNumber.whole ⟨false, [48], some [48], none⟩).neg ((digitsValue [48] : ℕ) : ℚ)).toDouble = 0
    rw [this]; decide +kernel

/-! Non-vacuity: in a German locale 0.1 reads as 0 and 2.5 as 2, 2016 and 5e-324 as themselves. -/
example : OtherPoint 44 := by decide
example : lexiDoubleIn 44 .binary64 (ascii "0.1") = 0 ∧ lexiDoubleIn 44 .binary64 (ascii "2.5") = 0x4000000000000000 ∧
    lexiDoubleIn 44 .binary64 (ascii "2,5") = 0x4004000000000000 ∧
    lexiDoubleIn 44 .binary64 (ascii "2016.0") = 0x409F800000000000 ∧ lexiDoubleIn 44 .binary64 (ascii "5e-324") = 1 ∧
    lexiDoubleIn 44 .binary64 (ascii "1.7976931348623157e308") = 0x3FF0000000000000 := by decide +kernel

example : lexiFloatIn 44 .x87 (ascii "0.10000000149011612") = 0 ∧ lexiFloatIn 44 .x87 (ascii "2016.0") = 0x44FC0000 ∧
    lexiFloatIn 44 .x87 (ascii "2.5") = 0x40000000 := by decide +kernel

end Lexi
