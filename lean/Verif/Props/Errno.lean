import Verif.Model.Errno
import Verif.Props.Int
import Verif.Props.Subject
import Verif.Props.Modes

/-!
# What `errno` says after reading: C90
-/

namespace Lexi
open Spec Soft Dtoa

/-! ### Integers -/

theorem scanSign_intText {s : Bytes} {neg : Bool} {ds : Bytes} (h : IntText s neg ds) :
    ∃ rest, scanSign (skipSpace (cstr s)) = (neg, ds ++ rest) ∧ ∀ b, rest.head? = some b → ¬ IsDigit b := by
  obtain ⟨t, ws, sg, rest, hc, rfl, hw, hsg, hne, hd, hr⟩ := h
  refine ⟨rest, ?_, hr⟩
  rw [cstr_eq hc]
  simp only [List.append_assoc]
  rw [skipSpace_append _ _ hw]
  obtain ⟨d, ds', rfl⟩ := List.exists_cons_of_ne_nil hne
  have hdd := digit_not_space (hd d (by simp))
  rcases hsg with ⟨rfl, rfl⟩ | ⟨rfl, rfl⟩ | ⟨rfl, rfl⟩
  · rw [List.nil_append, List.cons_append, skipSpace_of_head hdd.1]
    simp [scanSign, hdd]
  · rw [List.singleton_append, skipSpace_of_head (by unfold IsSpace; decide)]
    simp [scanSign]
  · rw [List.singleton_append, skipSpace_of_head (by unfold IsSpace; decide)]
    simp [scanSign]

theorem isdigit_spec (b : UInt8) : isdigit b = true ↔ IsDigit b := by
  revert b; refine forall_byte ?_; decide +kernel

/-- C90.  After `lexi` of an integer type `errno` is `ERANGE` if the numeral is `2^64` or more, and as before otherwise; without a
numeral it is what the library stores then, if anything.  The type asked for and the sign play no part. -/
theorem C90_int (c : LibC) (t : IntTy) (s : Bytes) (e : Nat) :
    (∀ neg ds, IntText s neg ds →
      (lexiIntErrno c t s e).2 = if 2 ^ 64 ≤ digitsValue ds then ERANGE else e) ∧
    ((∀ neg ds, ¬ IntText s neg ds) → (lexiIntErrno c t s e).2 = c.noConversion.getD e) := by
  constructor
  · intro neg ds h
    obtain ⟨rest, h1, h2⟩ := scanSign_intText h
    obtain ⟨-, -, -, -, -, -, -, -, hne, hd, -⟩ := h
    show strtoullErrno c s e = _
    unfold strtoullErrno
    simp only [h1, scanDigits_eq 0 ds rest hd h2]
    obtain ⟨d, ds', rfl⟩ := List.exists_cons_of_ne_nil hne
    rw [if_pos (by simpa using (isdigit_spec d).mpr (hd d (by simp)))]
    rfl
  · intro h
    show strtoullErrno c s e = _
    unfold strtoullErrno
    apply if_neg
    intro hd
    obtain ⟨ws, h1, h2⟩ := skipSpace_split (cstr s)
    have hsg : ∃ sg, skipSpace (cstr s) = sg ++ (scanSign (skipSpace (cstr s))).2 ∧
        (sg = [] ∧ (scanSign (skipSpace (cstr s))).1 = false ∨
         sg = [43] ∧ (scanSign (skipSpace (cstr s))).1 = false ∨
         sg = [45] ∧ (scanSign (skipSpace (cstr s))).1 = true) := by
      generalize skipSpace (cstr s) = u
      cases u with
      | nil => exact ⟨[], rfl, Or.inl ⟨rfl, rfl⟩⟩
      | cons c cs =>
        rw [scanSign]
        by_cases c1 : c = 45
        · subst c1; exact ⟨[45], by simp, by simp⟩
        · by_cases c2 : c = 43
          · subst c2; exact ⟨[43], by simp, by simp⟩
          · exact ⟨[], by simp [c1, c2], by simp [c1, c2]⟩
    obtain ⟨sg, h3, h4⟩ := hsg
    obtain ⟨ds, rest, h5, h6, h7⟩ := digits_split (scanSign (skipSpace (cstr s))).2
    refine h _ ds ⟨cstr s, ws, sg, rest, cstring_cstr s, ?_, h2, h4, ?_, h6, h7⟩
    · calc cstr s = ws ++ skipSpace (cstr s) := h1
        _ = ws ++ (sg ++ (ds ++ rest)) := by rw [← h5, ← h3]
        _ = _ := by simp
    · rintro rfl
      rw [h5, List.nil_append] at hd
      cases rest with
      | nil => simp at hd
      | cons b r => exact h7 b rfl ((isdigit_spec b).mp (by simpa using hd))

/-- The range of an integer type. -/
def InRange (t : IntTy) (n : ℤ) : Prop :=
  if t.signed then -2 ^ (t.width - 1) ≤ n ∧ n < 2 ^ (t.width - 1) else 0 ≤ n ∧ n < 2 ^ t.width

theorem wrapInt_eq_iff (t : IntTy) (n : ℤ) : wrapInt t.signed t.width n = n ↔ InRange t n := by
  have sgnd : ∀ k : ℕ, Int.bmod n (2 ^ (k + 1)) = n ↔ -2 ^ k ≤ n ∧ n < 2 ^ k := fun k => by
    refine ⟨fun h => ?_, fun h => bmod_small n k h.1 h.2⟩
    have hp : ((2 ^ (k + 1) : ℕ) : ℤ) = 2 ^ k * 2 := by rw [Nat.pow_succ]; simp
    have h1 := Int.le_bmod (x := n) (m := 2 ^ (k + 1)) (by positivity)
    have h2 := Int.bmod_lt (x := n) (m := 2 ^ (k + 1)) (by positivity)
    rw [h] at h1 h2
    omega
  have unsgnd : ∀ w : ℕ, n % 2 ^ w = n ↔ 0 ≤ n ∧ n < 2 ^ w := fun w => by
    have : (0 : ℤ) < 2 ^ w := by positivity
    refine ⟨fun h => ?_, fun h => Int.emod_eq_of_lt h.1 h.2⟩
    rw [← h]
    exact ⟨Int.emod_nonneg _ this.ne', Int.emod_lt_of_pos _ this⟩
  unfold wrapInt InRange
  cases t <;> simp only [IntTy.signed, IntTy.width, if_true, Bool.false_eq_true, if_false] <;>
    first | exact sgnd 7 | exact sgnd 15 | exact sgnd 31 | exact sgnd 63 | exact unsgnd _

/-- C90.  So the check `errno = 0; v = lexi<T>(s); if (errno)` is not a range check: a numeral below `2^64` that `T` cannot hold, or a
negative one for an unsigned type, passes it and is read as another number; it is one exactly for unsigned 64-bit types and texts
without a minus. -/
theorem C90_int_check (c : LibC) (t : IntTy) (s : Bytes) (neg : Bool) (ds : Bytes) (h : IntText s neg ds) :
    ∃ v, (lexiIntErrno c t s 0).1 = .ok v ∧
      ((lexiIntErrno c t s 0).2 = 0 →
        (v.toInt = (if neg then -(digitsValue ds : ℤ) else digitsValue ds) ↔
          InRange t (if neg then -(digitsValue ds : ℤ) else digitsValue ds))) ∧
      (t.signed = false → t.width = 64 → neg = false →
        ((lexiIntErrno c t s 0).2 = 0 ↔ v.toInt = digitsValue ds)) := by
  obtain ⟨v, h1, h2, h3⟩ := C09_int_out_of_range t s neg ds h
  refine ⟨v, h1, ?_, ?_⟩
  · rw [(C90_int c t s 0).1 neg ds h]
    intro he
    have hlt : digitsValue ds < 2 ^ 64 := by
      by_contra hc
      rw [if_pos (by omega)] at he
      exact absurd he (by decide)
    rw [h3 hlt]
    exact wrapInt_eq_iff t _
  · intro hs hw hn
    subst hn
    rw [(C90_int c t s 0).1 _ ds h]
    rcases Nat.lt_or_ge (digitsValue ds) (2 ^ 64) with hlt | hge
    · rw [if_neg (by omega), h3 hlt, if_neg (by simp)]
      refine ⟨fun _ => (wrapInt_eq_iff t _).mpr ?_, fun _ => rfl⟩
      unfold InRange
      rw [hs, hw, if_neg (by simp)]
      omega
    · rw [if_pos hge, h2 hge, hs, hw]
      refine ⟨fun h => absurd h (by decide), fun h => ?_⟩
      rw [if_neg (by simp)] at h
      omega

/-- C90.  Reading back the text of an integer leaves `errno` alone. -/
theorem C90_int_own (c : LibC) (p : Platform) (hp : p.Supported) (junk : Bytes) (hj : junk.length = INTEGER_SIZE) (v : IntVal)
    (hv : v.Fits p) (e : Nat) :
    ∃ s, stringInt p junk v = .ok s ∧ lexiIntErrno c v.ty s e = (.ok v, e) := by
  refine ⟨_, stringInt_eq p hp junk hj v hv, Prod.ext (lexiInt_decimal v) ?_⟩
  rw [(C90_int c v.ty _ e).1 _ _ (intText_decimal v.toInt), digitsValue_decN]
  have := v.toInt_bounds
  exact if_neg (by omega)

/-! ### Floating types -/

theorem strtoldWith_scan (R : Bool → ℚ → LVal) (s : Bytes) :
    strtoldWith R s = (scan (scanSign (skipSpace (cstr s))).2).value R (scanSign (skipSpace (cstr s))).1 := by
  unfold strtoldWith
  generalize skipSpace (cstr s) = u
  split
  · rfl
  · rfl
  · rename_i h1 h2
    cases u with
    | nil => rfl
    | cons c cs =>
      have c1 : c ≠ 45 := fun h => h1 cs (by rw [h])
      have c2 : c ≠ 43 := fun h => h2 cs (by rw [h])
      simp [scanSign, c1, c2, scanMagWith]

theorem errno_num (c : LibC) (F : FpFormat) {s : Bytes} (e : Nat) {neg : Bool} {q : ℚ} (hq : 0 ≤ q)
    (h : ∀ R, strtoldWith R s = R neg q) : strtoldErrno c F s e = F.roundErrno c neg q e := by
  have h' := h fun b x => .fin b (x + 1)
  rw [strtoldWith_scan] at h'
  unfold strtoldErrno
  dsimp only
  generalize (scanSign (skipSpace (cstr s))).1 = b at h' ⊢
  cases hs : scan (scanSign (skipSpace (cstr s))).2 with
  | none =>
    rw [hs] at h'
    injection h' with _ h2
    linarith
  | inf => rw [hs] at h'; cases h'
  | nan => rw [hs] at h'; cases h'
  | num x =>
    rw [hs] at h'
    injection h' with h1 h2
    rw [h1, add_right_cancel h2]
    rfl

theorem errno_inf (c : LibC) (F : FpFormat) {s : Bytes} (e : Nat) {neg : Bool}
    (h : ∀ R, strtoldWith R s = .inf neg) : strtoldErrno c F s e = e := by
  have h' := h fun _ _ => .nan
  rw [strtoldWith_scan] at h'
  unfold strtoldErrno
  dsimp only
  cases hs : scan (scanSign (skipSpace (cstr s))).2 <;> rw [hs] at h' <;> first | rfl | cases h'

theorem errno_nan (c : LibC) (F : FpFormat) {s : Bytes} (e : Nat)
    (h : ∀ R, strtoldWith R s = .nan) : strtoldErrno c F s e = e := by
  have h' := h fun _ _ => .inf false
  rw [strtoldWith_scan] at h'
  unfold strtoldErrno
  dsimp only
  cases hs : scan (scanSign (skipSpace (cstr s))).2 <;> rw [hs] at h' <;> first | rfl | cases h'

theorem errno_none (c : LibC) (F : FpFormat) {s : Bytes} (e : Nat)
    (h : ∀ R, strtoldWith R s = .fin false 0) : strtoldErrno c F s e = c.noConversion.getD e := by
  have h' := h fun _ _ => .nan
  rw [strtoldWith_scan] at h'
  unfold strtoldErrno
  dsimp only
  cases hs : scan (scanSign (skipSpace (cstr s))).2 <;> rw [hs] at h' <;> first | rfl | cases h'

theorem leastNormal_eq (F : FpFormat) : F.leastNormal = 2 ^ (F.emin + F.p - 1) := by
  unfold FpFormat.leastNormal; rw [scale_eq]; simp

theorem leastNormal_pos (F : FpFormat) : 0 < F.leastNormal := by
  rw [leastNormal_eq]; positivity

/-- What `errno` is after a numeral of magnitude `q`. -/
theorem roundErrno_spec (c : LibC) (F : FpFormat) (hp : 2 ≤ F.p) (he : F.emin ≤ (F.emax : ℤ) - F.p) (neg : Bool) {q : ℚ} (hq : 0 ≤ q)
    (e : Nat) :
    (overflowAt F.p F.emax ≤ q → F.roundErrno c neg q e = ERANGE) ∧
    (q < overflowAt F.p F.emax → q = 0 ∨ 2 ^ (F.emin + F.p - 1) ≤ q → F.roundErrno c neg q e = e) ∧
    (q < overflowAt F.p F.emax → F.roundErrno c neg q e = e ∨ F.roundErrno c neg q e = ERANGE) := by
  have hr := reads_round F hp he neg hq
  unfold FpFormat.roundErrno
  refine ⟨fun h => by rw [hr.2 h], fun h hz => ?_, fun h => ?_⟩
  · obtain ⟨r, h1, -⟩ := hr.1 h
    rw [h1]
    apply if_neg
    rintro ⟨h2, h3, -⟩
    rw [leastNormal_eq] at h3
    rcases hz with hz | hz
    · exact h2 hz
    · exact absurd hz (not_le.mpr h3)
  · obtain ⟨r, h1, -⟩ := hr.1 h
    rw [h1]
    dsimp only
    split
    · exact Or.inr rfl
    · exact Or.inl rfl

/-- C90.  After `lexi` of a floating type: `ERANGE` from the overflow threshold of `long double` on, as before if the numeral is zero or
at least the least normal `long double` and below that threshold, one or the other below that; as before after a word.  Whether the
number asked for is a `float` or a `double` plays no part. -/
theorem C90_float (c : LibC) (F : FpFormat) (hp : 2 ≤ F.p) (he : F.emin ≤ (F.emax : ℤ) - F.p) (s : Bytes) (e : Nat) (neg : Bool)
    (t : Bytes) (h : FloatText s neg t) :
    (lexiFloatErrno c F s e).2 = (lexiDoubleErrno c F s e).2 ∧
    (∀ p q, Longest t p (.num q) →
      (overflowAt F.p F.emax ≤ q → (lexiDoubleErrno c F s e).2 = ERANGE) ∧
      (q < overflowAt F.p F.emax → q = 0 ∨ 2 ^ (F.emin + F.p - 1) ≤ q → (lexiDoubleErrno c F s e).2 = e) ∧
      (q < overflowAt F.p F.emax → (lexiDoubleErrno c F s e).2 = e ∨ (lexiDoubleErrno c F s e).2 = ERANGE)) ∧
    (∀ p, Longest t p .inf ∨ Longest t p .nan → (lexiDoubleErrno c F s e).2 = e) ∧
    ((∀ p v, p <+: t → ¬ Subject p v) → (lexiDoubleErrno c F s e).2 = c.noConversion.getD e) := by
  refine ⟨rfl, fun p q hl => ?_, fun p hl => ?_, fun hn => ?_⟩
  · have hq : 0 ≤ q := Subject.nonneg hl.2.1
    have : (lexiDoubleErrno c F s e).2 = F.roundErrno c neg q e :=
      errno_num c F e hq fun R => by rw [strtoldWith_text R h, scanMagWith_longest R neg hl]; rfl
    rw [this]
    exact roundErrno_spec c F hp he neg hq e
  · rcases hl with hl | hl
    · exact errno_inf c F e (neg := neg) fun R => by rw [strtoldWith_text R h, scanMagWith_longest R neg hl]; rfl
    · exact errno_nan c F e fun R => by rw [strtoldWith_text R h, scanMagWith_longest R neg hl]; rfl
  · exact errno_none c F e fun R => by rw [strtoldWith_text R h, scanMagWith_none R neg hn]

theorem round_fin (F : FpFormat) (hp : 2 ≤ F.p) (he : F.emin ≤ (F.emax : ℤ) - F.p) (neg : Bool) {q : ℚ} (hq : 0 ≤ q)
    (h : q < overflowAt F.p F.emax) : F.round neg q = .fin neg (roundRat F.p F.emin q) := by
  unfold FpFormat.round
  apply if_neg
  intro hc
  push_cast at hc
  exact absurd ((Soft.roundRat_overflow hp he hq).mp hc) (not_le.mpr h)

theorem overflowAt_ge {p emax a : ℕ} (h : a < emax) : (2 : ℚ) ^ (a : ℤ) ≤ overflowAt p emax := by
  unfold overflowAt
  have h1 : (2 : ℚ) ^ (a : ℤ) ≤ 2 ^ ((emax : ℤ) - 1) := zpow_mono (by omega)
  have h2 : (2 : ℚ) ^ ((emax : ℤ) - 1) = 2 ^ p * 2 ^ ((emax : ℤ) - p - 1) := by
    rw [← zpow_natCast, ← zpow_add₀ (by norm_num)]; congr 1; ring
  have h3 : (0 : ℚ) < 2 ^ ((emax : ℤ) - p - 1) := by positivity
  have h4 : (1 : ℚ) ≤ 2 ^ p := one_le_pow₀ (by norm_num)
  rw [h2] at h1
  refine h1.trans (mul_le_mul_of_nonneg_right ?_ h3.le)
  rw [pow_succ]; linarith

theorem tiny_zero : roundRat 53 (-1074) (2 ^ (-1075 : ℤ)) = 0 := by
  have : (2 : ℚ) ^ (-1075 : ℤ) = scale 1 (-1075) := by rw [scale_eq]; simp
  rw [this]
  decide +kernel

theorem ftiny_zero : roundRat 24 (-149) (2 ^ (-150 : ℤ)) = 0 := by
  have : (2 : ℚ) ^ (-150 : ℤ) = scale 1 (-150) := by rw [scale_eq]; simp
  rw [this]
  decide +kernel

theorem one_lt_dOverflow : (1 : ℚ) < dOverflow := by
  unfold dOverflow
  have : (1 : ℚ) ≤ 2 ^ 970 := one_le_pow₀ (by norm_num)
  calc (1 : ℚ) < 2 ^ 54 - 1 := by norm_num
    _ ≤ (2 ^ 54 - 1) * 2 ^ 970 := le_mul_of_one_le_right (by norm_num) this

theorem one_lt_fOverflow : (1 : ℚ) < fOverflow := by unfold fOverflow; norm_num

/-- C90.  Where `long double` is wider than `double`, a numeral `double` cannot hold is read as an infinity, or as zero, and `errno`
says nothing. -/
theorem C90_double_silent (c : LibC) (F : FpFormat) (hp : 54 ≤ F.p) (he : F.emin ≤ -1075) (hmax : 1024 < F.emax)
    (hpe : F.emin + F.p ≤ 1) (s : Bytes)
    (e : Nat) (neg : Bool) (t : Bytes) (h : FloatText s neg t) (p : Bytes) (q : ℚ) (hl : Longest t p (.num q)) :
    (dOverflow ≤ q → q < overflowAt F.p F.emax →
      DInfinite (lexiDoubleErrno c F s e).1 ∧ (lexiDoubleErrno c F s e).2 = e) ∧
    (2 ^ (F.emin + F.p - 1) ≤ q → q ≤ 2 ^ (-1075 : ℤ) → DZero (lexiDoubleErrno c F s e).1 ∧ (lexiDoubleErrno c F s e).2 = e) := by
  have hq : 0 ≤ q := Subject.nonneg hl.2.1
  have hpe' : F.emin ≤ (F.emax : ℤ) - F.p := by omega
  have herr := ((C90_float c F (by omega) hpe' s e neg t h).2.1 p q hl).2.1
  have hval : (lexiDoubleErrno c F s e).1 = (F.round neg q).toDouble := (lexi_longest F h hl).1
  have hoz : (2 : ℚ) ^ ((1024 : ℕ) : ℤ) ≤ overflowAt F.p F.emax := overflowAt_ge hmax
  constructor
  · intro h1 h2
    have hq' : 1 < q := one_lt_dOverflow.trans_le h1
    have hn : (2 : ℚ) ^ (F.emin + F.p - 1) ≤ q := by
      have : (2 : ℚ) ^ (F.emin + F.p - 1) ≤ 2 ^ (0 : ℤ) := zpow_mono (by omega)
      rw [zpow_zero] at this
      linarith
    refine ⟨?_, herr h2 (Or.inr hn)⟩
    rw [hval, round_fin F (by omega) hpe' neg hq h2]
    have hge : dOverflow ≤ roundRat F.p F.emin q := by
      have e1 : dOverflow = ((2 ^ 54 - 1 : ℕ) : ℚ) * 2 ^ (970 : ℤ) := by
        unfold dOverflow
        rw [show ((970 : ℤ)) = ((970 : ℕ) : ℤ) by norm_num, zpow_natCast]
        congr 1
        norm_num
      rw [e1] at h1 ⊢
      refine le_roundRat (by omega) (by linarith) _ _ (by omega) ?_ h1
      exact lt_of_lt_of_le (by norm_num) (Nat.pow_le_pow_right (by norm_num) hp)
    rw [toDouble_overflow neg hge]
    cases neg <;> decide +kernel
  · intro h1 h2
    have h3 : q < overflowAt F.p F.emax :=
      lt_of_le_of_lt h2 (lt_of_lt_of_le (zpow_lt_zpow_right₀ (by norm_num) (by norm_num)) hoz)
    refine ⟨?_, herr h3 (Or.inr h1)⟩
    rw [hval, round_fin F (by omega) hpe' neg hq h3]
    have hq' : 0 < q := lt_of_lt_of_le (by positivity) h1
    have hr0 := roundRat_nonneg (p := F.p) (emin := F.emin) hq
    have hr : roundRat F.p F.emin q ≤ 2 ^ (-1075 : ℤ) := by
      have := roundRat_le (p := F.p) (emin := F.emin) hq' 1 (-1075) he (Nat.one_lt_two_pow (by omega)) (by simpa using h2)
      simpa using this
    have hm : dMag (LVal.fin neg (roundRat F.p F.emin q)).toDouble = 0 := by
      rcases hr0.lt_or_eq with hr1 | hr1
      · have h53 := roundRat_mono (p := 53) (emin := -1074) (by norm_num) hr0 hr
        rw [tiny_zero] at h53
        have hlt : roundRat F.p F.emin q < dOverflow :=
          lt_of_le_of_lt hr (lt_of_le_of_lt (zpow_le_one_of_nonpos₀ (by norm_num) (by norm_num)) one_lt_dOverflow)
        rw [(toDouble_pos neg hr1 hlt).2.2.1]
        exact le_antisymm h53 (roundRat_nonneg hr0)
      · rw [← hr1]; exact (toDouble_zero neg).2.2.1
    by_contra hz
    exact absurd hm (dMag_pos hz).ne'

/-- C90.  The same for `float`, on every platform. -/
theorem C90_float_silent (c : LibC) (F : FpFormat) (hp : 25 ≤ F.p) (he : F.emin ≤ -150) (hmax : 128 < F.emax)
    (hpe : F.emin + F.p ≤ 1) (s : Bytes)
    (e : Nat) (neg : Bool) (t : Bytes) (h : FloatText s neg t) (p : Bytes) (q : ℚ) (hl : Longest t p (.num q)) :
    (fOverflow ≤ q → q < overflowAt F.p F.emax →
      FInfinite (lexiFloatErrno c F s e).1 ∧ (lexiFloatErrno c F s e).2 = e) ∧
    (2 ^ (F.emin + F.p - 1) ≤ q → q ≤ 2 ^ (-150 : ℤ) → FZero (lexiFloatErrno c F s e).1 ∧ (lexiFloatErrno c F s e).2 = e) := by
  have hq : 0 ≤ q := Subject.nonneg hl.2.1
  have hpe' : F.emin ≤ (F.emax : ℤ) - F.p := by omega
  have herr := ((C90_float c F (by omega) hpe' s e neg t h).2.1 p q hl).2.1
  rw [← (C90_float c F (by omega) hpe' s e neg t h).1] at herr
  have hval : (lexiFloatErrno c F s e).1 = (F.round neg q).toFloat := (lexi_longest F h hl).2
  have hoz : (2 : ℚ) ^ ((128 : ℕ) : ℤ) ≤ overflowAt F.p F.emax := overflowAt_ge hmax
  constructor
  · intro h1 h2
    have hq' : 1 < q := one_lt_fOverflow.trans_le h1
    have hn : (2 : ℚ) ^ (F.emin + F.p - 1) ≤ q := by
      have : (2 : ℚ) ^ (F.emin + F.p - 1) ≤ 2 ^ (0 : ℤ) := zpow_mono (by omega)
      rw [zpow_zero] at this
      linarith
    refine ⟨?_, herr h2 (Or.inr hn)⟩
    rw [hval, round_fin F (by omega) hpe' neg hq h2]
    have hge : fOverflow ≤ roundRat F.p F.emin q := by
      have e1 : fOverflow = ((2 ^ 25 - 1 : ℕ) : ℚ) * 2 ^ (103 : ℤ) := by
        unfold fOverflow
        rw [show ((103 : ℤ)) = ((103 : ℕ) : ℤ) by norm_num, zpow_natCast]
        congr 1
        norm_num
      rw [e1] at h1 ⊢
      refine le_roundRat (by omega) (by linarith) _ _ (by omega) ?_ h1
      exact lt_of_lt_of_le (by norm_num) (Nat.pow_le_pow_right (by norm_num) hp)
    rw [toFloat_overflow neg hge]
    cases neg <;> decide +kernel
  · intro h1 h2
    have h3 : q < overflowAt F.p F.emax :=
      lt_of_le_of_lt h2 (lt_of_lt_of_le (zpow_lt_zpow_right₀ (by norm_num) (by norm_num)) hoz)
    refine ⟨?_, herr h3 (Or.inr h1)⟩
    rw [hval, round_fin F (by omega) hpe' neg hq h3]
    have hq' : 0 < q := lt_of_lt_of_le (by positivity) h1
    have hr0 := roundRat_nonneg (p := F.p) (emin := F.emin) hq
    have hr : roundRat F.p F.emin q ≤ 2 ^ (-150 : ℤ) := by
      have := roundRat_le (p := F.p) (emin := F.emin) hq' 1 (-150) he (Nat.one_lt_two_pow (by omega))
        (by rw [Nat.cast_one, one_mul]; exact h2)
      rwa [Nat.cast_one, one_mul] at this
    have hm : fMag (LVal.fin neg (roundRat F.p F.emin q)).toFloat = 0 := by
      rcases hr0.lt_or_eq with hr1 | hr1
      · have h24 := roundRat_mono (p := 24) (emin := -149) (by norm_num) hr0 hr
        rw [ftiny_zero] at h24
        have hlt : roundRat F.p F.emin q < fOverflow :=
          lt_of_le_of_lt hr (lt_of_le_of_lt (zpow_le_one_of_nonpos₀ (by norm_num) (by norm_num)) one_lt_fOverflow)
        rw [(toFloat_pos neg hr1 hlt).2.2.1]
        exact le_antisymm h24 (roundRat_nonneg hr0)
      · rw [← hr1]; exact (toFloat_zero neg).2.2.1
    by_contra hz
    exact absurd hm (fMag_pos hz).ne'

theorem overflowAt_double : overflowAt FpFormat.binary64.p FpFormat.binary64.emax = dOverflow := by
  show overflowAt 53 1024 = dOverflow
  unfold overflowAt dOverflow
  congr 1

/-- C90.  Where `long double` is `double`, `errno` is a check for numerals that are zero or not below the least normal double: it turns
`ERANGE` exactly if the result is an infinity. -/
theorem C90_double_check (c : LibC) (s : Bytes) (e : Nat) (hne : e ≠ ERANGE) (neg : Bool) (t : Bytes) (h : FloatText s neg t)
    (p : Bytes) (q : ℚ) (hl : Longest t p (.num q)) (hq : q = 0 ∨ 2 ^ (-1022 : ℤ) ≤ q) :
    (lexiDoubleErrno c .binary64 s e).2 = ERANGE ↔ DInfinite (lexiDoubleErrno c .binary64 s e).1 := by
  obtain ⟨h1, h2, -⟩ := C61_double_nearest s neg t h p q hl
  obtain ⟨e1, e2, -⟩ := (C90_float c .binary64 (by decide) (by decide) s e neg t h).2.1 p q hl
  rw [overflowAt_double] at e1 e2
  rcases lt_or_ge q dOverflow with ho | ho
  · rw [e2 ho hq]
    exact ⟨fun hc => absurd hc hne, fun hc => absurd hc.1 (h1 ho).1⟩
  · rw [e1 ho]
    exact ⟨fun _ => h2 ho, fun _ => rfl⟩

/-! ### Own texts -/

theorem overflowAt_wide {F : FpFormat} (hF : Wide F) : dOverflow ≤ overflowAt F.p F.emax := by
  have key : ∀ p emax : ℕ, overflowAt p emax = 2 ^ (emax : ℤ) - 2 ^ ((emax : ℤ) - p - 1) := fun p emax => by
    unfold overflowAt
    rw [sub_mul, one_mul, ← zpow_natCast, ← zpow_add₀ (by norm_num)]
    congr 2; push_cast; ring
  rw [← overflowAt_double]
  show overflowAt 53 1024 ≤ _
  rw [key, key]
  have hp := hF.p
  have hx := hF.emax
  have h1 : (2 : ℚ) ^ ((F.emax : ℤ) - F.p - 1) ≤ 2 ^ ((F.emax : ℤ) - 54) := zpow_mono (by omega)
  have h2 : (2 : ℚ) ^ ((F.emax : ℤ) - 54) = 2 ^ (F.emax : ℤ) / 2 ^ 54 := by
    rw [zpow_sub₀ (by norm_num)]; norm_num
  have h3 : (2 : ℚ) ^ (((1024 : ℕ) : ℤ) - (53 : ℕ) - 1) = 2 ^ ((1024 : ℕ) : ℤ) / 2 ^ 54 := by
    rw [show (((1024 : ℕ) : ℤ) - (53 : ℕ) - 1) = ((1024 : ℕ) : ℤ) - 54 by norm_num, zpow_sub₀ (by norm_num)]; norm_num
  have h4 : (2 : ℚ) ^ ((1024 : ℕ) : ℤ) ≤ 2 ^ (F.emax : ℤ) := zpow_mono (by exact_mod_cast hx)
  rw [h3]
  generalize (2 : ℚ) ^ ((1024 : ℕ) : ℤ) = a at *
  rw [h2] at h1
  generalize (2 : ℚ) ^ (F.emax : ℤ) = b at *
  linarith

/-- C90.  Reading back the text of a finite double leaves `errno` alone where `long double` has a greater range than `double`; where it
has not, for zeros and doubles above the least normal one. -/
theorem C90_double_own (env : Env) (henv : EnvOk env) (L : Literals) (junk : Bytes) (hj : junk.length = FLOAT_SIZE) (c : LibC)
    (F : FpFormat) (hF : Wide F) (hpe : F.emin ≤ (F.emax : ℤ) - F.p) (u : UInt64) (hfin : DFinite u)
    (hu : DZero u ∨ F.emin + F.p ≤ -1074 ∨ F.emin + F.p ≤ -1021 ∧ 2 ^ (-1022 : ℤ) < dMag u) (e : Nat) :
    ∃ s, stringDouble L env junk u = .ok s ∧ (lexiDoubleErrno c F s e).2 = e ∧ (lexiFloatErrno c F s e).2 = e := by
  obtain ⟨n, hn, hneg, -, hz, hnear, hlt, -, hs⟩ := text_spec env henv u hfin
  have hp := hF.p
  have hmag : |n.value| = n.mag := by
    unfold JNumber.value
    have : 0 ≤ n.mag := by unfold JNumber.mag; positivity
    split
    · rw [abs_neg, abs_of_nonneg this]
    · exact abs_of_nonneg this
  have hm0 : 0 ≤ n.mag := hmag ▸ abs_nonneg _
  suffices h : strtoldErrno c F n.text e = e from ⟨_, hs L junk hj, h, h⟩
  rw [errno_num c F e hm0 fun R => strtoldWith_number R n hn]
  refine (roundErrno_spec c F (by omega) hpe n.neg hm0 e).2.1 ?_ ?_
  · refine lt_of_lt_of_le ?_ (overflowAt_wide hF)
    rw [← hmag]
    refine lt_of_lt_of_eq hlt ?_
    unfold dOverflow
    rw [sub_mul, one_mul, ← pow_add]
  · by_cases hzu : DZero u
    · left
      rw [← hmag, hz.mpr hzu, abs_zero]
    right
    have habs : |dValue u| = dMag u := (val_le_mag dval_mag dMag_nonneg u).2.2.1
    have hpos := dMag_pos hzu
    -- nearer to `u` than to `y`
    have far : ∀ y, DFinite y → |dValue y| < dMag u → (0 < dValue u → 0 ≤ dValue y) → (dValue u < 0 → dValue y ≤ 0) →
        (dMag u + |dValue y|) / 2 < n.mag := by
      intro y hy hyu hy1 hy2
      have hne : dValue y ≠ dValue u := by intro hc; rw [hc, habs] at hyu; exact lt_irrefl _ hyu
      have h1 := hnear y hy hne
      have hu0 : dValue u ≠ 0 := by intro hc; rw [hc, abs_zero] at habs; linarith
      rw [← hmag]
      rcases lt_or_gt_of_ne hu0 with hu0 | hu0
      · have hy0 := hy2 hu0
        rw [abs_of_neg hu0] at habs
        rw [abs_of_nonpos hy0] at hyu ⊢
        rw [← sq_lt_sq] at h1
        have : (dValue u - dValue y) * (dValue u + dValue y - 2 * n.value) < 0 := by nlinarith
        have h2 : 0 < dValue u + dValue y - 2 * n.value := by
          by_contra hc
          push Not at hc
          nlinarith [mul_nonneg_of_nonpos_of_nonpos (show dValue u - dValue y ≤ 0 by linarith) hc]
        have := neg_abs_le n.value
        linarith
      · have hy0 := hy1 hu0
        rw [abs_of_pos hu0] at habs
        rw [abs_of_nonneg hy0] at hyu ⊢
        rw [← sq_lt_sq] at h1
        have : (dValue u - dValue y) * (dValue u + dValue y - 2 * n.value) < 0 := by nlinarith
        have h2 : dValue u + dValue y - 2 * n.value < 0 := by
          by_contra hc
          push Not at hc
          nlinarith [mul_nonneg (show 0 ≤ dValue u - dValue y by linarith) hc]
        have := le_abs_self n.value
        linarith
    rcases hu with hu | hu | ⟨hu, hu'⟩
    · exact absurd hu hzu
    · have h0 : dValue 0 = 0 := by unfold dValue; rw [dMag_zero (by decide)]; simp
      have := far 0 (by decide) (by rw [h0, abs_zero]; exact hpos) (fun _ => h0.ge) (fun _ => h0.le)
      rw [h0, abs_zero, add_zero] at this
      have hle : (2 : ℚ) ^ (F.emin + F.p - 1) ≤ 2 ^ (-1075 : ℤ) := zpow_mono (by omega)
      have hlow : (2 : ℚ) ^ (-1074 : ℤ) ≤ dMag u := by
        unfold dMag
        have h1 : (1 : ℚ) ≤ dSig u := by exact_mod_cast DiyFp.dSig_pos hzu
        have h2 : (2 : ℚ) ^ (-1074 : ℤ) ≤ 2 ^ dUlpExp u := zpow_mono (ulpExp_bounds u hfin).1
        have h3 : (0 : ℚ) < 2 ^ dUlpExp u := by positivity
        nlinarith
      have hh : (2 : ℚ) ^ (-1075 : ℤ) = 2 ^ (-1074 : ℤ) / 2 := by
        rw [show (-1075 : ℤ) = -1074 - 1 by norm_num, zpow_sub₀ (by norm_num), zpow_one]
      rw [hh] at hle
      linarith
    · have hle : (2 : ℚ) ^ (F.emin + F.p - 1) ≤ 2 ^ (-1022 : ℤ) := zpow_mono (by omega)
      have hm : ∀ b : Bool, dValue (if b then 0x8010000000000000 else 0x0010000000000000) = sgn b (2 ^ (-1022 : ℤ)) := by
        have h1 : dMag 0x8010000000000000 = 2 ^ (-1022 : ℤ) ∧ dMag 0x0010000000000000 = 2 ^ (-1022 : ℤ) := by
          have hh : (2 : ℚ) ^ (-1022 : ℤ) = ((2 ^ 52 : ℕ) : ℚ) * 2 ^ (-1074 : ℤ) := by
            rw [Nat.cast_pow, Nat.cast_ofNat, ← zpow_natCast, ← zpow_add₀ (by norm_num)]; congr 1
          rw [hh]
          exact ⟨rfl, rfl⟩
        intro b
        cases b
        · show dValue 0x0010000000000000 = _
          rw [(dval_mag _).2 (by decide), h1.2]; rfl
        · show dValue 0x8010000000000000 = _
          rw [(dval_mag _).1 (by decide), h1.1]; rfl
      have hpos' : (0 : ℚ) < 2 ^ (-1022 : ℤ) := by positivity
      generalize (2 : ℚ) ^ (-1022 : ℤ) = d at *
      rcases lt_or_ge (dValue u) 0 with hsg | hsg
      · have hv := hm true
        change dValue 0x8010000000000000 = -d at hv
        have := far 0x8010000000000000 (by decide) (by rw [hv, abs_neg, abs_of_pos hpos']; exact hu')
          (fun h => by linarith) (fun _ => by rw [hv]; linarith)
        rw [hv, abs_neg, abs_of_pos hpos'] at this
        linarith
      · have hv := hm false
        change dValue 0x0010000000000000 = d at hv
        have := far 0x0010000000000000 (by decide) (by rw [hv, abs_of_pos hpos']; exact hu')
          (fun _ => by rw [hv]; exact hpos'.le) (fun h => by linarith)
        rw [hv, abs_of_pos hpos'] at this
        linarith

theorem overflowAt_lt_pow (p emax : ℕ) : overflowAt p emax < 2 ^ (emax : ℤ) := by
  have : overflowAt p emax = 2 ^ (emax : ℤ) - 2 ^ ((emax : ℤ) - p - 1) := by
    unfold overflowAt
    rw [sub_mul, one_mul, ← zpow_natCast, ← zpow_add₀ (by norm_num)]
    congr 2; push_cast; ring
  rw [this]
  have : (0 : ℚ) < 2 ^ ((emax : ℤ) - p - 1) := by positivity
  linarith

/-! ### Examples -/

/-- glibc, and a library that stores `EINVAL` when nothing is converted. -/
def quietLibC : LibC := ⟨none, fun _ _ => true⟩
def einvalLibC : LibC := ⟨some 22, fun _ _ => true⟩

example : lexiIntErrno quietLibC .i8 (ascii "300") 0 = (.ok (.i8 44), 0) := by decide +kernel
example : lexiIntErrno quietLibC .u64 (ascii "-1") 0 = (.ok (.u64 18446744073709551615), 0) := by decide +kernel
example : lexiIntErrno quietLibC .u64 (ascii "18446744073709551616") 0 = (.ok (.u64 18446744073709551615), ERANGE) := by
  decide +kernel
example : lexiIntErrno quietLibC .i32 (ascii "x") 7 = (.ok (.i32 0), 7) ∧ (lexiIntErrno einvalLibC .i32 (ascii "x") 7).2 = 22 := by
  decide +kernel
example : lexiDoubleErrno quietLibC .x87 (ascii "1e400") 0 = (0x7FF0000000000000, 0) ∧
    lexiDoubleErrno quietLibC .binary64 (ascii "1e400") 0 = (0x7FF0000000000000, ERANGE) ∧
    lexiDoubleErrno quietLibC .x87 (ascii "1e-400") 0 = (0, 0) ∧
    lexiDoubleErrno quietLibC .binary64 (ascii "1e-400") 0 = (0, ERANGE) ∧
    lexiDoubleErrno quietLibC .binary64 (ascii "inf") 0 = (0x7FF0000000000000, 0) := by decide +kernel
example : lexiFloatErrno quietLibC .binary64 (ascii "1e39") 0 = (0x7F800000, 0) := by decide +kernel

/-- The formats meet the hypotheses. -/
example : Wide .x87 ∧ FpFormat.x87.emin + FpFormat.x87.p ≤ -1074 ∧ Wide .binary128 ∧
    FpFormat.binary128.emin + FpFormat.binary128.p ≤ -1074 ∧ Wide .binary64 ∧
    FpFormat.binary64.emin + FpFormat.binary64.p ≤ -1021 := by
  refine ⟨⟨?_, ?_, ?_⟩, ?_, ⟨?_, ?_, ?_⟩, ?_, ⟨?_, ?_, ?_⟩, ?_⟩ <;> decide

/-- `0x1p2000` is `2^2000`, which `double` cannot hold and the wider formats can. -/
example : FloatText (ascii "0x1p2000") false (ascii "0x1p2000") ∧
    Longest (ascii "0x1p2000") (ascii "0x1p2000") (.num (2 ^ (2000 : ℤ))) ∧
    dOverflow ≤ 2 ^ (2000 : ℤ) ∧ (2 : ℚ) ^ (2000 : ℤ) < overflowAt FpFormat.x87.p FpFormat.x87.emax := by
  have d : ∀ c : UInt8, ∀ v, c.toNat = 48 + v → v < 10 → DigitOf 10 c v := fun c v h1 h2 => ⟨h2, Or.inl ⟨h2, h1⟩⟩
  have d1 : DigitOf 16 49 1 := by unfold DigitOf; decide
  refine ⟨⟨ascii "0x1p2000", [], [], ?_, rfl, by simp, Or.inl ⟨rfl, rfl, ?_⟩⟩,
    ⟨List.prefix_rfl, ?_, fun p' _ hp _ => hp.length_le⟩, ?_, ?_⟩
  · have : ascii "0x1p2000" = cstr (ascii "0x1p2000") := by decide +kernel
    rw [this]
    conv => arg 1; rw [← this]
    exact cstring_cstr _
  · intro b hb
    obtain rfl : b = 48 := by
      have : (ascii "0x1p2000").head? = some 48 := by decide +kernel
      rw [this] at hb; exact (Option.some.inj hb).symm
    unfold IsSpace; decide
  · have e : ascii "0x1p2000" = 48 :: 120 :: [49, 112, 50, 48, 48, 48] := by decide +kernel
    rw [e]
    refine .hex (Or.inl rfl) ⟨[49], [], [], [112, 50, 48, 48, 48], 1, 2000, rfl, Or.inl ⟨rfl, rfl⟩, by simp,
      Digits.snoc .nil d1, ?_, by simp⟩
    exact .pos (c := 112) (sg := []) (ds := [50, 48, 48, 48]) (n := 2000) (Or.inl rfl) (Or.inl rfl) (by simp)
      (Digits.snoc (Digits.snoc (Digits.snoc (Digits.snoc .nil (d 50 2 rfl (by norm_num))) (d 48 0 rfl (by norm_num)))
        (d 48 0 rfl (by norm_num))) (d 48 0 rfl (by norm_num)))
  · rw [← overflowAt_double]
    exact (overflowAt_lt_pow 53 1024).le.trans (zpow_mono (by norm_num))
  · exact lt_of_lt_of_le (zpow_lt_zpow_right₀ (by norm_num) (by norm_num : (2000 : ℤ) < ((16383 : ℕ) : ℤ)))
      (overflowAt_ge (by decide))

end Lexi
