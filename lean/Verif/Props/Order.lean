import Verif.Spec.Order
import Verif.Props.Meaning
import Verif.Props.Cross

/-!
# C118: order of texts and order of values
-/

namespace Lexi
open Spec Soft Dtoa

/-! ### Texts as decimal numbers -/

theorem shows_json {M : Meaning} {x : ℚ} (hx : M.value = some x) {t : Bytes} (h : Shows M t) :
    ∃ p, IsJsonNumber t p ∧ (∀ z, M = .int z → p = z) ∧
      ∀ q, M = .number q → (∃ u, DFinite u ∧ dValue u = q) ∧ ∀ y, DFinite y → dValue y ≠ q → |p - q| < |p - dValue y| := by
  cases M with
  | int z =>
    rw [show t = _ from h]
    refine ⟨z, ⟨wholeNumber false z, wholeNumber_wf _ _, ?_, wholeNumber_value _ _⟩, ?_, by simp⟩
    · rw [wholeNumber_text]; simp
    · intro w hw; cases hw; rfl
  | number q =>
    obtain ⟨n, h1, -, h2, h3, h4⟩ := h
    refine ⟨n.value, ⟨n, h1, h2, rfl⟩, by simp, ?_⟩
    intro w hw
    cases hw
    exact ⟨h3, h4⟩
  | null | bool | text | nan | infinity => cases hx

theorem closer_lt {p x y : ℚ} (h : |p - x| < |p - y|) (hxy : x < y) : p < (x + y) / 2 := by
  by_contra hc
  have h1 : 0 ≤ p - x := by linarith
  rw [abs_of_nonneg h1] at h
  rcases abs_cases (p - y) with ⟨e, -⟩ | ⟨e, -⟩ <;> rw [e] at h <;> linarith

theorem closer_gt {p x y : ℚ} (h : |p - y| < |p - x|) (hxy : x < y) : (x + y) / 2 < p := by
  by_contra hc
  have h1 : p - y ≤ 0 := by linarith
  rw [abs_of_nonpos h1] at h
  rcases abs_cases (p - x) with ⟨e, -⟩ | ⟨e, -⟩ <;> rw [e] at h <;> linarith

theorem small_double {z : ℤ} (h : |z| ≤ 2 ^ 53) : ∃ y, DFinite y ∧ dValue y = z :=
  whole_is_double z (by rw [Int.abs_eq_natAbs] at h; exact_mod_cast h)

/-- Doubles from 2^53 on are whole. -/
theorem large_whole {u : UInt64} (h : 2 ^ 53 ≤ |dValue u|) : ∃ n : ℤ, dValue u = n := by
  have hs := DiyFp.dSig_lt u
  have e : |dValue u| = dMag u := by
    have : 0 ≤ dMag u := by unfold dMag; positivity
    unfold dValue; split
    · rw [abs_neg, abs_of_nonneg this]
    · exact abs_of_nonneg this
  have h0 : 0 ≤ dUlpExp u := by
    by_contra hc
    have h1 : (2 : ℚ) ^ dUlpExp u ≤ 2 ^ (0 : ℤ) := zpow_mono (by omega)
    have h2 : (dSig u : ℚ) < 2 ^ 53 := by exact_mod_cast hs
    have h3 : dMag u ≤ dSig u := by
      unfold dMag
      rw [zpow_zero] at h1
      exact mul_le_of_le_one_right (by positivity) h1
    rw [e] at h
    linarith
  obtain ⟨k, hk⟩ : ∃ k : ℕ, dUlpExp u = k := ⟨_, (Int.toNat_of_nonneg h0).symm⟩
  refine ⟨if dNeg u then -(dSig u * 2 ^ k) else dSig u * 2 ^ k, ?_⟩
  unfold dValue dMag
  rw [hk, zpow_natCast]
  split <;> push_cast <;> rfl

/-- `p` is the value of a text of the double `v`. -/
def Of (p v : ℚ) : Prop :=
  (∃ u, DFinite u ∧ dValue u = v) ∧ (∀ y, DFinite y → dValue y ≠ v → |p - v| < |p - dValue y|) ∧
    ∀ n : ℤ, v = n → |n| < 2 ^ 54 → p = n

theorem dValue_flip (u : UInt64) (h : DFinite u) : ∃ w, DFinite w ∧ dValue w = -dValue u := by
  by_cases hn : dNeg u
  · refine ⟨dAbs u, finite_abs.mpr h, ?_⟩
    unfold dValue
    rw [if_neg (dAbs_not_neg u), if_pos hn, dMag_abs, _root_.neg_neg]
  · have hnn : dNeg (Ieee.neg u) := by unfold dNeg; rw [neg_toNat, if_neg hn]; omega
    have ha : dAbs (Ieee.neg u) = u := by rw [dAbs_of_neg hnn, Dtoa.neg_neg]
    refine ⟨Ieee.neg u, by rw [← finite_abs, ha]; exact h, ?_⟩
    unfold dValue
    rw [if_pos hnn, if_neg hn, ← dMag_abs, ha]

theorem Of.neg {p v : ℚ} (h : Of p v) : Of (-p) (-v) := by
  obtain ⟨⟨u, hu, e⟩, h2, h3⟩ := h
  refine ⟨?_, fun y hy hne => ?_, fun n hn hb => ?_⟩
  · obtain ⟨w, h4, h5⟩ := dValue_flip u hu
    exact ⟨w, h4, by rw [h5, e]⟩
  · obtain ⟨w, h4, h5⟩ := dValue_flip y hy
    have := h2 w h4 (by rw [h5]; intro h; exact hne (by linarith))
    rw [h5] at this
    rw [show -p - -v = -(p - v) by ring, show -p - dValue y = -(p - -dValue y) by ring, abs_neg, abs_neg]
    exact this
  · have := h3 (-n) (by push_cast; linarith) (by rwa [abs_neg])
    push_cast at this
    linarith

theorem Of.above {q w : ℚ} (h : Of q w) {z : ℤ} (hz : |z| < 2 ^ 54) (hlt : (z : ℚ) < w) : (z : ℚ) < q := by
  obtain ⟨⟨u, hu, e⟩, h2, h3⟩ := h
  have beyond : ∀ n : ℤ, (∃ y, DFinite y ∧ dValue y = n) → (n : ℚ) < w → ((n : ℚ) + w) / 2 < q := by
    rintro n ⟨y, hy, ey⟩ hn
    have := h2 y hy (by rw [ey]; exact hn.ne)
    rw [ey] at this
    exact closer_gt this hn
  have whole : 2 ^ 53 ≤ |w| → |w| < 2 ^ 54 → (z : ℚ) < q := by
    intro h4 h5
    obtain ⟨n, hn⟩ := large_whole (u := u) (by rw [e]; exact h4)
    rw [e] at hn
    have h6 : |n| < 2 ^ 54 := by rw [hn] at h5; exact_mod_cast h5
    rw [h3 n hn h6, ← hn]; exact hlt
  rw [abs_lt] at hz
  by_cases h1 : |z| ≤ 2 ^ 53
  · have := beyond z (small_double h1) hlt
    linarith
  · rcases lt_or_ge z 0 with h0 | h0
    · have hz53 : z < -2 ^ 53 := by rw [abs_of_neg h0] at h1; omega
      have hzq : (z : ℚ) < -2 ^ 53 := by exact_mod_cast hz53
      have hzq' : -2 ^ 54 < (z : ℚ) := by exact_mod_cast hz.1
      by_cases hw : w ≤ -2 ^ 53
      · refine whole ?_ ?_
        · rw [abs_of_neg (by linarith)]; linarith
        · rw [abs_of_neg (by linarith)]; linarith
      · have := beyond (-2 ^ 53) (small_double (by norm_num)) (by push_cast; linarith)
        push_cast at this
        linarith
    · have hz53 : 2 ^ 53 < z := by rw [abs_of_nonneg h0] at h1; omega
      have hzq : 2 ^ 53 < (z : ℚ) := by exact_mod_cast hz53
      have hzq' : (z : ℚ) ≤ 2 ^ 54 - 1 := by
        have : z ≤ 2 ^ 54 - 1 := by omega
        exact_mod_cast this
      by_cases hw : w < 2 ^ 54
      · refine whole ?_ ?_
        · rw [abs_of_pos (by linarith)]; linarith
        · rw [abs_of_pos (by linarith)]; exact hw
      · have := beyond (2 ^ 54 - 2) ⟨0x434FFFFFFFFFFFFF, by decide +kernel, by
          have a : dSig 0x434FFFFFFFFFFFFF = 2 ^ 53 - 1 := by decide +kernel
          have b : dUlpExp 0x434FFFFFFFFFFFFF = 1 := by decide +kernel
          have c : ¬ dNeg 0x434FFFFFFFFFFFFF := by decide +kernel
          unfold dValue dMag; rw [a, b, if_neg c]; norm_num⟩ (by push_cast; linarith)
        push_cast at this
        linarith

theorem Of.below {q w : ℚ} (h : Of q w) {z : ℤ} (hz : |z| < 2 ^ 54) (hlt : w < z) : q < z := by
  have := h.neg.above (z := -z) (by rwa [abs_neg]) (by push_cast; linarith)
  push_cast at this
  linarith

theorem Of.mono {p q v w : ℚ} (h : Of p v) (h' : Of q w) (hlt : v < w) : p < q := by
  obtain ⟨⟨u, hu, e⟩, a, -⟩ := h
  obtain ⟨⟨u', hu', e'⟩, b, -⟩ := h'
  have h1 := a u' hu' (by rw [e']; exact hlt.ne')
  have h2 := b u hu (by rw [e]; exact hlt.ne)
  rw [e'] at h1
  rw [e] at h2
  exact (closer_lt h1 hlt).trans (closer_gt h2 hlt)

theorem Arg.string_shows (m : Machine) (hm : m.Ok) (hL : m.literals = .default) (a : Arg) (he : a.Exists m.platform) {x : ℚ}
    (hx : a.meaning.value = some x) : ∃ t, a.string m = .ok t ∧ Shows a.meaning t := by
  obtain ⟨t, h1, h2⟩ := C114_shows m hm hL a he
  refine ⟨t, ?_, h2⟩
  rw [← h1]
  cases a <;> first | rfl | cases hx

theorem Arg.string_whole (m : Machine) (hm : m.Ok) (hL : m.literals = .default) (a : Arg) (he : a.Exists m.platform) (z : ℤ)
    (ha : a.meaning = .number z) (u : UInt64) (hu : DFinite u) (e : dValue u = z) (hz : |z| < 2 ^ 54) :
    a.string m = .ok (decimalText z ++ ascii ".0") := by
  have h0 : (Arg.double u).meaning = a.meaning := by rw [ha, ← e]; exact dMeaning_finite hu
  have ta : ¬ a.Textual := by
    cases a <;> first | exact fun h => h | cases ha
  rw [← (C114_string m hm hL (.double u) a trivial he (fun h => h) ta).mpr h0]
  exact C60_whole_text m.env hm.env m.literals _ (hm.junk _) u hu z e (by
    rw [Int.abs_eq_natAbs] at hz; exact_mod_cast hz)

/-- The text of a number, and what is known of its value. -/
theorem Arg.string_number (m : Machine) (hm : m.Ok) (hL : m.literals = .default) (a : Arg) (he : a.Exists m.platform) {x : ℚ}
    (hx : a.meaning.value = some x) :
    ∃ t p, a.string m = .ok t ∧ IsJsonNumber t p ∧ (∀ z, a.meaning = .int z → p = z) ∧ (∀ v, a.meaning = .number v → Of p v) := by
  obtain ⟨t, ht, h1⟩ := Arg.string_shows m hm hL a he hx
  obtain ⟨p, hp, h2, h3⟩ := shows_json hx h1
  refine ⟨t, p, ht, hp, h2, fun v hv => ⟨(h3 v hv).1, (h3 v hv).2, fun n hn hb => ?_⟩⟩
  obtain ⟨u, hu, e⟩ := (h3 v hv).1
  rw [hn] at hv e
  obtain rfl := Res.ok.inj (ht.symm.trans (Arg.string_whole m hm hL a he n hv u hu e hb))
  refine hp.unique ⟨wholeNumber true n, wholeNumber_wf _ _, ?_, wholeNumber_value _ _⟩
  rw [wholeNumber_text]; rfl

/-- Values of texts are in the order of the numbers. -/
theorem values_lt {M M' : Meaning} {x y p q : ℚ} (hx : M.value = some x) (hy : M'.value = some y) (hc : Comparable M M')
    (a1 : ∀ z, M = .int z → p = z) (a2 : ∀ v, M = .number v → Of p v) (b1 : ∀ z, M' = .int z → q = z)
    (b2 : ∀ v, M' = .number v → Of q v) (hxy : x < y) : p < q := by
  cases M with
  | int z =>
    obtain rfl : (z : ℚ) = x := Option.some.inj hx
    rw [a1 z rfl]
    cases M' with
    | int w =>
      obtain rfl : (w : ℚ) = y := Option.some.inj hy
      rw [b1 w rfl]; exact hxy
    | number w =>
      obtain rfl : w = y := Option.some.inj hy
      exact (b2 w rfl).above hc hxy
    | null | bool | text | nan | infinity => cases hy
  | number v =>
    obtain rfl : v = x := Option.some.inj hx
    cases M' with
    | int w =>
      obtain rfl : (w : ℚ) = y := Option.some.inj hy
      rw [b1 w rfl]
      exact (a2 v rfl).below hc hxy
    | number w =>
      obtain rfl : w = y := Option.some.inj hy
      exact (a2 v rfl).mono (b2 w rfl) hxy
    | null | bool | text | nan | infinity => cases hy
  | null | bool | text | nan | infinity => cases hx

/-- C118, across machines.  Of two numbers of one kind, or an integer of at most 54 bits and a floating-point number, the smaller has
the text with the smaller decimal value, whatever machines wrote the texts. -/
theorem C118_across (m m' : Machine) (hm : m.Ok) (hm' : m'.Ok) (hL : m.literals = .default) (hL' : m'.literals = .default)
    (a b : Arg) (ha : a.Exists m.platform) (hb : b.Exists m'.platform) (x y : ℚ) (hx : a.meaning.value = some x)
    (hy : b.meaning.value = some y) (hc : Comparable a.meaning b.meaning) (hxy : x < y) :
    ∃ s t p q, a.string m = .ok s ∧ b.string m' = .ok t ∧ IsJsonNumber s p ∧ IsJsonNumber t q ∧ p < q := by
  obtain ⟨s, p, hs, hp, a1, a2⟩ := Arg.string_number m hm hL a ha hx
  obtain ⟨t, q, ht, hq, b1, b2⟩ := Arg.string_number m' hm' hL' b hb hy
  exact ⟨s, t, p, q, hs, ht, hp, hq, values_lt hx hy hc a1 a2 b1 b2 hxy⟩

theorem comparable_symm {M M' : Meaning} (h : Comparable M M') : Comparable M' M := by
  cases M <;> cases M' <;> trivial

/-- C118, on one machine.  The texts' values are smaller, equal or greater as the numbers are. -/
theorem C118_order (m : Machine) (hm : m.Ok) (hL : m.literals = .default) (a b : Arg) (ha : a.Exists m.platform)
    (hb : b.Exists m.platform) (x y : ℚ) (hx : a.meaning.value = some x) (hy : b.meaning.value = some y)
    (hc : Comparable a.meaning b.meaning) :
    ∃ s t p q, a.string m = .ok s ∧ b.string m = .ok t ∧ IsJsonNumber s p ∧ IsJsonNumber t q ∧
      (p < q ↔ x < y) ∧ (p = q ↔ x = y) := by
  obtain ⟨s, p, hs, hp, a1, a2⟩ := Arg.string_number m hm hL a ha hx
  obtain ⟨t, q, ht, hq, b1, b2⟩ := Arg.string_number m hm hL b hb hy
  have lt : x < y → p < q := values_lt hx hy hc a1 a2 b1 b2
  have gt : y < x → q < p := values_lt hy hx (comparable_symm hc) b1 b2 a1 a2
  have eq : x = y → p = q := by
    rintro rfl
    have key : a.meaning = b.meaning → p = q := by
      intro e
      have ta : ∀ c : Arg, c.meaning.value = some x → ¬ c.Textual := by
        intro c h; cases c <;> first | exact fun h => h | cases h
      have := (C114_string m hm hL a b ha hb (ta a hx) (ta b hy)).mpr e
      rw [hs, ht] at this
      obtain rfl := Res.ok.inj this
      exact hp.unique hq
    cases ea : a.meaning with
    | int z =>
      rw [ea] at hx hc a1 key
      obtain rfl : (z : ℚ) = x := Option.some.inj hx
      cases eb : b.meaning with
      | int w =>
        rw [eb] at hy b1
        rw [a1 z rfl, b1 w rfl]; exact (Option.some.inj hy).symm
      | number w =>
        rw [eb] at hy hc b2
        obtain rfl : w = (z : ℚ) := Option.some.inj hy
        rw [a1 z rfl, (b2 _ rfl).2.2 z rfl hc]
      | null | bool | text | nan | infinity => rw [eb] at hy; cases hy
    | number v =>
      rw [ea] at hx hc a2 key
      obtain rfl : v = x := Option.some.inj hx
      cases eb : b.meaning with
      | int w =>
        rw [eb] at hy hc b1
        obtain rfl : (w : ℚ) = v := Option.some.inj hy
        rw [b1 w rfl, (a2 _ rfl).2.2 w rfl hc]
      | number w =>
        rw [eb] at hy key
        obtain rfl : w = v := Option.some.inj hy
        exact key rfl
      | null | bool | text | nan | infinity => rw [eb] at hy; cases hy
    | null | bool | text | nan | infinity => rw [ea] at hx; cases hx
  refine ⟨s, t, p, q, hs, ht, hp, hq, ?_, ?_⟩
  all_goals rcases lt_trichotomy x y with h | h | h
  · exact iff_of_true (lt h) h
  · exact iff_of_false (by rw [eq h]; exact lt_irrefl _) h.not_lt
  · exact iff_of_false (gt h).not_gt h.not_gt
  · exact iff_of_false (lt h).ne h.ne
  · exact iff_of_true (eq h) h
  · exact iff_of_false (gt h).ne' h.ne'

/-- -7 and 0.1 as a double: an integer and a floating-point number that can be compared. -/
example : ∃ y, (Arg.int (.i32 (-7))).meaning.value = some (-7) ∧ (Arg.double 0x3FB999999999999A).meaning.value = some y ∧
    Comparable (Arg.int (.i32 (-7))).meaning (Arg.double 0x3FB999999999999A).meaning := by
  have h : (Arg.double 0x3FB999999999999A).meaning = .number (dValue 0x3FB999999999999A) :=
    dMeaning_finite (by decide +kernel)
  have h7 : (IntVal.i32 (-7)).toInt = -7 := by decide
  refine ⟨_, ?_, by rw [h]; rfl, ?_⟩
  · rw [Arg.meaning, h7]; simp [Meaning.value]
  · rw [h, Arg.meaning, h7]; show |(-7 : ℤ)| < 2 ^ 54; decide

/-- C118, not for all integers.  On every machine there is a double smaller than a 64-bit integer whose text has the greater value. -/
theorem C118_mixed (m : Machine) (hm : m.Ok) (hL : m.literals = .default) :
    ∃ x y s t p q, (Arg.double wholeBeyond).meaning.value = some x ∧ (Arg.int (.u64 72057594037928098)).meaning.value = some y ∧
      x < y ∧ (Arg.double wholeBeyond).string m = .ok s ∧ (Arg.int (.u64 72057594037928098)).string m = .ok t ∧
      IsJsonNumber s p ∧ IsJsonNumber t q ∧ q < p := by
  obtain ⟨hf, hv, s, hs, hp⟩ := C60_beyond m.env hm.env m.literals (m.junk FLOAT_SIZE) (hm.junk _)
  have hz : (IntVal.u64 72057594037928098).toInt = 72057594037928098 := by decide
  obtain ⟨t, q, ht, hq, hq1, -⟩ := Arg.string_number m hm hL (.int (.u64 72057594037928098)) trivial rfl
  refine ⟨_, _, s, t, _, q, by rw [Arg.meaning, dMeaning_finite hf]; rfl, rfl, ?_, hs, ht, hp, hq, ?_⟩
  · rw [hv, hz]; norm_num
  · rw [hq1 _ rfl, hz]; norm_num

/-! ### long double -/

/-- C118, long doubles.  A long double is written as the double next to it, so two that differ can have the same text, but the
greater one's text never has the smaller value. -/
theorem C118_long (m : Machine) (hm : m.Ok) (hL : m.literals = .default) (n n' : Bool) (x y : ℚ) (hx : 0 ≤ x) (hy : 0 ≤ y)
    (hx' : x < dOverflow) (hy' : y < dOverflow) (hle : sgn n x ≤ sgn n' y) :
    ∃ s t p q, (Arg.longDouble (.fin n x)).string m = .ok s ∧ (Arg.longDouble (.fin n' y)).string m = .ok t ∧
      IsJsonNumber s p ∧ IsJsonNumber t q ∧ p ≤ q := by
  obtain ⟨f1, -, v1⟩ := toDouble_value n hx hx'
  obtain ⟨f2, -, v2⟩ := toDouble_value n' hy hy'
  have e1 : (Arg.longDouble (.fin n x)).meaning.value = some (dValue (LVal.fin n x).toDouble) := by
    rw [Arg.meaning, dMeaning_finite f1]; rfl
  have e2 : (Arg.longDouble (.fin n' y)).meaning.value = some (dValue (LVal.fin n' y).toDouble) := by
    rw [Arg.meaning, dMeaning_finite f2]; rfl
  obtain ⟨s, t, p, q, hs, ht, hp, hq, h1, h2⟩ := C118_order m hm hL (.longDouble (.fin n x)) (.longDouble (.fin n' y)) hx hy _ _ e1 e2 (by
    rw [Arg.meaning, Arg.meaning, dMeaning_finite f1, dMeaning_finite f2]; trivial)
  refine ⟨s, t, p, q, hs, ht, hp, hq, ?_⟩
  have r0 : ∀ {w : ℚ}, 0 ≤ w → 0 ≤ roundRat 53 (-1074) w := fun h => by
    have := roundRat_mono (p := 53) (by norm_num) (le_refl 0) h (emin := -1074)
    rwa [roundRat_zero] at this
  have key : sgn n (roundRat 53 (-1074) x) ≤ sgn n' (roundRat 53 (-1074) y) := by
    have a := r0 hx
    have b := r0 hy
    unfold sgn at hle ⊢
    cases n <;> cases n' <;> simp only [Bool.false_eq_true, if_false, if_true] at hle ⊢
    · exact roundRat_mono (by norm_num) hx hle
    · obtain rfl : x = 0 := by linarith
      obtain rfl : y = 0 := by linarith
      rw [roundRat_zero]; simp
    · linarith
    · have := roundRat_mono (p := 53) (emin := -1074) (by norm_num) hy (by linarith : y ≤ x)
      linarith
  rw [v1, v2] at h1 h2
  rcases key.lt_or_eq with h | h
  · exact (h1.mpr h).le
  · exact (h2.mpr h).le

/-- -3 and a third, neither of them out of the range of double; the third is no double. -/
example : sgn true 3 ≤ sgn false (1 / 3) ∧ (3 : ℚ) < dOverflow ∧ (1 / 3 : ℚ) < dOverflow := by
  have h : (3 : ℚ) < dOverflow := by
    unfold dOverflow
    calc (3 : ℚ) < (2 ^ 54 - 1) * 1 := by norm_num
      _ ≤ (2 ^ 54 - 1) * 2 ^ 970 := mul_le_mul_of_nonneg_left (one_le_pow₀ (by norm_num)) (by norm_num)
  refine ⟨by unfold sgn; norm_num, h, ?_⟩
  linarith

/-! ### Byte order -/

theorem digitsValue_cons (c : UInt8) (s : Bytes) : digitsValue (c :: s) = (c.toNat - 48) * 10 ^ s.length + digitsValue s := by
  have : c :: s = [c] ++ s := rfl
  rw [this, digitsValue_append]
  simp [digitsValue]

/-- Digits are in byte order as the fractions `0.digits`, and the shorter first of two that are equal. -/
theorem bytesLt_digits (s t : Bytes) (hs : ∀ b ∈ s, IsDigit b) (ht : ∀ b ∈ t, IsDigit b) :
    bytesLt s t ↔ digitsValue s * 10 ^ t.length < digitsValue t * 10 ^ s.length ∨
      digitsValue s * 10 ^ t.length = digitsValue t * 10 ^ s.length ∧ s.length < t.length := by
  induction s generalizing t with
  | nil =>
    cases t with
    | nil => simp [bytesLt]
    | cons b t =>
      simp only [bytesLt, true_iff, List.length_nil, pow_zero, mul_one, List.length_cons]
      have : digitsValue ([] : Bytes) = 0 := rfl
      rw [this]
      omega
  | cons a s ih =>
    cases t with
    | nil =>
      simp only [bytesLt, false_iff, List.length_nil, List.length_cons]
      have : digitsValue ([] : Bytes) = 0 := rfl
      rw [this]
      omega
    | cons b t =>
      have hs' : ∀ b ∈ s, IsDigit b := fun c h => hs c (by simp [h])
      have ht' : ∀ b ∈ t, IsDigit b := fun c h => ht c (by simp [h])
      have i := ih t hs' ht'
      have h1 := BigInt.digitsValue_lt_pow s hs'
      have h2 := BigInt.digitsValue_lt_pow t ht'
      obtain ⟨a1, a2⟩ := hs a (by simp)
      obtain ⟨b1, b2⟩ := ht b (by simp)
      rw [UInt8.le_iff_toNat_le] at a1 a2 b1 b2
      have k48 : (48 : UInt8).toNat = 48 := rfl
      rw [k48] at a1 b1
      rw [digitsValue_cons, digitsValue_cons, List.length_cons, List.length_cons, bytesLt, i]
      generalize digitsValue s = v at *
      generalize digitsValue t = w at *
      obtain ⟨c, hc⟩ : ∃ c, a.toNat = c + 48 := ⟨a.toNat - 48, by omega⟩
      obtain ⟨d, hd⟩ : ∃ d, b.toNat = d + 48 := ⟨b.toNat - 48, by omega⟩
      have e1 : a < b ↔ c < d := by rw [UInt8.lt_iff_toNat_lt]; omega
      have e2 : a = b ↔ c = d := by rw [← UInt8.toNat_inj]; omega
      rw [e1, e2, hc, hd, Nat.add_sub_cancel, Nat.add_sub_cancel]
      have l1 : v * 10 ^ t.length < 10 ^ s.length * 10 ^ t.length := Nat.mul_lt_mul_of_pos_right h1 (by positivity)
      have l2 : w * 10 ^ s.length < 10 ^ s.length * 10 ^ t.length := by
        rw [Nat.mul_comm (10 ^ s.length)]; exact Nat.mul_lt_mul_of_pos_right h2 (by positivity)
      have x1 : (c * 10 ^ s.length + v) * 10 ^ (t.length + 1) =
          10 * (c * (10 ^ s.length * 10 ^ t.length) + v * 10 ^ t.length) := by ring
      have x2 : (d * 10 ^ t.length + w) * 10 ^ (s.length + 1) =
          10 * (d * (10 ^ s.length * 10 ^ t.length) + w * 10 ^ s.length) := by ring
      rw [x1, x2]
      generalize v * 10 ^ t.length = V at *
      generalize w * 10 ^ s.length = W at *
      generalize 10 ^ s.length * 10 ^ t.length = P at *
      rcases lt_trichotomy c d with h | rfl | h
      · have : (c + 1) * P ≤ d * P := Nat.mul_le_mul_right _ h
        rw [Nat.add_mul, Nat.one_mul] at this
        exact iff_of_true (.inl h) (.inl (by omega))
      · constructor
        · rintro (h | ⟨-, h | ⟨h, h'⟩⟩)
          · omega
          · left; omega
          · right; omega
        · intro h; right; refine ⟨rfl, ?_⟩; omega
      · have : (d + 1) * P ≤ c * P := Nat.mul_le_mul_right _ h
        rw [Nat.add_mul, Nat.one_mul] at this
        refine iff_of_false (by rintro (h' | ⟨h', -⟩) <;> omega) (by rintro (h' | ⟨h', -⟩) <;> omega)

/-- C118, byte order of integers.  Negative numbers come first.  Two of one sign are ordered as the fractions that have their digits
behind the point. -/
theorem C118_bytes (m : Machine) (hm : m.Ok) (hL : m.literals = .default) (a b : Arg) (ha : a.Exists m.platform)
    (hb : b.Exists m.platform) (z w : ℤ) (hz : a.meaning = .int z) (hw : b.meaning = .int w) :
    ∃ s t, a.string m = .ok s ∧ b.string m = .ok t ∧
      (bytesLt s t ↔ z < 0 ∧ 0 ≤ w ∨ (z < 0 ↔ w < 0) ∧
        (z.natAbs * 10 ^ t.length < w.natAbs * 10 ^ s.length ∨
          z.natAbs * 10 ^ t.length = w.natAbs * 10 ^ s.length ∧ s.length < t.length)) ∧
      (s.length = t.length → 0 ≤ z → 0 ≤ w → (bytesLt s t ↔ z < w)) ∧
      (s.length = t.length → z < 0 → w < 0 → (bytesLt s t ↔ w < z)) := by
  obtain ⟨s, hs, h1⟩ := Arg.string_shows m hm hL a ha (x := z) (by rw [hz]; rfl)
  obtain ⟨t, ht, h2⟩ := Arg.string_shows m hm hL b hb (x := w) (by rw [hw]; rfl)
  rw [hz] at h1
  rw [hw] at h2
  rw [show s = _ from h1] at hs
  rw [show t = _ from h2] at ht
  have main : bytesLt (decimalText z) (decimalText w) ↔ z < 0 ∧ 0 ≤ w ∨ (z < 0 ↔ w < 0) ∧
        (z.natAbs * 10 ^ (decimalText w).length < w.natAbs * 10 ^ (decimalText z).length ∨
          z.natAbs * 10 ^ (decimalText w).length = w.natAbs * 10 ^ (decimalText z).length ∧
            (decimalText z).length < (decimalText w).length) := by
    have hD := bytesLt_digits (decN z.natAbs) (decN w.natAbs) (decN_digits _) (decN_digits _)
    rw [digitsValue_decN, digitsValue_decN] at hD
    have dash : ∀ n : ℕ, ∀ c r, decN n = c :: r → 45 < c := by
      intro n c r h
      have := decN_digits n c (by rw [h]; simp)
      have h3 := this.1
      rw [UInt8.le_iff_toNat_le] at h3
      rw [UInt8.lt_iff_toNat_lt]
      exact Nat.lt_of_lt_of_le (by decide) h3
    by_cases h1 : z < 0 <;> by_cases h2 : w < 0
    · rw [decimalText_neg _ h1, decimalText_neg _ h2, bytesLt, hD]
      simp only [List.length_cons, pow_succ, ← Nat.mul_assoc]
      constructor
      · rintro (h | ⟨-, h⟩)
        · exact absurd h (by decide)
        · right; refine ⟨iff_of_true h1 h2, ?_⟩; omega
      · rintro (h | ⟨-, h⟩)
        · omega
        · right; refine ⟨by trivial, ?_⟩; omega
    · rw [decimalText_neg _ h1, decimalText_nonneg _ (by omega)]
      refine iff_of_true ?_ (.inl ⟨h1, by omega⟩)
      cases hd : decN w.natAbs with
      | nil => exact absurd hd (decN_ne_nil _)
      | cons c r => exact .inl (dash _ c r hd)
    · rw [decimalText_nonneg _ (by omega), decimalText_neg _ h2]
      refine iff_of_false ?_ (by rintro (⟨h, -⟩ | ⟨h, -⟩); exacts [h1 h, h1 (h.mpr h2)])
      cases hd : decN z.natAbs with
      | nil => exact absurd hd (decN_ne_nil _)
      | cons c r =>
        have := dash _ c r hd
        rw [UInt8.lt_iff_toNat_lt] at this
        rintro (h | ⟨h, -⟩)
        · rw [UInt8.lt_iff_toNat_lt] at h; omega
        · rw [h] at this; omega
    · rw [decimalText_nonneg _ (by omega), decimalText_nonneg _ (by omega), hD]
      constructor
      · intro h; exact .inr ⟨iff_of_false h1 h2, h⟩
      · rintro (h | ⟨-, h⟩)
        · exact absurd h.1 h1
        · exact h
  refine ⟨_, _, hs, ht, main, fun hl h1 h2 => ?_, fun hl h1 h2 => ?_⟩
  all_goals
    rw [main, hl]
    have hp : (0 : ℕ) < 10 ^ (decimalText w).length := by positivity
    rw [Nat.mul_lt_mul_right hp]
    constructor
    · rintro (h | ⟨-, h | h⟩) <;> omega
    · intro h; right; refine ⟨by omega, .inl (by omega)⟩

/-- A stream position and a small unsigned integer. -/
example : (Arg.fpos (-5)).meaning = .int (-5) ∧ (Arg.int (.u8 200)).meaning = .int 200 :=
  ⟨congrArg Meaning.int (by decide), congrArg Meaning.int (by decide)⟩

/-- The usual trap: 10 comes before 9. -/
example : bytesLt (ascii "10") (ascii "9") ∧ bytesLt (ascii "-1") (ascii "-2") ∧ bytesLt (ascii "1") (ascii "10") := by decide

end Lexi
