import Verif.Proofs.LastDigit
import Verif.Props.FloatRead
import Verif.Props.LongDouble

/-!
# How much the text of a number can differ between platforms: C92
-/

namespace Lexi
open Spec Soft Dtoa

/-- Two texts that differ at most in one digit, the last one of the significand: after it come only zeros and a
point, or an exponent. -/
def OneDigitApart (t t' : Bytes) : Prop :=
  ∃ (A B : Bytes) (c c' : UInt8), t = A ++ c :: B ∧ t' = A ++ c' :: B ∧ IsDigit c ∧ IsDigit c' ∧
    ((∀ b ∈ B, b = 48 ∨ b = 46) ∨ B.head? = some 101)

theorem OneDigitApart.length {t t' : Bytes} (h : OneDigitApart t t') : t.length = t'.length := by
  obtain ⟨A, B, c, c', rfl, rfl, -⟩ := h
  simp

theorem Tail.spec {B : Bytes} (h : Tail B) : (∀ b ∈ B, b = 48 ∨ b = 46) ∨ B.head? = some 101 := by
  rcases h with ⟨n, rfl⟩ | rfl | ⟨e, rfl⟩
  · refine Or.inl fun b hb => ?_
    simp only [List.mem_append, List.mem_cons, List.not_mem_nil, or_false] at hb
    rcases hb with hb | hb | hb
    · exact Or.inl (List.eq_of_mem_replicate hb)
    · exact Or.inr hb
    · exact Or.inl hb
  · exact Or.inl fun b hb => absurd hb (List.not_mem_nil)
  · exact Or.inr rfl

theorem isDigit_dig {d : Nat} (h : d < 10) : IsDigit (dig d) := by
  revert h; revert d; decide

theorem signed_apart (neg : Prop) [Decidable neg] {D D' : Nat} {k : ℤ} {p : Bytes} {c c' : UInt8} (h : decN D = p ++ [c])
    (h' : decN D' = p ++ [c']) :
    OneDigitApart (signed neg (prettyText (decN D) k)) (signed neg (prettyText (decN D') k)) := by
  obtain ⟨A, B, hB, hp⟩ := prettyText_last p k
  refine ⟨(if neg then [45] else []) ++ A, B, c, c', ?_, ?_, ?_, ?_, Tail.spec hB⟩
  · rw [h, hp]; unfold signed; simp
  · rw [h', hp]; unfold signed; simp
  · rw [(decN_last h).1]; exact isDigit_dig (Nat.mod_lt _ (by omega))
  · rw [(decN_last h').1]; exact isDigit_dig (Nat.mod_lt _ (by omega))

/-- What two platforms print for one finite non-zero number. -/
theorem two_platforms (env env' : Env) (h : EnvOk env) (h' : EnvOk env') (x : LVal) (hfin : DFinite x.toDouble)
    (hnz : ¬ DZero x.toDouble) :
    ∃ D D' k p c c', Printed x.toDouble D k ∧ Printed x.toDouble D' k ∧ decN D = p ++ [c] ∧ decN D' = p ++ [c'] ∧
      ∀ L junk, junk.length = FLOAT_SIZE →
      stringLongDouble L env junk x = .ok (signed (dNeg x.toDouble) (prettyText (decN D) k)) ∧
      stringLongDouble L env' junk x = .ok (signed (dNeg x.toDouble) (prettyText (decN D') k)) := by
  obtain ⟨D, k, hP, hg, hs⟩ := formatLd_finite' env h x.toDouble hfin hnz
  obtain ⟨D', k', hP', hg', hs'⟩ := formatLd_finite' env' h' x.toDouble hfin hnz
  obtain ⟨rfl, p, c, c', e, e'⟩ := digits_twin h.dk h'.dk (finite_abs.mpr hfin) (fun hz => hnz (zero_abs.mp hz)) hg hg'
  refine ⟨D, D', k, p, c, c', hP, hP', e, e', fun L junk hj => ⟨?_, ?_⟩⟩
  · unfold stringLongDouble
    rw [hs x rfl L junk hj]
    exact readN_prefix _ _
  · unfold stringLongDouble
    rw [hs' x rfl L junk hj]
    exact readN_prefix _ _

/-- A number that is not finite, or is zero, has one text. -/
theorem special_same (env env' : Env) (L : Literals) (junk : Bytes) (hj : junk.length = FLOAT_SIZE) (x : LVal)
    (hx : ¬ DFinite x.toDouble ∨ DZero x.toDouble) : stringLongDouble L env junk x = stringLongDouble L env' junk x := by
  unfold stringLongDouble
  rcases class_cases x.toDouble with hf | hi | hn
  · rcases hx with hx | hx
    · exact absurd hf hx
    · rw [formatLd_zero env x hx L junk hj, formatLd_zero env' x hx L junk hj]
  · rw [formatLd_inf env x hi, formatLd_inf env' x hi]
  · rw [formatLd_nan env x hn, formatLd_nan env' x hn]

/-- C92.  Whatever the compilers, the excess precision and the words behind `POWER10`, two platforms print a number
with the same bytes except for at most one digit, the last one of the significand.  In particular the texts
have the same length, the same sign, the same notation and the same exponent. -/
theorem C92_one_digit (env env' : Env) (h : EnvOk env) (h' : EnvOk env') (L : Literals) (junk junk' : Bytes)
    (hj : junk.length = FLOAT_SIZE) (hj' : junk'.length = FLOAT_SIZE) (x : LVal) (t t' : Bytes)
    (ht : stringLongDouble L env junk x = .ok t) (ht' : stringLongDouble L env' junk' x = .ok t')
    (hx : DFinite x.toDouble) : t = t' ∨ OneDigitApart t t' := by
  by_cases hz : DZero x.toDouble
  · left
    unfold stringLongDouble at ht ht'
    rw [formatLd_zero env x hz L junk hj] at ht
    rw [formatLd_zero env' x hz L junk' hj'] at ht'
    have e1 := (readN_prefix [48, 46, 48] (0 :: junk.drop 4)).symm.trans ht
    have e2 := (readN_prefix [48, 46, 48] (0 :: junk'.drop 4)).symm.trans ht'
    exact (Res.ok.inj e1).symm.trans (Res.ok.inj e2)
  · right
    obtain ⟨D, D', k, p, c, c', -, -, e, e', hs⟩ := two_platforms env env' h h' x hx hz
    rw [(hs L junk hj).1] at ht
    rw [(hs L junk' hj').2] at ht'
    rw [← Res.ok.inj ht, ← Res.ok.inj ht']
    exact signed_apart _ e e'

/-- C92, value.  The two texts denote decimals with the same exponent that agree but for the last digit. -/
theorem C92_values (env env' : Env) (h : EnvOk env) (h' : EnvOk env') (L : Literals) (junk : Bytes)
    (hj : junk.length = FLOAT_SIZE) (x : LVal) (hx : DFinite x.toDouble) (hz : ¬ DZero x.toDouble) :
    ∃ (t t' : Bytes) (m a b : ℕ) (k : ℤ), stringLongDouble L env junk x = .ok t ∧ stringLongDouble L env' junk x = .ok t' ∧
      a < 10 ∧ b < 10 ∧ 10 * m + a < 10 ^ 17 ∧
      IsJsonNumber t (if dNeg x.toDouble then -(((10 * m + a : ℕ) : ℚ) * 10 ^ k) else ((10 * m + a : ℕ) : ℚ) * 10 ^ k) ∧
      IsJsonNumber t' (if dNeg x.toDouble then -(((10 * m + b : ℕ) : ℚ) * 10 ^ k) else ((10 * m + b : ℕ) : ℚ) * 10 ^ k) := by
  obtain ⟨D, D', k, p, c, c', hP, hP', e, e', hs⟩ := two_platforms env env' h h' x hx hz
  have hd := decN_twin e e'
  have e1 : 10 * (D / 10) + D % 10 = D := by omega
  have e2 : 10 * (D / 10) + D' % 10 = D' := by omega
  refine ⟨_, _, D / 10, D % 10, D' % 10, k, (hs L junk hj).1, (hs L junk hj).2, Nat.mod_lt _ (by omega),
    Nat.mod_lt _ (by omega), by rw [e1]; exact hP.lt17, ?_, ?_⟩
  · rw [e1]
    exact ⟨prettyNumber (decide (dNeg x.toDouble)) (decN D) k, hP.WF hz _, (signed_text _ _ _).symm, pretty_value _ _ _⟩
  · rw [e2]
    exact ⟨prettyNumber (decide (dNeg x.toDouble)) (decN D') k, hP'.WF hz _, (signed_text _ _ _).symm, pretty_value _ _ _⟩

/-- C92, size.  Every number takes the same number of bytes on every platform, whatever its class and the literals
configured. -/
theorem C92_length (env env' : Env) (h : EnvOk env) (h' : EnvOk env') (L : Literals) (junk : Bytes)
    (hj : junk.length = FLOAT_SIZE) (x : LVal) (t : Bytes) (ht : stringLongDouble L env junk x = .ok t) :
    ∃ t', stringLongDouble L env' junk x = .ok t' ∧ t'.length = t.length := by
  by_cases hx : DFinite x.toDouble ∧ ¬ DZero x.toDouble
  · obtain ⟨D, D', k, p, c, c', -, -, e, e', hs⟩ := two_platforms env env' h h' x hx.1 hx.2
    rw [(hs L junk hj).1] at ht
    refine ⟨_, (hs L junk hj).2, ?_⟩
    rw [← Res.ok.inj ht]
    exact (signed_apart _ e e').length.symm
  · exact ⟨t, by rw [← special_same env env' L junk hj x (by tauto), ht], rfl⟩

/-- C92, cause.  Where two platforms do differ, both read outside `POWER10` for that number. -/
theorem C92_only_overread (env env' : Env) (h : EnvOk env) (h' : EnvOk env') (L : Literals) (junk : Bytes)
    (hj : junk.length = FLOAT_SIZE) (x : LVal)
    (hne : stringLongDouble L env junk x ≠ stringLongDouble L env' junk x) :
    formatLd L (strictEnv env) junk x = .ub ∧ formatLd L (strictEnv env') junk x = .ub := by
  have hx : DFinite x.toDouble ∧ ¬ DZero x.toDouble := by
    by_contra hc
    exact hne (special_same env env' L junk hj x (by tauto))
  have key : ∀ e e' : Env, EnvOk e → EnvOk e' → stringLongDouble L e junk x ≠ stringLongDouble L e' junk x →
      formatLd L (strictEnv e) junk x = .ub := by
    intro e e' he he' hn
    obtain ⟨D, k, -, hs⟩ := formatLd_strict e he x.toDouble hx.1 hx.2
    obtain ⟨h1, h2, h3⟩ := hs x rfl L junk hj
    by_cases hk : -cachedK x.toDouble - 9 ≤ k
    · have := strict_transfer he.dk he'.dk L junk x _ ((h2 hk).trans h1)
      exfalso
      apply hn
      unfold stringLongDouble
      rw [this, h1]
    · exact h3 (by omega)
  exact ⟨key env env' h h' hne, key env' env h' h (Ne.symm hne)⟩

/-- C92 for `double` and `float` arguments, which are converted to `long double`. -/
theorem C92_double_float (env env' : Env) (h : EnvOk env) (h' : EnvOk env') (L : Literals) (junk : Bytes)
    (hj : junk.length = FLOAT_SIZE) :
    (∀ u t t', DFinite u → stringDouble L env junk u = .ok t → stringDouble L env' junk u = .ok t' →
      t = t' ∨ OneDigitApart t t') ∧
    (∀ u t t', DFinite (LVal.ofFloat u).toDouble → stringFloat L env junk u = .ok t → stringFloat L env' junk u = .ok t' →
      t = t' ∨ OneDigitApart t t') := by
  refine ⟨fun u t t' hu ht ht' => ?_, fun u t t' hu ht ht' => ?_⟩
  · refine C92_one_digit env env' h h' L junk junk hj hj (LVal.ofDouble u) t t' ht ht' ?_
    rw [toDouble_ofDouble u (fun hn => hu hn.1)]; exact hu
  · exact C92_one_digit env env' h h' L junk junk hj hj (LVal.ofFloat u) t t' ht ht' hu

/-- One of the two texts of C35's example. -/
example : OneDigitApart (ascii "456.39035566757897") (ascii "456.39035566757896") :=
  ⟨ascii "456.3903556675789", [], 55, 54, by decide +kernel, by decide +kernel, by decide, by decide,
    Or.inl (by decide)⟩

example : ¬ OneDigitApart (ascii "456.39035566757897") (ascii "456.39035566757886") := by
  rintro ⟨A, B, c, c', h1, h2, -, -, hB⟩
  have h1 : A ++ c :: B = ascii "456.39035566757897" := h1.symm
  have h2 : A ++ c' :: B = ascii "456.39035566757886" := h2.symm
  have hl := congrArg List.length h1
  have e : (ascii "456.39035566757897").length = 18 := by decide +kernel
  have p1 := congrArg (·[16]?) h1
  have p2 := congrArg (·[16]?) h2
  have q1 := congrArg (·[17]?) h1
  have q2 := congrArg (·[17]?) h2
  have v1 : (ascii "456.39035566757897")[16]? = some 57 := by decide +kernel
  have v2 : (ascii "456.39035566757886")[16]? = some 56 := by decide +kernel
  have w1 : (ascii "456.39035566757897")[17]? = some 55 := by decide +kernel
  have w2 : (ascii "456.39035566757886")[17]? = some 54 := by decide +kernel
  simp only [v1, v2, w1, w2] at p1 p2 q1 q2
  by_cases hA : A.length = 16
  · rw [List.getElem?_append_right (by omega), List.getElem?_cons, if_neg (by omega)] at q1 q2
    rw [q1] at q2; cases q2
  · by_cases hlt : 16 < A.length
    · rw [List.getElem?_append_left hlt] at p1 p2
      rw [p1] at p2; cases p2
    · rw [List.getElem?_append_right (by omega), List.getElem?_cons, if_neg (by omega)] at p1 p2
      rw [p1] at p2; cases p2

end Lexi
