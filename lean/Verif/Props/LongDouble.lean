import Verif.Props.Whole
import Verif.Props.Reading
import Verif.Spec.Formats

/-!
# `long double`: C63, C64
-/

namespace Lexi
open Spec Soft Dtoa

/-! ### Formatting goes through `double` -/

theorem formatLd_congr (L : Literals) (env : Env) (junk : Bytes) {x y : LVal} (h : x.toDouble = y.toDouble) :
    formatLd L env junk x = formatLd L env junk y := by
  unfold formatLd
  rw [h]

/-- C63.  A `long double` below double's overflow threshold formats as the double nearest to it. -/
theorem C63_format_nearest (L : Literals) (env : Env) (junk : Bytes) (neg : Bool) (q : ℚ) (hq : 0 ≤ q)
    (h : q < dOverflow) :
    ∃ u, NearestEven (if neg then -q else q) u ∧ (dNeg u ↔ neg = true) ∧
      stringLongDouble L env junk (.fin neg q) = stringDouble L env junk u := by
  refine ⟨(LVal.fin neg q).toDouble, toDouble_nearest neg hq h, (toDouble_value neg hq h).2.1, ?_⟩
  unfold stringLongDouble stringDouble formatDouble
  rw [formatLd_congr L env junk (toDouble_ofDouble _ (fun hn => (toDouble_value neg hq h).1 hn.1)).symm]

/-- C63.  A finite `long double` from the threshold on formats as an infinity. -/
theorem C63_format_overflow (L : Literals) (env : Env) (junk : Bytes) (neg : Bool) (q : ℚ) (h : dOverflow ≤ q) :
    stringLongDouble L env junk (.fin neg q) =
      stringDouble L env junk (if neg then 0xFFF0000000000000 else 0x7FF0000000000000) := by
  unfold stringLongDouble stringDouble formatDouble
  rw [formatLd_congr L env junk (y := LVal.ofDouble (if neg then 0xFFF0000000000000 else 0x7FF0000000000000))]
  rw [toDouble_overflow neg h]
  cases neg <;> decide +kernel

/-- C63.  So distinct `long double` values share a text: with x87 numbers, `1` and `1 + 2^-63`. -/
theorem C63_not_injective (L : Literals) (env : Env) (junk : Bytes) :
    (∃ m e, Canonical 64 (-16445) (1 + 1 / 2 ^ 63) m e) ∧
    stringLongDouble L env junk (.fin false (1 + 1 / 2 ^ 63)) = stringLongDouble L env junk (.fin false 1) := by
  refine ⟨⟨2 ^ 63 + 1, -63, ⟨by norm_num, by norm_num, by norm_num, fun _ => by norm_num⟩⟩, ?_⟩
  unfold stringLongDouble
  rw [formatLd_congr]
  decide +kernel

/-! ### Reading rounds correctly -/

namespace Soft
variable {p : ℕ} {emin : ℤ} {q : ℚ}

theorem qsig_le_pow (hq : 0 < q) : qsig p emin q ≤ 2 ^ p := by
  have hqe := qexp_eq (p := p) (emin := emin) (q := q)
  apply qsig_le hq
  have h1 := (lg_spec hq).2
  have h2 : ((2 ^ p : ℕ) : ℚ) * 2 ^ qexp p emin q = 2 ^ (p + qexp p emin q) := by
    rw [zpow_add₀ (by norm_num), zpow_natCast]; push_cast; rfl
  rw [h2]
  exact h1.le.trans (zpow_mono (by omega))

theorem pow_le_qsig (hp : 1 ≤ p) (hq : 0 < q) (h : emin < qexp p emin q) : 2 ^ (p - 1) ≤ qsig p emin q := by
  have hqe := qexp_eq (p := p) (emin := emin) (q := q)
  apply le_qsig hq
  have h1 := (lg_spec hq).1
  have h2 : ((2 ^ (p - 1) : ℕ) : ℚ) * 2 ^ qexp p emin q = 2 ^ (((p - 1 : ℕ) : ℤ) + qexp p emin q) := by
    rw [zpow_add₀ (by norm_num), zpow_natCast]; push_cast; rfl
  rw [h2]
  exact le_trans (zpow_mono (by omega)) h1

theorem pow_pred (hp : 1 ≤ p) : 2 ^ p = 2 * 2 ^ (p - 1) := by
  rw [← pow_succ']; congr 1; omega

/-- The rounding in canonical form; its significand is even when the computed one is. -/
theorem roundRat_canonical (hp : 2 ≤ p) (hq : 0 < q) :
    ∃ a c, Canonical p emin (roundRat p emin q) a c ∧ (qsig p emin q % 2 = 0 → a % 2 = 0) := by
  have hqe := qexp_eq (p := p) (emin := emin) (q := q)
  have h1 := qsig_le_pow (p := p) (emin := emin) hq
  have h2 := pow_le_qsig (p := p) (emin := emin) (by omega) hq
  rw [roundRat_pos hq]
  by_cases h : qsig p emin q = 2 ^ p
  · refine ⟨2 ^ (p - 1), qexp p emin q + 1, ⟨?_, Nat.pow_lt_pow_right (by norm_num) (by omega), by omega,
      fun _ => le_rfl⟩, fun _ => ?_⟩
    · rw [h, zpow_add₀ (by norm_num), pow_pred (by omega)]; push_cast; ring
    · have := pow_pred (p := p - 1) (by omega)
      omega
  · exact ⟨_, _, ⟨rfl, by omega, by omega, h2⟩, id⟩

theorem roundRat_nearestIn (hp : 2 ≤ p) (hq : 0 ≤ q) : NearestIn p emin q (roundRat p emin q) := by
  rcases hq.lt_or_eq with hq | rfl
  · obtain ⟨a, c, hc, hev⟩ := roundRat_canonical (emin := emin) hp hq
    refine ⟨a, c, hc, fun y b e hy => ?_⟩
    have := roundRat_nearest (p := p) (emin := emin) (by omega) hq b e hy.least hy.prec
    rw [← hy.value] at this
    exact ⟨this.1, fun h => (this.2 h).imp id hev⟩
  · refine ⟨0, emin, ⟨by rw [roundRat_zero]; simp, by positivity, le_rfl, fun h => absurd h (lt_irrefl _)⟩,
      fun y b e hy => ⟨by rw [roundRat_zero]; simp, fun _ => Or.inr rfl⟩⟩

/-- The rounding reaches `2^emax` exactly from the overflow threshold on. -/
theorem roundRat_overflow (hp : 2 ≤ p) {emax : ℕ} (he : emin ≤ (emax : ℤ) - p) (hq : 0 ≤ q) :
    2 ^ emax ≤ roundRat p emin q ↔ overflowAt p emax ≤ q := by
  set g : ℤ := (emax : ℤ) - p with hg
  have hz := zp g
  have hz1 : (2 : ℚ) ^ (g - 1) = 2 ^ g / 2 := by rw [zpow_sub₀ (by norm_num)]; norm_num
  have hthr : overflowAt p emax = (2 ^ p - 1 / 2) * 2 ^ g := by
    unfold overflowAt
    rw [← hg, hz1, pow_succ]; ring
  have htop : (2 : ℚ) ^ emax = 2 ^ p * 2 ^ g := by
    rw [← zpow_natCast, ← zpow_natCast, ← zpow_add₀ (by norm_num)]; congr 1; omega
  have hp1 : (4 : ℚ) ≤ 2 ^ p := by
    calc (4 : ℚ) = 2 ^ 2 := by norm_num
      _ ≤ 2 ^ p := pow_le_pow_right₀ (by norm_num) hp
  have hpn : (4 : ℕ) ≤ 2 ^ p := by exact_mod_cast hp1
  rcases hq.lt_or_eq with hq | rfl
  swap
  · rw [roundRat_zero, hthr]
    constructor
    · intro h
      have : (0 : ℚ) < 2 ^ emax := by positivity
      linarith
    · intro h
      have : 0 < (2 ^ p - 1 / 2 : ℚ) * 2 ^ g := mul_pos (by linarith) hz
      linarith
  have n1 := roundRat_nearest (p := p) (emin := emin) (by omega) hq (2 ^ p - 1) g he (by omega)
  have n2 := roundRat_nearest (p := p) (emin := emin) (by omega) hq (2 ^ (p - 1)) (g + 1) (by omega)
    (Nat.pow_lt_pow_right (by norm_num) (by omega))
  have e1 : ((2 ^ p - 1 : ℕ) : ℚ) = 2 ^ p - 1 := by rw [Nat.cast_sub (by omega)]; push_cast; rfl
  have e2 : ((2 ^ (p - 1) : ℕ) : ℚ) * 2 ^ (g + 1) = 2 ^ p * 2 ^ g := by
    rw [zpow_add₀ (by norm_num), zpow_one]
    have : (2 : ℚ) ^ p = 2 * 2 ^ (p - 1) := by rw [← pow_succ']; congr 1; omega
    rw [this]; push_cast; ring
  rw [e1] at n1
  rw [e2] at n2
  rw [htop, hthr]
  set r := roundRat p emin q with hr
  have hM : (2 ^ p - 1 : ℚ) * 2 ^ g = 2 ^ p * 2 ^ g - 2 ^ g := by ring
  have hT : (2 ^ p - 1 / 2 : ℚ) * 2 ^ g = 2 ^ p * 2 ^ g - 2 ^ g / 2 := by ring
  rw [hM] at n1
  rw [hT]
  set X : ℚ := 2 ^ p * 2 ^ g with hX
  set G : ℚ := 2 ^ g with hG
  constructor
  · intro h
    by_contra hc
    push Not at hc
    have h1 := n1.1
    rw [abs_of_pos (by linarith : 0 < r - q)] at h1
    have h2 : |X - G - q| < r - q := by
      rw [abs_lt]; constructor <;> linarith
    linarith
  · intro h
    by_contra hc
    push Not at hc
    -- below `2^emax` the rounding is at most the largest number
    have hqe := qexp_eq (p := p) (emin := emin) (q := q)
    have hlgq : (emax : ℤ) - 1 ≤ lg q := by
      apply le_lg hq
      refine le_trans ?_ h
      have h4 : (2 : ℚ) ^ ((emax : ℤ) - 1) = X / 2 := by
        rw [zpow_sub₀ (by norm_num), zpow_natCast, htop]; norm_num
      rw [h4]
      have : 4 * G ≤ X := by rw [hX]; exact mul_le_mul_of_nonneg_right hp1 hz.le
      linarith
    have hge : g ≤ qexp p emin q := by omega
    obtain ⟨t, ht⟩ : ∃ t : ℕ, qexp p emin q = g + t := ⟨(qexp p emin q - g).toNat, by omega⟩
    have hrp : r = (qsig p emin q * 2 ^ t : ℕ) * G := by
      rw [hr, roundRat_pos hq, ht, zpow_add₀ (by norm_num), zpow_natCast]; push_cast; ring
    have hlt : qsig p emin q * 2 ^ t < 2 ^ p := by
      rw [hrp, hX] at hc
      have := lt_of_mul_lt_mul_right hc hz.le
      exact_mod_cast this
    have hle : r ≤ X - G := by
      have h3 : ((qsig p emin q * 2 ^ t : ℕ) : ℚ) ≤ 2 ^ p - 1 := by
        rw [← e1]; exact_mod_cast (by omega : qsig p emin q * 2 ^ t ≤ 2 ^ p - 1)
      calc r = _ := hrp
        _ ≤ (2 ^ p - 1) * G := mul_le_mul_of_nonneg_right h3 hz.le
        _ = X - G := by rw [hX]; ring
    have h2 := n2.1
    have h5 : |r - q| = q - r := by rw [abs_of_neg (by linarith)]; ring
    rw [h5] at h2 n2 n1
    by_cases hqX : X ≤ q
    · rw [abs_of_nonpos (by linarith)] at h2; linarith
    · push Not at hqX
      rw [abs_of_pos (by linarith)] at h2
      have hre : r = X - G := by linarith
      have hqe' : q = X - G / 2 := by linarith
      have := n2.2 (by rw [abs_of_pos (by linarith)]; linarith)
      rcases this with h6 | h6
      · linarith
      · have h7 : ((qsig p emin q * 2 ^ t : ℕ) : ℚ) = ((2 ^ p - 1 : ℕ) : ℚ) := by
          have : ((qsig p emin q * 2 ^ t : ℕ) : ℚ) * G = (2 ^ p - 1) * G := by
            rw [← hrp, hre, hX]; ring
          rw [e1]
          exact mul_right_cancel₀ hz.ne' this
        have h8 : qsig p emin q * 2 ^ t = 2 ^ p - 1 := by exact_mod_cast h7
        have h9 : (qsig p emin q * 2 ^ t) % 2 = 0 := by rw [Nat.mul_mod, h6]; simp
        have h10 := pow_pred (p := p) (by omega)
        omega

end Soft

/-- C64.  `lexi<long double>` of a JSON number is the nearest `long double`, ties to even, with the sign of the text, and
the infinity exactly from the format's overflow threshold on — for every binary format. -/
theorem C64_nearest (F : FpFormat) (hp : 2 ≤ F.p) (he : F.emin ≤ (F.emax : ℤ) - F.p) (n : JNumber) (hn : n.WF) :
    (n.mag < overflowAt F.p F.emax →
      ∃ r, extractLongDouble F n.text = .fin n.neg r ∧ NearestIn F.p F.emin n.mag r) ∧
    (overflowAt F.p F.emax ≤ n.mag → extractLongDouble F n.text = .inf n.neg) := by
  have hm := mag_nonneg n
  have ho := Soft.roundRat_overflow hp he hm
  unfold extractLongDouble
  rw [strtold_number F n hn]
  unfold FpFormat.round
  constructor
  · intro h
    refine ⟨_, if_neg (fun hc => ?_), Soft.roundRat_nearestIn hp hm⟩
    push_cast at hc
    exact absurd (ho.mp hc) (not_le.mpr h)
  · intro h
    apply if_pos
    push_cast
    exact ho.mpr h

/-! ### Round trips -/

theorem tenth_text : stringDouble .default (strictEnv sampleEnv) (List.replicate 30 0) 0x3FB999999999999A =
    .ok (ascii "0.1") := by decide +kernel

/-- C64.  Formatting and reading back a `long double` loses it where `long double` is wider than `double`, even when it
holds a double: the `long double` whose value is the double `0.1` comes back as another one. -/
theorem C64_not_round_trip : ∀ F ∈ [FpFormat.x87, FpFormat.binary128],
    ∀ env, EnvOk env → ∀ L junk, junk.length = FLOAT_SIZE → ∃ t,
      stringLongDouble L env junk (.ofDouble 0x3FB999999999999A) = .ok t ∧
      extractLongDouble F t ≠ .ofDouble 0x3FB999999999999A := by
  intro F hF env henv L junk hj
  refine ⟨ascii "0.1", ?_, ?_⟩
  · obtain ⟨D, k, -, h⟩ := stringDouble_finite env henv 0x3FB999999999999A (by decide +kernel) (by decide +kernel)
    obtain ⟨o, ho, hs⟩ := bind_ok tenth_text
    have h0 := strict_transfer sampleEnv_ok.dk henv.dk _ _ _ _ ho
    have h1 : stringDouble .default env (List.replicate 30 0) 0x3FB999999999999A = .ok (ascii "0.1") := by
      unfold stringDouble formatDouble
      rw [h0, Res.ok_bind]; exact hs
    rw [h _ rfl _ _ (by rfl)] at h1
    have h2 := h 0x3FB999999999999A rfl L junk hj
    unfold stringDouble formatDouble at h2
    unfold stringLongDouble
    rw [h2]; exact h1
  · simp only [List.mem_cons, List.not_mem_nil, or_false] at hF
    rcases hF with rfl | rfl <;> decide +kernel

/-- Representable numbers are their own rounding. -/
theorem roundRat_exact {p : ℕ} {emin : ℤ} (hp : 1 ≤ p) {q : ℚ} (hq : 0 < q) (a : ℕ) (c : ℤ) (hc : emin ≤ c)
    (ha : a < 2 ^ p) (h : q = a * 2 ^ c) : roundRat p emin q = q := by
  apply le_antisymm
  · have := roundRat_le (p := p) (emin := emin) hq a c hc ha h.le
    rwa [← h] at this
  · have := le_roundRat (p := p) (emin := emin) hp hq a c hc ha h.ge
    rwa [← h] at this

/-- C64.  Whole `long double` numbers of magnitude up to `2^53` do survive, on every platform (the sign of a zero is
lost). -/
theorem C64_whole_round_trip (F : FpFormat) (hp : 53 ≤ F.p) (he : F.emin ≤ 0) (hmax : 54 ≤ F.emax) (env : Env)
    (henv : EnvOk env) (L : Literals) (junk : Bytes) (hj : junk.length = FLOAT_SIZE) (n : ℤ) (hb : n.natAbs ≤ 2 ^ 53) :
    ∃ t, stringLongDouble L env junk (.fin (decide (n < 0)) n.natAbs) = .ok t ∧
      extractLongDouble F t = .fin (decide (n < 0)) n.natAbs := by
  set neg := decide (n < 0) with hneg
  set M := n.natAbs with hM
  have hq : (0 : ℚ) ≤ (M : ℚ) := by positivity
  have hov : (M : ℚ) < dOverflow := by
    have h1 : (M : ℚ) ≤ 2 ^ 53 := by exact_mod_cast hb
    refine lt_of_le_of_lt h1 ?_
    unfold dOverflow
    calc (2 : ℚ) ^ 53 < (2 ^ 54 - 1) * 1 := by norm_num
      _ ≤ (2 ^ 54 - 1) * 2 ^ 970 := mul_le_mul_of_nonneg_left (one_le_pow₀ (by norm_num)) (by norm_num)
  have hexact : ∀ {p : ℕ} {emin : ℤ}, 53 ≤ p → emin ≤ 0 → roundRat p emin (M : ℚ) = M := by
    intro p emin hp he
    rcases hq.lt_or_eq with h0 | h0
    · by_cases hM2 : M = 2 ^ 53
      · refine roundRat_exact (by omega) h0 (2 ^ 52) 1 (by omega)
          (lt_of_lt_of_le (by norm_num) (Nat.pow_le_pow_right (by norm_num) hp)) ?_
        rw [hM2]; norm_num
      · refine roundRat_exact (by omega) h0 M 0 (by omega)
          (lt_of_lt_of_le (by omega : M < 2 ^ 53) (Nat.pow_le_pow_right (by norm_num) hp)) ?_
        simp
    · rw [← h0, roundRat_zero]
  obtain ⟨a, b, c⟩ := toDouble_value neg hq hov
  rw [hexact le_rfl (by norm_num)] at c
  have hval : dValue (LVal.fin neg (M : ℚ)).toDouble = (n : ℤ) := by
    rw [c]
    unfold sgn
    by_cases h : n < 0
    · have h1 : neg = true := by simp [hneg, h]
      rw [h1, if_pos rfl, hM, ← Int.cast_natCast, Int.ofNat_natAbs_of_nonpos h.le]; push_cast; ring
    · have h1 : neg = false := by simp [hneg, h]
      rw [h1, hM, ← Int.cast_natCast, Int.natAbs_of_nonneg (by omega)]; rfl
  have htext := C60_whole_text env henv L junk hj _ a n hval (by omega)
  refine ⟨decimalText n ++ ascii ".0", ?_, ?_⟩
  · rw [← htext]
    unfold stringLongDouble stringDouble formatDouble
    rw [formatLd_congr L env junk (toDouble_ofDouble _ (fun hn => a hn.1)).symm]
  · let j : JNumber := ⟨neg, decN M, some (ascii "0"), none⟩
    have jw : j.WF := by
      refine ⟨decN_ne_nil _, decN_digits _, ?_, ?_, ?_⟩
      · intro hl
        apply decN_head
        intro h0
        have : decN M = decN 0 := by rw [h0]
        simp only [j, this] at hl
        exact absurd hl (by decide +kernel)
      · intro f hf
        have : f = ascii "0" := by simpa [j] using hf.symm
        subst this; decide
      · intro e hx; exact absurd hx (by simp [j])
    have jt : j.text = decimalText n ++ ascii ".0" := by
      by_cases h : n < 0
      · have h1 : neg = true := by simp [hneg, h]
        rw [decimalText_neg n h]
        simp only [j, JNumber.text, h1]
        simp; rfl
      · have h1 : neg = false := by simp [hneg, h]
        rw [decimalText_nonneg n (by omega)]
        simp only [j, JNumber.text, h1]
        simp; rfl
    have jm : j.mag = M := by
      have e1 : digitsValue (decN M ++ ascii "0") = M * 10 := by
        rw [show ascii "0" = [48] from rfl, digitsValue_append_singleton, digitsValue_decN]; simp
      show ((digitsValue (decN M ++ ascii "0") : ℕ) : ℚ) * 10 ^ ((0 : ℤ) - (1 : ℕ)) = M
      rw [e1]; push_cast; norm_num; ring
    unfold extractLongDouble
    rw [← jt, strtold_number F j jw, jm]
    unfold FpFormat.round
    rw [hexact hp he]
    refine if_neg (not_le.mpr ?_)
    have h1 : (M : ℚ) ≤ 2 ^ 53 := by exact_mod_cast hb
    push_cast
    calc (M : ℚ) ≤ 2 ^ 53 := h1
      _ < 2 ^ 54 := by norm_num
      _ ≤ 2 ^ F.emax := pow_le_pow_right₀ (by norm_num) hmax

/-! ### Inhabited hypotheses -/

example : 2 ≤ FpFormat.x87.p ∧ FpFormat.x87.emin ≤ (FpFormat.x87.emax : ℤ) - FpFormat.x87.p ∧
    FpFormat.binary128.emin ≤ (FpFormat.binary128.emax : ℤ) - FpFormat.binary128.p := by decide
/-- `2^63 + 1/2` is half-way between two x87 numbers and reads as the even one. -/
example : extractLongDouble .x87 (ascii "9223372036854775808.5") = .fin false 9223372036854775808 := by decide +kernel
example : extractLongDouble .x87 (ascii "-1e5000") = .inf true := by decide +kernel
example : stringLongDouble .default sampleEnv (List.replicate 30 0) (.fin true 2016) = .ok (ascii "-2016.0") := by
  decide +kernel

end Lexi
