import Verif.Model.Cycle
import Verif.Props.ReadWide
import Verif.Props.RoundTrip
import Verif.Props.LongDouble

/-!
# Saving and loading again and again: C91
-/

namespace Lexi
open Spec Soft Dtoa

/-- The machines considered: any compiler variant and memory; `long double` is binary64 or has at least 64 bits. -/
structure Site.Ok (x : Site) : Prop where
  env : EnvOk x.env
  junk : x.junk.length = FLOAT_SIZE
  format : x.F = .binary64 ∨ 64 ≤ x.F.p ∧ x.F.emin ≤ -1076 ∧ 1024 ≤ x.F.emax

/-- What a cycle can make of a double other than itself. -/
inductive Changed (u : UInt64) : UInt64 → Prop
  | nan : DNaN u → Changed u 0x7FF8000000000000
  | zero : DZero u → dNeg u → Changed u 0
  | next : DFinite u → u.toNat % 2 = 1 → DFinite (u + 1) → Changed u (u + 1)
  | prev : DFinite u → u.toNat % 2 = 1 → ¬ DZero (u - 1) → Changed u (u - 1)

/-! ### The least subnormal -/

theorem least_text (env : Env) (henv : EnvOk env) (junk : Bytes) (hj : junk.length = FLOAT_SIZE) (u : UInt64)
    (hu : u = 1 ∨ u = 0x8000000000000001) :
    stringDouble .default env junk u = .ok (ascii (if u = 1 then "5e-324" else "-5e-324")) := by
  have hx : formatDouble .default (strictEnv sampleEnv) (List.replicate 30 0) u >>= FloatObj.string
      = .ok (ascii (if u = 1 then "5e-324" else "-5e-324")) := by
    rcases hu with rfl | rfl <;> decide +kernel
  have hf : DFinite u := by rcases hu with rfl | rfl <;> decide
  have hz : ¬ DZero u := by rcases hu with rfl | rfl <;> decide
  obtain ⟨D, k, -, h⟩ := stringDouble_finite env henv u hf hz
  obtain ⟨o, ho, hs⟩ := bind_ok hx
  have h0 := strict_transfer sampleEnv_ok.dk henv.dk _ _ _ _ ho
  have h1 : stringDouble .default env (List.replicate 30 0) u = .ok (ascii (if u = 1 then "5e-324" else "-5e-324")) := by
    unfold stringDouble formatDouble
    rw [h0, Res.ok_bind]; exact hs
  rw [h _ rfl _ _ (by rfl)] at h1
  rw [h _ rfl .default junk hj]; exact h1

def leastNumber (b : Bool) : JNumber := ⟨b, [53], none, some ⟨101, [45], [51, 50, 52]⟩⟩

theorem leastNumber_WF (b : Bool) : (leastNumber b).WF := by
  refine ⟨by simp [leastNumber], by simp [leastNumber, IsDigit], by simp [leastNumber], by simp [leastNumber], ?_⟩
  intro e he
  simp only [leastNumber, Option.some.injEq] at he
  subst he
  exact ⟨Or.inl rfl, Or.inr (Or.inl rfl), by simp, by simp [IsDigit]⟩

theorem leastNumber_mag (b : Bool) : (2 : ℚ) ^ (-1074 : ℤ) ≤ (leastNumber b).mag := by
  have e : (leastNumber b).mag = 5 * 10 ^ (-324 : ℤ) := by
    simp [JNumber.mag, leastNumber, JNumber.fracDigits, JNumber.expValue, JExp.value, digitsValue]
  rw [e, zpow_neg, zpow_neg, ← div_eq_mul_inv, le_div_iff₀ (by positivity), inv_mul_le_iff₀ (by positivity)]
  have : 10 ^ 324 ≤ 2 ^ 1074 * 5 := by decide +kernel
  have h : ((10 ^ 324 : ℕ) : ℚ) ≤ ((2 ^ 1074 * 5 : ℕ) : ℚ) := by exact_mod_cast this
  rw [Nat.cast_pow, Nat.cast_mul, Nat.cast_pow] at h
  exact_mod_cast h

/-- The least subnormal never turns into zero. -/
theorem least_stays (x : Site) (hx : x.Ok) (h64 : 64 ≤ x.F.p ∧ x.F.emin ≤ -1076 ∧ 1024 ≤ x.F.emax) (u : UInt64)
    (hu : u = 1 ∨ u = 0x8000000000000001) (n : JNumber) (hn : n.WF) (r : ℚ) (neg : Bool)
    (ht : stringDouble .default x.env x.junk u = .ok n.text) (hr : strtold x.F n.text = .fin neg r) :
    r ≠ (dMag u + dMag (u - 1)) / 2 := by
  obtain ⟨h1, h2, h3⟩ := h64
  rw [least_text x.env hx.env x.junk hx.junk u hu, Res.ok.injEq] at ht
  obtain ⟨b, hb⟩ : ∃ b, ascii (if u = 1 then "5e-324" else "-5e-324") = (leastNumber b).text := by
    rcases hu with rfl | rfl
    · exact ⟨false, by decide +kernel⟩
    · exact ⟨true, by decide +kernel⟩
  have hmag : n.mag = (leastNumber b).mag := by
    have e1 := strtoldWith_number (fun b q => .fin b q) n hn
    have e2 := strtoldWith_number (fun b q => .fin b q) _ (leastNumber_WF b)
    rw [← hb, ht, e1] at e2
    injection e2
  have hge := leastNumber_mag b
  rw [← hmag] at hge
  have hpos : 0 < n.mag := lt_of_lt_of_le (by positivity) hge
  have hr' : strtold x.F n.text = x.F.round n.neg n.mag := strtoldWith_number _ n hn
  rw [hr] at hr'
  have hrr : r = roundRat x.F.p x.F.emin n.mag := by
    unfold FpFormat.round at hr'
    dsimp only at hr'
    split at hr'
    · cases hr'
    · injection hr'
  have h4 : (2 : ℚ) ^ (-1074 : ℤ) ≤ r := by
    rw [hrr]
    have := le_roundRat (p := x.F.p) (emin := x.F.emin) (by omega) hpos 1 (-1074) (by omega) (Nat.one_lt_two_pow (by omega))
      (by rw [Nat.cast_one, one_mul]; exact hge)
    rwa [Nat.cast_one, one_mul] at this
  have h5 : dMag u = 2 ^ (-1074 : ℤ) ∧ dMag (u - 1) = 0 := by
    rcases hu with rfl | rfl
    · refine ⟨?_, dMag_zero (by decide)⟩
      show ((1 : ℕ) : ℚ) * 2 ^ (-1074 : ℤ) = _
      rw [Nat.cast_one, one_mul]
    · refine ⟨?_, dMag_zero (by decide)⟩
      show ((1 : ℕ) : ℚ) * 2 ^ (-1074 : ℤ) = _
      rw [Nat.cast_one, one_mul]
  rw [h5.1, h5.2]
  have : (0 : ℚ) < 2 ^ (-1074 : ℤ) := by positivity
  intro hc
  linarith

/-! ### One cycle -/

theorem cycle_eq {x : Site} {u : UInt64} {t : Bytes} (h : stringDouble .default x.env x.junk u = .ok t) :
    x.cycle u = .ok (lexiDouble x.F t) := by
  unfold Site.cycle
  rw [h]; rfl

theorem cycle_special (x : Site) (hx : x.Ok) (u : UInt64) :
    (DNaN u → x.cycle u = .ok 0x7FF8000000000000) ∧ (DInfinite u → x.cycle u = .ok u) ∧ (DZero u → x.cycle u = .ok 0) := by
  obtain ⟨h1, h2, h3⟩ := C30_special_values x.env x.junk hx.junk u
  refine ⟨fun h => ?_, fun h => ?_, fun h => ?_⟩
  · rw [cycle_eq (h1 h)]
    have : strtold x.F (ascii "NaN") = .nan := rfl
    unfold lexiDouble extractLongDouble
    rw [this]
    decide +kernel
  · obtain ⟨t, ht, hr⟩ := (C22_special x.F x.env x.junk hx.junk u).2.1 h
    rw [cycle_eq ht, hr]
  · rw [cycle_eq (h3 h)]
    unfold lexiDouble extractLongDouble
    rw [read_zero]
    decide +kernel

theorem cycle_even (x : Site) (hx : x.Ok) (u : UInt64) (hf : DFinite u) (hz : ¬ DZero u) (he : u.toNat % 2 = 0) :
    x.cycle u = .ok u := by
  rcases hx.format with h | ⟨h1, h2, h3⟩
  · obtain ⟨t, ht, hr⟩ := C22_round_trip x.env hx.env .default x.junk hx.junk u hf hz
    rw [cycle_eq ht, h, hr]
  · obtain ⟨t, ht, hr, -⟩ := C23_neighbour_partial x.F h1 h2 h3 x.env hx.env .default x.junk hx.junk u hf hz
    rw [cycle_eq ht, hr he]

/-- A changed double does not change again, on any machine. -/
theorem changed_stable {u v : UInt64} (h : Changed u v) (x : Site) (hx : x.Ok) : x.cycle v = .ok v := by
  cases h with
  | nan => exact (cycle_special x hx _).1 (by decide)
  | zero => exact (cycle_special x hx _).2.2 (by decide)
  | next hf ho hf' =>
    refine cycle_even x hx _ hf' ?_ ?_
    · intro hz
      obtain ⟨h1, h2⟩ := hz
      unfold dExp at h1; unfold dFrac at h2
      unfold DFinite dExp at hf
      rw [UInt64.toNat_add] at h1 h2
      simp only [UInt64.toNat_one] at h1 h2
      have := u.toNat_lt
      omega
    · rw [UInt64.toNat_add]
      simp only [UInt64.toNat_one]
      omega
  | prev hf ho hz =>
    have hsub : (u - 1).toNat = u.toNat - 1 := by
      rw [UInt64.toNat_sub_of_le _ _ (by rw [UInt64.le_iff_toNat_le]; simp only [UInt64.toNat_one]; omega)]; rfl
    refine cycle_even x hx _ ?_ hz ?_
    · unfold DFinite dExp at hf ⊢
      rw [hsub]
      omega
    · rw [hsub]; omega

/-- C91.  One cycle, on any machine: the double comes back, or changed in one of four ways, and is then fixed for good on every
machine. -/
theorem C91_one_cycle (x : Site) (hx : x.Ok) (u : UInt64) :
    ∃ v, x.cycle u = .ok v ∧ (v = u ∨ Changed u v ∧ ∀ y : Site, y.Ok → y.cycle v = .ok v) := by
  suffices h : ∃ v, x.cycle u = .ok v ∧ (v = u ∨ Changed u v) by
    obtain ⟨v, h1, h2⟩ := h
    exact ⟨v, h1, h2.imp_right fun h => ⟨h, changed_stable h⟩⟩
  obtain ⟨s1, s2, s3⟩ := cycle_special x hx u
  rcases class_cases u with hf | hi | hn
  swap
  · exact ⟨u, s2 hi, Or.inl rfl⟩
  swap
  · exact ⟨_, s1 hn, Or.inr (.nan hn)⟩
  by_cases hz : DZero u
  · refine ⟨0, s3 hz, ?_⟩
    by_cases hng : dNeg u
    · exact Or.inr (.zero hz hng)
    · left
      obtain ⟨h1, h2⟩ := hz
      unfold dExp at h1; unfold dFrac at h2; unfold dNeg at hng
      apply UInt64.toNat_inj.mp
      have := u.toNat_lt
      show 0 = u.toNat
      omega
  rcases hx.format with h | h64
  · obtain ⟨t, ht, hr⟩ := C22_round_trip x.env hx.env .default x.junk hx.junk u hf hz
    exact ⟨u, by rw [cycle_eq ht, h, hr], Or.inl rfl⟩
  · obtain ⟨h1, h2, h3⟩ := h64
    obtain ⟨n, r, hn, ht, hr, -, c1, c2, c3⟩ := C77_exact_condition x.F h1 h2 h3 x.env hx.env .default x.junk hx.junk u hf hz
    refine ⟨_, cycle_eq ht, ?_⟩
    by_cases hc : u.toNat % 2 = 1 ∧ (DFinite (u + 1) ∧ r = (dMag u + dMag (u + 1)) / 2 ∨ r = (dMag u + dMag (u - 1)) / 2)
    · right
      obtain ⟨ho, ⟨hf', hm⟩ | hm⟩ := hc
      · rw [c1.mpr ⟨ho, hf', hm⟩]
        exact .next hf ho hf'
      · rw [c2.mpr ⟨ho, hm⟩]
        refine .prev hf ho fun hz' => ?_
        refine least_stays x hx ⟨h1, h2, h3⟩ u ?_ n hn r _ ht hr hm
        have hsub : (u - 1).toNat = u.toNat - 1 := by
          rw [UInt64.toNat_sub_of_le _ _ (by rw [UInt64.le_iff_toNat_le]; simp only [UInt64.toNat_one]; omega)]; rfl
        obtain ⟨h4, h5⟩ := hz'
        unfold dExp at h4; unfold dFrac at h5
        rw [hsub] at h4 h5
        have := u.toNat_lt
        have : u.toNat = 1 ∨ u.toNat = 9223372036854775809 := by omega
        rcases this with h | h
        · exact Or.inl (UInt64.toNat_inj.mp h)
        · exact Or.inr (UInt64.toNat_inj.mp h)
    · exact Or.inl (c3.mpr hc)

theorem cycles_stable {α : Type} {step : Site → α → Res α} {v : α} (P : Site → Prop) (h : ∀ x, P x → step x v = .ok v) :
    ∀ xs : List Site, (∀ x ∈ xs, P x) → cycles step xs v = .ok v
  | [], _ => rfl
  | x :: xs, hx => by
    rw [cycles, h x (hx x (by simp))]
    exact cycles_stable P h xs fun y hy => hx y (by simp [hy])

/-- C91.  However often a double is written and read, on whatever machines: it changes at most once, to the value it has from then on. -/
theorem C91_at_most_once (xs : List Site) (hxs : ∀ x ∈ xs, x.Ok) (u : UInt64) :
    ∃ k v, (v = u ∨ Changed u v) ∧ ∀ j, cycles Site.cycle (xs.take j) u = .ok (if j ≤ k then u else v) := by
  induction xs with
  | nil => exact ⟨0, u, Or.inl rfl, fun j => by simp [cycles]⟩
  | cons x xs ih =>
    obtain ⟨v, h1, h2⟩ := C91_one_cycle x (hxs x (by simp)) u
    have hxs' : ∀ y ∈ xs, y.Ok := fun y hy => hxs y (by simp [hy])
    rcases h2 with rfl | ⟨hc, hs⟩
    · obtain ⟨k, w, hw, hk⟩ := ih hxs'
      refine ⟨k + 1, w, hw, fun j => ?_⟩
      cases j with
      | zero => simp [cycles]
      | succ j =>
        rw [List.take_succ_cons, cycles, h1]
        show cycles Site.cycle (xs.take j) v = _
        rw [hk j]
        simp
    · refine ⟨0, v, Or.inr hc, fun j => ?_⟩
      cases j with
      | zero => simp [cycles]
      | succ j =>
        rw [List.take_succ_cons, cycles, h1]
        show cycles Site.cycle (xs.take j) v = _
        rw [cycles_stable Site.Ok hs _ fun y hy => hxs' y (List.mem_of_mem_take hy)]
        simp

/-- C91.  So finite doubles stay within one step of where they began, with their sign, and never reach zero or infinity. -/
theorem C91_no_drift (xs : List Site) (hxs : ∀ x ∈ xs, x.Ok) (u : UInt64) (hf : DFinite u) (hz : ¬ DZero u) :
    ∃ v, cycles Site.cycle xs u = .ok v ∧ DFinite v ∧ ¬ DZero v ∧ (dNeg v ↔ dNeg u) ∧ (v = u ∨ v = u + 1 ∨ v = u - 1) ∧
      (u.toNat % 2 = 0 → v = u) := by
  obtain ⟨k, w, hw, hk⟩ := C91_at_most_once xs hxs u
  have hk := hk xs.length
  rw [List.take_length] at hk
  refine ⟨_, hk, ?_⟩
  split
  · exact ⟨hf, hz, Iff.rfl, Or.inl rfl, fun _ => rfl⟩
  · rcases hw with rfl | hw
    · exact ⟨hf, hz, Iff.rfl, Or.inl rfl, fun _ => rfl⟩
    · have hu := u.toNat_lt
      cases hw with
      | nan h => exact absurd h.1 hf
      | zero h => exact absurd h hz
      | next _ ho hf' =>
        have hadd : (u + 1).toNat = u.toNat + 1 ∨ u.toNat + 1 = 2 ^ 64 := by
          rw [UInt64.toNat_add]
          simp only [UInt64.toNat_one]
          omega
        have hb := hf
        unfold DFinite dExp at hb
        refine ⟨hf', fun hz' => ?_, ?_, Or.inr (Or.inl rfl), fun h => by omega⟩
        · obtain ⟨h1, h2⟩ := hz'
          unfold dExp at h1; unfold dFrac at h2
          omega
        · unfold dNeg
          omega
      | prev _ ho hz' =>
        have hsub : (u - 1).toNat = u.toNat - 1 := by
          rw [UInt64.toNat_sub_of_le _ _ (by rw [UInt64.le_iff_toNat_le]; simp only [UInt64.toNat_one]; omega)]; rfl
        refine ⟨?_, hz', ?_, Or.inr (Or.inr rfl), fun h => by omega⟩
        · unfold DFinite dExp at hf ⊢
          rw [hsub]; omega
        · unfold dNeg
          rw [hsub]; omega

theorem cycleFloat_eq (x : Site) (hx : x.Ok) (u : UInt32) :
    x.cycleFloat u = .ok (if FNaN u then 0x7FC00000 else if FZero u then 0 else u) := by
  have hw : 53 ≤ x.F.p ∧ x.F.emin ≤ -1074 ∧ 1024 ≤ x.F.emax := by
    rcases hx.format with h | ⟨h1, h2, h3⟩
    · rw [h]; decide
    · exact ⟨by omega, by omega, h3⟩
  obtain ⟨sn, si, sz⟩ := special_printed x.env _ hx.junk (.ofFloat u)
  have hs : stringFloat .default x.env x.junk u = stringLongDouble .default x.env x.junk (.ofFloat u) := rfl
  unfold Site.cycleFloat
  rcases fclass_cases u with hf | hi | hn
  · rw [if_neg fun h => hf h.1]
    by_cases hz : FZero u
    · have h0 : fMag u = 0 := by unfold fMag fSig; rw [if_pos hz.1, hz.2]; simp
      have h1 : LVal.ofFloat u = .fin (decide (fNeg u)) 0 := by rw [ofFloat_finite u hf, h0]
      have h2 : DZero (LVal.ofFloat u).toDouble := by rw [h1]; cases decide (fNeg u) <;> decide +kernel
      rw [if_pos hz, hs, sz h2, Res.ok_bind, lexiFloat, extractLongDouble, read_zero]
      decide +kernel
    · obtain ⟨t, ht, hr⟩ := C24_float_round_trip x.F hw.1 hw.2.1 hw.2.2 x.env hx.env .default x.junk hx.junk u hf hz
      rw [if_neg hz, ht, Res.ok_bind, hr]
      rfl
  · have h1 := ofFloat_inf u hi
    obtain ⟨h2, h3⟩ := inf_class (decide (fNeg u))
    rw [← h1] at h2 h3
    rw [if_neg fun h => h.2 hi.2, if_neg fun h => by have := h.1; have := hi.1; omega, hs, si h2, Res.ok_bind, lexiFloat,
      extractLongDouble, read_inf]
    have hb := finf_bits u hi
    by_cases hn : fNeg u
    · rw [if_pos hn] at hb
      rw [decide_eq_true (h3.mpr (decide_eq_true hn)), hb]; rfl
    · rw [if_neg hn] at hb
      rw [decide_eq_false (fun h' => hn (of_decide_eq_true (h3.mp h'))), hb]; rfl
  · have h1 := ofFloat_nan u hn
    rw [if_pos hn, hs, sn (by rw [h1]; decide +kernel), Res.ok_bind, lexiFloat, extractLongDouble, read_nan]
    decide +kernel

/-- C91.  A float never changes on any machine, except that NaNs become the usual one and -0 becomes 0 the first time. -/
theorem C91_float (xs : List Site) (hxs : ∀ x ∈ xs, x.Ok) (u : UInt32) :
    cycles Site.cycleFloat xs u = .ok (if xs = [] then u else if FNaN u then 0x7FC00000 else if FZero u then 0 else u) := by
  cases xs with
  | nil => rfl
  | cons x xs =>
    rw [if_neg (by simp), cycles, cycleFloat_eq x (hxs x (by simp)) u]
    refine cycles_stable Site.Ok (fun y hy => ?_) xs fun y hy => hxs y (by simp [hy])
    rw [cycleFloat_eq y hy]
    by_cases hn : FNaN u
    · rw [if_pos hn]; rfl
    · rw [if_neg hn]
      by_cases hz : FZero u
      · rw [if_pos hz]; rfl
      · rw [if_neg hz, if_neg hn, if_neg hz]

theorem cycle_twice (x : Site) (hx : x.Ok) (u : UInt64) : ∃ v, x.cycle u = .ok v ∧ x.cycle v = .ok v := by
  obtain ⟨v, h1, rfl | ⟨-, h2⟩⟩ := C91_one_cycle x hx u
  · exact ⟨v, h1, h1⟩
  · exact ⟨v, h1, h2 x hx⟩

theorem string_ok {x : Site} {u v : UInt64} (h : x.cycle u = .ok v) :
    ∃ t, stringDouble .default x.env x.junk u = .ok t ∧ lexiDouble x.F t = v := by
  obtain ⟨t, h1, h2⟩ := bind_ok h
  exact ⟨t, h1, Res.ok.inj h2⟩

/-- C91.  `string(lexi<double>(s))` brings any text to a normal form in at most two steps; in one where `long double` is `double` or has
at least 73 bits. -/
theorem C91_normal_form (x : Site) (hx : x.Ok) (s : Bytes) :
    ∃ t t', x.normalise s = .ok t ∧ x.normalise t = .ok t' ∧ x.normalise t' = .ok t' ∧
      (x.F = .binary64 ∨ 73 ≤ x.F.p ∧ x.F.emin ≤ -1146 → t' = t) := by
  obtain ⟨v, h1, h2⟩ := cycle_twice x hx (lexiDouble x.F s)
  obtain ⟨t, ht, hv⟩ := string_ok h1
  obtain ⟨t', ht', hv'⟩ := string_ok h2
  refine ⟨t, t', ht, ?_, ?_, fun hw => ?_⟩
  · unfold Site.normalise; rw [hv]; exact ht'
  · unfold Site.normalise; rw [hv']; exact ht'
  · generalize lexiDouble x.F s = u at *
    have fin : DFinite u → ¬ DZero u → v = u := by
      intro hf hz
      obtain ⟨t1, ht1, hr⟩ : ∃ t, stringDouble .default x.env x.junk u = .ok t ∧ lexiDouble x.F t = u := by
        rcases hw with hw | ⟨h3, h4⟩
        · rw [hw]; exact C22_round_trip x.env hx.env .default x.junk hx.junk u hf hz
        · refine C23_wide_partial x.F h3 h4 ?_ x.env hx.env .default x.junk hx.junk u hf hz
          rcases hx.format with h | h
          · rw [h]; decide
          · exact h.2.2
      rw [ht] at ht1
      rw [← hv, Res.ok.inj ht1, hr]
    obtain ⟨s1, s2, s3⟩ := cycle_special x hx u
    rcases class_cases u with hf | hi | hn
    · by_cases hz : DZero u
      · rw [s3 hz, Res.ok.injEq] at h1
        subst h1
        rw [(C30_special_values x.env x.junk hx.junk u).2.2 hz] at ht
        rw [(C30_special_values x.env x.junk hx.junk 0).2.2 (by decide)] at ht'
        exact Res.ok.inj (ht'.symm.trans ht)
      · have := fin hf hz
        subst this
        exact Res.ok.inj (ht'.symm.trans ht)
    · rw [s2 hi, Res.ok.injEq] at h1
      subst h1
      exact Res.ok.inj (ht'.symm.trans ht)
    · rw [s1 hn, Res.ok.injEq] at h1
      subst h1
      rw [(C30_special_values x.env x.junk hx.junk u).1 hn] at ht
      rw [(C30_special_values x.env x.junk hx.junk _).1 (by decide)] at ht'
      exact Res.ok.inj (ht'.symm.trans ht)

theorem stringLong_eq (x : Site) (u : LVal) :
    stringLongDouble .default x.env x.junk u = stringDouble .default x.env x.junk u.toDouble := by
  unfold stringLongDouble stringDouble formatDouble
  by_cases h : DNaN u.toDouble
  · rw [formatLd_nan _ _ h, formatLd_nan _ _ ((ofDouble_class _).1 h)]
  · rw [formatLd_congr _ _ _ (toDouble_ofDouble _ h).symm]

/-- C91.  A `long double` is written as a double; after two cycles on its machine it is fixed. -/
theorem C91_long_double (x : Site) (hx : x.Ok) (u : LVal) :
    ∃ v w, x.cycleLong u = .ok v ∧ x.cycleLong v = .ok w ∧ x.cycleLong w = .ok w := by
  obtain ⟨d, h1, h2⟩ := cycle_twice x hx u.toDouble
  obtain ⟨t, ht, hv⟩ := string_ok h1
  obtain ⟨t', ht', hv'⟩ := string_ok h2
  refine ⟨extractLongDouble x.F t, extractLongDouble x.F t', ?_, ?_, ?_⟩
  · unfold Site.cycleLong; rw [stringLong_eq, ht]; rfl
  · unfold Site.cycleLong
    rw [stringLong_eq, show (extractLongDouble x.F t).toDouble = d from hv, ht']; rfl
  · unfold Site.cycleLong
    rw [stringLong_eq, show (extractLongDouble x.F t').toDouble = d from hv', ht']; rfl

/-! ### Examples -/

theorem sampleSite_ok (F : FpFormat) (h : F = .binary64 ∨ 64 ≤ F.p ∧ F.emin ≤ -1076 ∧ 1024 ≤ F.emax) :
    Site.Ok ⟨sampleEnv, List.replicate 30 0, F⟩ := ⟨sampleEnv_ok, by rfl, h⟩

/-- The theorem applies to three machines. -/
example : ∃ k v, (v = x87Witness ∨ Changed x87Witness v) ∧ ∀ j, cycles Site.cycle
    ([⟨sampleEnv, List.replicate 30 0, .binary128⟩, ⟨sampleEnv, List.replicate 30 0, .x87⟩,
      ⟨sampleEnv, List.replicate 30 0, .binary64⟩].take j) x87Witness = .ok (if j ≤ k then x87Witness else v) := by
  refine C91_at_most_once _ (fun x hx => ?_) _
  simp only [List.mem_cons, List.not_mem_nil, or_false] at hx
  rcases hx with rfl | rfl | rfl
  · exact sampleSite_ok _ (Or.inr (by decide))
  · exact sampleSite_ok _ (Or.inr (by decide))
  · exact sampleSite_ok _ (Or.inl rfl)

/-- From ARM to x86 and back: the value changes on x86 and stays. -/
example : cycles Site.cycle [⟨sampleEnv, List.replicate 30 0, .binary128⟩, ⟨sampleEnv, List.replicate 30 0, .x87⟩,
    ⟨sampleEnv, List.replicate 30 0, .binary64⟩, ⟨sampleEnv, List.replicate 30 0, .x87⟩] x87Witness = .ok (x87Witness - 1) := by
  decide +kernel

/-- Two steps are needed on x86. -/
example : (Site.normalise ⟨sampleEnv, List.replicate 30 0, .x87⟩ (ascii "5.4458466844753611e107")) = .ok (ascii "5.445846684475361e107") ∧
    (Site.normalise ⟨sampleEnv, List.replicate 30 0, .x87⟩ (ascii "5.445846684475361e107")) ≠ .ok (ascii "5.445846684475361e107") := by
  decide +kernel

end Lexi
