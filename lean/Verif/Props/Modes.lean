import Verif.Proofs.Directed
import Verif.Spec.Directed
import Verif.Props.Reading
import Verif.Props.ReadSingle
import Verif.Props.LongDouble
import Verif.Props.Subject
import Verif.Props.FloatRead

/-!
# Rounding modes: C89

Reading and formatting after `fesetround`.
-/

namespace Lexi
open Spec Soft Dtoa

/-! ### From magnitudes to signed values -/

section
variable {α : Type} {fin inf neg : α → Prop} {mag val : α → ℚ}

/-- Largest magnitude not above `q`. -/
def MagZero (fin neg : α → Prop) (mag : α → ℚ) (b : Bool) (q : ℚ) (u : α) : Prop :=
  fin u ∧ (neg u ↔ b = true) ∧ mag u ≤ q ∧ ∀ y, fin y → mag y ≤ q → mag y ≤ mag u

/-- Least magnitude not below `q`, or infinity. -/
def MagAway (fin inf neg : α → Prop) (mag : α → ℚ) (b : Bool) (q : ℚ) (u : α) : Prop :=
  (fin u ∧ (neg u ↔ b = true) ∧ q ≤ mag u ∧ ∀ y, fin y → q ≤ mag y → mag u ≤ mag y) ∨
  (inf u ∧ (neg u ↔ b = true) ∧ ∀ y, fin y → mag y < q)

variable (hv : ∀ y, (neg y → val y = -mag y) ∧ (¬ neg y → val y = mag y)) (h0 : ∀ y, 0 ≤ mag y)
include hv h0

theorem val_le_mag (y : α) : val y ≤ mag y ∧ -mag y ≤ val y ∧ |val y| = mag y ∧ (0 < val y → ¬ neg y) ∧ (val y < 0 → neg y) := by
  have := h0 y
  by_cases h : neg y
  · rw [(hv y).1 h]
    exact ⟨by linarith, le_rfl, by rw [abs_neg, abs_of_nonneg this], fun h' => by linarith, fun _ => h⟩
  · rw [(hv y).2 h]
    exact ⟨le_rfl, by linarith, abs_of_nonneg this, fun _ => h, fun h' => by linarith⟩

theorem down_of {b : Bool} {q : ℚ} (hq : 0 ≤ q) {u : α} (h1 : b = false → MagZero fin neg mag b q u)
    (h2 : b = true → MagAway fin inf neg mag b q u) :
    (fin u ∧ val u ≤ sgn b q ∧ ∀ y, fin y → val y ≤ sgn b q → val y ≤ val u) ∨
    (inf u ∧ neg u ∧ ∀ y, fin y → sgn b q < val y) := by
  cases b
  · obtain ⟨a1, a2, a3, a4⟩ := h1 rfl
    have hu := (hv u).2 (by simpa using a2)
    rw [hu]
    refine Or.inl ⟨a1, a3, fun y hy hyq => ?_⟩
    change val y ≤ q at hyq
    by_cases hn : neg y
    · rw [(hv y).1 hn]; linarith [h0 y, h0 u]
    · rw [(hv y).2 hn] at hyq ⊢
      exact a4 y hy hyq
  · rcases h2 rfl with ⟨a1, a2, a3, a4⟩ | ⟨a1, a2, a3⟩
    · have hu := (hv u).1 (by simpa using a2)
      rw [hu]
      refine Or.inl ⟨a1, neg_le_neg a3, fun y hy hyq => ?_⟩
      change val y ≤ -q at hyq
      obtain ⟨b1, b2, b3, -⟩ := val_le_mag hv h0 y
      have : mag u ≤ mag y := a4 y hy (by linarith)
      rw [← b3, abs_of_nonpos (by linarith)] at this
      linarith
    · refine Or.inr ⟨a1, a2.mpr rfl, fun y hy => ?_⟩
      have := a3 y hy
      obtain ⟨b1, b2, b3, -⟩ := val_le_mag hv h0 y
      show -q < val y
      linarith

theorem up_of {b : Bool} {q : ℚ} (hq : 0 ≤ q) {u : α} (h1 : b = true → MagZero fin neg mag b q u)
    (h2 : b = false → MagAway fin inf neg mag b q u) :
    (fin u ∧ sgn b q ≤ val u ∧ ∀ y, fin y → sgn b q ≤ val y → val u ≤ val y) ∨
    (inf u ∧ ¬ neg u ∧ ∀ y, fin y → val y < sgn b q) := by
  cases b
  · rcases h2 rfl with ⟨a1, a2, a3, a4⟩ | ⟨a1, a2, a3⟩
    · have hu := (hv u).2 (by simpa using a2)
      rw [hu]
      refine Or.inl ⟨a1, a3, fun y hy hyq => ?_⟩
      change q ≤ val y at hyq
      obtain ⟨b1, b2, b3, -⟩ := val_le_mag hv h0 y
      have : mag u ≤ mag y := a4 y hy (by linarith)
      rw [← b3, abs_of_nonneg (by linarith)] at this
      linarith
    · refine Or.inr ⟨a1, by simpa using a2, fun y hy => ?_⟩
      have := a3 y hy
      obtain ⟨b1, b2, b3, -⟩ := val_le_mag hv h0 y
      show val y < q
      linarith
  · obtain ⟨a1, a2, a3, a4⟩ := h1 rfl
    have hu := (hv u).1 (by simpa using a2)
    rw [hu]
    refine Or.inl ⟨a1, neg_le_neg a3, fun y hy hyq => ?_⟩
    change -q ≤ val y at hyq
    by_cases hn : neg y
    · rw [(hv y).1 hn] at hyq ⊢
      have := a4 y hy (by linarith)
      linarith
    · rw [(hv y).2 hn]; linarith [h0 y, h0 u]

theorem zero_of {b : Bool} {q : ℚ} (hq : 0 ≤ q) {u : α} (h : MagZero fin neg mag b q u) :
    fin u ∧ |val u| ≤ |sgn b q| ∧ (0 ≤ sgn b q → 0 ≤ val u) ∧ (sgn b q ≤ 0 → val u ≤ 0) ∧
      ∀ y, fin y → |val y| ≤ |sgn b q| → |val y| ≤ |val u| := by
  obtain ⟨a1, a2, a3, a4⟩ := h
  have hs : |sgn b q| = q := by cases b <;> simp [sgn, abs_of_nonneg hq]
  have hu := (val_le_mag hv h0 u).2.2.1
  have hm := h0 u
  rw [hs, hu]
  refine ⟨a1, a3, fun h => ?_, fun h => ?_, fun y hy => ?_⟩
  · cases b
    · rw [(hv u).2 (by simpa using a2)]; exact hm
    · rw [(hv u).1 (by simpa using a2)]
      change 0 ≤ -q at h
      linarith
  · cases b
    · rw [(hv u).2 (by simpa using a2)]
      change q ≤ 0 at h
      linarith
    · rw [(hv u).1 (by simpa using a2)]; linarith
  · rw [(val_le_mag hv h0 y).2.2.1]
    exact a4 y hy

end

theorem dval_mag (y : UInt64) : (dNeg y → dValue y = -dMag y) ∧ (¬ dNeg y → dValue y = dMag y) :=
  ⟨fun h => by unfold dValue; rw [if_pos h], fun h => by unfold dValue; rw [if_neg h]⟩

theorem fval_mag (y : UInt32) : (fNeg y → fValue y = -fMag y) ∧ (¬ fNeg y → fValue y = fMag y) :=
  ⟨fun h => by unfold fValue; rw [if_pos h], fun h => by unfold fValue; rw [if_neg h]⟩

/-! ### Doubles and floats as grids -/

theorem dLargest : FpFormat.binary64.largest = dMax := by
  unfold FpFormat.largest
  rw [scale_eq, dMax_eq]; rfl

theorem dMag_onGrid (y : UInt64) (hy : DFinite y) : OnGrid 53 (-1074) (dMag y) ∧ dMag y < 2 ^ 1024 := by
  refine ⟨⟨dSig y, dUlpExp y, DiyFp.dSig_lt y, (ulpExp_bounds y hy).1, rfl⟩, ?_⟩
  exact lt_of_le_of_lt (dMag_le_dMax y hy) (dLargest ▸ largest_lt .binary64)

theorem toDouble_grid (neg : Bool) {r : ℚ} (h : OnGrid 53 (-1074) r) (hr : r ≤ dMax) :
    DFinite (LVal.fin neg r).toDouble ∧ (dNeg (LVal.fin neg r).toDouble ↔ neg = true) ∧ dMag (LVal.fin neg r).toDouble = r := by
  rcases h.nonneg.lt_or_eq with hp | rfl
  · obtain ⟨a, b, c, -⟩ := toDouble_pos neg hp (hr.trans_lt dMax_lt)
    obtain ⟨s, g, h1, h2, h3⟩ := h
    exact ⟨a, b, by rw [c, roundRat_exact (by norm_num) hp s g h2 h1 h3]⟩
  · obtain ⟨a, b, c, -⟩ := toDouble_zero neg
    exact ⟨a, b, c⟩

theorem fLargest : FpFormat.binary32.largest = fMax := by
  unfold FpFormat.largest
  rw [scale_eq, fMax_eq]; rfl

theorem fMag_onGrid (y : UInt32) (hy : FFinite y) : OnGrid 24 (-149) (fMag y) ∧ fMag y < 2 ^ 128 := by
  refine ⟨⟨fSig y, fUlpExp y, fSig_lt y, (fUlpExp_bounds y hy).1, rfl⟩, ?_⟩
  exact lt_of_le_of_lt (fMag_le_fMax y hy) (fLargest ▸ largest_lt .binary32)

theorem toFloat_grid (neg : Bool) {r : ℚ} (h : OnGrid 24 (-149) r) (hr : r ≤ fMax) :
    FFinite (LVal.fin neg r).toFloat ∧ (fNeg (LVal.fin neg r).toFloat ↔ neg = true) ∧ fMag (LVal.fin neg r).toFloat = r := by
  have hlt : fMax < fOverflow := by
    rw [fMax_eq, fOverflow_eq]
    exact mul_lt_mul_of_pos_right (by norm_num) (zp 104)
  rcases h.nonneg.lt_or_eq with hp | rfl
  · obtain ⟨a, b, c, -⟩ := toFloat_pos neg hp (hr.trans_lt hlt)
    obtain ⟨s, g, h1, h2, h3⟩ := h
    exact ⟨a, b, by rw [c, roundRat_exact (by norm_num) hp s g h2 h1 h3]⟩
  · obtain ⟨a, b, c, -⟩ := toFloat_zero neg
    exact ⟨a, b, c⟩

/-- Formats a `long double` can have: at least those of `double`. -/
structure Wide (F : FpFormat) : Prop where
  p : 53 ≤ F.p
  emin : F.emin ≤ -1074
  emax : 1024 ≤ F.emax

/-- `x`, converted to `G`, is the largest number of `G` not above `q`. -/
def ZeroOf (G : FpFormat) (m : RMode) (neg : Bool) (q : ℚ) (x : LVal) : Prop :=
  ∃ r, x.convIn m G = .fin neg r ∧ OnGrid G.p G.emin r ∧ r ≤ G.largest ∧ r ≤ q ∧
    ∀ y, OnGrid G.p G.emin y → y < 2 ^ G.emax → y ≤ q → y ≤ r

/-- `x`, converted to `G`, is the least number of `G` not below `q`. -/
def AwayOf (G : FpFormat) (m : RMode) (neg : Bool) (q : ℚ) (x : LVal) : Prop :=
  (∃ r, x.convIn m G = .fin neg r ∧ OnGrid G.p G.emin r ∧ r ≤ G.largest ∧ q ≤ r ∧
    ∀ y, OnGrid G.p G.emin y → q ≤ y → r ≤ y) ∨
  (x.convIn m G = .inf neg ∧ ∀ y, OnGrid G.p G.emin y → y < 2 ^ G.emax → y < q)

theorem dmag_zero {x : LVal} {m : RMode} {neg : Bool} {q : ℚ} (h : ZeroOf .binary64 m neg q x) :
    MagZero DFinite dNeg dMag neg q (x.toDoubleIn m) := by
  obtain ⟨r, e, h1, h2, h3, h4⟩ := h
  unfold LVal.toDoubleIn
  rw [e]
  obtain ⟨a, b, c⟩ := toDouble_grid neg h1 (dLargest ▸ h2)
  refine ⟨a, b, by rw [c]; exact h3, fun y hy hyq => ?_⟩
  rw [c]
  exact h4 _ (dMag_onGrid y hy).1 (dMag_onGrid y hy).2 hyq

theorem dmag_away {x : LVal} {m : RMode} {neg : Bool} {q : ℚ} (h : AwayOf .binary64 m neg q x) :
    MagAway DFinite DInfinite dNeg dMag neg q (x.toDoubleIn m) := by
  unfold LVal.toDoubleIn
  rcases h with ⟨r, e, h1, h2, h3, h4⟩ | ⟨e, h⟩
  · rw [e]
    obtain ⟨a, b, c⟩ := toDouble_grid neg h1 (dLargest ▸ h2)
    refine Or.inl ⟨a, b, by rw [c]; exact h3, fun y hy hyq => ?_⟩
    rw [c]
    exact h4 _ (dMag_onGrid y hy).1 hyq
  · rw [e]
    obtain ⟨a, b⟩ := inf_facts neg
    exact Or.inr ⟨a, b, fun y hy => h _ (dMag_onGrid y hy).1 (dMag_onGrid y hy).2⟩

theorem fmag_zero {x : LVal} {m : RMode} {neg : Bool} {q : ℚ} (h : ZeroOf .binary32 m neg q x) :
    MagZero FFinite fNeg fMag neg q (x.toFloatIn m) := by
  obtain ⟨r, e, h1, h2, h3, h4⟩ := h
  unfold LVal.toFloatIn
  rw [e]
  obtain ⟨a, b, c⟩ := toFloat_grid neg h1 (fLargest ▸ h2)
  refine ⟨a, b, by rw [c]; exact h3, fun y hy hyq => ?_⟩
  rw [c]
  exact h4 _ (fMag_onGrid y hy).1 (fMag_onGrid y hy).2 hyq

theorem fmag_away {x : LVal} {m : RMode} {neg : Bool} {q : ℚ} (h : AwayOf .binary32 m neg q x) :
    MagAway FFinite FInfinite fNeg fMag neg q (x.toFloatIn m) := by
  unfold LVal.toFloatIn
  rcases h with ⟨r, e, h1, h2, h3, h4⟩ | ⟨e, h⟩
  · rw [e]
    obtain ⟨a, b, c⟩ := toFloat_grid neg h1 (fLargest ▸ h2)
    refine Or.inl ⟨a, b, by rw [c]; exact h3, fun y hy hyq => ?_⟩
    rw [c]
    exact h4 _ (fMag_onGrid y hy).1 hyq
  · rw [e]
    obtain ⟨a, b⟩ := finf_facts neg
    exact Or.inr ⟨a, b, fun y hy => h _ (fMag_onGrid y hy).1 (fMag_onGrid y hy).2⟩

theorem MagZero.sign {α : Type} {fin neg : α → Prop} {mag : α → ℚ} {b : Bool} {q : ℚ} {u : α}
    (h : MagZero fin neg mag b q u) : neg u ↔ b = true := h.2.1

theorem MagAway.sign {α : Type} {fin inf neg : α → Prop} {mag : α → ℚ} {b : Bool} {q : ℚ} {u : α}
    (h : MagAway fin inf neg mag b q u) : neg u ↔ b = true := by
  rcases h with h | h
  · exact h.2.1
  · exact h.2.1

/-! ### C89: reading -/

/-- What reading the magnitude `q` with a sign must give in a directed mode. -/
def ReadsIn (m : RMode) (neg : Bool) (q : ℚ) (u : UInt64) : Prop :=
  (dNeg u ↔ neg = true) ∧
  match m with
  | .nearest => True
  | .upward => RoundedUp (sgn neg q) u
  | .downward => RoundedDown (sgn neg q) u
  | .towardZero => RoundedZero (sgn neg q) u

/-- The same for `float`. -/
def FReadsIn (m : RMode) (neg : Bool) (q : ℚ) (u : UInt32) : Prop :=
  (fNeg u ↔ neg = true) ∧
  match m with
  | .nearest => True
  | .upward => FRoundedUp (sgn neg q) u
  | .downward => FRoundedDown (sgn neg q) u
  | .towardZero => FRoundedZero (sgn neg q) u

theorem readsIn_double {x : LVal} {m : RMode} (hm : m ≠ .nearest) {neg : Bool} {q : ℚ} (hq : 0 ≤ q)
    (hz : m.dir neg = .zero → ZeroOf .binary64 m neg q x) (ha : m.dir neg = .away → AwayOf .binary64 m neg q x) :
    ReadsIn m neg q (x.toDoubleIn m) := by
  cases m with
  | nearest => exact absurd rfl hm
  | towardZero =>
    have z := dmag_zero (hz rfl)
    exact ⟨z.sign, zero_of dval_mag dMag_nonneg hq z⟩
  | upward =>
    have h1 : neg = true → _ := fun h => dmag_zero (hz (by rw [h]; rfl))
    have h2 : neg = false → _ := fun h => dmag_away (ha (by rw [h]; rfl))
    refine ⟨?_, up_of dval_mag dMag_nonneg hq h1 h2⟩
    cases neg
    · exact (h2 rfl).sign
    · exact (h1 rfl).sign
  | downward =>
    have h1 : neg = false → _ := fun h => dmag_zero (hz (by rw [h]; rfl))
    have h2 : neg = true → _ := fun h => dmag_away (ha (by rw [h]; rfl))
    refine ⟨?_, down_of dval_mag dMag_nonneg hq h1 h2⟩
    cases neg
    · exact (h1 rfl).sign
    · exact (h2 rfl).sign

theorem readsIn_float {x : LVal} {m : RMode} (hm : m ≠ .nearest) {neg : Bool} {q : ℚ} (hq : 0 ≤ q)
    (hz : m.dir neg = .zero → ZeroOf .binary32 m neg q x) (ha : m.dir neg = .away → AwayOf .binary32 m neg q x) :
    FReadsIn m neg q (x.toFloatIn m) := by
  cases m with
  | nearest => exact absurd rfl hm
  | towardZero =>
    have z := fmag_zero (hz rfl)
    exact ⟨z.sign, zero_of fval_mag fMag_nonneg hq z⟩
  | upward =>
    have h1 : neg = true → _ := fun h => fmag_zero (hz (by rw [h]; rfl))
    have h2 : neg = false → _ := fun h => fmag_away (ha (by rw [h]; rfl))
    refine ⟨?_, up_of fval_mag fMag_nonneg hq h1 h2⟩
    cases neg
    · exact (h2 rfl).sign
    · exact (h1 rfl).sign
  | downward =>
    have h1 : neg = false → _ := fun h => fmag_zero (hz (by rw [h]; rfl))
    have h2 : neg = true → _ := fun h => fmag_away (ha (by rw [h]; rfl))
    refine ⟨?_, down_of fval_mag fMag_nonneg hq h1 h2⟩
    cases neg
    · exact (h1 rfl).sign
    · exact (h2 rfl).sign

theorem readsIn {F : FpFormat} (hF : Wide F) {m : RMode} (hm : m ≠ .nearest) (neg : Bool) {q : ℚ} (hq : 0 ≤ q) :
    ReadsIn m neg q ((F.roundIn m neg q).toDoubleIn m) ∧ FReadsIn m neg q ((F.roundIn m neg q).toFloatIn m) := by
  have p32 : 24 ≤ F.p := (by decide : 24 ≤ 53).trans hF.p
  have e32 : F.emin ≤ -149 := hF.emin.trans (by decide)
  have m32 : 128 ≤ F.emax := (by decide : 128 ≤ 1024).trans hF.emax
  exact ⟨readsIn_double hm hq
      (fun h => chain_zero (G := .binary64) hF.p hF.emin hF.emax (by decide) (by decide) hq h)
      (fun h => chain_away (G := .binary64) hF.p hF.emin hF.emax (by decide) hq h),
    readsIn_float hm hq (fun h => chain_zero (G := .binary32) p32 e32 m32 (by decide) (by decide) hq h)
      (fun h => chain_away (G := .binary32) p32 e32 m32 (by decide) hq h)⟩

/-- Conversion of a `long double` to `double` in a mode. -/
theorem convert_in {m : RMode} (hm : m ≠ .nearest) (neg : Bool) {q : ℚ} (hq : 0 ≤ q) :
    ReadsIn m neg q ((LVal.fin neg q).toDoubleIn m) := by
  refine readsIn_double hm hq (fun h => ?_) (fun h => ?_)
  · obtain ⟨r, e, -, h2, h3, h4, h5⟩ := roundIn_zero .binary64 (by decide) h hq
    exact ⟨r, e, h4 (by decide), h3, h2, fun y hy hlt hyq => h5 y hy hyq (le_largest _ hy hlt)⟩
  · rcases roundIn_away .binary64 (by decide) h hq with ⟨r, e, -, h2, h3, h4, h5⟩ | h
    · exact Or.inl ⟨r, e, h4, h3, h2, h5⟩
    · exact Or.inr h

/-- C89.  After `fesetround(FE_UPWARD / FE_DOWNWARD / FE_TOWARDZERO)`, `lexi<double>` and `lexi<float>` of a JSON number
are exactly its rounding in that direction, with its sign: the detour through `long double` never shows. -/
theorem C89_read (F : FpFormat) (hF : Wide F) (m : RMode) (hm : m ≠ .nearest) (n : JNumber) (hn : n.WF) :
    ReadsIn m n.neg n.mag (lexiDoubleMode m F n.text) ∧ FReadsIn m n.neg n.mag (lexiFloatMode m F n.text) := by
  unfold lexiDoubleMode lexiFloatMode extractLongDoubleMode
  rw [strtoldWith_number _ n hn]
  exact readsIn hF hm n.neg (mag_nonneg n)

theorem _root_.Lexi.Spec.Longest.num_nonneg {t p : Bytes} {q : ℚ} (hl : Longest t p (.num q)) : 0 ≤ q := by
  rcases hl.2.1 with h | ⟨-, h⟩
  · exact Numeral_nonneg h
  · exact Numeral_nonneg h

/-- C89.  The same for every text whose longest acceptable beginning is a number, decimal or hexadecimal. -/
theorem C89_read_text (F : FpFormat) (hF : Wide F) (m : RMode) (hm : m ≠ .nearest) (s t p : Bytes) (neg : Bool) (q : ℚ)
    (hs : FloatText s neg t) (hl : Longest t p (.num q)) :
    ReadsIn m neg q (lexiDoubleMode m F s) ∧ FReadsIn m neg q (lexiFloatMode m F s) := by
  unfold lexiDoubleMode lexiFloatMode extractLongDoubleMode
  rw [strtoldWith_text _ hs, scanMagWith_longest _ neg hl]
  exact readsIn hF hm neg hl.num_nonneg

theorem roundIn_nearest (F : FpFormat) : F.roundIn .nearest = F.round := rfl

theorem toDoubleIn_nearest {q : ℚ} (hq : 0 ≤ q) (neg : Bool) : (LVal.fin neg q).toDoubleIn .nearest = (LVal.fin neg q).toDouble := by
  show (FpFormat.binary64.round neg q).toDouble = _
  have hlt := roundRat_lt_iff hq
  have hcast : (((2 ^ FpFormat.binary64.emax : ℕ) : ℚ) ≤ roundRat FpFormat.binary64.p FpFormat.binary64.emin q)
      ↔ dOverflow ≤ q := by
    rw [← not_lt, ← not_lt, not_iff_not, ← hlt]
    show roundRat 53 (-1074) q < ((2 ^ 1024 : ℕ) : ℚ) ↔ _
    rw [Nat.cast_pow]; rfl
  unfold FpFormat.round
  by_cases h : dOverflow ≤ q
  · rw [if_pos (hcast.mpr h), toDouble_overflow neg h]
    rfl
  · rw [if_neg (fun hc => h (hcast.mp hc))]
    exact toDouble_round neg hq (not_le.mp h)

theorem toFloatIn_nearest {q : ℚ} (hq : 0 ≤ q) (neg : Bool) : (LVal.fin neg q).toFloatIn .nearest = (LVal.fin neg q).toFloat := by
  show (FpFormat.binary32.round neg q).toFloat = _
  have hlt := froundRat_lt_iff hq
  have hcast : (((2 ^ FpFormat.binary32.emax : ℕ) : ℚ) ≤ roundRat FpFormat.binary32.p FpFormat.binary32.emin q)
      ↔ fOverflow ≤ q := by
    rw [← not_lt, ← not_lt, not_iff_not, ← hlt]
    show roundRat 24 (-149) q < ((2 ^ 128 : ℕ) : ℚ) ↔ _
    rw [Nat.cast_pow]; rfl
  unfold FpFormat.round
  by_cases h : fOverflow ≤ q
  · rw [if_pos (hcast.mpr h), toFloat_overflow neg h]
    rfl
  · rw [if_neg (fun hc => h (hcast.mp hc))]
    exact toFloat_round neg hq (not_le.mp h)

/-- C89.  Under round-to-nearest this is the model of the other claims; words (`inf`, `nan`) and texts without a number
read the same in every mode.  All byte strings are covered. -/
theorem C89_other (F : FpFormat) (s : Bytes) :
    (lexiDoubleMode .nearest F s = lexiDouble F s ∧ lexiFloatMode .nearest F s = lexiFloat F s) ∧
    ∀ neg t, FloatText s neg t → (∀ p q, ¬ Longest t p (.num q)) →
      ∀ m, lexiDoubleMode m F s = lexiDouble F s ∧ lexiFloatMode m F s = lexiFloat F s := by
  have z : ∀ m, (LVal.fin false 0).toDoubleIn m = (LVal.fin false 0).toDouble ∧
      (LVal.fin false 0).toFloatIn m = (LVal.fin false 0).toFloat := by
    intro m
    cases m <;> exact ⟨by decide +kernel, by decide +kernel⟩
  have words : ∀ neg t, FloatText s neg t → (∀ p q, ¬ Longest t p (.num q)) →
      ∀ m, lexiDoubleMode m F s = lexiDouble F s ∧ lexiFloatMode m F s = lexiFloat F s := by
    intro neg t ht hno m
    unfold lexiDoubleMode lexiFloatMode lexiDouble lexiFloat extractLongDoubleMode extractLongDouble
    rw [strtoldWith_text _ ht, strtold_text _ ht]
    by_cases hl : ∃ p v, Longest t p v
    · obtain ⟨p, v, hl⟩ := hl
      rw [scanMagWith_longest _ neg hl, scanMag_longest _ neg hl]
      cases v with
      | nan => exact ⟨rfl, rfl⟩
      | inf => exact ⟨rfl, rfl⟩
      | num q => exact absurd hl (hno p q)
    · have hn : ∀ p v, p <+: t → ¬ Subject p v := (longest_or_none t).resolve_left hl
      rw [scanMagWith_none _ neg hn, scanMag_none _ neg hn]
      exact z m
  refine ⟨?_, words⟩
  obtain ⟨neg, t, ht, -⟩ := C61_total s
  by_cases hno : ∀ p q, ¬ Longest t p (.num q)
  · exact words neg t ht hno .nearest
  · push Not at hno
    obtain ⟨p, q, hl⟩ := hno
    have hq : 0 ≤ q := hl.num_nonneg
    unfold lexiDoubleMode lexiFloatMode lexiDouble lexiFloat extractLongDoubleMode extractLongDouble
    rw [strtoldWith_text _ ht, strtold_text _ ht, scanMagWith_longest _ neg hl, scanMag_longest _ neg hl]
    show (F.round neg q).toDoubleIn .nearest = (F.round neg q).toDouble ∧
      (F.round neg q).toFloatIn .nearest = (F.round neg q).toFloat
    unfold FpFormat.round
    dsimp only
    by_cases ho : ((2 ^ F.emax : ℕ) : ℚ) ≤ roundRat F.p F.emin q
    · rw [if_pos ho]
      exact ⟨rfl, rfl⟩
    · rw [if_neg ho]
      have hr := roundRat_nonneg (p := F.p) (emin := F.emin) hq
      exact ⟨toDoubleIn_nearest hr neg, toFloatIn_nearest hr neg⟩

/-! ### C89: formatting -/

theorem dirRat_rel (up : Bool) {q : ℚ} (hq : 0 < q) (hb : (2 : ℚ) ^ (-1022 : ℤ) ≤ q) :
    |dirRat up 53 (-1074) q - q| ≤ q / 2 ^ 40 := by
  obtain ⟨s, e, h1, h2⟩ := dirRat_pos (p := 53) (emin := -1074) up hq
  have hl := le_lg hq hb
  have he : qexp 53 (-1074) q = lg q + (-52) := by rw [qexp_eq]; omega
  have hs := (lg_spec hq).1
  have hg : (2 : ℚ) ^ qexp 53 (-1074) q ≤ q / 2 ^ 40 := by
    rw [he, zpow_add₀ (by norm_num)]
    have h3 : (2 : ℚ) ^ (-52 : ℤ) = 1 / 2 ^ 52 := by norm_num
    have h2 : (0 : ℚ) < 2 ^ lg q := zp _
    rw [h3, mul_one_div]
    refine (div_le_div_of_nonneg_left h2.le (by norm_num) (by norm_num : (2 : ℚ) ^ 40 ≤ 2 ^ 52)).trans ?_
    exact div_le_div_of_nonneg_right hs (by norm_num)
  rw [e]
  cases up
  · obtain ⟨a, b⟩ := h1 rfl
    rw [abs_of_nonpos (by linarith)]
    rw [add_mul, one_mul] at b
    linarith
  · obtain ⟨a, b⟩ := h2 rfl
    rw [abs_of_nonneg (by linarith)]
    linarith

theorem eval_relOk (m : RMode) (q : ℚ) (h : q = 0 ∨ (2 : ℚ) ^ (-1022 : ℤ) ≤ |q|) : RelOk (m.eval q) q := by
  have pos : ∀ (d : Dir) (a : ℚ), 0 < a → (2 : ℚ) ^ (-1022 : ℤ) ≤ a → |d.eval a - a| ≤ a / 2 ^ 40 := by
    intro d a ha hb
    cases d
    · have := roundRat_relOk a (Or.inr (by rwa [abs_of_pos ha]))
      unfold RelOk at this
      rwa [abs_of_pos ha] at this
    · exact dirRat_rel true ha hb
    · exact dirRat_rel false ha hb
  unfold RelOk RMode.eval
  rcases lt_trichotomy q 0 with hn | rfl | hp
  · have hb : (2 : ℚ) ^ (-1022 : ℤ) ≤ -q := by
      rcases h with h | h
      · exact absurd h hn.ne
      · rwa [abs_of_neg hn] at h
    rw [if_pos hn, abs_of_neg hn, ← abs_neg, show -(-(m.dir true).eval (-q) - q) = (m.dir true).eval (-q) - -q by ring]
    exact pos (m.dir true) (-q) (by linarith) hb
  · rw [if_neg (lt_irrefl _), sub_zero]
    cases m.dir false <;> simp [Dir.eval, roundRat_zero, dirRat_zero]
  · have hb : (2 : ℚ) ^ (-1022 : ℤ) ≤ q := by
      rcases h with h | h
      · exact absurd h hp.ne'
      · rwa [abs_of_pos hp] at h
    rw [if_neg (not_lt.mpr hp.le), abs_of_pos hp]
    exact pos (m.dir false) q hp hb

theorem dkIn_eval (m : RMode) : DkEval (dkIn m) := by
  refine ⟨LOG10_2, LOG10_2_relOk, fun e h1 h2 => ?_⟩
  have hm := eval_relOk m _ (prod_big (-61 - e))
  exact ⟨_, hm, eval_relOk m _ (Or.inr (sum_big _ (by omega) _ hm))⟩

/-- C89.  The text of a double does not depend on the rounding mode. -/
theorem C89_same_text (m m' : RMode) (v v' : Variant) (oob : ℕ → Res UInt64) (L : Literals) (junk : Bytes) (u : UInt64) :
    stringDouble L ⟨v, dkIn m, oob⟩ junk u = stringDouble L ⟨v', dkIn m', oob⟩ junk u :=
  C35_same_text ⟨v, dkIn m, oob⟩ ⟨v', dkIn m', oob⟩ (dkIn_eval m) (dkIn_eval m') rfl L junk u

/-- C89.  A finite `long double` formats, in a directed mode, as the double on that side of it. -/
theorem C89_format_long (m : RMode) (hm : m ≠ .nearest) (v : Variant) (oob : ℕ → Res UInt64) (L : Literals) (junk : Bytes)
    (neg : Bool) (q : ℚ) (hq : 0 ≤ q) :
    ∃ u, ReadsIn m neg q u ∧
      formatLdIn m L v oob junk (.fin neg q) = formatDouble L ⟨v, dkIn m, oob⟩ junk u :=
  ⟨_, convert_in hm neg hq, rfl⟩

/-! ### C89: round trip -/

theorem RoundedZero.down {v : ℚ} {u : UInt64} (h : RoundedZero v u) (h0 : 0 ≤ v) : RoundedDown v u := by
  obtain ⟨a, b, c, d, e⟩ := h
  have c := c h0
  rw [abs_of_nonneg c, abs_of_nonneg h0] at b
  refine Or.inl ⟨a, b, fun y hy hyv => ?_⟩
  rcases le_or_gt 0 (dValue y) with hy0 | hy0
  · have := e y hy (by rwa [abs_of_nonneg hy0, abs_of_nonneg h0])
    rwa [abs_of_nonneg hy0, abs_of_nonneg c] at this
  · linarith

theorem RoundedZero.up {v : ℚ} {u : UInt64} (h : RoundedZero v u) (h0 : v ≤ 0) : RoundedUp v u := by
  obtain ⟨a, b, c, d, e⟩ := h
  have d := d h0
  rw [abs_of_nonpos d, abs_of_nonpos h0] at b
  refine Or.inl ⟨a, by linarith, fun y hy hyv => ?_⟩
  rcases le_or_gt (dValue y) 0 with hy0 | hy0
  · have := e y hy (by rw [abs_of_nonpos hy0, abs_of_nonpos h0]; linarith)
    rw [abs_of_nonpos hy0, abs_of_nonpos d] at this
    linarith
  · linarith

section
variable {v : ℚ} {u r : UInt64} (hu : DFinite u) (hz : ¬ DZero u)
  (near : ∀ y, DFinite y → dValue y ≠ dValue u → |v - dValue u| < |v - dValue y|)
include hu hz near

omit hu hz in
/-- Between the nearest double and the number there is no other. -/
theorem near_between {y : UInt64} (hy : DFinite y) :
    (dValue y ≤ v → dValue y ≤ dValue u ∨ v < dValue u) ∧ (v ≤ dValue y → dValue u ≤ dValue y ∨ dValue u < v) := by
  constructor
  · intro h
    by_contra hc
    push Not at hc
    have := near y hy hc.1.ne'
    rw [abs_of_nonneg (by linarith), abs_of_nonneg (by linarith)] at this
    linarith
  · intro h
    by_contra hc
    push Not at hc
    have := near y hy hc.1.ne
    rw [abs_of_nonpos (by linarith), abs_of_nonpos (by linarith)] at this
    linarith

theorem down_trip (h : RoundedDown v r) : (r = u ↔ dValue u ≤ v) ∧
    ∀ y, DFinite y → DFinite r → ¬ (dValue r < dValue y ∧ dValue y < dValue u) ∧ ¬ (dValue u < dValue y ∧ dValue y < dValue r) := by
  rcases h with ⟨a, b, c⟩ | ⟨a, b, c⟩
  · refine ⟨⟨fun h => h ▸ b, fun h => ?_⟩, fun y hy _ => ⟨fun ⟨h1, h2⟩ => ?_, fun ⟨h1, h2⟩ => ?_⟩⟩
    · have h1 := c u hu h
      have h2 := ((near_between near a).1 b).resolve_right (not_lt.mpr h)
      rcases dValue_inj a hu (le_antisymm h2 h1) with h | h
      · exact h
      · exact absurd h.2 hz
    · have h3 : v < dValue y := by
        by_contra hc; exact absurd (c y hy (not_lt.mp hc)) (not_le.mpr h1)
      rcases (near_between near hy).2 h3.le with h | h <;> linarith
    · rcases (near_between near hy).1 (by linarith) with h | h <;> linarith
  · exact ⟨⟨fun h => absurd a.1 (h ▸ hu), fun h => absurd (c u hu) (not_lt.mpr h)⟩, fun y _ hr => absurd a.1 hr⟩

theorem up_trip (h : RoundedUp v r) : (r = u ↔ v ≤ dValue u) ∧
    ∀ y, DFinite y → DFinite r → ¬ (dValue r < dValue y ∧ dValue y < dValue u) ∧ ¬ (dValue u < dValue y ∧ dValue y < dValue r) := by
  rcases h with ⟨a, b, c⟩ | ⟨a, b, c⟩
  · refine ⟨⟨fun h => h ▸ b, fun h => ?_⟩, fun y hy _ => ⟨fun ⟨h1, h2⟩ => ?_, fun ⟨h1, h2⟩ => ?_⟩⟩
    · have h1 := c u hu h
      have h2 := ((near_between near a).2 b).resolve_right (not_lt.mpr h)
      rcases dValue_inj a hu (le_antisymm h1 h2) with h | h
      · exact h
      · exact absurd h.2 hz
    · rcases (near_between near hy).2 (by linarith) with h | h <;> linarith
    · have h3 : dValue y < v := by
        by_contra hc; exact absurd (c y hy (not_lt.mp hc)) (not_le.mpr h2)
      rcases (near_between near hy).1 h3.le with h | h <;> linarith
  · exact ⟨⟨fun h => absurd a.1 (h ▸ hu), fun h => absurd (c u hu) (not_lt.mpr h)⟩, fun y _ hr => absurd a.1 hr⟩

end

/-- The printed value `v` is not on the side of the value `x` to which the mode rounds. -/
def GoodSide (m : RMode) (v x : ℚ) : Prop :=
  match m with
  | .nearest => True
  | .upward => v ≤ x
  | .downward => x ≤ v
  | .towardZero => |x| ≤ |v|

/-- C89.  In a directed mode a finite non-zero double survives formatting and reading exactly when its printed value is
not on the far side; otherwise it comes back as the adjacent double on that side. -/
theorem C89_round_trip (F : FpFormat) (hF : Wide F) (m : RMode) (hm : m ≠ .nearest) (env : Env) (henv : EnvOk env)
    (L : Literals) (junk : Bytes) (hj : junk.length = FLOAT_SIZE) (u : UInt64) (hu : DFinite u) (hz : ¬ DZero u) :
    ∃ t v, stringDouble L env junk u = .ok t ∧ IsJsonNumber t v ∧
      (lexiDoubleMode m F t = u ↔ GoodSide m v (dValue u)) ∧
      ∀ y, DFinite y → DFinite (lexiDoubleMode m F t) →
        ¬ (dValue (lexiDoubleMode m F t) < dValue y ∧ dValue y < dValue u) ∧
        ¬ (dValue u < dValue y ∧ dValue y < dValue (lexiDoubleMode m F t)) := by
  obtain ⟨n, hwf, hneg, -, h0, hnear, -, -, htext⟩ := text_spec env henv u hu
  refine ⟨n.text, n.value, htext L junk hj, ⟨n, hwf, rfl, rfl⟩, ?_⟩
  have hr := (C89_read F hF m hm n hwf).1.2
  rw [← value_sgn] at hr
  cases m with
  | nearest => exact absurd rfl hm
  | upward => exact up_trip hu hz hnear hr
  | downward => exact down_trip hu hz hnear hr
  | towardZero =>
    have hr : RoundedZero _ _ := hr
    have hmag := mag_nonneg n
    rcases hb : n.neg with _ | _
    · have hv : 0 ≤ n.value := by rw [value_sgn, hb]; exact hmag
      have hx : 0 ≤ dValue u := by
        by_contra hc; rw [hneg.mpr (not_le.mp hc)] at hb; cases hb
      have := down_trip hu hz hnear (RoundedZero.down hr hv)
      refine ⟨this.1.trans ?_, this.2⟩
      show _ ↔ |_| ≤ |_|
      rw [abs_of_nonneg hx, abs_of_nonneg hv]
    · have hv : n.value ≤ 0 := by rw [value_sgn, hb]; exact neg_nonpos.mpr hmag
      have hx : dValue u ≤ 0 := (hneg.mp hb).le
      have := up_trip hu hz hnear (RoundedZero.up hr hv)
      refine ⟨this.1.trans ?_, this.2⟩
      show _ ↔ |_| ≤ |_|
      rw [abs_of_nonpos hx, abs_of_nonpos hv]
      exact ⟨fun h => neg_le_neg h, fun h => neg_le_neg_iff.mp h⟩

/-- C89.  So the round trip fails: `0.1` (the double) formats as `0.1`, which reads upward as `0.1` and downward or toward
zero as the double before it. -/
theorem C89_tenth : stringDouble .default sampleEnv (List.replicate 30 0) 0x3FB999999999999A = .ok (ascii "0.1") ∧
    ∀ F ∈ [FpFormat.binary64, .x87, .binary128],
      lexiDoubleMode .upward F (ascii "0.1") = 0x3FB999999999999A ∧
      lexiDoubleMode .downward F (ascii "0.1") = 0x3FB9999999999999 ∧
      lexiDoubleMode .towardZero F (ascii "0.1") = 0x3FB9999999999999 := by
  decide +kernel

/-! ### Examples -/

example : Wide .binary64 ∧ Wide .x87 ∧ Wide .binary128 := ⟨by constructor <;> decide, by constructor <;> decide, by constructor <;> decide⟩
example : lexiDoubleMode .upward .x87 (ascii "1e400") = 0x7FF0000000000000 ∧
    lexiDoubleMode .downward .x87 (ascii "1e400") = 0x7FEFFFFFFFFFFFFF ∧
    lexiDoubleMode .upward .x87 (ascii "-1e400") = 0xFFEFFFFFFFFFFFFF ∧
    lexiDoubleMode .upward .x87 (ascii "1e-400") = 1 ∧ lexiDoubleMode .downward .x87 (ascii "1e-400") = 0 ∧
    lexiDoubleMode .downward .x87 (ascii "-1e-400") = 0x8000000000000001 := by decide +kernel
example : lexiFloatMode .upward .x87 (ascii "0.1") = 0x3DCCCCCD ∧ lexiFloatMode .downward .x87 (ascii "0.1") = 0x3DCCCCCC := by
  decide +kernel

end Lexi
