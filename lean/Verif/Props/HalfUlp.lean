import Verif.Model.Strtod
import Verif.Spec.HalfUlp
import Verif.Props.FloatRead
import Verif.Proofs.BigInt

/-!
# C99: the unfinished half-way test

`withinHalfULP` is a stub: it answers "half-way" whatever it is asked.
-/

namespace Lexi
open Spec Dtoa DiyFp Strtod BigInt

/-- `min3` returns the least of three numbers. -/
theorem C99_min3 {α : Type} [LinearOrder α] (a b c : α) :
    IsLeast {a, b, c} (min3 (fun x y => decide (x < y)) a b c) := by
  have h : ∀ x y : α, stdMin (fun x y => decide (x < y)) x y = min x y := by
    intro x y
    unfold stdMin
    by_cases hlt : y < x
    · rw [if_pos (by simpa using hlt), min_eq_right hlt.le]
    · rw [if_neg (by simpa using hlt), min_eq_left (not_lt.1 hlt)]
  have e : min3 (fun x y => decide (x < y)) a b c = min a (min b c) := by unfold min3; rw [h, h]
  rw [e]
  constructor
  · rcases min_choice a (min b c) with h1 | h1 <;> rw [h1]
    · simp
    · rcases min_choice b c with h2 | h2 <;> rw [h2] <;> simp
  · rintro x (rfl | rfl | rfl)
    · exact min_le_left _ _
    · exact (min_le_right _ _).trans (min_le_left _ _)
    · exact (min_le_right _ _).trans (min_le_right _ _)

example : min3 (fun x y : Int => decide (x < y)) 5 (-3) 7 = -3 := by decide

/-- The answer of `withinHalfULP` is right exactly for the two points half-way to the neighbours. -/
theorem C99_right_iff (b : UInt64) (d : BigInt) (e : ℤ) :
    withinHalfULP b d e = halfUlpSign b (d.value * 10 ^ e) ↔
      (d.value : ℚ) * 10 ^ e = dMag b + 2 ^ (dUlpExp b - 1) ∨ (d.value : ℚ) * 10 ^ e = dMag b - 2 ^ (dUlpExp b - 1) := by
  have hp : (0 : ℚ) < 2 ^ (dUlpExp b - 1) := by positivity
  show (0 : ℤ) = halfUlpSign b _ ↔ _
  generalize (d.value : ℚ) * 10 ^ e = x
  have hx : |x - dMag b| = 2 ^ (dUlpExp b - 1) ↔ x = dMag b + 2 ^ (dUlpExp b - 1) ∨ x = dMag b - 2 ^ (dUlpExp b - 1) := by
    rw [abs_eq hp.le]
    constructor
    · rintro (h | h)
      · left; linarith
      · right; linarith
    · rintro (h | h)
      · left; linarith
      · right; linarith
  rw [← hx]
  unfold halfUlpSign
  split
  · next h => exact ⟨fun h' => absurd h' (by decide), fun h' => absurd h' h.ne⟩
  · split
    · next h => exact ⟨fun _ => h, fun _ => rfl⟩
    · next h => exact ⟨fun h' => absurd h' (by decide), fun h' => absurd h' h⟩

/-- `2^53 + 1` is half-way between `2^53` and `2^53 + 2`: the answer is right. -/
example : withinHalfULP 0x4340000000000000 (ofWord (fun _ => 0) 9007199254740993) 0 =
    halfUlpSign 0x4340000000000000 ((ofWord (fun _ => 0) 9007199254740993).value * 10 ^ (0 : ℤ)) := by
  rw [C99_right_iff]
  left
  have h1 : (ofWord (fun _ => 0) 9007199254740993).value = 9007199254740993 := by decide +kernel
  have h2 : dSig 0x4340000000000000 = 2 ^ 52 := by decide +kernel
  have h3 : dUlpExp 0x4340000000000000 = 1 := by decide +kernel
  rw [h1]; unfold dMag; rw [h2, h3]; norm_num

/-- The answer is wrong for the digits the library itself prints for a number, with the number as the guess: they are
within half a unit in the last place of every finite number but 0. -/
theorem C99_own_digits (env : Env) (henv : EnvOk env) (L : Literals) (junk : Bytes) (hj : junk.length = FLOAT_SIZE)
    (u : UInt64) (hfin : DFinite u) (hnz : ¬ DZero u) :
    ∃ (t : Bytes) (D : ℕ) (k : ℤ), stringDouble L env junk u = .ok t ∧
      IsJsonNumber t (if dNeg u then -(D * 10 ^ k) else D * 10 ^ k) ∧ (∃ d : BigInt, d.Inv ∧ d.value = D) ∧
      ∀ d : BigInt, d.value = D →
        halfUlpSign u (d.value * 10 ^ k) = -1 ∧ withinHalfULP u d k ≠ halfUlpSign u (d.value * 10 ^ k) := by
  obtain ⟨D, k, hP, h⟩ := stringDouble_finite env henv u hfin hnz
  refine ⟨_, D, k, h u rfl L junk hj, ?_, ?_, fun d hd => ?_⟩
  · refine ⟨prettyNumber (decide (dNeg u)) (decN D) k, hP.WF hnz _, (signed_text _ _ _).symm, ?_⟩
    exact pretty_value (dNeg u) D k
  · refine ⟨ofWord (fun _ => 0) (UInt64.ofNat D), ⟨le_rfl, show 1 ≤ CAPACITY by decide, Or.inl rfl⟩, ?_⟩
    have hlt := hP.lt17
    show wordsValue _ 1 = D
    simp only [wordsValue, ofWord, upd, if_true]
    have : (UInt64.ofNat D).toNat = D := toNat_ofNat_lt _ (by norm_num at hlt ⊢; omega)
    rw [this]; simp
  · have hpos := dSig_pos hnz
    have e2 : (2 : ℚ) ^ dUlpExp u = 2 * 2 ^ (dUlpExp u - 1) := by
      rw [← zpow_one_add₀ (by norm_num)]; congr 1; ring
    have e4 : (2 : ℚ) ^ (dUlpExp u - 1) = 2 * 2 ^ (dUlpExp u - 2) := by
      rw [← zpow_one_add₀ (by norm_num)]; congr 1; ring
    have hq : (0 : ℚ) < 2 ^ (dUlpExp u - 2) := by positivity
    have hhi : highB u = dMag u + 2 ^ (dUlpExp u - 1) := by
      unfold highB dMag; rw [e2]; push_cast; ring
    have hlo : dMag u - 2 ^ (dUlpExp u - 1) ≤ lowB u := by
      unfold lowB dMag
      split
      · rw [e2, e4]
        rw [Nat.cast_sub (by omega)]; push_cast
        nlinarith
      · rw [e2, Nat.cast_sub (by omega)]; push_cast
        nlinarith
    have hs : halfUlpSign u (d.value * 10 ^ k) = -1 := by
      unfold halfUlpSign
      rw [if_pos]
      have h1 := hP.lower
      have h2 := hP.upper
      rw [hd, abs_lt]
      constructor <;> linarith
    exact ⟨hs, by rw [hs]; show (0 : ℤ) ≠ -1; decide⟩

example : EnvOk sampleEnv ∧ (List.replicate 30 (0 : UInt8)).length = FLOAT_SIZE ∧ DFinite 0x3FF8000000000000 ∧
    ¬ DZero 0x3FF8000000000000 := ⟨sampleEnv_ok, by decide, by decide, by decide⟩

end Lexi
