import Verif.Proofs.Work
import Verif.Props.Float

/-!
# C98: the work of formatting a number is bounded

The loops of `grisu2` have no bound in the source: two of them are left by a `break` or a `return` inside, and the loop
of `grisuRound` and those of `normalize` test a condition on numbers.  The counted versions of the functions
(`Model/Work`) do the same as the functions of the model and say how often each loop turns.
-/

namespace Lexi

open Dtoa DiyFp Spec

/-- Counting changes nothing, whatever the number, the memory and the platform. -/
theorem C98_counting (env : Env) (u : UInt64) (b : Cur) :
    (grisu2C env u b >>= fun r => pure r.1) = grisu2 env u b := grisu2C_erase env u b

example : (grisu2C sampleEnv 0x3FB999999999999A ⟨List.replicate 30 0, 0⟩ >>= fun r => pure r.1.2) = .ok (-1) := by
  decide +kernel

/-- For every finite number but 0 the digit loops turn once per digit written, at most 17 times; the last digit is
corrected at most 9 times; each normalisation loop turns once for every leading zero of the significand, at most 52 times,
and not at all for a normal number. -/
theorem C98_bounded (env : Env) (henv : EnvOk env) (u : UInt64) (hfin : DFinite u) (hnz : ¬ DZero u) (M : Bytes)
    (base : Nat) (hM : base + 17 ≤ M.length) :
    ∃ c k w, grisu2 env u ⟨M, base⟩ = .ok (c, k) ∧ grisu2C env u ⟨M, base⟩ = .ok ((c, k), w) ∧
      c.pos = base + w.tally.passes ∧ 1 ≤ w.tally.passes ∧ w.tally.passes ≤ 17 ∧ w.tally.fixes ≤ 9 ∧
      w.bound ≤ 52 ∧ w.norm ≤ 52 ∧ (dExp u ≠ 0 → w.bound = 0 ∧ w.norm = 0) := by
  obtain ⟨D, k, hD, hlo, -, -, -, -, -, -, hr⟩ := grisu2_spec env henv.dk henv.oob u hfin hnz
  have h := hr M base hM
  obtain ⟨w, h1, h2, h3, h4, h5⟩ := grisu2C_spec env henv.dk u hfin hnz h
  have hp : (at_ M base (decN D)).pos = base + (decN D).length := rfl
  rw [hp] at h2
  have hlen : (decN D).length ≤ 17 := decN_length_le _ _ hD (by omega)
  have hne : 1 ≤ (decN D).length := List.length_pos_iff.2 (decN_ne_nil D)
  have h2' : base + (decN D).length = base + w.tally.passes := h2
  refine ⟨_, _, w, h, h1, h2, by omega, by omega, h3, ?_, ?_, fun hn => ?_⟩
  · rw [h4]; split <;> omega
  · rw [h5]; split <;> omega
  · have : 52 ≤ (dSig u).log2 := by
      have h0 : 2 ^ 52 ≤ dSig u := by unfold dSig; rw [if_neg hn]; omega
      exact (Nat.le_log2 (by omega)).2 h0
    rw [h4, h5]
    constructor <;> split <;> omega

/-- The whole number of turns of the loops of `grisu2` is at most 130 for every number. -/
theorem C98_total (env : Env) (henv : EnvOk env) (u : UInt64) (hfin : DFinite u) (hnz : ¬ DZero u) (M : Bytes)
    (base : Nat) (hM : base + 17 ≤ M.length) :
    ∃ c w, grisu2C env u ⟨M, base⟩ = .ok (c, w) ∧ w.bound + w.norm + w.tally.passes + w.tally.fixes ≤ 130 := by
  obtain ⟨c, k, w, -, h, -, -, h1, h2, h3, h4, -⟩ := C98_bounded env henv u hfin hnz M base hM
  exact ⟨_, w, h, by omega⟩

/-- The smallest number, 5e-324: 52 turns of the normalisation, one digit, corrected twice (from 7). -/
example : DFinite 1 ∧ ¬ DZero 1 ∧ ∃ c k, grisu2C sampleEnv 1 ⟨List.replicate 30 0, 0⟩ = .ok ((c, k), ⟨52, 0, ⟨1, 2⟩⟩) := by
  refine ⟨by decide, by decide, ⟨53 :: List.replicate 29 0, 1⟩, -324, by decide +kernel⟩

/-- 0.30000000000000004: 17 digits, so the bound is reached. -/
example : (grisu2C sampleEnv 0x3FD3333333333334 ⟨List.replicate 30 0, 0⟩ >>= fun r => pure r.2) = .ok ⟨0, 0, ⟨17, 0⟩⟩ := by
  decide +kernel

end Lexi
