import Mathlib.Logic.Function.Iterate
import Mathlib.Tactic.Ring
import Verif.Props.Sql
import Verif.Props.Str
import Verif.Spec.Nested

/-!
# C123: escaping or quoting several times

A program that pastes a script into a script, or JSON into a string of JSON, applies `escape` or `jsonify` to what they returned.
-/

namespace Lexi
open Spec

/-! ## `escape` -/

theorem backslashed_step (n : ℕ) (s : Bytes) : (backslashed n s).flatMap escB = backslashed (2 * n + 1) s := by
  have rep : ∀ n : ℕ, (List.replicate n (92 : UInt8)).flatMap escB = List.replicate (2 * n) 92 := by
    intro n
    induction n with
    | zero => rfl
    | succ n ih =>
      rw [List.replicate_succ, List.flatMap_cons, ih, show 2 * (n + 1) = 2 * n + 1 + 1 by ring, List.replicate_succ,
        List.replicate_succ]
      rfl
  unfold backslashed
  rw [List.flatMap_assoc]
  congr 1
  funext b
  rcases escB_cases b with ⟨h, e⟩ | ⟨h, e⟩
  · rw [if_pos h, if_pos h, List.flatMap_append, rep, List.replicate_succ', List.append_assoc]
    simp [e]
  · rw [if_neg h, if_neg h]
    simp [e]

/-- C123.  After `k` times every byte that needs escaping has exactly `2^k - 1` backslashes in front of it. -/
theorem C123_escape_exact (sgn : Bool) (k : ℕ) (s : Bytes) : (escapeStr sgn)^[k] s = backslashed (2 ^ k - 1) s := by
  induction k with
  | zero =>
    simp only [Function.iterate_zero, id_eq, pow_zero, Nat.sub_self, backslashed, List.replicate_zero, List.nil_append, ite_self]
    induction s with
    | nil => rfl
    | cons b s ih => rw [List.flatMap_cons, ← ih]; rfl
  | succ k ih =>
    rw [Function.iterate_succ_apply', ih, escapeStr, escape_eq, backslashed_step]
    congr 1
    have := Nat.one_le_two_pow (n := k)
    rw [pow_succ]
    omega

/-- C123.  The exact length after `k` times: what is added doubles with every layer. -/
theorem C123_escape_length (sgn : Bool) (k : ℕ) (s : Bytes) :
    ((escapeStr sgn)^[k] s).length = s.length + (2 ^ k - 1) * s.countP (fun b => NeedsEscape b) := by
  rw [C123_escape_exact]
  generalize 2 ^ k - 1 = n
  unfold backslashed
  induction s with
  | nil => rfl
  | cons b s ih =>
    rw [List.flatMap_cons, List.length_append, ih, List.countP_cons]
    by_cases h : NeedsEscape b
    · simp [h]; ring
    · simp [h]; ring

/-- C123.  Removing `j` of the layers leaves the others, and removing all leaves the string. -/
theorem C123_escape_back (sgn : Bool) (j k : ℕ) (s : Bytes) :
    unescape^[j] ((escapeStr sgn)^[j + k] s) = (escapeStr sgn)^[k] s := by
  induction j with
  | zero => rw [Nat.zero_add]; rfl
  | succ j ih =>
    rw [Function.iterate_succ_apply, show j + 1 + k = (j + k) + 1 by ring, Function.iterate_succ_apply', C14_escape_reversible, ih]

/-- C123.  The number of layers shows, unless there is nothing to escape. -/
theorem C123_escape_layers (sgn : Bool) (j k : ℕ) (s : Bytes) :
    (escapeStr sgn)^[j] s = (escapeStr sgn)^[k] s ↔ j = k ∨ ∀ b ∈ s, ¬ NeedsEscape b := by
  constructor
  · intro h
    by_cases hz : s.countP (fun b => NeedsEscape b) = 0
    · right
      intro b hb hn
      exact List.countP_eq_zero.mp hz b hb (by simpa using hn)
    · left
      have := congrArg List.length h
      rw [C123_escape_length, C123_escape_length] at this
      have e := Nat.eq_of_mul_eq_mul_right (Nat.pos_of_ne_zero hz) (Nat.add_left_cancel this)
      have h1 := Nat.one_le_two_pow (n := j)
      have h2 := Nat.one_le_two_pow (n := k)
      exact Nat.pow_right_injective (le_refl 2) (show 2 ^ j = 2 ^ k by omega)
  · rintro (rfl | h)
    · rfl
    · have fix : escapeStr sgn s = s := by
        rw [escapeStr, escape_eq]
        induction s with
        | nil => rfl
        | cons b s ih =>
          rw [List.flatMap_cons, ih fun c hc => h c (by simp [hc])]
          rcases escB_cases b with ⟨h', _⟩ | ⟨_, e⟩
          · exact absurd h' (h b (by simp))
          · rw [e]; rfl
      rw [Function.iterate_fixed fix, Function.iterate_fixed fix]

example : (escapeStr true)^[3] (ascii "a b") = ascii "a\\\\\\\\\\\\\\ b" := by decide
example : unescape^[2] ((escapeStr true)^[2 + 1] (ascii "a b")) = ascii "a\\ b" := by decide

/-! ## `jsonify` -/

/-- `jsonify` applied `k` times to a string (include/lexi/lexi.hpp:226-230 each time). -/
def jsonifyTimes (sgn : Bool) : ℕ → Bytes → Res Bytes
  | 0, s => .ok s
  | k + 1, s => do
    let t ← jsonifyTimes sgn k s
    jsonifyStr sgn t

theorem jsonB_counts (c : UInt8) :
    (jsonB c).countP (fun b => b = 34 ∨ b = 92) =
      (if c = 34 ∨ c = 92 then 2 else 0) + (if c < 32 then 1 else 0) ∧
    (jsonB c).countP (fun b => b < 32) = 0 ∧
    (jsonB c).length + (if c ∈ ([8, 9, 10, 12, 13] : Bytes) then 4 else 0) =
      1 + (if c = 34 ∨ c = 92 then 1 else 0) + (if c < 32 then 5 else 0) := by
  revert c
  apply forall_byte
  decide +kernel

theorem json_counts (s : Bytes) :
    quotes (s.flatMap jsonB) = 2 * quotes s + controls s ∧ controls (s.flatMap jsonB) = 0 ∧
    (s.flatMap jsonB).length + 4 * shortControls s = s.length + quotes s + 5 * controls s := by
  unfold quotes controls shortControls
  induction s with
  | nil => exact ⟨rfl, rfl, rfl⟩
  | cons c s ih =>
    obtain ⟨h1, h2, h3⟩ := ih
    obtain ⟨a1, a2, a3⟩ := jsonB_counts c
    simp only [List.flatMap_cons, List.countP_append, List.length_append, List.countP_cons, List.length_cons,
      decide_eq_true_eq] at *
    refine ⟨?_, by omega, ?_⟩
    · rw [h1, a1]; split <;> split <;> omega
    · rw [show ∀ (P : Prop) [Decidable P], (if P then 5 else 0) = 5 * if P then 1 else 0 from fun P _ => by split <;> rfl,
        show ∀ (P : Prop) [Decidable P], (if P then 4 else 0) = 4 * if P then 1 else 0 from fun P _ => by split <;> rfl] at a3
      omega

theorem json_counts_quoted (s : Bytes) :
    quotes (34 :: (s.flatMap jsonB ++ [34])) = 2 * quotes s + controls s + 2 ∧
    controls (34 :: (s.flatMap jsonB ++ [34])) = 0 ∧
    (34 :: (s.flatMap jsonB ++ [34])).length + 4 * shortControls s = s.length + quotes s + 5 * controls s + 2 := by
  obtain ⟨h1, h2, h3⟩ := json_counts s
  refine ⟨?_, ?_, ?_⟩
  · rw [← h1]; simp [quotes]
  · rw [← h2]; simp [controls]
  · simp only [List.length_cons, List.length_append, List.length_nil]; omega

theorem shortControls_le (s : Bytes) : shortControls s ≤ controls s := by
  unfold shortControls controls
  apply List.countP_mono_left
  intro b _ hb
  have : ∀ c : UInt8, decide (c ∈ ([8, 9, 10, 12, 13] : Bytes)) = true → decide (c < 32) = true := by
    apply forall_byte
    decide +kernel
  exact this b hb

theorem times_counts (sgn : Bool) (k : ℕ) (s : Bytes) :
    ∃ t, jsonifyTimes sgn (k + 1) s = .ok t ∧ controls t = 0 ∧ quotes t + 2 = 2 ^ k * (2 * quotes s + controls s + 4) ∧
      t.length + 4 * shortControls s =
        s.length + 2 + quotes s + 5 * controls s + (2 ^ k - 1) * (2 * quotes s + controls s + 4) := by
  induction k with
  | zero =>
    obtain ⟨h1, h2, h3⟩ := json_counts_quoted s
    refine ⟨_, by simp only [jsonifyTimes]; exact jsonifyStr_eq sgn s, h2, by rw [h1, pow_zero]; ring, ?_⟩
    simp only [pow_zero, Nat.sub_self, Nat.zero_mul, Nat.add_zero]
    omega
  | succ k ih =>
    obtain ⟨t, e, hc, hq, hl⟩ := ih
    obtain ⟨h1, h2, h3⟩ := json_counts_quoted t
    have hs : shortControls t = 0 := Nat.le_zero.mp (hc ▸ shortControls_le t)
    refine ⟨_, by rw [jsonifyTimes, e]; exact jsonifyStr_eq sgn t, h2, ?_, ?_⟩
    · rw [h1, hc, pow_succ]
      have : 2 ^ k * 2 * (2 * quotes s + controls s + 4) = 2 * (2 ^ k * (2 * quotes s + controls s + 4)) := by ring
      omega
    · rw [hs, hc] at h3
      have h1' := Nat.one_le_two_pow (n := k)
      have : (2 ^ (k + 1) - 1) * (2 * quotes s + controls s + 4) =
          (2 ^ k - 1) * (2 * quotes s + controls s + 4) + 2 ^ k * (2 * quotes s + controls s + 4) := by
        rw [← Nat.add_mul, pow_succ]
        congr 1
        omega
      omega

/-- C123.  The exact length of `k + 1` layers of JSON. -/
theorem C123_json_length (sgn : Bool) (k : ℕ) (s : Bytes) :
    ∃ t, jsonifyTimes sgn (k + 1) s = .ok t ∧
      t.length + 4 * shortControls s =
        s.length + 2 + quotes s + 5 * controls s + (2 ^ k - 1) * (2 * quotes s + controls s + 4) := by
  obtain ⟨t, e, -, -, hl⟩ := times_counts sgn k s
  exact ⟨t, e, hl⟩

/-- C123.  `k` layers have at least `2^(k+1) - 2` bytes more than the string, whatever the string. -/
theorem C123_json_grows (sgn : Bool) (k : ℕ) (s : Bytes) :
    ∃ t, jsonifyTimes sgn k s = .ok t ∧ s.length + 2 ^ (k + 1) ≤ t.length + 2 := by
  cases k with
  | zero => exact ⟨s, rfl, le_refl _⟩
  | succ k =>
    obtain ⟨t, e, hl⟩ := C123_json_length sgn k s
    refine ⟨t, e, ?_⟩
    have h1 := Nat.one_le_two_pow (n := k)
    have h2 := shortControls_le s
    have h3 : (2 ^ k - 1) * 4 ≤ (2 ^ k - 1) * (2 * quotes s + controls s + 4) := Nat.mul_le_mul_left _ (by omega)
    rw [pow_succ, pow_succ]
    omega

/-- C123.  Reading `j` of the layers leaves the others, and reading all gives the string. -/
theorem C123_json_back (sgn : Bool) (j k : ℕ) (s : Bytes) :
    ∃ t u, jsonifyTimes sgn (j + k) s = .ok t ∧ jsonifyTimes sgn k s = .ok u ∧ readNested j t = some u ∧
      readNested (j + k) t = some s := by
  have ok : ∀ k, ∃ u, jsonifyTimes sgn k s = .ok u := fun k => (C123_json_grows sgn k s).imp fun _ => And.left
  have back : ∀ (j k : ℕ) (t u : Bytes), jsonifyTimes sgn (j + k) s = .ok t → jsonifyTimes sgn k s = .ok u →
      readNested j t = some u := by
    intro j
    induction j with
    | zero =>
      intro k t u ht hu
      rw [Nat.zero_add, hu] at ht
      cases ht
      rfl
    | succ j ih =>
      intro k t u ht hu
      obtain ⟨v, hv⟩ := ok (j + k)
      rw [show j + 1 + k = (j + k) + 1 by ring, jsonifyTimes, hv] at ht
      obtain ⟨t', e, hr, -⟩ := C16_jsonify_decodes sgn v []
      have : t = t' := by
        have ht : jsonifyStr sgn v = .ok t := ht
        rw [e] at ht
        cases ht
        rfl
      rw [this, readNested, hr]
      exact ih k v u hv hu
  obtain ⟨t, ht⟩ := ok (j + k)
  obtain ⟨u, hu⟩ := ok k
  exact ⟨t, u, ht, hu, back j k t u ht hu, back (j + k) 0 t s ht rfl⟩

/-- C123.  The number of layers always shows: no string is the same after different numbers of layers. -/
theorem C123_json_layers (sgn : Bool) (j k : ℕ) (s : Bytes) (h : jsonifyTimes sgn j s = jsonifyTimes sgn k s) : j = k := by
  have grow : ∀ j d, jsonifyTimes sgn (d + 1 + j) s ≠ jsonifyTimes sgn j s := by
    intro j d e
    obtain ⟨t, u, ht, hu, -, -⟩ := C123_json_back sgn (d + 1) j s
    rw [ht, hu] at e
    cases e
    obtain ⟨v, hv, hl⟩ := C123_json_grows sgn (d + 1) t
    have split : ∀ d, jsonifyTimes sgn (d + j) s = jsonifyTimes sgn d t := by
      intro d
      induction d with
      | zero => rw [Nat.zero_add]; exact hu
      | succ d ih => rw [show d + 1 + j = (d + j) + 1 by ring, jsonifyTimes, ih]; rfl
    rw [← split, ht] at hv
    cases hv
    have : 2 ^ 2 ≤ 2 ^ (d + 1 + 1) := Nat.pow_le_pow_right (by decide) (by omega)
    omega
  rcases Nat.lt_trichotomy j k with hl | rfl | hl
  · obtain ⟨d, rfl⟩ := Nat.exists_eq_add_of_lt hl
    exact absurd h.symm (by rw [show j + d + 1 = d + 1 + j by ring]; exact grow j d)
  · rfl
  · obtain ⟨d, rfl⟩ := Nat.exists_eq_add_of_lt hl
    exact absurd h (by rw [show k + d + 1 = d + 1 + k by ring]; exact grow k d)

/-- Three layers over a quote and a line feed, and their length by the formula. -/
example : (∃ t, jsonifyTimes true 3 (ascii "\"\n") = .ok t ∧ t.length = 27 ∧ readNested 3 t = some (ascii "\"\n")) ∧
    jsonifyTimes true 2 (ascii "\n") = .ok (ascii "\"\\\"\\\\n\\\"\"") := by
  refine ⟨⟨_, rfl, ?_, ?_⟩, ?_⟩ <;> decide +kernel

end Lexi
