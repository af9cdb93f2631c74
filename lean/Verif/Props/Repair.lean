import Verif.Proofs.Repair
import Verif.Props.BigInt

/-!
# C102: with `operator<<=` and `difference` repaired, the big integer computes on natural numbers

C37, C39, C41, C42 and C43 are false of the code.  Model/Repair.lean changes lines of two functions; here are the full statements for the
changed code, the rest being the code of the repository.  Nothing here is about the present `operator<<=` and `difference`.
-/

namespace Lexi
open Spec BigInt Dtoa

/-- `Yields` without the disjunction. -/
theorem Yields.split {r : Res BigInt} {T : ℕ} (h : Yields r T) :
    (T < 2 ^ 26624 → ∃ b', r = .ok b' ∧ Inv b' ∧ b'.value = T) ∧ (2 ^ 26624 ≤ T → r = .throws) := by
  have e : 64 * CAPACITY = 26624 := rfl
  refine ⟨fun hT => h.ok (by rw [e]; exact hT), fun hT => ?_⟩
  rcases h with ⟨b', -, h2, h3⟩ | ⟨h1, -⟩
  · exfalso
    have h4 := value_lt b'
    have h5 : 2 ^ (64 * b'.count) ≤ 2 ^ 26624 := by
      rw [← e]; exact Nat.pow_le_pow_right (by decide) (Nat.mul_le_mul_left _ h2.le)
    exact absurd (lt_of_lt_of_le h4 (h5.trans hT)) (by rw [h3]; exact lt_irrefl _)
  · exact h1

/-- C102, shift (C39 and C43 in full): the repaired shift is exact for every number and every distance for which the result fits in the 416 words,
and throws otherwise. -/
theorem C102_shift (b : BigInt) (h : Inv b) (s : ℕ) :
    (b.value * 2 ^ s < 2 ^ 26624 → ∃ b', shlR b s = .ok b' ∧ Inv b' ∧ b'.value = b.value * 2 ^ s) ∧
    (2 ^ 26624 ≤ b.value * 2 ^ s → shlR b s = .throws) :=
  Yields.split (shlR_spec h s)

/-- The history of `C39_refuted`. -/
example : (match (ofWord (fun _ => 0) 1).shlR 65 with
    | .ok b => (match b.shlR 64 with | .ok b' => b'.value | _ => 0)
    | _ => 0) = 2 ^ 129 := by decide +kernel

/-- The whole array can be used: the history of `C43_refuted` throws in place of writing outside the object. -/
example (junk : ℕ → UInt64) : ∃ b, (ofWord junk 1).shlR 26560 = .ok b ∧ Inv b ∧
    (∃ b', b.shlR 63 = .ok b' ∧ b'.value = 2 ^ 26623) ∧ b.shlR 64 = .throws := by
  obtain ⟨h0, h1⟩ := ofWord_inv junk 1
  have e1 : (1 : UInt64).toNat = 1 := rfl
  rw [e1] at h1
  have lt : ∀ {m n : ℕ}, m < n → 2 ^ m < 2 ^ n := fun h => Nat.pow_lt_pow_right (by decide) h
  obtain ⟨b, h2, h3, h4⟩ := (C102_shift _ h0 26560).1 (by rw [h1, Nat.one_mul]; exact lt (by decide))
  rw [h1, Nat.one_mul] at h4
  refine ⟨b, h2, h3, ?_, (C102_shift b h3 64).2 (by rw [h4, ← pow_add])⟩
  obtain ⟨b', h5, -, h6⟩ := (C102_shift b h3 63).1 (by rw [h4, ← pow_add]; exact lt (by decide))
  exact ⟨b', h5, by rw [h6, h4, ← pow_add]⟩

/-- C102, decimal text (C37 in full): with the repaired shift every run of digits whose number fits is converted exactly, and anything else throws. -/
theorem C102_decimal (v : MulImpl) (junk : ℕ → UInt64) (s : Bytes) :
    ((∀ c ∈ s, IsDigit c) → digitsValue s < 2 ^ 26624 → ∃ b, ofDecimalR v junk s = .ok b ∧ Inv b ∧ b.value = digitsValue s) ∧
    ((∀ c ∈ s, IsDigit c) → 2 ^ 26624 ≤ digitsValue s → ofDecimalR v junk s = .throws) ∧
    ((∃ c ∈ s, ¬ IsDigit c) → ofDecimalR v junk s = .throws) :=
  ⟨fun h => (Yields.split (ofDecimalR_spec v junk s h)).1, fun h => (Yields.split (ofDecimalR_spec v junk s h)).2,
    ofDecimalR_throws v junk s⟩

/-- 8000 digits, where the present code writes outside the object (`C37_limit`). -/
example (v : MulImpl) (junk : ℕ → UInt64) : ∃ b, ofDecimalR v junk (List.replicate 8000 57) = .ok b ∧ b.value + 1 = 10 ^ 8000 := by
  have hd : ∀ c ∈ List.replicate 8000 (57 : UInt8), IsDigit c := by
    intro c hc; rw [List.eq_of_mem_replicate hc]; decide
  have hv : ∀ n, digitsValue (List.replicate n 57) + 1 = 10 ^ n := by
    intro n
    induction n with
    | zero => rfl
    | succ n ih =>
      have : digitsValue [57] = 9 := rfl
      rw [List.replicate_succ', digitsValue_append, List.length_singleton, this, pow_succ, pow_zero, pow_succ, ← ih]
      ring
  have h1 := hv 8000
  have h2 : 10 ^ 8000 ≤ 2 ^ 26624 := by decide +kernel
  obtain ⟨b, h3, -, h4⟩ := (C102_decimal v junk _).1 hd (by omega)
  exact ⟨b, h3, by rw [h4]; exact h1⟩

/-- C102, difference (C41 in full): the repaired `difference` throws on equal numbers and otherwise stores `|a - b|` and nothing else, also when the
output is one of the operands. -/
theorem C102_difference (st : Store) (this other out : ℕ) (ha : Inv (st this)) (hb : Inv (st other)) :
    ((st this).value = (st other).value → differenceR this other out st = .throws) ∧
    ((st this).value ≠ (st other).value →
      ∃ st', differenceR this other out st = .ok (decide ((st this).value < (st other).value), st') ∧
        (∀ q, q ≠ out → st' q = st q) ∧ Inv (st' out) ∧
        ((st' out).value : ℤ) = |((st this).value : ℤ) - (st other).value|) := by
  unfold differenceR
  rw [compare_spec ha hb, Res.ok_bind]
  refine ⟨fun heq => by
    rw [if_neg (show ¬ (st this).value < (st other).value by omega), if_pos heq, if_pos rfl], fun hne => ?_⟩
  rcases Nat.lt_or_gt_of_ne hne with hlt | hgt
  · obtain ⟨st', h1, h2, h3, h4⟩ := diffLoopR_value (a := other) (b := this) (out := out) hb ha hlt
    refine ⟨st', ?_, h2, h3, ?_⟩
    · rw [if_pos hlt, if_neg (by decide), if_pos (by decide)]
      simp only
      rw [h1, Res.ok_bind, decide_eq_true hlt]
    · rw [h4, Nat.cast_sub hlt.le, abs_sub_comm, abs_of_nonneg]
      have : ((st this).value : ℤ) < (st other).value := by exact_mod_cast hlt
      omega
  · obtain ⟨st', h1, h2, h3, h4⟩ := diffLoopR_value (a := this) (b := other) (out := out) ha hb hgt
    refine ⟨st', ?_, h2, h3, ?_⟩
    · rw [if_neg (show ¬ (st this).value < (st other).value by omega), if_neg (show ¬ (st this).value = (st other).value by omega),
        if_neg (by decide), if_neg (by decide)]
      simp only
      rw [h1, Res.ok_bind, decide_eq_false (by omega)]
    · rw [h4, Nat.cast_sub hgt.le, abs_of_nonneg]
      have : ((st other).value : ℤ) < (st this).value := by exact_mod_cast hgt
      omega

/-- The operands of `C41_refuted` and those of `C41_in_place_wrong`, the latter with the output an operand. -/
example : (match differenceR 0 1 2 (sampleStore (sampleBig [0, 5, 1]) (sampleBig [1, 0xFFFFFFFFFFFFFFFF]) (sampleBig [0])) with
      | .ok (_, st') => (st' 2).value | _ => 0) = (2 ^ 128 + 5 * 2 ^ 64) - (2 ^ 128 - 2 ^ 64 + 1) ∧
    (match differenceR 0 1 0 (sampleStore (sampleBig [5, 9]) (sampleBig [1, 2]) (sampleBig [0])) with
      | .ok (_, st') => (st' 0).value | _ => 0) = 4 + 7 * 2 ^ 64 ∧
    (match differenceR 0 1 1 (sampleStore (sampleBig [5, 9]) (sampleBig [1, 2]) (sampleBig [0])) with
      | .ok (_, st') => (st' 1).value | _ => 0) = 4 + 7 * 2 ^ 64 := by decide +kernel

/-- An operation of the repaired class: those of C42, and `difference`. -/
inductive RepairedOp where
  | op (o : BigOp)
  /-- `this.difference(other, &out)` -/
  | diff (this other out : ℕ)

/-- The program, with the repaired functions. -/
def RepairedOp.run (v : MulImpl) (st : Store) : RepairedOp → Res Store
  | .op (.decimal p junk s) => do .ok (st.set p (← ofDecimalR v junk s))
  | .op (.shl p s) => do .ok (st.set p (← BigInt.shlR (st p) s))
  | .op o => o.run v st
  | .diff this other out => do .ok (← differenceR this other out st).2

/-- The specification on natural numbers. -/
def RepairedOp.nat (x : ℕ → ℕ) : RepairedOp → ℕ → ℕ
  | .op o => o.nat x
  | .diff this other out => setVar x out (max (x this) (x other) - min (x this) (x other))

/-- When the operation is defined on 416 words: the result fits, decimal text is digits, the operands of `difference` differ. -/
def RepairedOp.Defined (x : ℕ → ℕ) (o : RepairedOp) : Prop :=
  (∀ p, o.nat x p < 2 ^ 26624) ∧
  match o with
  | .op (.decimal _ _ s) => ∀ c ∈ s, IsDigit c
  | .op _ => True
  | .diff this other _ => x this ≠ x other

/-- A history of the repaired class. -/
def repairedHistory (v : MulImpl) : Store → List RepairedOp → Res Store
  | st, [] => .ok st
  | st, o :: os => do repairedHistory v (← o.run v st) os

/-- The variables after a history. -/
def repairedNat : (ℕ → ℕ) → List RepairedOp → ℕ → ℕ
  | x, [] => x
  | x, o :: os => repairedNat (o.nat x) os

/-- Every operation is defined where it is applied. -/
def DefinedHistory : (ℕ → ℕ) → List RepairedOp → Prop
  | _, [] => True
  | x, o :: os => o.Defined x ∧ DefinedHistory (o.nat x) os

/-- One step of the repaired class. -/
theorem repaired_step (v : MulImpl) {st : Store} {x : ℕ → ℕ} (hst : ∀ p, Inv (st p)) (hx : ∀ p, (st p).value = x p)
    (o : RepairedOp) :
    (o.Defined x → ∃ st', o.run v st = .ok st' ∧ (∀ p, Inv (st' p)) ∧ ∀ p, (st' p).value = o.nat x p) ∧
    (¬ o.Defined x → o.run v st = .throws) := by
  have e : 64 * CAPACITY = 26624 := rfl
  have small : ∀ {b : BigInt}, Inv b → b.value < 2 ^ 26624 := fun {b} h =>
    lt_of_lt_of_le (value_lt b) (by rw [← e]; exact Nat.pow_le_pow_right (by decide) (Nat.mul_le_mul_left _ h.le))
  -- a step that sets one variable
  have keep : ∀ {p n : ℕ}, n < 2 ^ 26624 → ∀ q, setVar x p n q < 2 ^ 26624 := by
    intro p n hn q
    unfold setVar
    split
    · exact hn
    · rw [← hx q]; exact small (hst q)
  have at' : ∀ {p n : ℕ}, (∀ q, setVar x p n q < 2 ^ 26624) → n < 2 ^ 26624 := by
    intro p n h
    have := h p
    rwa [setVar, if_pos rfl] at this
  have total : ∀ {p n : ℕ} {b : BigInt}, Inv b → b.value = n →
      (((∀ q, setVar x p n q < 2 ^ 26624) ∧ True) → ∃ st', (.ok (st.set p b) : Res Store) = .ok st' ∧ (∀ q, Inv (st' q)) ∧
        ∀ q, (st' q).value = setVar x p n q) ∧
      (¬ ((∀ q, setVar x p n q < 2 ^ 26624) ∧ True) → (.ok (st.set p b) : Res Store) = .throws) := by
    intro p n b h1 h2
    exact ⟨fun _ => ⟨_, rfl, set_inv hst h1, setVar_value hx h2⟩,
      fun h => absurd ⟨keep (by rw [← h2]; exact small h1), trivial⟩ h⟩
  have partialOp : ∀ {p n : ℕ} {r : Res BigInt}, Yields r n →
      (((∀ q, setVar x p n q < 2 ^ 26624) ∧ True) →
        ∃ st', (do .ok (st.set p (← r)) : Res Store) = .ok st' ∧ (∀ q, Inv (st' q)) ∧
        ∀ q, (st' q).value = setVar x p n q) ∧
      (¬ ((∀ q, setVar x p n q < 2 ^ 26624) ∧ True) → (do .ok (st.set p (← r)) : Res Store) = .throws) := by
    intro p n r hr
    obtain ⟨h1, h2⟩ := Yields.split hr
    constructor
    · rintro ⟨h, -⟩
      obtain ⟨b, h3, h4, h5⟩ := h1 (at' h)
      exact ⟨st.set p b, by rw [h3, Res.ok_bind], set_inv hst h4, setVar_value hx h5⟩
    · intro h
      have : 2 ^ 26624 ≤ n := by
        by_contra hc
        exact h ⟨keep (not_le.mp hc), trivial⟩
      rw [h2 this]; rfl
  cases o with
  | diff this other out =>
    obtain ⟨h1, h2⟩ := C102_difference st this other out (hst this) (hst other)
    simp only [hx] at h1 h2
    constructor
    · rintro ⟨-, hne⟩
      obtain ⟨st', h3, h4, h5, h6⟩ := h2 hne
      refine ⟨st', by rw [RepairedOp.run, h3, Res.ok_bind], fun q => ?_, fun q => ?_⟩
      · by_cases hq : q = out
        · rw [hq]; exact h5
        · rw [h4 q hq]; exact hst q
      · simp only [RepairedOp.nat, setVar]
        split
        · rename_i hq
          rw [hq]
          rcases Nat.le_total (x this) (x other) with hle | hle
          · have h7 : (x this : ℤ) ≤ x other := by exact_mod_cast hle
            rw [max_eq_right hle, min_eq_left hle]
            rw [abs_of_nonpos (by omega)] at h6
            omega
          · have h7 : (x other : ℤ) ≤ x this := by exact_mod_cast hle
            rw [max_eq_left hle, min_eq_right hle]
            rw [abs_of_nonneg (by omega)] at h6
            omega
        · rename_i hq
          rw [h4 q hq]; exact hx q
    · intro h
      have heq : x this = x other := by
        by_contra hne
        refine h ⟨keep ?_, hne⟩
        have a1 := small (hst this)
        have a2 := small (hst other)
        rw [hx] at a1 a2
        exact lt_of_le_of_lt (Nat.sub_le _ _) (max_lt a1 a2)
      rw [RepairedOp.run, h1 heq]; rfl
  | op o =>
    cases o with
    | word p junk d => exact total (ofWord_inv junk d).1 (ofWord_inv junk d).2
    | assignWord p d => exact total (ofWord_inv _ d).1 (ofWord_inv _ d).2
    | copy p q junk =>
      obtain ⟨b, h1, h2, h3⟩ := copy_spec junk (hst q)
      have := total (p := p) h2 (h3.trans (hx q))
      simp only [RepairedOp.run, BigOp.run]
      rw [h1, Res.ok_bind]
      exact this
    | assign p q =>
      obtain ⟨b, h1, h2, h3⟩ := copy_spec (st p).digits (hst q)
      have := total (p := p) h2 (h3.trans (hx q))
      simp only [RepairedOp.run, BigOp.run]
      rw [BigInt.assign, h1, Res.ok_bind]
      exact this
    | add p d => exact partialOp (by rw [← hx p]; exact add_spec (hst p) d)
    | mul64 p d => exact partialOp (by rw [← hx p]; exact mul64_spec v (hst p) d)
    | mul32 p d => exact partialOp (by rw [← hx p]; exact mul32_spec (hst p) d)
    | mulPow5 p n => exact partialOp (by rw [← hx p]; exact mulPow5_spec v (hst p) n)
    | shl p s => exact partialOp (by rw [← hx p]; exact shlR_spec (hst p) s)
    | decimal p junk s =>
      by_cases hs : ∀ c ∈ s, IsDigit c
      · obtain ⟨h1, h2⟩ := partialOp (p := p) (ofDecimalR_spec v junk s hs)
        exact ⟨fun h => h1 ⟨h.1, trivial⟩, fun h => h2 fun h' => h ⟨h'.1, hs⟩⟩
      · refine ⟨fun h => absurd h.2 hs, fun _ => ?_⟩
        push Not at hs
        rw [RepairedOp.run, ofDecimalR_throws v junk s hs]; rfl

/-- C102, histories (C42 and C43 in full): any sequence of constructions, assignments and operations of the repaired class on any number of objects
computes what the same operations do to natural numbers and keeps the representation invariant, if every result fits in 416
words and no operand is refused; otherwise it throws.  It never touches memory outside the objects. -/
theorem C102_history (v : MulImpl) (ops : List RepairedOp) : ∀ (st : Store) (x : ℕ → ℕ), (∀ p, Inv (st p)) →
    (∀ p, (st p).value = x p) →
    (DefinedHistory x ops → ∃ st', repairedHistory v st ops = .ok st' ∧ ∀ p, Inv (st' p) ∧ (st' p).value = repairedNat x ops p) ∧
    (¬ DefinedHistory x ops → repairedHistory v st ops = .throws) := by
  induction ops with
  | nil => exact fun st x h hx => ⟨fun _ => ⟨st, rfl, fun p => ⟨h p, hx p⟩⟩, fun h' => absurd trivial h'⟩
  | cons o os ih =>
    intro st x h hx
    obtain ⟨h1, h2⟩ := repaired_step v h hx o
    by_cases hd : o.Defined x
    · obtain ⟨st1, h3, h4, h5⟩ := h1 hd
      obtain ⟨h6, h7⟩ := ih st1 (o.nat x) h4 h5
      simp only [repairedHistory]
      rw [h3, Res.ok_bind]
      exact ⟨fun h8 => h6 h8.2, fun h8 => h7 fun h9 => h8 ⟨hd, h9⟩⟩
    · simp only [repairedHistory]
      rw [h2 hd]
      exact ⟨fun h8 => absurd h8.1 hd, fun _ => rfl⟩

/-- The history of `C42_refuted` followed by a difference in place. -/
example : repairedNat (fun _ => 0) [.op (.word 0 (fun _ => 0) 1), .op (.shl 0 65), .op (.shl 0 64), .op (.word 1 (fun _ => 7) 5),
      .diff 1 0 0] 0 = 2 ^ 129 - 5 ∧
    DefinedHistory (fun _ => 0) [.op (.word 0 (fun _ => 0) 1), .op (.shl 0 65), .op (.shl 0 64), .op (.word 1 (fun _ => 7) 5),
      .diff 1 0 0] := by
  have lt : ∀ {m : ℕ}, m < 2 ^ 200 → m < 2 ^ 26624 := fun h =>
    lt_trans h (Nat.pow_lt_pow_right (by decide) (by decide))
  have set : ∀ {x : ℕ → ℕ} {p n : ℕ}, (∀ q, x q < 2 ^ 26624) → n < 2 ^ 200 → ∀ q, setVar x p n q < 2 ^ 26624 := by
    intro x p n h1 h2 q
    unfold setVar
    split
    · exact lt h2
    · exact h1 q
  have h0 : ∀ _ : ℕ, 0 < 2 ^ 26624 := fun _ => lt (by decide)
  have h1 := set (p := 0) (n := (1 : UInt64).toNat) h0 (by decide)
  have h2 := set (p := 0) h1 (show setVar (fun _ => 0) 0 (1 : UInt64).toNat 0 * 2 ^ 65 < 2 ^ 200 by decide +kernel)
  have h3 := set (p := 0) h2 (show setVar (setVar (fun _ => 0) 0 (1 : UInt64).toNat) 0 (setVar (fun _ => 0) 0 (1 : UInt64).toNat 0 * 2 ^ 65) 0 *
    2 ^ 64 < 2 ^ 200 by decide +kernel)
  have h4 := set (p := 1) (n := (5 : UInt64).toNat) h3 (by decide)
  refine ⟨by decide +kernel, ⟨h1, trivial⟩, ⟨h2, trivial⟩, ⟨h3, trivial⟩, ⟨h4, trivial⟩, ⟨set h4 ?_, by decide +kernel⟩, trivial⟩
  decide +kernel

end Lexi
