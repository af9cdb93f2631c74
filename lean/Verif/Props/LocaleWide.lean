import Verif.Props.Locale
import Verif.Props.Objects

/-!
# Reading in a locale with a decimal point of several bytes: C83
-/

namespace Lexi
open Spec Soft Dtoa DiyFp

theorem respell_other (d : UInt8) (r A B : Bytes) (hA : d ∉ A) :
    respell (d :: r) 0 (A ++ B) = A.map (pointSwap d) ++ respell (d :: r) 0 B := by
  induction A with
  | nil => rfl
  | cons c t ih =>
    have hc : c ≠ d := fun e => hA (by simp [e])
    have hp : (d :: r).isPrefixOf (c :: (t ++ B)) = false := by
      rw [List.isPrefixOf_cons₂]; simp [beq_eq_false_iff_ne.mpr hc.symm]
    rw [List.cons_append, respell, hp, ih fun h => hA (by simp [h])]
    simp [pointSwap, hc]

theorem respell_skip (dp A B : Bytes) : respell dp A.length (A ++ B) = respell dp 0 B := by
  induction A with
  | nil => rfl
  | cons c t ih => rw [List.cons_append, List.length_cons, respell]; exact ih

theorem respell_point (d : UInt8) (r B : Bytes) :
    respell (d :: r) 0 ((d :: r) ++ B) = 46 :: respell (d :: r) 0 B := by
  have hp : (d :: r).isPrefixOf (d :: (r ++ B)) = true := by
    rw [List.isPrefixOf_iff_prefix]; exact ⟨B, rfl⟩
  rw [List.cons_append, respell, hp, if_pos rfl, List.length_cons, Nat.add_sub_cancel, respell_skip]

theorem cstr_self {s : Bytes} (h : (0 : UInt8) ∉ s) : cstr s = s := by
  induction s with
  | nil => rfl
  | cons b t ih =>
    have hb : (b != 0) = true := by
      rw [bne_iff_ne]; rintro rfl; exact h (by simp)
    have := ih fun hm => h (by simp [hm])
    unfold cstr at this ⊢
    rw [List.takeWhile_cons, hb, if_pos rfl, this]

theorem cstr_no_nul (s : Bytes) : (0 : UInt8) ∉ cstr s := by
  unfold cstr
  induction s with
  | nil => simp
  | cons b t ih =>
    rw [List.takeWhile_cons]
    split
    · rename_i hb
      rw [bne_iff_ne] at hb
      intro hm
      rcases List.mem_cons.mp hm with h | h
      · exact hb h.symm
      · exact ih h
    · simp

theorem strtold_cstr (F : FpFormat) (s : Bytes) : strtold F (cstr s) = strtold F s := by
  have : cstr (cstr s) = cstr s := cstr_self (cstr_no_nul s)
  unfold strtold strtoldWith
  rw [this]

/-- A text that has not the first byte of the decimal point cannot tell how the point goes on. -/
theorem wide_eq (d : UInt8) (hd : OtherPoint d) (r : Bytes) (F : FpFormat) (s : Bytes) (hs : d ∉ cstr s) :
    strtoldWide (d :: r) F s = strtoldIn d F s := by
  have h0 : ∀ b : UInt8, (pointSwap d b != 0) = (b != 0) := by
    intro b
    obtain ⟨-, h2, -⟩ := id hd
    unfold pointSwap
    by_cases h1 : b = d
    · subst h1; simp [h2]
    · by_cases h3 : b = 46
      · subst h3; simp [h1, h2]
      · simp [h1, h3]
  have e : (cstr s).map (pointSwap d) = cstr (s.map (pointSwap d)) := by
    unfold cstr
    rw [List.takeWhile_map]
    congr 1
    exact congrArg (List.takeWhile · s) (funext fun b => (h0 b).symm)
  unfold strtoldWide strtoldIn
  have := respell_other d r (cstr s) [] hs
  rw [List.append_nil] at this
  rw [this, e]
  simp only [respell, List.append_nil]
  exact strtold_cstr F _

/-- The bytes of numbers. -/
theorem text_no_point (n : JNumber) (hn : n.WF) {d : UInt8} (hd : OtherPoint d) : d ∉ n.text := by
  obtain ⟨f1, -, -, -, f5, f6⟩ := OtherPoint.facts _ hd
  obtain ⟨g1, g2, g3, g4, -, -⟩ := id hd
  rw [text_eq]
  intro hb
  rcases List.mem_append.mp hb with hb | hb
  · split at hb <;> simp at hb
    exact g4 hb
  rcases List.mem_append.mp hb with hb | hb
  · exact f1 (hn.int_digits d hb)
  rcases List.mem_append.mp hb with hb | hb
  · cases hf : n.frac with
    | none => rw [hf] at hb; simp [fracText] at hb
    | some f =>
      rw [hf] at hb
      rcases List.mem_cons.mp hb with hb | hb
      · exact g1 hb
      · exact f1 ((hn.frac_ok f hf).2 d hb)
  · cases he : n.exp with
    | none => rw [he] at hb; simp [expText] at hb
    | some e =>
      rw [he] at hb
      obtain ⟨hm, hs, -, hdd⟩ := hn.exp_ok e he
      rcases List.mem_cons.mp hb with hb | hb
      · rcases hm with h | h <;> rw [h] at hb
        · exact f5 hb
        · exact f6 hb
      · rcases List.mem_append.mp hb with hb | hb
        · rcases hs with h | h | h <;> rw [h] at hb <;> simp at hb
          · exact g4 hb
          · exact g3 hb
        · exact f1 (hdd d hb)

/-- C83.  A locale whose decimal point has several bytes, the first of which no number has, reads a number with a
point as if the number ended at the point. -/
theorem C83_cut_at_point (d : UInt8) (hd : OtherPoint d) (r : Bytes) (F : FpFormat) (n : JNumber) (hn : n.WF) :
    strtoldWide (d :: r) F n.text = strtold F (if n.frac.isSome then n.whole.text else n.text) := by
  rw [wide_eq d hd r F n.text fun h => text_no_point n hn hd (List.takeWhile_subset _ h)]
  exact C79_cut_at_point d hd F n hn

/-- A number as it is written with the decimal point `dp`. -/
def Spec.JNumber.textWide (dp : Bytes) (n : JNumber) : Bytes :=
  (if n.neg then [45] else []) ++ n.int ++ (match n.frac with | none => [] | some f => dp ++ f) ++ expText n.exp

/-- C83.  A number written with the decimal point of the locale is read as the "C" locale reads it with a point. -/
theorem C83_local_text (d : UInt8) (hd : OtherPoint d) (r : Bytes) (hr : (0 : UInt8) ∉ r) (F : FpFormat) (n : JNumber)
    (hn : n.WF) : strtoldWide (d :: r) F (n.textWide (d :: r)) = strtold F n.text := by
  have hno := text_no_point n hn hd
  have h0 := text_no_nul n hn
  have hsw : ∀ A : Bytes, (∀ b ∈ A, b ≠ d ∧ b ≠ 46) → A.map (pointSwap d) = A := fun A => map_swap_other A
  have hsign : ∀ b ∈ ((if n.neg then [45] else []) : Bytes), b ≠ d ∧ b ≠ 46 := by
    intro b hb
    split at hb <;> simp at hb
    rw [hb]; exact ⟨hd.2.2.2.1.symm, by decide⟩
  rw [text_eq] at hno h0
  simp only [List.mem_append, not_or] at hno h0
  obtain ⟨n1, n2, n3, n4⟩ := hno
  obtain ⟨z1, z2, z3, z4⟩ := h0
  unfold strtoldWide JNumber.textWide
  rw [text_eq]
  congr 1
  cases hf : n.frac with
  | none =>
    have hz : (0 : UInt8) ∉ ((if n.neg then [45] else []) ++ n.int ++ [] ++ expText n.exp : Bytes) := by
      simp only [List.mem_append, List.not_mem_nil, or_false, not_or]; exact ⟨⟨z1, z2⟩, z4⟩
    dsimp only
    rw [cstr_self hz]
    have := respell_other d r ((if n.neg then [45] else []) ++ n.int ++ [] ++ expText n.exp) []
      (by simp only [List.mem_append, List.not_mem_nil, or_false, not_or]; exact ⟨⟨n1, n2⟩, n4⟩)
    rw [List.append_nil] at this
    rw [this, List.map_append, List.map_append, List.map_append, hsw _ hsign, map_swap_digits hd _ hn.int_digits,
      map_swap_exp hd n hn]
    simp [fracText, respell]
  | some f =>
    obtain ⟨-, hfd⟩ := hn.frac_ok f hf
    rw [hf] at n3 z3
    have n3' : d ∉ f := fun h => n3 (by simp [fracText, h])
    have z3' : (0 : UInt8) ∉ f := fun h => z3 (by simp [fracText, h])
    dsimp only
    rw [cstr_self (by
      simp only [List.mem_append, List.mem_cons, not_or]
      exact ⟨⟨⟨z1, z2⟩, ⟨hd.2.1.symm, hr⟩, z3'⟩, z4⟩)]
    have e : ((if n.neg then [45] else []) ++ n.int ++ (d :: r ++ f) ++ expText n.exp : Bytes) =
        ((if n.neg then [45] else []) ++ n.int) ++ ((d :: r) ++ ((f ++ expText n.exp) ++ [])) := by
      simp only [List.append_assoc, List.append_nil]
    rw [e, respell_other d r _ _ (by simp only [List.mem_append, not_or]; exact ⟨n1, n2⟩), respell_point,
      respell_other d r _ _ (by simp only [List.mem_append, not_or]; exact ⟨n3', n4⟩), List.map_append, List.map_append,
      hsw _ hsign, map_swap_digits hd _ hn.int_digits, map_swap_digits hd _ hfd, map_swap_exp hd n hn]
    simp [fracText, respell]

/-- C83.  Which printed doubles and floats such a locale reads back: those without a point, and whole numbers without an
exponent (whatever the bytes of the decimal point are). -/
theorem C83_round_trip (d : UInt8) (hd : OtherPoint d) (r : Bytes) (F : FpFormat) (hp : 53 ≤ F.p) (he : F.emin ≤ -1074)
    (hmax : 1024 ≤ F.emax) (env : Env) (henv : EnvOk env) (L : Literals) (junk : Bytes) (hj : junk.length = FLOAT_SIZE) :
    (∀ u : UInt64, DFinite u → ¬ DZero u → ∃ n : JNumber, n.WF ∧ stringDouble L env junk u = .ok n.text ∧
      (lexiDoubleWide (d :: r) F n.text = u ↔
        lexiDouble F n.text = u ∧ (n.frac = none ∨ n.exp = none ∧ ∃ z : ℤ, dValue u = z))) ∧
    (∀ u : UInt32, FFinite u → ¬ FZero u → ∃ n : JNumber, n.WF ∧ stringFloat L env junk u = .ok n.text ∧
      (lexiFloatWide (d :: r) F n.text = u ↔ n.frac = none ∨ n.exp = none ∧ ∃ z : ℤ, fValue u = z)) := by
  have key : ∀ n : JNumber, n.WF → strtoldWide (d :: r) F n.text = strtoldIn d F n.text := fun n hn =>
    wide_eq d hd r F n.text fun h => text_no_point n hn hd (List.takeWhile_subset _ h)
  constructor
  · intro u hfin hnz
    obtain ⟨n, hn, hs, h⟩ := C79_round_trip d hd F hp he hmax env henv L junk hj u hfin hnz
    refine ⟨n, hn, hs, ?_⟩
    unfold lexiDoubleWide
    rw [key n hn]; exact h
  · intro u hfin hnz
    obtain ⟨n, hn, hs, h⟩ := C79_float_round_trip d hd F hp he hmax env henv L junk hj u hfin hnz
    refine ⟨n, hn, hs, ?_⟩
    unfold lexiFloatWide
    rw [key n hn]; exact h

/-- C83.  The texts of NaN and the infinities read as in the "C" locale, zero as zero. -/
theorem C83_special (d : UInt8) (hd : OtherPoint d) (r : Bytes) (F : FpFormat) :
    (∀ t ∈ [ascii "NaN", ascii "Infinity", ascii "-Infinity"], strtoldWide (d :: r) F t = strtold F t) ∧
    lexiDoubleWide (d :: r) F (ascii "0.0") = 0 := by
  obtain ⟨h1, h2⟩ := C79_special d hd F
  have hno : ∀ t ∈ [ascii "NaN", ascii "Infinity", ascii "-Infinity", ascii "0.0"], d ∉ cstr t := by
    intro t ht hm
    have hm := List.takeWhile_subset _ hm
    have : IsNChar d ∨ d = 45 ∨ d = 46 := by
      clear h1 h2 hd
      simp only [List.mem_cons, List.not_mem_nil, or_false] at ht
      unfold IsNChar
      rcases ht with rfl | rfl | rfl | rfl <;> revert d <;> decide
    obtain ⟨g1, -, -, g4, g5, -⟩ := hd
    rcases this with h | h | h
    · exact g5 h
    · exact g4 h
    · exact g1 h
  refine ⟨fun t ht => ?_, ?_⟩
  · rw [wide_eq d hd r F t (hno t (by simp at ht ⊢; tauto))]; exact h1 t ht
  · unfold lexiDoubleWide
    rw [wide_eq d hd r F _ (hno _ (by simp))]; exact h2

/-- C83.  A decimal point of one byte is the case of C79, for every text. -/
theorem C83_one_byte (d : UInt8) (hd : OtherPoint d) (F : FpFormat) (s : Bytes) (h : (0 : UInt8) ∉ s) :
    strtoldWide [d] F s = strtoldIn d F s := by
  have key : ∀ s : Bytes, respell [d] 0 s = s.map (pointSwap d) := by
    intro s
    induction s with
    | nil => rfl
    | cons c t ih =>
      rw [respell, List.map_cons]
      by_cases hc : c = d
      · subst hc
        simp [pointSwap, List.isPrefixOf, ih]
      · have hb : (d == c) = false := beq_eq_false_iff_ne.mpr (Ne.symm hc)
        simp [pointSwap, List.isPrefixOf, hb, hc, ih]
  unfold strtoldWide strtoldIn
  rw [cstr_self h, key]

/-! Non-vacuity: with the Arabic decimal separator (U+066B, bytes D9 AB) 2.5 reads as 2; written with the separator it
reads as 2.5; half of the separator ends the number. -/
example : OtherPoint 0xD9 := by decide
example : lexiDoubleWide [0xD9, 0xAB] .binary64 (ascii "2.5") = 0x4000000000000000 ∧
    lexiDoubleWide [0xD9, 0xAB] .binary64 [50, 0xD9, 0xAB, 53] = 0x4004000000000000 ∧
    lexiDoubleWide [0xD9, 0xAB] .binary64 [50, 0xD9, 53] = 0x4000000000000000 ∧
    lexiDoubleWide [0xD9, 0xAB] .binary64 (ascii "2016.0") = 0x409F800000000000 := by decide +kernel

end Lexi
