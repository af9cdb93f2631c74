import Verif.Spec.Script
import Verif.Props.Json

/-!
# `jsonify` pasted into JavaScript and into a page: C95
-/

namespace Lexi
open Spec

/-- The body of the literal at its closing quote. -/
theorem js_close (old : Bool) (r : Bytes) : jsBody old (34 :: r) = some ([], r) := by
  rw [jsBody]
  · simp
  · intro a b c d t h; simp at h
  · intro b t h; simp at h

theorem js_simple (old : Bool) (e c : UInt8) (t : Bytes) (h117 : e ≠ 117) (h : jsSimple e = some c) :
    jsBody old (92 :: e :: t) = (jsBody old t).map (fun r => (c :: r.1, r.2)) := by
  rw [jsBody]
  · rw [h]
  · intro a b c d t h; exact absurd h h117

theorem js_plain (old : Bool) (b : UInt8) (t : Bytes) (h1 : b ≠ 34) (h2 : b ≠ 92) (h3 : b ≠ 10) (h4 : b ≠ 13) :
    jsBody old (b :: t) =
      if old = true ∧ atSeparator (b :: t) then none else (jsBody old t).map (fun r => (b :: r.1, r.2)) := by
  rw [jsBody]
  · simp [h1, h2, h3, h4]
  · intro a b c d t h; exact absurd h h2
  · intro b t h; exact absurd h h2

/-- What the reader makes of each byte `jsonify` writes. -/
theorem js_byte (c : UInt8) :
    (∃ e, jsonB c = [92, e] ∧ e ≠ 117 ∧ jsSimple e = some c) ∨
    (∃ h l x y, jsonB c = [92, 117, 48, 48, h, l] ∧ jsHex h = some x ∧ jsHex l = some y ∧ 16 * x + y < 128 ∧
      UInt8.ofNat (16 * x + y) = c) ∨
    (jsonB c = [c] ∧ c ≠ 34 ∧ c ≠ 92 ∧ c ≠ 10 ∧ c ≠ 13) := by
  have key : ∀ c : UInt8,
      (jsonB c = [92, (jsonB c)[1]?.getD 0] ∧ (jsonB c)[1]?.getD 0 ≠ 117 ∧ jsSimple ((jsonB c)[1]?.getD 0) = some c) ∨
      (jsonB c = [92, 117, 48, 48, (jsonB c)[4]?.getD 0, (jsonB c)[5]?.getD 0] ∧
        jsHex ((jsonB c)[4]?.getD 0) = some ((jsHex ((jsonB c)[4]?.getD 0)).getD 0) ∧
        jsHex ((jsonB c)[5]?.getD 0) = some ((jsHex ((jsonB c)[5]?.getD 0)).getD 0) ∧
        16 * (jsHex ((jsonB c)[4]?.getD 0)).getD 0 + (jsHex ((jsonB c)[5]?.getD 0)).getD 0 < 128 ∧
        UInt8.ofNat (16 * (jsHex ((jsonB c)[4]?.getD 0)).getD 0 + (jsHex ((jsonB c)[5]?.getD 0)).getD 0) = c) ∨
      (jsonB c = [c] ∧ c ≠ 34 ∧ c ≠ 92 ∧ c ≠ 10 ∧ c ≠ 13) := by
    apply forall_byte; decide +kernel
  rcases key c with h | h | h
  · exact Or.inl ⟨_, h⟩
  · exact Or.inr (Or.inl ⟨_, _, _, _, h⟩)
  · exact Or.inr (Or.inr h)

/-- A separator in a text. -/
def HasSeparator (s : Bytes) : Prop := [226, 128, 168] <:+: s ∨ [226, 128, 169] <:+: s

instance (s : Bytes) : Decidable (HasSeparator s) := inferInstanceAs (Decidable (_ ∨ _))

theorem hasSeparator_cons (c : UInt8) (s : Bytes) :
    HasSeparator (c :: s) ↔ atSeparator (c :: s) ∨ HasSeparator s := by
  unfold HasSeparator atSeparator
  rw [List.infix_cons_iff, List.infix_cons_iff]
  tauto

theorem jsonB_head_high (c : UInt8) : 128 ≤ c.toNat → jsonB c = [c] := by
  revert c; apply forall_byte; decide +kernel

theorem jsonB_head_low (c : UInt8) : ∀ b ∈ jsonB c, 128 ≤ b.toNat → b = c := by
  revert c; apply forall_byte; decide +kernel

/-- Bytes outside ASCII are copied, so a separator stands in the body exactly where it stands in the text. -/
theorem prefix_body (p : Bytes) (hp : ∀ b ∈ p, 128 ≤ b.toNat) (s r : Bytes) :
    p <+: s.flatMap jsonB ++ 34 :: r ↔ p <+: s := by
  induction p generalizing s with
  | nil => simp
  | cons b p ih =>
    have hb := hp b (by simp)
    have hp' : ∀ b ∈ p, 128 ≤ b.toNat := fun b h => hp b (by simp [h])
    cases s with
    | nil =>
      simp only [List.flatMap_nil, List.nil_append, List.cons_prefix_cons, List.prefix_nil, reduceCtorEq, iff_false]
      rintro ⟨rfl, -⟩
      exact absurd hb (by decide)
    | cons c s =>
      rw [List.flatMap_cons, List.append_assoc, List.cons_prefix_cons]
      by_cases hc : 128 ≤ c.toNat
      · rw [jsonB_head_high c hc, List.singleton_append, List.cons_prefix_cons, ih hp']
      · constructor
        · intro h
          cases hj : jsonB c with
          | nil => have := (jsonB_length c).1; rw [hj] at this; simp at this
          | cons x xs =>
            rw [hj, List.cons_append, List.cons_prefix_cons] at h
            have := jsonB_head_low c x (by rw [hj]; simp) (by rw [← h.1]; exact hb)
            rw [← h.1] at this
            exact absurd (this ▸ hb) hc
        · rintro ⟨rfl, -⟩; exact absurd hb hc

theorem sep_body (s r : Bytes) : atSeparator (s.flatMap jsonB ++ 34 :: r) ↔ atSeparator s := by
  unfold atSeparator
  rw [prefix_body _ (by decide), prefix_body _ (by decide)]

theorem js_body (old : Bool) (s r : Bytes) :
    jsBody old (s.flatMap jsonB ++ 34 :: r) = if old = true ∧ HasSeparator s then none else some (s, r) := by
  induction s with
  | nil =>
    rw [List.flatMap_nil, List.nil_append, js_close, if_neg]
    rintro ⟨-, h⟩
    exact absurd h (by decide)
  | cons c s ih =>
    have hsep := sep_body (c :: s) r
    rw [List.flatMap_cons, List.append_assoc] at hsep ⊢
    have hcons := hasSeparator_cons c s
    have low : c.toNat < 128 → ¬ atSeparator (c :: s) := by
      intro h
      unfold atSeparator
      rw [List.cons_prefix_cons, List.cons_prefix_cons]
      rintro (⟨rfl, -⟩ | ⟨rfl, -⟩) <;> exact absurd h (by decide)
    have esc : jsonB c ≠ [c] → ¬ atSeparator (c :: s) := fun h =>
      low (Nat.lt_of_not_le fun h' => h (jsonB_head_high c h'))
    rcases js_byte c with ⟨e, h1, h2, h3⟩ | ⟨h, l, x, y, h1, h2, h3, h4, h5⟩ | ⟨h1, h2, h3, h4, h5⟩
    · have ha := esc (by rw [h1]; simp)
      rw [h1]
      simp only [List.cons_append, List.nil_append]
      rw [js_simple old e c _ h2 h3, ih]
      by_cases h : old = true ∧ HasSeparator s
      · rw [if_pos h, if_pos (by tauto)]; rfl
      · rw [if_neg h, if_neg (by tauto)]; rfl
    · have ha := esc (by rw [h1]; simp)
      rw [h1]
      simp only [List.cons_append, List.nil_append]
      rw [jsBody]
      have h48 : jsHex 48 = some 0 := by decide
      simp only [h48, h2, h3]
      rw [if_pos (by omega), ih, show 4096 * 0 + 256 * 0 + 16 * x + y = 16 * x + y by omega, h5]
      by_cases h : old = true ∧ HasSeparator s
      · rw [if_pos h, if_pos (by tauto)]; rfl
      · rw [if_neg h, if_neg (by tauto)]; rfl
    · rw [h1] at hsep ⊢
      simp only [List.cons_append, List.nil_append] at hsep ⊢
      rw [js_plain old c _ h2 h3 h4 h5, ih]
      by_cases ha : old = true ∧ atSeparator (c :: s)
      · rw [if_pos ⟨ha.1, hsep.mpr ha.2⟩, if_pos ⟨ha.1, hcons.mpr (Or.inl ha.2)⟩]
      · rw [if_neg fun h => ha ⟨h.1, hsep.mp h.2⟩]
        by_cases h : old = true ∧ HasSeparator s
        · rw [if_pos h, if_pos ⟨h.1, hcons.mpr (Or.inr h.2)⟩]; rfl
        · rw [if_neg h, if_neg (by tauto)]; rfl

/-- C95, JavaScript.  `jsonify(s)` pasted into a program is a string literal for `s`, whatever follows, in editions since
2019 for every byte string.  In earlier ones it is so exactly if `s` has no U+2028 and no U+2029: otherwise the
program does not parse. -/
theorem C95_javascript (sgn : Bool) (s : Bytes) :
    ∃ t, jsonifyStr sgn s = .ok t ∧
      (∀ r, jsString false (t ++ r) = some (s, r)) ∧
      (∀ r, jsString true (t ++ r) = if HasSeparator s then none else some (s, r)) := by
  refine ⟨_, jsonifyStr_eq sgn s, fun r => ?_, fun r => ?_⟩
  · rw [List.cons_append, jsString, List.append_assoc, List.singleton_append, js_body]
    simp
  · rw [List.cons_append, jsString, List.append_assoc, List.singleton_append, js_body]
    simp

example : jsString true (ascii "\"a\\nb\", 1") = some (ascii "a\nb", ascii ", 1") := by decide +kernel
example : HasSeparator [97, 226, 128, 168] := by decide +kernel

/-! ### In a page -/

theorem infix_skip (p x r : Bytes) (h60 : p.head? = some 60) (hx : 60 ∉ x) : p <:+: x ++ r ↔ p <:+: r := by
  induction x with
  | nil => rfl
  | cons b x ih =>
    rw [List.cons_append, List.infix_cons_iff, ih fun h => hx (by simp [h])]
    refine or_iff_right fun h => ?_
    cases p with
    | nil => cases h60
    | cons a p =>
      rw [List.cons_prefix_cons] at h
      rw [List.head?_cons, Option.some.injEq] at h60
      exact hx (by simp [← h.1, h60])

theorem jsonB_plain_or (c : UInt8) :
    (jsonB c = [c] ∧ c ≠ 34) ∨ ((jsonB c).head? = some 92 ∧ 60 ∉ jsonB c ∧ c ≠ 60 ∧ (c = 34 ∨ c = 92 ∨ c.toNat < 32)) := by
  revert c; apply forall_byte; decide +kernel

theorem prefix_plain (p : Bytes) (hp : ∀ b ∈ p, b ≠ 34 ∧ b ≠ 92 ∧ 32 ≤ b.toNat) (s : Bytes) :
    p <+: s.flatMap jsonB ++ [34] ↔ p <+: s := by
  induction p generalizing s with
  | nil => simp
  | cons b p ih =>
    obtain ⟨h1, h2, h3⟩ := hp b (by simp)
    have hp' : ∀ b ∈ p, b ≠ 34 ∧ b ≠ 92 ∧ 32 ≤ b.toNat := fun b h => hp b (by simp [h])
    cases s with
    | nil => simp [h1]
    | cons c s =>
      rw [List.flatMap_cons, List.append_assoc, List.cons_prefix_cons]
      rcases jsonB_plain_or c with ⟨hc, -⟩ | ⟨hc, -, -, hc'⟩
      · rw [hc, List.singleton_append, List.cons_prefix_cons, ih hp']
      · constructor
        · intro h
          cases hj : jsonB c with
          | nil => rw [hj] at hc; cases hc
          | cons x xs =>
            rw [hj] at hc
            rw [hj, List.cons_append, List.cons_prefix_cons] at h
            exact absurd (h.1.trans (Option.some.inj hc)) h2
        · rintro ⟨rfl, -⟩
          rcases hc' with h | h | h
          · exact absurd h h1
          · exact absurd h h2
          · omega

/-- C95, pages.  Whatever begins with `<` and has no quote, backslash or control byte occurs in `jsonify(s)` exactly if
it occurs in `s`.  So nothing protects a page: `</script`, `<!--` and `<script` reach the HTML parser, which looks
for them without regard to string literals. -/
theorem C95_page (sgn : Bool) (s p : Bytes) (h60 : p.head? = some 60)
    (hp : ∀ b ∈ p, b ≠ 34 ∧ b ≠ 92 ∧ 32 ≤ b.toNat) :
    ∃ t, jsonifyStr sgn s = .ok t ∧ (p <:+: t ↔ p <:+: s) := by
  refine ⟨_, jsonifyStr_eq sgn s, ?_⟩
  rw [← List.singleton_append, infix_skip p [34] _ h60 (by decide)]
  induction s with
  | nil =>
    rw [List.flatMap_nil, List.nil_append, ← List.append_nil [34], infix_skip p [34] [] h60 (by decide)]
  | cons c s ih =>
    have hpre := prefix_plain p hp (c :: s)
    rw [List.flatMap_cons, List.append_assoc] at hpre ⊢
    rcases jsonB_plain_or c with ⟨hc, -⟩ | ⟨-, hc, hc', -⟩
    · rw [hc, List.singleton_append] at hpre ⊢
      rw [List.infix_cons_iff, List.infix_cons_iff, hpre, ih]
    · rw [infix_skip p _ _ h60 hc, ih, ← List.singleton_append,
        infix_skip p [c] s h60 (by simpa using fun h => hc' h.symm)]

example : jsonifyStr true (ascii "</script>") = .ok (ascii "\"</script>\"") := by decide +kernel

end Lexi
