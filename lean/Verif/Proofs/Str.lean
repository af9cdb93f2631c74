import Verif.Model.Scalar
import Verif.Spec.Escape
import Verif.Spec.JsonString
import Verif.Proofs.IntFmt

namespace Lexi
open Spec

/-- Lifting a check over all 256 bytes. -/
theorem forall_byte {P : UInt8 → Prop} (h : ∀ c : Fin 256, P (UInt8.ofNat c)) (c : UInt8) : P c := by
  have := h ⟨c.toNat, c.toNat_lt⟩
  simpa using this

/-! ## escape -/

theorem escapeTest_iff (sgn : Bool) (c : UInt8) : escapeTest sgn c = true ↔ NeedsEscape c := by
  revert c
  refine forall_byte ?_
  cases sgn <;> decide +kernel

/-- Per-byte output of `escape`. -/
def escB (c : UInt8) : Bytes := if NeedsEscape c then [92, c] else [c]

theorem escape_foldl (sgn : Bool) (dst s : Bytes) :
    s.foldl (escapeStep sgn) dst = dst ++ s.flatMap escB := by
  induction s generalizing dst with
  | nil => simp
  | cons c cs ih =>
    rw [List.foldl_cons, ih, List.flatMap_cons]
    by_cases h : NeedsEscape c
    · have := (escapeTest_iff sgn c).mpr h
      simp [escapeStep, escB, h, this]
    · have : ¬ escapeTest sgn c = true := fun h' => h ((escapeTest_iff sgn c).mp h')
      simp [escapeStep, escB, h, this]

theorem escape_eq (sgn : Bool) (s : Bytes) : escape sgn s = s.flatMap escB := by
  rw [escape, escape_foldl]; rfl

theorem escaped_flatMap (s : Bytes) : Escaped s (s.flatMap escB) := by
  induction s with
  | nil => exact .nil
  | cons c cs ih =>
    rw [List.flatMap_cons]
    by_cases h : NeedsEscape c
    · simpa [escB, h] using Escaped.esc h ih
    · simpa [escB, h] using Escaped.plain h ih

theorem escaped_unique {s t t' : Bytes} (h : Escaped s t) (h' : Escaped s t') : t = t' := by
  induction h generalizing t' with
  | nil => cases h'; rfl
  | esc hn _ ih =>
    cases h' with
    | esc _ h2 => rw [ih h2]
    | plain hn' _ => exact absurd hn hn'
  | plain hn _ ih =>
    cases h' with
    | esc hn' _ => exact absurd hn' hn
    | plain _ h2 => rw [ih h2]

theorem needsEscape_backslash : NeedsEscape 92 := by decide

theorem unescape_escaped {s t : Bytes} (h : Escaped s t) : unescape t = s := by
  induction h with
  | nil => rfl
  | esc _ _ ih => rw [unescape, ih]
  | @plain b s t hn _ ih =>
    have hb : b ≠ 92 := by rintro rfl; exact hn needsEscape_backslash
    rw [unescape, ih]
    intro b' t' hc
    exact absurd hc hb

/-! ## jsonify -/

/-- Per-byte output of `jsonify`, read off the C++ `switch` on a platform with unsigned `char`. -/
def jsonB (c : UInt8) : Bytes :=
  match jsonifyStep false [] c with
  | .ok b => b
  | _ => []

theorem jsonifyStep_dst (sgn : Bool) (dst : Bytes) (c : UInt8) :
    jsonifyStep sgn dst c = (jsonifyStep sgn [] c >>= fun b => .ok (dst ++ b)) := by
  unfold jsonifyStep
  repeat' split
  all_goals first
    | (simp; done)
    | (cases hexAt (charVal sgn c >>> 4) <;> cases hexAt (charVal sgn c % 16) <;> simp)

theorem jsonifyStep_nil (sgn : Bool) (c : UInt8) : jsonifyStep sgn [] c = .ok (jsonB c) := by
  revert c
  refine forall_byte ?_
  cases sgn <;> decide +kernel

theorem jsonifyLoop_eq (sgn : Bool) (dst s : Bytes) :
    jsonifyLoop sgn dst s = .ok (dst ++ s.flatMap jsonB) := by
  induction s generalizing dst with
  | nil => simp [jsonifyLoop]
  | cons c cs ih =>
    rw [jsonifyLoop, jsonifyStep_dst, jsonifyStep_nil]
    simp [ih]

theorem jsonifyBody_eq (sgn : Bool) (s : Bytes) : jsonifyBody sgn s = .ok (s.flatMap jsonB) := by
  rw [jsonifyBody, jsonifyLoop_eq]; rfl

theorem jsonifyStr_eq (sgn : Bool) (s : Bytes) :
    jsonifyStr sgn s = .ok (34 :: (s.flatMap jsonB ++ [34])) := by
  simp [jsonifyStr, jsonifyBody_eq]

/-- What each byte turns into. -/
theorem jsonB_cases (c : UInt8) :
    (∃ e, jsonB c = [92, e] ∧ e ≠ 117 ∧ simpleEscape e = some c) ∨
    (∃ h l, jsonB c = [92, 117, 48, 48, h, l] ∧ hex4 48 48 h l = some c.toNat ∧ c < 32) ∨
    (jsonB c = [c] ∧ c ≠ 34 ∧ c ≠ 92 ∧ ¬ c < 32) := by
  by_cases h1 : c ∈ ([8, 12, 10, 13, 9, 92, 34] : Bytes)
  · left
    have : ∀ c ∈ ([8, 12, 10, 13, 9, 92, 34] : Bytes),
        jsonB c = [(92 : UInt8), ((jsonB c)[1]?.getD 0)] ∧ ((jsonB c)[1]?.getD 0) ≠ 117 ∧ simpleEscape ((jsonB c)[1]?.getD 0) = some c := by
      decide
    exact ⟨_, this c h1⟩
  · right
    by_cases h2 : c < 32
    · left
      have key : ∀ c : UInt8, c < 32 ∧ c ∉ ([8, 12, 10, 13, 9, 92, 34] : Bytes) →
          jsonB c = [(92 : UInt8), 117, 48, 48, ((jsonB c)[4]?.getD 0), ((jsonB c)[5]?.getD 0)] ∧
          hex4 48 48 ((jsonB c)[4]?.getD 0) ((jsonB c)[5]?.getD 0) = some c.toNat := by
        refine forall_byte ?_
        decide +kernel
      exact ⟨_, _, (key c ⟨h2, h1⟩).1, (key c ⟨h2, h1⟩).2, h2⟩
    · right
      have key : ∀ c : UInt8, ¬ c < 32 ∧ c ∉ ([8, 12, 10, 13, 9, 92, 34] : Bytes) →
          jsonB c = [c] ∧ c ≠ 34 ∧ c ≠ 92 := by
        refine forall_byte ?_
        decide +kernel
      exact ⟨(key c ⟨h2, h1⟩).1, (key c ⟨h2, h1⟩).2.1, (key c ⟨h2, h1⟩).2.2, h2⟩

theorem readChar_jsonB (c : UInt8) (r : Bytes) : readChar (jsonB c ++ r) = some ([c], r) := by
  rcases jsonB_cases c with ⟨e, h1, h2, h3⟩ | ⟨h, l, h1, h2, h3⟩ | ⟨h1, h2, h3, h4⟩
  · rw [h1]; simp [readChar, h2, h3]
  · rw [h1]
    have hlt : c.toNat < 32 := by simpa [UInt8.lt_iff_toNat_lt] using h3
    have hu : utf8 c.toNat = [c] := by
      rw [utf8, if_pos (by omega)]; simp
    simp only [List.cons_append, List.nil_append, readChar]
    rw [if_neg (by decide)]
    simp only [if_true, h2]
    rw [if_neg (by omega), if_neg (by omega), hu]
  · rw [h1]; simp [readChar, h2, h3, h4]

theorem jsonB_head (c : UInt8) (r : Bytes) : ∃ a t, jsonB c ++ r = a :: t ∧ a ≠ 34 := by
  rcases jsonB_cases c with ⟨e, h1, h2, h3⟩ | ⟨h, l, h1, h2, h3⟩ | ⟨h1, h2, h3, h4⟩
  · exact ⟨92, e :: r, by rw [h1]; rfl, by decide⟩
  · exact ⟨92, _, by rw [h1]; rfl, by decide⟩
  · exact ⟨c, r, by rw [h1]; rfl, h2⟩

theorem readBody_flatMap (s r : Bytes) (fuel : Nat) (hf : s.length < fuel) :
    readBody fuel (s.flatMap jsonB ++ 34 :: r) = some (s, r) := by
  induction s generalizing fuel with
  | nil =>
    obtain ⟨k, rfl⟩ : ∃ k, fuel = k + 1 := ⟨fuel - 1, by simp at hf; omega⟩
    simp [readBody]
  | cons c cs ih =>
    obtain ⟨k, rfl⟩ : ∃ k, fuel = k + 1 := ⟨fuel - 1, by simp at hf; omega⟩
    have hk : cs.length < k := by simp at hf; omega
    rw [List.flatMap_cons, List.append_assoc]
    have h1 := readChar_jsonB c (cs.flatMap jsonB ++ 34 :: r)
    obtain ⟨a, t, h2, h3⟩ := jsonB_head c (cs.flatMap jsonB ++ 34 :: r)
    rw [h2] at h1 ⊢
    rw [readBody]
    · rw [h1]
      simp [ih k hk]
    · intro rest hc
      exact h3 (List.cons.inj hc).1

theorem jsonB_length (c : UInt8) : 1 ≤ (jsonB c).length ∧ (jsonB c).length ≤ 6 := by
  revert c; refine forall_byte ?_; decide +kernel

theorem flatMap_jsonB_length (s : Bytes) :
    s.length ≤ (s.flatMap jsonB).length ∧ (s.flatMap jsonB).length ≤ 6 * s.length := by
  induction s with
  | nil => simp
  | cons c cs ih =>
    have := jsonB_length c
    simp only [List.flatMap_cons, List.length_append, List.length_cons]
    omega

theorem jsonB_printable (c : UInt8) : ∀ b ∈ jsonB c, ¬ b < 32 := by
  revert c; refine forall_byte ?_; decide +kernel

theorem jsonB_high (c : UInt8) : (jsonB c).filter (fun b => 0x80 ≤ b) = [c].filter (fun b => 0x80 ≤ b) := by
  revert c; refine forall_byte ?_; decide +kernel

end Lexi

namespace Lexi
open Spec

/-! ## The reader ignores what it has not consumed -/

theorem readChar_append {s bs r : Bytes} (h : readChar s = some (bs, r)) (v : Bytes) :
    readChar (s ++ v) = some (bs, r ++ v) := by
  cases s with
  | nil => simp [readChar] at h
  | cons c cs =>
    rw [List.cons_append, readChar.eq_def]
    rw [readChar.eq_def] at h
    dsimp only at h ⊢
    split at h
    · exact absurd h (by simp)
    rename_i hc34
    rw [if_neg hc34]
    split at h
    · rename_i hc92
      rw [if_pos hc92]
      cases cs with
      | nil => simp at h
      | cons e r0 =>
        simp only [List.cons_append] at h ⊢
        split at h
        · rename_i he
          rw [if_pos he]
          split at h
          · rename_i a b c d r'
            simp only [List.cons_append]
            split at h
            · exact absurd h (by simp)
            · rename_i u hu
              split at h
              · rename_i hsur
                rw [if_pos hsur]
                split at h
                · simp only [List.cons_append]
                  split at h
                  · exact absurd h (by simp)
                  · rename_i w hw
                    try simp only [hw]
                    split at h
                    · rename_i hlo
                      rw [if_pos hlo]
                      simp only [Option.some.injEq, Prod.mk.injEq] at h ⊢
                      exact ⟨h.1, by rw [h.2]⟩
                    · exact absurd h (by simp)
                · exact absurd h (by simp)
              · rename_i hsur
                rw [if_neg hsur]
                split at h
                · exact absurd h (by simp)
                · rename_i hlo
                  rw [if_neg hlo]
                  simp only [Option.some.injEq, Prod.mk.injEq] at h ⊢
                  exact ⟨h.1, by rw [h.2]⟩
          · exact absurd h (by simp)
        · rename_i he
          rw [if_neg he]
          cases hs : simpleEscape e with
          | none => rw [hs] at h; exact absurd h (by simp)
          | some b =>
            rw [hs] at h
            simp only [Option.map_some, Option.some.injEq, Prod.mk.injEq] at h ⊢
            exact ⟨h.1, by rw [h.2]⟩
    · rename_i hc92
      rw [if_neg hc92]
      split at h
      · exact absurd h (by simp)
      · rename_i hlt
        rw [if_neg hlt]
        simp only [Option.some.injEq, Prod.mk.injEq] at h ⊢
        exact ⟨h.1, by rw [h.2]⟩

theorem readBody_succ (f : Nat) (s : Bytes) (h : ∀ t, s ≠ 34 :: t) :
    readBody (f + 1) s = match readChar s with
      | none => none
      | some (bs, rest) =>
        (readBody f rest).map fun (p : List UInt8 × List UInt8) => (bs ++ p.1, p.2) := by
  rw [readBody]
  · rfl
  · exact h

theorem readBody_append {f : Nat} {s d r : Bytes} (h : readBody f s = some (d, r)) (v : Bytes)
    (f' : Nat) (hf : f ≤ f') : readBody f' (s ++ v) = some (d, r ++ v) := by
  induction f generalizing s d f' with
  | zero => simp [readBody] at h
  | succ f ih =>
    obtain ⟨g, rfl⟩ : ∃ g, f' = g + 1 := ⟨f' - 1, by omega⟩
    by_cases hq : ∃ t, s = 34 :: t
    · obtain ⟨t, rfl⟩ := hq
      simp only [readBody, Option.some.injEq, Prod.mk.injEq] at h
      rw [List.cons_append, readBody, h.1, h.2]
    · rw [readBody_succ f s (by intro t ht; exact hq ⟨t, ht⟩)] at h
      cases hc : readChar s with
      | none => rw [hc] at h; exact absurd h (by simp)
      | some p =>
        obtain ⟨bs, rest⟩ := p
        rw [hc] at h
        simp only [Option.map_eq_some_iff] at h
        obtain ⟨⟨q1, q2⟩, h1, h2⟩ := h
        simp only [Prod.mk.injEq] at h2
        rw [h2.2] at h1
        have hne : ∀ t, s ++ v ≠ 34 :: t := by
          intro t ht
          cases s with
          | nil => simp [readChar] at hc
          | cons a as => exact hq ⟨as, by rw [List.cons_append] at ht; rw [(List.cons.inj ht).1]⟩
        rw [readBody_succ g (s ++ v) hne, readChar_append hc v]
        simp only
        rw [ih h1 g (by omega)]
        simp [h2.1]

theorem readString_append {u d r : Bytes} (h : readString u = some (d, r)) (v : Bytes) :
    readString (u ++ v) = some (d, r ++ v) := by
  cases u with
  | nil => simp [readString] at h
  | cons c cs =>
    by_cases hc : c = 34
    · subst hc
      rw [List.cons_append, readString]
      rw [readString] at h
      exact readBody_append h v _ (by simp)
    · rw [readString] at h
      · exact absurd h (by simp)
      · intro s hs; exact hc (List.cons.inj hs).1

end Lexi
