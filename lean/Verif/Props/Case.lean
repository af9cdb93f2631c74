import Verif.Props.CutString
import Verif.Spec.Case

/-!
# C126: changing the case of escaped strings and JSON texts
-/

namespace Lexi
open Spec

theorem flatMap_map_comm {f : UInt8 → Bytes} {g : UInt8 → UInt8} {s : Bytes} (h : ∀ c ∈ s, (f c).map g = f (g c)) :
    (s.flatMap f).map g = (s.map g).flatMap f := by
  induction s with
  | nil => rfl
  | cons c s ih =>
    rw [List.flatMap_cons, List.map_append, h c (by simp), ih fun d hd => h d (by simp [hd]), List.map_cons, List.flatMap_cons]

/-- C126.  Changing the case before or after `escape` is the same. -/
theorem C126_escape (sgn : Bool) (s : Bytes) :
    (escapeStr sgn s).map lower = escapeStr sgn (s.map lower) ∧ (escapeStr sgn s).map upper = escapeStr sgn (s.map upper) := by
  have h : ∀ c : UInt8, (escB c).map lower = escB (lower c) ∧ (escB c).map upper = escB (upper c) := by
    apply forall_byte
    decide +kernel
  simp only [escapeStr, escape_eq]
  exact ⟨flatMap_map_comm fun c _ => (h c).1, flatMap_map_comm fun c _ => (h c).2⟩

/-- C126.  So is lower case before or after `jsonify`. -/
theorem C126_json_lower (sgn : Bool) (s : Bytes) :
    ∃ t, jsonifyStr sgn s = .ok t ∧ jsonifyStr sgn (s.map lower) = .ok (t.map lower) := by
  have h : ∀ c : UInt8, (jsonB c).map lower = jsonB (lower c) := by
    apply forall_byte
    decide +kernel
  refine ⟨_, jsonifyStr_eq sgn s, ?_⟩
  rw [jsonifyStr_eq, List.map_cons, List.map_append, flatMap_map_comm fun c _ => h c]
  rfl

theorem jsonB_upper : ∀ c : UInt8, ¬ c < 32 → (jsonB c).map upper = jsonB (upper c) := by
  apply forall_byte
  decide +kernel

/-- The escapes of control bytes in upper case are none. -/
theorem jsonB_upper_control (c : UInt8) (hc : c < 32) (r : Bytes) :
    ∃ e z, (jsonB c).map upper ++ r = 92 :: e :: z ∧ e ≠ 117 ∧ simpleEscape e = none := by
  have h : ∀ c : UInt8, c < 32 → ∃ e ∈ ([66, 70, 78, 82, 84, 85] : Bytes), ((jsonB c).map upper).take 2 = [92, e] := by
    apply forall_byte
    decide +kernel
  have he : ∀ e ∈ ([66, 70, 78, 82, 84, 85] : Bytes), e ≠ 117 ∧ simpleEscape e = none := by decide
  obtain ⟨e, hm, ht⟩ := h c hc
  refine ⟨e, ((jsonB c).map upper).drop 2 ++ r, ?_, he e hm⟩
  conv_lhs => rw [← List.take_append_drop 2 ((jsonB c).map upper), ht]
  rfl

/-- C126.  A JSON text in upper case is read exactly if the string has no control bytes, and then as the string in upper case. -/
theorem C126_json_upper (sgn : Bool) (s t : Bytes) (ht : jsonifyStr sgn s = .ok t) :
    ((∀ b ∈ s, ¬ b < 32) → readString (t.map upper) = some (s.map upper, [])) ∧
    ((∃ b ∈ s, b < 32) → readString (t.map upper) = none) := by
  rw [json_ok ht]
  constructor
  · intro h
    obtain ⟨t', e, hr, -⟩ := C16_jsonify_decodes sgn (s.map upper) []
    rw [json_ok e, ← flatMap_map_comm fun c hc => jsonB_upper c (h c hc)] at hr
    rw [List.map_cons, List.map_append]
    exact hr
  · intro h
    -- up to the first control byte the text is that of a literal
    have split : ∀ s : Bytes, (∃ b ∈ s, b < 32) → ∃ p c q, s = p ++ c :: q ∧ (∀ b ∈ p, ¬ b < 32) ∧ c < 32 := by
      intro s
      induction s with
      | nil => rintro ⟨b, hb, -⟩; cases hb
      | cons a s ih =>
        intro h
        by_cases ha : a < 32
        · exact ⟨[], a, s, rfl, by simp, ha⟩
        · obtain ⟨b, hb, hb'⟩ := h
          obtain ⟨p, c, q, rfl, hp, hc⟩ := ih ⟨b, by
            rcases List.mem_cons.mp hb with rfl | hb
            · exact absurd hb' ha
            · exact hb, hb'⟩
          refine ⟨a :: p, c, q, rfl, ?_, hc⟩
          intro d hd
          rcases List.mem_cons.mp hd with rfl | hd
          · exact ha
          · exact hp d hd
    obtain ⟨p, c, q, rfl, hp, hc⟩ := split s h
    obtain ⟨e, z, hz, h1, h2⟩ := jsonB_upper_control c hc ((q.flatMap jsonB ++ [34]).map upper)
    have ht : (34 :: ((p ++ c :: q).flatMap jsonB ++ [34])).map upper = 34 :: ((p.map upper).flatMap jsonB ++ 92 :: e :: z) := by
      rw [← hz, ← flatMap_map_comm fun d hd => jsonB_upper d (hp d hd)]
      simp [show upper 34 = 34 by decide]
    rw [ht, readString]
    have hl := (flatMap_jsonB_length (p.map upper)).1
    obtain ⟨f, hf⟩ : ∃ f, ((p.map upper).flatMap jsonB ++ 92 :: e :: z).length + 1 = f + 1 + (p.map upper).length :=
      ⟨((p.map upper).flatMap jsonB ++ 92 :: e :: z).length - (p.map upper).length, by
        rw [List.length_append]; omega⟩
    rw [hf, readBody_skip, readBody_succ _ _ (by intro t h; cases h)]
    simp [readChar, h1, h2]

example : (escapeStr true (ascii "Ab-c")).map upper = ascii "AB\\-C" ∧
    jsonifyStr true (ascii "Ab\n") = .ok (ascii "\"Ab\\n\"") ∧ readString ((ascii "\"Ab\\n\"").map upper) = none ∧
    readString ((ascii "\"Ab\\\\\"").map upper) = some (ascii "AB\\", []) := by decide +kernel

end Lexi
