import Verif.Proofs.Str

/-!
# String properties: C13–C19, C48

`Escaped`, `unescape`, `readString` are in `Verif.Spec`.  `sgn` is the signedness of plain `char`.
-/

namespace Lexi
open Spec

/-- C13.  `escape` inserts one backslash before exactly the ASCII non-alphanumerics other than DEL. -/
theorem C13_escape_exact (sgn : Bool) (s : Bytes) :
    Escaped s (escapeStr sgn s) ∧ ∀ t, Escaped s t → t = escapeStr sgn s := by
  have h : Escaped s (escapeStr sgn s) := by
    rw [escapeStr, escape_eq]; exact escaped_flatMap s
  exact ⟨h, fun t ht => escaped_unique ht h⟩

example : escapeStr true (ascii "a/b_Z9" ++ [0x7f, 0xC3, 0xA9, 0]) =
    ascii "a\\/b\\_Z9" ++ [0x7f, 0xC3, 0xA9, 92, 0] := by decide

/-- C13.  Strings of non-ASCII bytes, DEL and alphanumerics are unchanged. -/
theorem C13_escape_transparent (sgn : Bool) (s : Bytes)
    (h : ∀ b ∈ s, 128 ≤ b.toNat ∨ b.toNat = 127 ∨ IsAlnum b) : escapeStr sgn s = s := by
  rw [escapeStr, escape_eq]
  induction s with
  | nil => rfl
  | cons c cs ih =>
    have hc : ¬ NeedsEscape c := by
      rintro ⟨h1, h2, h3⟩
      rcases h c (by simp) with h | h | h
      · omega
      · exact h3 h
      · exact h2 h
    rw [List.flatMap_cons, ih fun b hb => h b (by simp [hb])]
    simp [escB, hc]

example : ∀ b ∈ ([0xE2, 0x82, 0xAC, 0x41, 0x7f] : Bytes), 128 ≤ b.toNat ∨ b.toNat = 127 ∨ IsAlnum b := by
  decide

/-- C14.  Removing the escapes restores the input. -/
theorem C14_escape_reversible (sgn : Bool) (s : Bytes) : unescape (escapeStr sgn s) = s :=
  unescape_escaped (C13_escape_exact sgn s).1

/-- C14.  Hence `escape` is injective. -/
theorem C14_escape_injective (sgn : Bool) (s t : Bytes) (h : escapeStr sgn s = escapeStr sgn t) : s = t := by
  rw [← C14_escape_reversible sgn s, h, C14_escape_reversible]

example : escapeStr true (ascii "a\\\\b") = ascii "a\\\\\\\\b" := by decide

/-- C15.  `escape` is a monoid homomorphism and grows the string by the number of escaped bytes. -/
theorem C15_escape_compositional (sgn : Bool) (s t : Bytes) :
    escapeStr sgn (s ++ t) = escapeStr sgn s ++ escapeStr sgn t ∧ escapeStr sgn [] = [] ∧
    (escapeStr sgn s).length = s.length + s.countP (fun b => NeedsEscape b) ∧
    s.length ≤ (escapeStr sgn s).length ∧ (escapeStr sgn s).length ≤ 2 * s.length := by
  have hl : (escapeStr sgn s).length = s.length + s.countP (fun b => NeedsEscape b) := by
    rw [escapeStr, escape_eq]
    induction s with
    | nil => rfl
    | cons c cs ih =>
      rw [List.flatMap_cons, List.length_append, ih, List.countP_cons]
      by_cases h : NeedsEscape c <;> simp [escB, h] <;> omega
  have hc := List.countP_le_length (p := fun b => decide (NeedsEscape b)) (l := s)
  refine ⟨?_, rfl, hl, by omega, by omega⟩
  simp [escapeStr, escape_eq, List.flatMap_append]

/-- C16, C17.  A JSON reader positioned at `jsonify(s)` decodes exactly `s` and stops exactly after the
closing quote, whatever follows. -/
theorem C16_jsonify_decodes (sgn : Bool) (s r : Bytes) :
    ∃ t, jsonifyStr sgn s = .ok t ∧ readString t = some (s, []) ∧ readString (t ++ r) = some (s, r) := by
  have key : ∀ r, readString (34 :: (s.flatMap jsonB ++ [34]) ++ r) = some (s, r) := by
    intro r
    simp only [List.cons_append, List.append_assoc, List.nil_append, readString]
    apply readBody_flatMap
    have := (flatMap_jsonB_length s).1
    simp only [List.length_append, List.length_cons]; omega
  refine ⟨_, jsonifyStr_eq sgn s, ?_, key r⟩
  have := key []
  rwa [List.append_nil] at this

example : (readString (ascii "\"\\u0001\\n\\\"\" , 3")) = some ([1, 10, 34], ascii " , 3") := by decide
example : readString (ascii "\"\\ud83d\\ude00\"") = some ([0xF0, 0x9F, 0x98, 0x80], []) := by decide
example : readString (ascii "\"a\nb\"") = none := by decide

/-- C17.  The literal starts and ends with a quote, contains no control byte, a reader stops exactly at its last byte
whatever follows, and it cannot be closed early: no proper prefix is a literal. -/
theorem C17_jsonify_no_breakout (sgn : Bool) (s : Bytes) :
    ∃ t body, jsonifyStr sgn s = .ok t ∧ t = 34 :: (body ++ [34]) ∧ (∀ b ∈ t, ¬ b < 32) ∧
      (∀ r, readString (t ++ r) = some (s, r)) ∧ (∀ u d r, u <+: t → u ≠ t → readString u ≠ some (d, r)) := by
  refine ⟨_, s.flatMap jsonB, jsonifyStr_eq sgn s, rfl, ?_, ?_, ?_⟩
  · intro b hb
    rcases List.mem_cons.mp hb with rfl | hb
    · decide
    · rcases List.mem_append.mp hb with hb | hb
      · obtain ⟨c, _, hc⟩ := List.mem_flatMap.mp hb
        exact jsonB_printable c b hc
      · rw [List.mem_singleton.mp hb]; decide
  · intro r
    obtain ⟨t, ht, -, h⟩ := C16_jsonify_decodes sgn s r
    rw [← Res.ok.inj (ht.symm.trans (jsonifyStr_eq sgn s))]
    exact h
  · intro u d r hu hne hr
    obtain ⟨v, hv⟩ := hu
    -- the reader consumes a prefix, so it would also stop early on the whole literal
    have h1 : readString (u ++ v) = some (d, r ++ v) := readString_append hr v
    have h2 := C16_jsonify_decodes sgn s []
    obtain ⟨t, ht, h3, _⟩ := h2
    rw [jsonifyStr_eq, Res.ok.injEq] at ht
    rw [hv, ht, h3] at h1
    have h4 : r ++ v = [] := (Prod.mk.inj (Option.some.inj h1)).2.symm
    have h5 : v = [] := (List.append_eq_nil_iff.mp h4).2
    rw [h5, List.append_nil] at hv
    exact hne hv

example : ([34, 92, 34] : Bytes) <+: [34, 92, 34, 34] ∧ jsonifyStr true [34] = .ok [34, 92, 34, 34] := by
  decide

/-- C18.  Bytes other than the quote, the backslash and control bytes pass through; the body is
compositional; non-ASCII bytes keep their order; size bounds. -/
theorem C18_jsonify_transparent (sgn : Bool) (s t : Bytes) :
    (∃ bs bt, jsonifyStr sgn s = .ok (34 :: bs ++ [34]) ∧ jsonifyStr sgn t = .ok (34 :: bt ++ [34]) ∧
      jsonifyStr sgn (s ++ t) = .ok (34 :: (bs ++ bt) ++ [34]) ∧
      bs.filter (fun b => 0x80 ≤ b) = s.filter (fun b => 0x80 ≤ b) ∧
      s.length ≤ bs.length ∧ bs.length ≤ 6 * s.length) ∧
    ((∀ b ∈ s, b ≠ 34 ∧ b ≠ 92 ∧ ¬ b < 32) → jsonifyStr sgn s = .ok (34 :: s ++ [34])) := by
  refine ⟨⟨s.flatMap jsonB, t.flatMap jsonB, jsonifyStr_eq sgn s, jsonifyStr_eq sgn t, ?_, ?_,
    flatMap_jsonB_length s⟩, ?_⟩
  · rw [jsonifyStr_eq]; simp [List.flatMap_append]
  · induction s with
    | nil => rfl
    | cons c cs ih =>
      rw [List.flatMap_cons, List.filter_append, ih, jsonB_high, ← List.filter_append]
      rfl
  · intro h
    rw [jsonifyStr_eq]
    congr 3
    induction s with
    | nil => rfl
    | cons c cs ih =>
      obtain ⟨h1, h2, h3⟩ := h c (by simp)
      rw [List.flatMap_cons, ih fun b hb => h b (by simp [hb])]
      rcases jsonB_cases c with ⟨e, g1, g2, g3⟩ | ⟨hh, l, g1, g2, g3⟩ | ⟨g1, _⟩
      · exfalso
        have : ∀ e c : UInt8, simpleEscape e = some c → c = 34 ∨ c = 92 ∨ c < 32 ∨ c = 47 := by
          intro e c
          unfold simpleEscape
          repeat' split
          all_goals (intro hh; first | (injection hh with hh; subst hh; decide) | exact absurd hh (by simp))
        rcases this e c g3 with rfl | rfl | hh | rfl
        · exact h1 rfl
        · exact h2 rfl
        · exact h3 hh
        · revert g1
          have : jsonB 47 = [47] := by decide
          rw [this]; simp
      · exact absurd g3 h3
      · rw [g1]; rfl

example : ∀ b ∈ ([0xE2, 0x82, 0xAC, 0x20, 0x7f] : Bytes), b ≠ 34 ∧ b ≠ 92 ∧ ¬ b < 32 := by decide
example : jsonifyStr false [0] = .ok (ascii "\"\\u0000\"") := by decide

/-- C19.  Neither function depends on the signedness of `char`; the hex table is never read out of
range (the result is never undefined). -/
theorem C19_char_signedness (s : Bytes) :
    escapeStr true s = escapeStr false s ∧ jsonifyStr true s = jsonifyStr false s ∧
    (∀ sgn, jsonifyStr sgn s ≠ .ub) := by
  refine ⟨?_, ?_, ?_⟩
  · rw [escapeStr, escapeStr, escape_eq, escape_eq]
  · rw [jsonifyStr_eq, jsonifyStr_eq]
  · intro sgn; rw [jsonifyStr_eq]; simp

/-- C48.  `std::string` arguments pass through unchanged; C strings up to the first NUL. -/
theorem C48_string_identity (s : Bytes) :
    lexiStr (.stdString s) = .ok s ∧
    (∀ t r, CString s t → lexiStr (.cstr (s ++ 0 :: r)) = .ok t) := by
  refine ⟨rfl, ?_⟩
  intro t r h
  have hc : CString (s ++ 0 :: r) t := by
    refine ⟨h.1, Or.inr ?_⟩
    rcases h.2 with h | ⟨q, h⟩
    · exact ⟨r, by rw [h]⟩
    · exact ⟨q ++ 0 :: r, by rw [h]; simp⟩
  simp [lexiStr, StrArg.toStd, cstr_eq hc]

example : CString (ascii "ab") (ascii "ab") ∧ lexiStr (.cstr (ascii "ab" ++ [0, 7])) = .ok (ascii "ab") :=
  ⟨⟨by decide, Or.inl rfl⟩, by decide⟩

end Lexi
