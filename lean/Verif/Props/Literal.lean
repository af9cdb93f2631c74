import Verif.Spec.Literal
import Verif.Props.Sql

/-!
# C121: JSON texts as string literals of other languages
-/

namespace Lexi
open Spec

/-- What the JSON text of one byte is read as. -/
def unitOf (L : LitRules) (c : UInt8) : Option Bytes :=
  match jsonB c with
  | [b] => if L.raw b then some [b] else none
  | [_, e] => L.esc e
  | [_, _, a, b, h, l] =>
    match L.uni with
    | some f => (hex4 a b h l).bind f
    | none => (L.esc 117).bind fun v => if L.raw a && L.raw b && L.raw h && L.raw l then some (v ++ [a, b, h, l]) else none
  | _ => none

theorem lit_raw (L : LitRules) (b : UInt8) (t : Bytes) (h1 : b ≠ 34) (h2 : b ≠ 92) :
    litRest L (b :: t) = if L.raw b then inFront [b] (litRest L t) else none := by
  rw [litRest.eq_def]; dsimp only; rw [if_neg h1, if_neg h2]; rfl

theorem lit_esc (L : LitRules) (c : UInt8) (t : Bytes) (h : c ≠ 117 ∨ L.uni = none) :
    litRest L (92 :: c :: t) = (L.esc c).bind fun v => inFront v (litRest L t) := by
  have e : (if c = 117 then L.uni else none) = none := by
    rcases h with h | h
    · rw [if_neg h]
    · rw [h]; split <;> rfl
  rw [litRest.eq_def]; dsimp only; rw [if_neg (by decide), if_pos rfl, e]; rfl

theorem lit_uni (L : LitRules) (f) (a b c d : UInt8) (t : Bytes) (h : L.uni = some f) :
    litRest L (92 :: 117 :: a :: b :: c :: d :: t) = ((hex4 a b c d).bind f).bind fun v => inFront v (litRest L t) := by
  rw [litRest.eq_def]; dsimp only; rw [if_neg (by decide), if_pos rfl, if_pos rfl, h]; rfl

theorem hex_digit_plain : ∀ b : UInt8, hexVal b ≠ none → b ≠ 34 ∧ b ≠ 92 := by
  apply forall_byte; decide +kernel

theorem hex4_digits {a b c d : UInt8} {v : Nat} (h : hex4 a b c d = some v) :
    hexVal a ≠ none ∧ hexVal b ≠ none ∧ hexVal c ≠ none ∧ hexVal d ≠ none := by
  refine ⟨?_, ?_, ?_, ?_⟩ <;> intro e <;> rw [hex4] at h <;> simp [e] at h

theorem lit_unit (L : LitRules) (c : UInt8) (t : Bytes) :
    litRest L (jsonB c ++ t) = (unitOf L c).bind fun v => inFront v (litRest L t) := by
  rcases jsonB_cases c with ⟨e, he, hu, -⟩ | ⟨h, l, he, hh, -⟩ | ⟨he, h1, h2, h3⟩
  · rw [unitOf, he]; exact lit_esc L e t (.inl hu)
  · rw [unitOf, he]
    simp only [List.cons_append, List.nil_append]
    obtain ⟨-, -, hd1, hd2⟩ := hex4_digits hh
    cases hun : L.uni with
    | some f => exact lit_uni L f _ _ _ _ t hun
    | none =>
      dsimp only
      rw [lit_esc L 117 _ (.inr hun), lit_raw L 48 _ (by decide) (by decide), lit_raw L 48 _ (by decide) (by decide),
        lit_raw L h _ (hex_digit_plain h hd1).1 (hex_digit_plain h hd1).2,
        lit_raw L l _ (hex_digit_plain l hd2).1 (hex_digit_plain l hd2).2]
      cases L.esc 117 with
      | none => rfl
      | some v =>
        dsimp only [Option.bind_some]
        by_cases r1 : L.raw 48 = true <;> by_cases r2 : L.raw h = true <;> by_cases r3 : L.raw l = true <;>
          simp [r1, r2, r3, inFront_inFront] <;> rfl
  · rw [unitOf, he]
    simp only [List.cons_append, List.nil_append]
    rw [lit_raw L c t h1 h2]
    split <;> rfl

/-- What the JSON text of a string is read as, without its quotes. -/
def unitsOf (L : LitRules) : Bytes → Option Bytes
  | [] => some []
  | c :: s => (unitOf L c).bind fun v => (unitsOf L s).map (v ++ ·)

theorem lit_units (L : LitRules) (s t : Bytes) :
    litRest L (s.flatMap jsonB ++ t) = (unitsOf L s).bind fun v => inFront v (litRest L t) := by
  induction s with
  | nil => simp [unitsOf, inFront_nil]
  | cons c s ih =>
    rw [List.flatMap_cons, List.append_assoc, lit_unit, ih, unitsOf]
    cases unitOf L c with
    | none => rfl
    | some v =>
      cases unitsOf L s with
      | none => rfl
      | some w => simp [inFront_inFront]

theorem lit_json (L : LitRules) (sgn : Bool) (s t r : Bytes) (h : jsonifyStr sgn s = .ok t) :
    litString L (t ++ r) = (unitsOf L s).map fun v => (v, r) := by
  rw [jsonifyStr_eq] at h
  cases h
  have e : litString L (34 :: (s.flatMap jsonB ++ [34]) ++ r) = litRest L (s.flatMap jsonB ++ 34 :: r) := by
    simp [litString]
  have e' : litRest L (34 :: r) = some ([], r) := by rw [litRest.eq_def]; rfl
  rw [e, lit_units, e']
  cases unitsOf L s <;> simp [inFront]

/-- A table of the bytes that are read as themselves, the others being refused. -/
theorem units_strict (L : LitRules) (good : UInt8 → Bool) (T : ∀ c, unitOf L c = if good c then some [c] else none) (s : Bytes) :
    unitsOf L s = if ∀ c ∈ s, good c then some s else none := by
  induction s with
  | nil => rfl
  | cons c s ih =>
    rw [unitsOf, T, ih]
    by_cases hc : good c = true
    · by_cases hs : ∀ b ∈ s, good b = true
      · rw [if_pos hc, if_pos hs, if_pos (by simpa [hc] using hs)]; rfl
      · rw [if_pos hc, if_neg hs, if_neg (by simpa [hc] using hs)]; rfl
    · rw [if_neg hc, Option.bind_none, if_neg fun h => hc (h c (List.mem_cons_self ..))]

/-- A table of the bytes that are read as themselves, the others being refused or read as something longer. -/
theorem units_loose (L : LitRules) (good : UInt8 → Bool)
    (T : ∀ c, if good c then unitOf L c = some [c] else ∀ v ∈ unitOf L c, 2 ≤ v.length) (s : Bytes) :
    (∀ v ∈ unitsOf L s, s.length ≤ v.length) ∧ (unitsOf L s = some s ↔ ∀ c ∈ s, good c) := by
  induction s with
  | nil => simp [unitsOf]
  | cons c s ih =>
    have hT := T c
    rw [unitsOf]
    by_cases hc : good c = true
    · rw [if_pos hc] at hT
      rw [hT]
      cases hu : unitsOf L s with
      | none =>
        rw [hu] at ih
        have := ih.2
        simp only [reduceCtorEq, false_iff] at this
        simpa [hc] using this
      | some w =>
        rw [hu] at ih
        have h2 := ih.2
        simp only [Option.some.injEq] at h2
        have h1 := ih.1 w rfl
        simp [hc, h2, h1]
    · rw [if_neg hc] at hT
      cases hv : unitOf L c with
      | none => simp [hc]
      | some v =>
        have h2 := hT v hv
        cases hu : unitsOf L s with
        | none => simp [hc]
        | some w =>
          have h1 := ih.1 w hu
          simp only [Option.bind_some, Option.map_some, Option.mem_def, Option.some.injEq, List.mem_cons, forall_eq_or_imp, hc,
            forall_eq', List.length_append, List.length_cons, Bool.false_eq_true, false_and, iff_false]
          refine ⟨by omega, fun e => ?_⟩
          have := congrArg List.length e
          simp only [List.length_append, List.length_cons] at this
          omega

/-- C121.  Pasted into C++ (since C++11), Go, Python or YAML, the JSON text of a string is a literal with that string as its value,
whatever is behind it. -/
theorem C121_always (sgn : Bool) (s t r : Bytes) (h : jsonifyStr sgn s = .ok t) (L : LitRules)
    (hL : L = cppRules ∨ L = goRules ∨ L = pyRules ∨ L = yamlRules) : litString L (t ++ r) = some (s, r) := by
  have T : ∀ c, unitOf L c = if (fun _ : UInt8 => true) c then some [c] else none := by
    rcases hL with rfl | rfl | rfl | rfl <;> apply forall_byte <;> decide +kernel
  rw [lit_json L sgn s t r h, units_strict L _ T, if_pos (by simp)]; rfl

example : ∃ t, jsonifyStr true [34, 92, 0, 10, 127, 226, 128, 168] = .ok t ∧
    litString pyRules (t ++ [41]) = some ([34, 92, 0, 10, 127, 226, 128, 168], [41]) :=
  ⟨_, jsonifyStr_eq .., C121_always true _ _ _ (jsonifyStr_eq ..) _ (by simp)⟩

/-- C121.  In C it is one exactly if the string has no control bytes but backspace, tab, line feed, form feed and carriage return:
`\u0000` is no universal character name. -/
theorem C121_c (sgn : Bool) (s t r : Bytes) (h : jsonifyStr sgn s = .ok t) :
    litString cRules (t ++ r) = if ∀ c ∈ s, 32 ≤ c ∨ c ∈ [8, 9, 10, 12, 13] then some (s, r) else none := by
  have T : ∀ c, unitOf cRules c = if (fun c : UInt8 => decide (32 ≤ c ∨ c ∈ [8, 9, 10, 12, 13])) c then some [c] else none := by
    apply forall_byte; decide +kernel
  rw [lit_json _ sgn s t r h, units_strict _ _ T]
  simp only [decide_eq_true_eq]
  split <;> rfl

example : ∃ t, jsonifyStr true [97, 10, 34] = .ok t ∧ litString cRules (t ++ [59]) = some ([97, 10, 34], [59]) :=
  ⟨_, jsonifyStr_eq .., (C121_c true _ _ _ (jsonifyStr_eq ..)).trans (if_pos (by decide))⟩
example : ∃ t, jsonifyStr true [97, 27] = .ok t ∧ litString cRules (t ++ [59]) = none :=
  ⟨_, jsonifyStr_eq .., (C121_c true _ _ _ (jsonifyStr_eq ..)).trans (if_neg (by decide))⟩

/-- C121.  In Rust exactly if there are none but tab, line feed and carriage return. -/
theorem C121_rust (sgn : Bool) (s t r : Bytes) (h : jsonifyStr sgn s = .ok t) :
    litString rustRules (t ++ r) = if ∀ c ∈ s, 32 ≤ c ∨ c ∈ [9, 10, 13] then some (s, r) else none := by
  have T : ∀ c, unitOf rustRules c = if (fun c : UInt8 => decide (32 ≤ c ∨ c ∈ [9, 10, 13])) c then some [c] else none := by
    apply forall_byte; decide +kernel
  rw [lit_json _ sgn s t r h, units_strict _ _ T]
  simp only [decide_eq_true_eq]
  split <;> rfl

example : ∃ t, jsonifyStr true [97, 12] = .ok t ∧ litString rustRules (t ++ [59]) = none :=
  ⟨_, jsonifyStr_eq .., (C121_rust true _ _ _ (jsonifyStr_eq ..)).trans (if_neg (by decide))⟩

/-- C121.  In TOML exactly if there is no DEL. -/
theorem C121_toml (sgn : Bool) (s t r : Bytes) (h : jsonifyStr sgn s = .ok t) :
    litString tomlRules (t ++ r) = if 127 ∉ s then some (s, r) else none := by
  have T : ∀ c, unitOf tomlRules c = if (fun c : UInt8 => decide (c ≠ 127)) c then some [c] else none := by
    apply forall_byte; decide +kernel
  have e : (∀ c ∈ s, c ≠ 127) ↔ 127 ∉ s := ⟨fun h hm => h 127 hm rfl, fun h c hc e => h (e ▸ hc)⟩
  rw [lit_json _ sgn s t r h, units_strict _ _ T]
  simp only [decide_eq_true_eq, e]
  split <;> rfl

example : ∃ t, jsonifyStr true [0, 97] = .ok t ∧ litString tomlRules (t ++ [10]) = some ([0, 97], [10]) :=
  ⟨_, jsonifyStr_eq .., (C121_toml true _ _ _ (jsonifyStr_eq ..)).trans (if_pos (by decide))⟩
example : ∃ t, jsonifyStr true [127] = .ok t ∧ litString tomlRules (t ++ [10]) = none :=
  ⟨_, jsonifyStr_eq .., (C121_toml true _ _ _ (jsonifyStr_eq ..)).trans (if_neg (by decide))⟩

/-- C121.  As a `bytes` literal of Python it has the string as its value exactly if the string is ASCII and has no control bytes but
those with a letter. -/
theorem C121_python_bytes (sgn : Bool) (s t r : Bytes) (h : jsonifyStr sgn s = .ok t) :
    litString pyBytesRules (t ++ r) = some (s, r) ↔ ∀ c ∈ s, c < 128 ∧ (32 ≤ c ∨ c ∈ [8, 9, 10, 12, 13]) := by
  have T : ∀ c, if (fun c : UInt8 => decide (c < 128 ∧ (32 ≤ c ∨ c ∈ [8, 9, 10, 12, 13]))) c then unitOf pyBytesRules c = some [c]
      else ∀ v ∈ unitOf pyBytesRules c, 2 ≤ v.length := by
    apply forall_byte; decide +kernel
  have := (units_loose _ _ T s).2
  simp only [decide_eq_true_eq] at this
  rw [lit_json _ sgn s t r h, ← this]
  cases unitsOf pyBytesRules s <;> simp

example : ∃ t, jsonifyStr true [97, 9] = .ok t ∧ litString pyBytesRules (t ++ [41]) = some ([97, 9], [41]) :=
  ⟨_, jsonifyStr_eq .., (C121_python_bytes true _ _ _ (jsonifyStr_eq ..)).mpr (by decide)⟩

/-- C121.  Between the double quotes of a shell it has the string as its value exactly if the string has no control bytes, no `$` and
no grave accent. -/
theorem C121_sh (sgn : Bool) (s t r : Bytes) (h : jsonifyStr sgn s = .ok t) :
    litString shRules (t ++ r) = some (s, r) ↔ ∀ c ∈ s, 32 ≤ c ∧ c ≠ 36 ∧ c ≠ 96 := by
  have T : ∀ c, if (fun c : UInt8 => decide (32 ≤ c ∧ c ≠ 36 ∧ c ≠ 96)) c then unitOf shRules c = some [c]
      else ∀ v ∈ unitOf shRules c, 2 ≤ v.length := by
    apply forall_byte; decide +kernel
  have := (units_loose _ _ T s).2
  simp only [decide_eq_true_eq] at this
  rw [lit_json _ sgn s t r h, ← this]
  cases unitsOf shRules s <;> simp

example : ∃ t, jsonifyStr true [97, 34, 92] = .ok t ∧ litString shRules (t ++ [10]) = some ([97, 34, 92], [10]) :=
  ⟨_, jsonifyStr_eq .., (C121_sh true _ _ _ (jsonifyStr_eq ..)).mpr (by decide)⟩

/-- C121.  Whatever the value, the shell's string ends where it should exactly if there is no `$` and no grave accent in the string,
and Python's bytes exactly if it is ASCII. -/
theorem C121_closed (sgn : Bool) (s t r : Bytes) (h : jsonifyStr sgn s = .ok t) :
    ((∃ v, litString shRules (t ++ r) = some (v, r)) ↔ 36 ∉ s ∧ 96 ∉ s) ∧
    ((∃ v, litString pyBytesRules (t ++ r) = some (v, r)) ↔ ∀ c ∈ s, c < 128) := by
  have key : ∀ L : LitRules, ∀ good : UInt8 → Bool, (∀ c, (unitOf L c).isSome = good c) →
      ((∃ v, litString L (t ++ r) = some (v, r)) ↔ ∀ c ∈ s, good c) := by
    intro L good T
    have hs : (unitsOf L s).isSome ↔ ∀ c ∈ s, good c := by
      clear h
      induction s with
      | nil => simp [unitsOf]
      | cons c s ih =>
        have := T c
        rw [unitsOf]
        cases hv : unitOf L c with
        | none => rw [hv] at this; simp [← this]
        | some v => rw [hv] at this; simp [← this, ih]
    rw [lit_json L sgn s t r h, ← hs]
    cases unitsOf L s <;> simp
  refine ⟨(key shRules (fun c => decide (c ≠ 36 ∧ c ≠ 96)) ?_).trans ?_, (key pyBytesRules (fun c => decide (c < 128)) ?_).trans ?_⟩
  · apply forall_byte; decide +kernel
  · simp only [decide_eq_true_eq]
    exact ⟨fun h => ⟨fun hm => (h 36 hm).1 rfl, fun hm => (h 96 hm).2 rfl⟩,
      fun h c hc => ⟨fun e => h.1 (e ▸ hc), fun e => h.2 (e ▸ hc)⟩⟩
  · apply forall_byte; decide +kernel
  · simp only [decide_eq_true_eq]

example : ∃ t v, jsonifyStr true [97, 10] = .ok t ∧ litString shRules (t ++ [59]) = some (v, [59]) ∧ v ≠ [97, 10] := by
  obtain ⟨v, hv⟩ := (C121_closed true [97, 10] _ [59] (jsonifyStr_eq ..)).1.mpr (by decide)
  refine ⟨_, v, jsonifyStr_eq .., hv, fun e => ?_⟩
  have := (C121_sh true [97, 10] _ [59] (jsonifyStr_eq ..)).mp (e ▸ hv)
  revert this; decide

/-! ### Java -/

theorem java_plain (b : UInt8) (t : Bytes) (h : b ≠ 92) : javaUnicode (b :: t) = (javaUnicode t).map (b :: ·) := by
  rw [javaUnicode.eq_def]; split <;> simp_all

theorem java_esc (e : UInt8) (t : Bytes) (h : e ≠ 117) : javaUnicode (92 :: e :: t) = (javaUnicode t).map fun r => 92 :: e :: r := by
  by_cases h' : e = 92
  · subst h'; rw [javaUnicode]
  · have : javaUnicode (92 :: e :: t) = (javaUnicode (e :: t)).map (92 :: ·) := by
      rw [javaUnicode.eq_def]; split <;> simp_all
    rw [this, java_plain e t h', Option.map_map]; rfl

/-- The text of one byte after the first translation. -/
def javaB (c : UInt8) : Bytes := if (jsonB c).length = 6 then [c] else jsonB c

theorem javaUnicode_unit (c : UInt8) (t : Bytes) : javaUnicode (jsonB c ++ t) = (javaUnicode t).map (javaB c ++ ·) := by
  rcases jsonB_cases c with ⟨e, he, hu, -⟩ | ⟨h, l, he, hh, hlt⟩ | ⟨he, h1, h2, h3⟩
  · rw [javaB, he]; exact java_esc e t hu
  · rw [javaB, he, if_pos (by rfl)]
    simp only [List.cons_append, List.nil_append]
    have hc : asciiOnly c.toNat = some [c] := by
      have := UInt8.lt_iff_toNat_lt.mp hlt
      rw [asciiOnly, if_pos (by have e : (32 : UInt8).toNat = 32 := rfl; omega)]; simp
    rw [javaUnicode, hh, Option.bind_some, hc]; rfl
  · rw [javaB, he]; exact java_plain c t h2

theorem java_table : ∀ c : UInt8, (javaB c = [c] ∧ c ≠ 34 ∧ c ≠ 92 ∧ javaRules.raw c) ∨
    (∃ e, javaB c = [92, e] ∧ e ≠ 117 ∧ javaRules.esc e = some [c]) := by
  intro c
  have T : ∀ c : UInt8, (javaB c = [c] ∧ c ≠ 34 ∧ c ≠ 92 ∧ javaRules.raw c) ∨
      (javaB c = [92, ((javaB c)[1]?.getD 0)] ∧ ((javaB c)[1]?.getD 0) ≠ 117 ∧ javaRules.esc ((javaB c)[1]?.getD 0) = some [c]) := by
    apply forall_byte; decide +kernel
  rcases T c with h | h
  · exact .inl h
  · exact .inr ⟨_, h⟩

theorem java_read (s t : Bytes) : litRest javaRules (s.flatMap javaB ++ t) = inFront s (litRest javaRules t) := by
  induction s with
  | nil => simp [inFront_nil]
  | cons c s ih =>
    rw [List.flatMap_cons, List.append_assoc]
    rcases java_table c with ⟨e, h1, h2, h3⟩ | ⟨e', e, h1, h2⟩ <;> rw [e]
    · rw [List.cons_append, List.nil_append, lit_raw _ c _ h1 h2, if_pos h3, ih, inFront_inFront]; rfl
    · rw [List.cons_append, List.cons_append, List.nil_append, lit_esc _ e' _ (.inl h1), h2, Option.bind_some, ih,
        inFront_inFront]; rfl

/-- C121.  In Java, where Unicode escapes are translated before anything else, the JSON text of a string is a literal with that
string as its value, whatever program text is behind it. -/
theorem C121_java (sgn : Bool) (s t r r' : Bytes) (h : jsonifyStr sgn s = .ok t) (hr : javaUnicode r = some r') :
    (javaUnicode (t ++ r)).bind (litString javaRules) = some (s, r') := by
  rw [jsonifyStr_eq] at h
  cases h
  have hu : ∀ w, javaUnicode (s.flatMap jsonB ++ w) = (javaUnicode w).map (s.flatMap javaB ++ ·) := by
    intro w
    clear hr
    induction s with
    | nil => simp
    | cons c s ih =>
      rw [List.flatMap_cons, List.append_assoc, javaUnicode_unit, ih, Option.map_map, List.flatMap_cons]
      congr 1; funext x; simp
  have e : 34 :: (s.flatMap jsonB ++ [34]) ++ r = 34 :: (s.flatMap jsonB ++ 34 :: r) := by simp
  rw [e, java_plain 34 _ (by decide), hu, java_plain 34 _ (by decide), hr]
  have e' : litRest javaRules (34 :: r') = some ([], r') := by rw [litRest.eq_def]; rfl
  simp only [Option.map_some, Option.bind_some, litString]
  rw [java_read, e', inFront_some, List.append_nil]

/-- A backslash and `u0022`, which a careless translation would make a quote of, and a NUL. -/
example : ∃ t, jsonifyStr true [92, 117, 48, 48, 50, 50, 0] = .ok t ∧
    (javaUnicode (t ++ [59])).bind (litString javaRules) = some ([92, 117, 48, 48, 50, 50, 0], [59]) :=
  ⟨_, jsonifyStr_eq .., C121_java true _ _ _ _ (jsonifyStr_eq ..) (by simp [javaUnicode])⟩

end Lexi
