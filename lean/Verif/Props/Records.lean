import Verif.Spec.Records
import Verif.Props.Shell
import Verif.Props.RoundTrip

/-!
# Records of escaped fields and lines of JSON: C96
-/

namespace Lexi
open Spec Soft Dtoa

theorem splitEsc_esc (d : UInt8) (cur : Bytes) (c : UInt8) (t : Bytes) :
    splitEsc d cur (92 :: c :: t) = splitEsc d (cur ++ [92, c]) t := by
  rw [splitEsc.eq_def]; simp

theorem splitEsc_plain (d : UInt8) (cur : Bytes) (b : UInt8) (t : Bytes) (h : b ≠ 92) :
    splitEsc d cur (b :: t) = if b = d then cur :: splitEsc d [] t else splitEsc d (cur ++ [b]) t := by
  rw [splitEsc.eq_def]; simp [h]

/-- Reading a field that the separator cannot end. -/
def Solid (d : UInt8) (s : Bytes) : Prop := ∀ cur r, splitEsc d cur (s ++ r) = splitEsc d (cur ++ s) r

theorem solid_escape (d : UInt8) (hd : NeedsEscape d) (s : Bytes) : Solid d (s.flatMap escB) := by
  intro cur r
  induction s generalizing cur with
  | nil => simp
  | cons c s ih =>
    rw [List.flatMap_cons, List.append_assoc]
    by_cases hn : NeedsEscape c
    · rw [escB_pos hn]
      simp only [List.cons_append, List.nil_append]
      rw [splitEsc_esc, ih]
      simp
    · rw [escB_neg hn]
      simp only [List.cons_append, List.nil_append]
      rw [splitEsc_plain _ _ _ _ (plain_byte c hn).1, if_neg (by rintro rfl; exact hn hd), ih]
      simp

theorem solid_scalar (d : UInt8) (hd : ¬ ScalarByte d) (s : Bytes) (hs : ∀ b ∈ s, ScalarByte b) : Solid d s := by
  intro cur r
  induction s generalizing cur with
  | nil => simp
  | cons c s ih =>
    have hc := hs c (by simp)
    rw [List.cons_append, splitEsc_plain _ _ _ _ (scalar_plain c hc).1, if_neg (by rintro rfl; exact hd hc),
      ih fun b hb => hs b (by simp [hb])]
    simp

theorem fields_record (d : UInt8) (h92 : d ≠ 92) (es : List Bytes) (hne : es ≠ []) (hs : ∀ e ∈ es, Solid d e) :
    fields d (record d es) = es := by
  unfold fields
  induction es with
  | nil => exact absurd rfl hne
  | cons e es ih =>
    have he := hs e (by simp)
    cases es with
    | nil =>
      have := he [] []
      rw [List.append_nil, List.nil_append] at this
      rw [record, this]; rfl
    | cons x xs =>
      rw [record]
      · rw [he, List.nil_append, splitEsc_plain _ _ _ _ h92, if_pos rfl, ih (by simp) fun e h => hs e (by simp [h])]
      · simp

/-- C96, strings.  Joining escaped strings with a separator and splitting at the unescaped separators gives back the
same fields, so the same strings, for every list of strings, exactly if the separator is a byte that `escape` escapes,
other than the backslash itself. -/
theorem C96_strings (sgn : Bool) (d : UInt8) :
    (∀ ss : List Bytes, ss ≠ [] → (fields d (record d (ss.map (escapeStr sgn)))).map unescape = ss) ↔
      NeedsEscape d ∧ d ≠ 92 := by
  constructor
  · intro h
    by_contra hc
    by_cases h92 : d = 92
    · subst h92
      have := h [[], []] (by simp)
      revert this
      cases sgn <;> decide
    · have hn : ¬ NeedsEscape d := fun hn => hc ⟨hn, h92⟩
      have := h [[d]] (by simp)
      simp only [List.map_cons, List.map_nil, record] at this
      rw [escapeStr, escape_eq, List.flatMap_cons, List.flatMap_nil, escB_neg hn, fields, List.append_nil,
        splitEsc_plain _ _ _ _ h92, if_pos rfl] at this
      exact absurd (congrArg List.length this) (by simp [splitEsc])
  · rintro ⟨hn, h92⟩ ss hne
    rw [fields_record d h92 _ (by simpa using hne)]
    · rw [List.map_map]
      conv_rhs => rw [← List.map_id ss]
      apply List.map_congr_left
      intro s _
      exact C14_escape_reversible sgn s
    · intro e he
      obtain ⟨s, -, rfl⟩ := List.mem_map.mp he
      rw [escapeStr, escape_eq]
      exact solid_escape d hn s

example : NeedsEscape 44 ∧ (44 : UInt8) ≠ 92 := by decide
example : fields 44 (ascii "a\\,b,,c") = [ascii "a\\,b", [], ascii "c"] := by decide +kernel

theorem arg_solid (m : Machine) (hm : m.Ok) (hL : m.literals = .default) (d : UInt8) (hd : NeedsEscape d)
    (hs : ¬ ScalarByte d) (a : Arg) (he : a.Exists m.platform) :
    ∃ s e, a.string m = .ok s ∧ a.escape m = .ok e ∧ unescape e = s ∧ Solid d e := by
  obtain ⟨s, e, j, h1, h2, -, h3, -, -⟩ := C70_renderings_agree m hm hL a he
  refine ⟨s, e, h1, h2, h3, ?_⟩
  have txt : ∀ t, a.escape m = .ok (escapeStr m.sgn t) → Solid d e := by
    intro t h
    rw [← Res.ok.inj (h.symm.trans h2), escapeStr, escape_eq]
    exact solid_escape d hd t
  by_cases ht : a.Textual
  · cases a with
    | char c => exact txt _ (C48_char_as_string m.sgn _ (hm.junk CHAR_SIZE) c).1
    | text a =>
      refine txt a.content ?_
      rw [Arg.escape, toStd_content he]; rfl
    | _ => exact ht.elim
  · obtain ⟨e', h4, -, h5, -⟩ := scalar_bytes m hm hL a he ht
    rw [← Res.ok.inj (h4.symm.trans h2)]
    exact solid_scalar d hs e' h5

/-- C96, values of all types.  The same for a list of arguments of any types, if the separator is neither `-` nor `.`
either: every field unescapes to the text of its argument, and every argument that survives on the platform (C73) comes
back from its field. -/
theorem C96_values (m : Machine) (hm : m.Ok) (hL : m.literals = .default) (F : FpFormat) (d : UInt8)
    (hd : NeedsEscape d) (h92 : d ≠ 92) (h45 : d ≠ 45) (h46 : d ≠ 46) (as : List Arg) (hne : as ≠ [])
    (he : ∀ a ∈ as, a.Exists m.platform) :
    ∃ es, List.Forall₂ (fun a e => a.escape m = .ok e) as es ∧
      List.Forall₂ (fun a f => a.string m = .ok (unescape f) ∧
        (a.Survives F → ∃ T b, a.target = some T ∧ T.lexi m.literals F (.stdString (unescape f)) = .ok b ∧ a.Same b))
        as (fields d (record d es)) := by
  have hs : ¬ ScalarByte d := by rintro (h | h | h); exacts [hd.2.1 h, h45 h, h46 h]
  obtain ⟨es, h1, h2⟩ : ∃ es, List.Forall₂ (fun a e => a.escape m = .ok e ∧ a.string m = .ok (unescape e)) as es ∧
      ∀ e ∈ es, Solid d e := by
    clear hne
    induction as with
    | nil => exact ⟨[], .nil, by simp⟩
    | cons a as ih =>
      obtain ⟨es, h1, h2⟩ := ih fun a h => he a (by simp [h])
      obtain ⟨s, e, h3, h4, h5, h6⟩ := arg_solid m hm hL d hd hs a (he a (by simp))
      refine ⟨e :: es, .cons ⟨h4, by rw [h5]; exact h3⟩ h1, ?_⟩
      intro x hx
      rcases List.mem_cons.mp hx with rfl | hx
      · exact h6
      · exact h2 x hx
  have hne' : es ≠ [] := by rintro rfl; cases h1; exact hne rfl
  refine ⟨es, h1.imp fun _ _ h => h.1, ?_⟩
  rw [fields_record d h92 es hne' h2]
  clear hne hne' h2
  induction h1 with
  | nil => exact .nil
  | @cons a e as es h h1 ih =>
    refine .cons ⟨h.2, fun hsv => ?_⟩ (ih fun a h => he a (by simp [h]))
    obtain ⟨T, t, b, h3, h4, h5, h6⟩ := C73_round_trip m hm hL F a (he a (by simp)) hsv
    rw [← Res.ok.inj (h4.symm.trans h.2)]
    exact ⟨T, b, h3, h5, h6⟩

/-- The point and the minus are no separators for numbers: `escape` leaves them as they are (C49). -/
example : fields 46 (record 46 [ascii "1.5"]) ≠ [ascii "1.5"] ∧ fields 45 (record 45 [ascii "-1"]) ≠ [ascii "-1"] := by
  decide +kernel

/-! ### Lines -/

theorem splitPlain_solid (d : UInt8) (s : Bytes) (hs : d ∉ s) (cur r : Bytes) :
    splitPlain d cur (s ++ r) = splitPlain d (cur ++ s) r := by
  induction s generalizing cur with
  | nil => simp
  | cons c s ih =>
    rw [List.cons_append, splitPlain, if_neg (by rintro rfl; exact hs (by simp)), ih fun h => hs (by simp [h])]
    simp

theorem lines_record (d : UInt8) (es : List Bytes) (hne : es ≠ []) (hs : ∀ e ∈ es, d ∉ e) :
    lines d (record d es) = es := by
  unfold lines
  induction es with
  | nil => exact absurd rfl hne
  | cons e es ih =>
    have he := splitPlain_solid d e (hs e (by simp)) []
    cases es with
    | nil =>
      have := he []
      rw [List.append_nil, List.nil_append] at this
      rw [record, this]; rfl
    | cons x xs =>
      rw [record]
      · rw [he, List.nil_append, splitPlain, if_pos rfl, ih (by simp) fun e h => hs e (by simp [h])]
      · simp

theorem jsonB_no_control (c : UInt8) : ∀ b ∈ jsonB c, 32 ≤ b.toNat := by
  revert c; apply forall_byte; decide +kernel

theorem jsonB_copy (c : UInt8) : 32 ≤ c.toNat → c ∈ jsonB c := by
  revert c; apply forall_byte; decide +kernel

theorem split_one (d : UInt8) (t cur : Bytes) : 1 ≤ (splitPlain d cur t).length := by
  induction t generalizing cur with
  | nil => simp [splitPlain]
  | cons b t ih =>
    rw [splitPlain]
    split
    · simp
    · exact ih _

theorem split_many (d : UInt8) (t : Bytes) (ht : d ∈ t) : lines d t ≠ [t] := by
  intro h
  have : ∀ (t cur : Bytes), d ∈ t → 2 ≤ (splitPlain d cur t).length := by
    intro t
    induction t with
    | nil => intro _ h; cases h
    | cons b t ih =>
      intro cur hm
      rw [splitPlain]
      split
      · rw [List.length_cons]
        have := split_one d t []
        omega
      · rename_i hb
        exact ih _ (by rcases List.mem_cons.mp hm with h | h; exacts [absurd h.symm hb, h])
  have h2 := this t [] ht
  rw [show splitPlain d [] t = lines d t from rfl, h] at h2
  simp at h2

theorem json_solid (sgn : Bool) (d : UInt8) (hd : d.toNat < 32) (s : Bytes) :
    ∃ j, jsonifyStr sgn s = .ok j ∧ d ∉ j := by
  refine ⟨_, jsonifyStr_eq sgn s, ?_⟩
  intro h
  simp only [List.mem_cons, List.mem_append, List.not_mem_nil, or_false, List.mem_flatMap] at h
  rcases h with rfl | ⟨c, -, h⟩ | rfl
  · exact absurd hd (by decide)
  · have := jsonB_no_control c d h; omega
  · exact absurd hd (by decide)

/-- C96, lines of strings.  Splitting the JSON literals of any strings, one per line, at the line ends gives back the
literals, exactly if the line end is a control byte. -/
theorem C96_lines (sgn : Bool) (d : UInt8) :
    (∀ ss : List Bytes, ss ≠ [] →
      ∃ js, List.Forall₂ (fun s j => jsonifyStr sgn s = .ok j) ss js ∧ lines d (record d js) = js ∧
        js.map readString = ss.map fun s => some (s, [])) ↔ d.toNat < 32 := by
  constructor
  · intro h
    by_contra hc
    obtain ⟨js, h1, h2, -⟩ := h [[d]] (by simp)
    cases h1 with
    | cons h3 h4 =>
      cases h4
      rw [record] at h2
      rw [jsonifyStr_eq] at h3
      rw [← Res.ok.inj h3] at h2
      refine split_many d _ ?_ h2
      have := jsonB_copy d (by omega)
      simp [this]
  · intro hd ss hne
    obtain ⟨js, h1, h2, h3⟩ : ∃ js, List.Forall₂ (fun s j => jsonifyStr sgn s = .ok j) ss js ∧ (∀ j ∈ js, d ∉ j) ∧
        js.map readString = ss.map fun s => some (s, []) := by
      clear hne
      induction ss with
      | nil => exact ⟨[], .nil, by simp, rfl⟩
      | cons s ss ih =>
        obtain ⟨js, h1, h2, h3⟩ := ih
        obtain ⟨j, h4, h5⟩ := json_solid sgn d hd s
        obtain ⟨t, h6, h7, -⟩ := C16_jsonify_decodes sgn s []
        have : t = j := Res.ok.inj (h6.symm.trans h4)
        subst this
        refine ⟨t :: js, .cons h4 h1, ?_, by rw [List.map_cons, List.map_cons, h7, h3]⟩
        intro x hx
        rcases List.mem_cons.mp hx with rfl | hx
        · exact h5
        · exact h2 x hx
    have hne' : js ≠ [] := by rintro rfl; cases h1; exact hne rfl
    exact ⟨js, h1, lines_record d js hne' h2, h3⟩

/-- C96, lines of values.  The same for a list of arguments of any types. -/
theorem C96_value_lines (m : Machine) (hm : m.Ok) (hL : m.literals = .default) (d : UInt8) (hd : d.toNat < 32)
    (as : List Arg) (hne : as ≠ []) (he : ∀ a ∈ as, a.Exists m.platform) :
    ∃ js, List.Forall₂ (fun a j => a.jsonify m = .ok j) as js ∧ lines d (record d js) = js := by
  obtain ⟨js, h1, h2⟩ : ∃ js, List.Forall₂ (fun a j => a.jsonify m = .ok j) as js ∧ ∀ j ∈ js, d ∉ j := by
    clear hne
    induction as with
    | nil => exact ⟨[], .nil, by simp⟩
    | cons a as ih =>
      obtain ⟨js, h1, h2⟩ := ih fun a h => he a (by simp [h])
      obtain ⟨j, h4, h5⟩ : ∃ j, a.jsonify m = .ok j ∧ d ∉ j := by
        by_cases ht : a.Textual
        · cases a with
          | char c =>
            obtain ⟨j, h4, h5⟩ := json_solid m.sgn d hd [c]
            exact ⟨j, (C48_char_as_string m.sgn _ (hm.junk CHAR_SIZE) c).2.trans h4, h5⟩
          | text a =>
            obtain ⟨j, h4, h5⟩ := json_solid m.sgn d hd a.content
            refine ⟨j, ?_, h5⟩
            rw [Arg.jsonify, toStd_content (he _ (by simp))]; exact h4
          | _ => exact ht.elim
        · obtain ⟨s, e, j, h3, h4, h5, -, -, h6⟩ := C70_renderings_agree m hm hL a (he a (by simp))
          obtain ⟨e', h7, h8, h9, -⟩ := scalar_bytes m hm hL a (he a (by simp)) ht
          refine ⟨j, h5, ?_⟩
          rw [(h6 ht).2, ← Res.ok.inj (h8.symm.trans h3)]
          intro hb
          have hx := h9 d hb
          have : ∀ b : UInt8, ScalarByte b → 32 ≤ b.toNat := by apply forall_byte; decide +kernel
          have := this d hx
          omega
      refine ⟨j :: js, .cons h4 h1, ?_⟩
      intro x hx
      rcases List.mem_cons.mp hx with rfl | hx
      · exact h5
      · exact h2 x hx
  have hne' : js ≠ [] := by rintro rfl; cases h1; exact hne rfl
  exact ⟨js, h1, lines_record d js hne' h2⟩

/-- C96 is about real records: a string with the separator, a number and a word. -/
example : ∃ as : List Arg, as ≠ [] ∧ ∀ a ∈ as, a.Exists lp64 :=
  ⟨[.text (.stdString (ascii "a,b")), .double 0xBFF8000000000000, .bool true], by simp, by
    intro a ha
    simp only [List.mem_cons, List.not_mem_nil, or_false] at ha
    rcases ha with rfl | rfl | rfl <;> trivial⟩

end Lexi
