import Verif.Spec.Xml
import Verif.Props.Sql
import Verif.Props.Interchange

/-!
# C122: texts in XML
-/

namespace Lexi
open Spec Soft Dtoa

theorem xmlRef_shorter (t : Bytes) (x : UInt8 × Bytes) (h : xmlRef t = some x) : x.2.length + 3 ≤ t.length := by
  unfold xmlRef at h
  split at h <;> first | (cases h; done) | (have := Option.some.inj h; subst this; simp only [List.length_cons]; omega)

theorem attr_shorter (q : UInt8) (n : ℕ) : ∀ t v r, xmlAttrN q n t = some (v, r) → v.length + r.length + 1 ≤ t.length := by
  induction n with
  | zero => intro t v r h; rw [xmlAttrN] at h; cases h
  | succ n ih =>
    intro t v r h
    cases t with
    | nil => rw [xmlAttrN] at h; cases h; simp
    | cons b t =>
      rw [xmlAttrN] at h
      repeat' split at h
      · cases h; simp
      · cases h
      · obtain ⟨x, hx, h⟩ := Option.bind_eq_some_iff.mp h
        obtain ⟨p, hp, h⟩ := Option.map_eq_some_iff.mp h
        cases h
        have := ih _ _ _ hp
        have := xmlRef_shorter t x hx
        simp only [List.length_cons]; omega
      · obtain ⟨p, hp, h⟩ := Option.map_eq_some_iff.mp h
        cases h
        have := ih _ _ _ hp
        simp only [List.length_cons, List.length_tail] at *; omega
      · obtain ⟨p, hp, h⟩ := Option.map_eq_some_iff.mp h
        cases h
        have := ih _ _ _ hp
        simp only [List.length_cons]; omega
      · cases h
      · obtain ⟨p, hp, h⟩ := Option.map_eq_some_iff.mp h
        cases h
        have := ih _ _ _ hp
        simp only [List.length_cons]; omega

/-- Bytes that stand for themselves in an attribute value. -/
def AttrPlain (q b : UInt8) : Prop := b ≠ q ∧ b ≠ 60 ∧ b ≠ 38 ∧ 32 ≤ b

instance (q b : UInt8) : Decidable (AttrPlain q b) := inferInstanceAs (Decidable (_ ∧ _))

theorem control_ne (b : UInt8) (h : 32 ≤ b) : b ≠ 9 ∧ b ≠ 10 ∧ b ≠ 13 ∧ ¬ b < 32 := by
  revert b; refine forall_byte ?_; decide +kernel

theorem attr_plain (q b : UInt8) (n : ℕ) (t : Bytes) (h : AttrPlain q b) :
    xmlAttrN q (n + 1) (b :: t) = (xmlAttrN q n t).map fun p => (b :: p.1, p.2) := by
  obtain ⟨h1, h2, h3, h4⟩ := h
  obtain ⟨h5, h6, h7, h8⟩ := control_ne b h4
  rw [xmlAttrN]
  rw [if_neg h1, if_neg h2, if_neg h3, if_neg (by simp [h7]), if_neg (by simp [h5, h6, h7]), if_neg h8]

theorem attr_prefix (q : UInt8) (t w : Bytes) (h : ∀ b ∈ t, AttrPlain q b) (n : ℕ) :
    xmlAttrN q (t.length + n) (t ++ w) = (xmlAttrN q n w).map fun p => (t ++ p.1, p.2) := by
  induction t with
  | nil => simp
  | cons b t ih =>
    rw [List.length_cons, Nat.add_right_comm, List.cons_append, attr_plain q b _ _ (h b (by simp)),
      ih fun b hb => h b (by simp [hb]), Option.map_map]
    rfl

theorem attr_stops (q : UInt8) (t r : Bytes) (h : ∀ b ∈ t, AttrPlain q b) : xmlAttr q (t ++ q :: r) = some (t, r) := by
  have e : (t ++ q :: r).length = t.length + (r.length + 1) := by simp
  rw [xmlAttr, e, attr_prefix q t _ h, xmlAttrN, if_pos rfl]
  simp

theorem attr_self (q : UInt8) (n : ℕ) : ∀ t r, xmlAttrN q n (t ++ q :: r) = some (t, r) → ∀ b ∈ t, AttrPlain q b := by
  induction n with
  | zero => intro t r h; rw [xmlAttrN] at h; cases h
  | succ n ih =>
    intro t r h
    cases t with
    | nil => simp
    | cons b t =>
      rw [List.cons_append, xmlAttrN] at h
      repeat' split at h
      · cases h
      · cases h
      · obtain ⟨x, hx, h⟩ := Option.bind_eq_some_iff.mp h
        obtain ⟨p, hp, h⟩ := Option.map_eq_some_iff.mp h
        have h' := Prod.mk.inj h
        have hl := attr_shorter q n _ _ _ hp
        have h1 := xmlRef_shorter _ x hx
        have h2 := (List.cons.inj h'.1).2
        rw [h2, h'.2] at hl
        simp only [List.length_append, List.length_cons] at h1
        omega
      · rename_i hb
        obtain ⟨p, hp, h⟩ := Option.map_eq_some_iff.mp h
        have h' := (List.cons.inj (Prod.mk.inj h).1).1
        rw [hb.1] at h'
        exact absurd h' (by decide)
      · rename_i hb
        obtain ⟨p, hp, h⟩ := Option.map_eq_some_iff.mp h
        have h' := (List.cons.inj (Prod.mk.inj h).1).1
        rw [← h'] at hb
        exact absurd hb (by decide)
      · cases h
      · rename_i h1 h2 h3 _ _ h6
        obtain ⟨p, hp, h⟩ := Option.map_eq_some_iff.mp h
        have h' := Prod.mk.inj h
        have h2' := (List.cons.inj h'.1).2
        have e : p = (t, r) := by rw [← h2', ← h'.2]
        intro c hc
        rcases List.mem_cons.mp hc with rfl | hc
        · exact ⟨h1, h2, h3, by rw [UInt8.le_iff_toNat_le]; rw [UInt8.lt_iff_toNat_lt] at h6; omega⟩
        · exact ih t r (e ▸ hp) c hc

/-- C122, attributes.  A text between the quotes `q` reads as itself, and ends where it should, exactly if it has no `q`, no `<`, no
`&` and no control bytes. -/
theorem C122_attribute (q : UInt8) (t r : Bytes) :
    xmlAttr q (t ++ q :: r) = some (t, r) ↔ ∀ b ∈ t, b ≠ q ∧ b ≠ 60 ∧ b ≠ 38 ∧ 32 ≤ b :=
  ⟨fun h => attr_self q _ t r h, fun h => attr_stops q t r h⟩

example : xmlAttr 39 (ascii "a\"b" ++ 39 :: [62]) = some (ascii "a\"b", [62]) :=
  (C122_attribute 39 _ _).mpr (by decide +kernel)

/-- C122, attributes.  `jsonify` of a string reads as itself between single quotes exactly if there is no single quote, `<` and `&` in
the string.  Between double quotes no JSON text of a string does: the value is empty, and the text is left behind it. -/
theorem C122_json (sgn : Bool) (s t r : Bytes) (h : jsonifyStr sgn s = .ok t) :
    (xmlAttr 39 (t ++ 39 :: r) = some (t, r) ↔ 39 ∉ s ∧ 60 ∉ s ∧ 38 ∉ s) ∧
    (∃ w, t = 34 :: w ∧ xmlAttr 34 (t ++ 34 :: r) = some ([], w ++ 34 :: r)) := by
  rw [jsonifyStr_eq] at h
  cases h
  refine ⟨?_, _, rfl, ?_⟩
  · rw [C122_attribute]
    have T : ∀ c : UInt8, (∀ b ∈ jsonB c, AttrPlain 39 b) ↔ c ≠ 39 ∧ c ≠ 60 ∧ c ≠ 38 := by
      refine forall_byte ?_; decide +kernel
    constructor
    · intro h
      have h' : ∀ c ∈ s, c ≠ 39 ∧ c ≠ 60 ∧ c ≠ 38 := fun c hc => (T c).mp fun b hb =>
        h b (by simp only [List.mem_cons, List.mem_append, List.mem_flatMap]; exact .inr (.inl ⟨c, hc, hb⟩))
      exact ⟨fun hm => (h' _ hm).1 rfl, fun hm => (h' _ hm).2.1 rfl, fun hm => (h' _ hm).2.2 rfl⟩
    · rintro ⟨h1, h2, h3⟩ b hb
      simp only [List.mem_cons, List.mem_append, List.mem_flatMap, List.not_mem_nil, or_false] at hb
      rcases hb with rfl | ⟨c, hc, hb⟩ | rfl
      · decide
      · exact (T c).mpr ⟨fun e => h1 (e ▸ hc), fun e => h2 (e ▸ hc), fun e => h3 (e ▸ hc)⟩ b hb
      · decide
  · rw [xmlAttr, List.cons_append, List.length_cons, xmlAttrN, if_pos rfl]

example : ∃ t, jsonifyStr true (ascii "a>\n") = .ok t ∧ xmlAttr 39 (t ++ 39 :: [62]) = some (t, [62]) :=
  ⟨_, jsonifyStr_eq .., (C122_json true _ _ _ (jsonifyStr_eq ..)).1.mpr (by decide +kernel)⟩

/-- C122, attributes.  `escape` is no protection: the quote of the attribute in a string ends the value. -/
theorem C122_escape (sgn : Bool) (q : UInt8) (hq : q = 34 ∨ q = 39) (a b r : Bytes) (ha : ∀ c ∈ a, AttrPlain q c) :
    xmlAttr q (escape sgn (a ++ q :: b) ++ q :: r) = some (escape sgn a ++ [92], escape sgn b ++ q :: r) := by
  have hn : NeedsEscape q := by rcases hq with rfl | rfl <;> decide
  have h92 : AttrPlain q 92 := by rcases hq with rfl | rfl <;> decide
  simp only [escape_eq]
  rw [List.flatMap_append, List.flatMap_cons, escB, if_pos hn]
  have e : a.flatMap escB ++ ([92, q] ++ b.flatMap escB) ++ q :: r = (a.flatMap escB ++ [92]) ++ (q :: (b.flatMap escB ++ q :: r)) := by
    simp
  rw [e]
  refine attr_stops q _ _ fun c hc => ?_
  simp only [List.mem_append, List.mem_flatMap, List.mem_singleton] at hc
  rcases hc with ⟨d, hd, hc⟩ | rfl
  · rcases escB_cases d with ⟨-, e⟩ | ⟨-, e⟩ <;> rw [e] at hc <;> simp at hc
    · rcases hc with rfl | rfl
      exacts [h92, ha _ hd]
    · exact hc ▸ ha d hd
  · exact h92

example : xmlAttr 34 (escape true (ascii "a\" x=") ++ 34 :: [62]) = some (ascii "a\\", escape true (ascii " x=") ++ 34 :: [62]) :=
  C122_escape true 34 (.inl rfl) (ascii "a") (ascii " x=") [62] (by decide +kernel)

/-! ### Character data -/

theorem text_shorter (n : ℕ) : ∀ t v r, xmlTextN n t = some (v, r) → v.length + r.length ≤ t.length := by
  induction n with
  | zero => intro t v r h; rw [xmlTextN] at h; cases h
  | succ n ih =>
    intro t v r h
    cases t with
    | nil => rw [xmlTextN] at h; cases h; simp
    | cons b t =>
      rw [xmlTextN] at h
      repeat' split at h
      · cases h; simp
      · cases h
      · obtain ⟨x, hx, h⟩ := Option.bind_eq_some_iff.mp h
        obtain ⟨p, hp, h⟩ := Option.map_eq_some_iff.mp h
        cases h
        have := ih _ _ _ hp
        have := xmlRef_shorter t x hx
        simp only [List.length_cons]; omega
      · obtain ⟨p, hp, h⟩ := Option.map_eq_some_iff.mp h
        cases h
        have := ih _ _ _ hp
        simp only [List.length_cons, List.length_tail] at *; omega
      · obtain ⟨p, hp, h⟩ := Option.map_eq_some_iff.mp h
        cases h
        have := ih _ _ _ hp
        simp only [List.length_cons]; omega
      · cases h
      · obtain ⟨p, hp, h⟩ := Option.map_eq_some_iff.mp h
        cases h
        have := ih _ _ _ hp
        simp only [List.length_cons]; omega

/-- Bytes that stand for themselves in character data. -/
def TextPlain (b : UInt8) : Prop := b ≠ 60 ∧ b ≠ 38 ∧ (32 ≤ b ∨ b = 9 ∨ b = 10)

instance (b : UInt8) : Decidable (TextPlain b) := inferInstanceAs (Decidable (_ ∧ _))

theorem TextPlain.ne (b : UInt8) : TextPlain b → b ≠ 13 ∧ ¬ (b < 32 ∧ b ≠ 9 ∧ b ≠ 10) := by
  revert b; refine forall_byte ?_; decide +kernel

theorem cdata_end (t r : Bytes) : [93, 93, 62] <+: t ++ 60 :: r ↔ [93, 93, 62] <+: t := by
  constructor
  · intro h
    rcases t with _ | ⟨a, _ | ⟨b, _ | ⟨c, t⟩⟩⟩
    · simp at h
    · simp at h
    · simp at h
    · simpa using h
  · exact fun h => h.trans (List.prefix_append ..)

theorem text_stops (t r : Bytes) (h : ∀ b ∈ t, TextPlain b) (hc : ¬ [93, 93, 62] <:+: t) (n : ℕ) :
    xmlTextN (t.length + (n + 1)) (t ++ 60 :: r) = some (t, 60 :: r) := by
  induction t with
  | nil =>
    rw [List.length_nil, Nat.zero_add, List.nil_append, xmlTextN, if_pos rfl]
  | cons b t ih =>
    rw [List.infix_cons_iff, not_or] at hc
    have hb := h b (by simp)
    obtain ⟨h1, h2⟩ := TextPlain.ne b hb
    rw [List.length_cons, Nat.add_right_comm, List.cons_append, xmlTextN, if_neg hb.1,
      if_neg (show ¬ [93, 93, 62] <+: b :: (t ++ 60 :: r) from fun e => hc.1 ((cdata_end (b :: t) r).mp e)), if_neg hb.2.1, if_neg (by simp [h1]), if_neg h1, if_neg h2,
      ih (fun b hb => h b (by simp [hb])) hc.2]
    rfl

theorem plain_control (b : UInt8) : ¬ (b < 32 ∧ b ≠ 9 ∧ b ≠ 10) → 32 ≤ b ∨ b = 9 ∨ b = 10 := by
  revert b; refine forall_byte ?_; decide +kernel

theorem text_self (n : ℕ) : ∀ t r, xmlTextN n (t ++ 60 :: r) = some (t, 60 :: r) →
    (∀ b ∈ t, TextPlain b) ∧ ¬ [93, 93, 62] <:+: t := by
  induction n with
  | zero => intro t r h; rw [xmlTextN] at h; cases h
  | succ n ih =>
    intro t r h
    cases t with
    | nil => simp
    | cons b t =>
      rw [List.cons_append, xmlTextN] at h
      repeat' split at h
      · cases h
      · cases h
      · obtain ⟨x, hx, h⟩ := Option.bind_eq_some_iff.mp h
        obtain ⟨p, hp, h⟩ := Option.map_eq_some_iff.mp h
        have h' := Prod.mk.inj h
        have hl := text_shorter n _ _ _ hp
        have h1 := xmlRef_shorter _ x hx
        have h2 := (List.cons.inj h'.1).2
        rw [h2, h'.2] at hl
        simp only [List.length_append, List.length_cons] at h1 hl
        omega
      · rename_i hb
        obtain ⟨p, hp, h⟩ := Option.map_eq_some_iff.mp h
        have h' := (List.cons.inj (Prod.mk.inj h).1).1
        rw [hb.1] at h'
        exact absurd h' (by decide)
      · rename_i hb
        obtain ⟨p, hp, h⟩ := Option.map_eq_some_iff.mp h
        have h' := (List.cons.inj (Prod.mk.inj h).1).1
        rw [← h'] at hb
        exact absurd hb (by decide)
      · cases h
      · rename_i h1 h2 h3 _ _ h6
        obtain ⟨p, hp, h⟩ := Option.map_eq_some_iff.mp h
        have h' := Prod.mk.inj h
        have h2' := (List.cons.inj h'.1).2
        have e : p = (t, 60 :: r) := by rw [← h2', ← h'.2]
        obtain ⟨i1, i2⟩ := ih t r (e ▸ hp)
        refine ⟨fun c hc => ?_, ?_⟩
        · rcases List.mem_cons.mp hc with rfl | hc
          · exact ⟨h1, h3, plain_control c h6⟩
          · exact i1 c hc
        · rw [List.infix_cons_iff, not_or]
          exact ⟨fun e => h2 ((cdata_end (b :: t) r).mpr e), i2⟩

/-- C122, character data.  A text in front of a tag reads as itself exactly if it has no `<`, no `&`, no control bytes but tab and
line feed, and no `]]>`. -/
theorem C122_text (t r : Bytes) :
    xmlText (t ++ 60 :: r) = some (t, 60 :: r) ↔
      (∀ b ∈ t, b ≠ 60 ∧ b ≠ 38 ∧ (32 ≤ b ∨ b = 9 ∨ b = 10)) ∧ ¬ [93, 93, 62] <:+: t := by
  refine ⟨fun h => text_self _ t r h, fun h => ?_⟩
  have e : (t ++ 60 :: r).length = t.length + (r.length + 1) := by simp
  rw [xmlText, e]
  exact text_stops t r h.1 h.2 r.length

example : xmlText (ascii "a\n\"'" ++ 60 :: [47]) = some (ascii "a\n\"'", 60 :: [47]) :=
  (C122_text _ _).mpr (by decide +kernel)

theorem scalar_xml (b : UInt8) : ScalarByte b → AttrPlain 34 b ∧ AttrPlain 39 b ∧ TextPlain b ∧ b ≠ 93 := by
  revert b; refine forall_byte ?_; decide +kernel

/-- C122, values.  The text of every argument other than characters and strings reads as itself in attributes with either quote and in
character data, and an argument that survives on the platform (C73) comes back from what was read. -/
theorem C122_values (m : Machine) (hm : m.Ok) (hL : m.literals = .default) (F : FpFormat) (a : Arg) (he : a.Exists m.platform)
    (ht : ¬ a.Textual) (r : Bytes) :
    ∃ t, a.string m = .ok t ∧ xmlAttr 34 (t ++ 34 :: r) = some (t, r) ∧ xmlAttr 39 (t ++ 39 :: r) = some (t, r) ∧
      xmlText (t ++ 60 :: r) = some (t, 60 :: r) ∧
      (a.Survives F → ∃ T b, a.target = some T ∧ T.lexi m.literals F (.stdString t) = .ok b ∧ a.Same b) := by
  obtain ⟨t, -, h1, h2, -⟩ := scalar_bytes m hm hL a he ht
  refine ⟨t, h1, attr_stops _ _ _ fun b hb => (scalar_xml b (h2 b hb)).1, attr_stops _ _ _ fun b hb => (scalar_xml b (h2 b hb)).2.1,
    (C122_text t r).mpr ⟨fun b hb => (scalar_xml b (h2 b hb)).2.2.1, fun hi => ?_⟩, fun hsv => ?_⟩
  · have : 93 ∈ t := hi.subset (by simp)
    exact (scalar_xml 93 (h2 93 this)).2.2.2 rfl
  · obtain ⟨T, t', b, h3, h4, h5, h6⟩ := C73_round_trip m hm hL F a he hsv
    rw [← Res.ok.inj (h4.symm.trans h1)]
    exact ⟨T, b, h3, h5, h6⟩

/-- -12 of a 16-bit type. -/
example : ∃ t, (Arg.int (.i16 (-12))).string sampleMachine = .ok t ∧ xmlAttr 34 (t ++ 34 :: [62]) = some (t, [62]) ∧
    xmlText (t ++ 60 :: [47]) = some (t, 60 :: [47]) := by
  have hm := sampleMachine_ok
  obtain ⟨t, h1, h2, -, -, -⟩ := C122_values sampleMachine hm rfl .x87 (Arg.int (.i16 (-12))) trivial (by simp [Arg.Textual]) [62]
  obtain ⟨t', h1', -, -, h4, -⟩ := C122_values sampleMachine hm rfl .x87 (Arg.int (.i16 (-12))) trivial (by simp [Arg.Textual]) [47]
  obtain rfl := Res.ok.inj (h1.symm.trans h1')
  exact ⟨t, h1, h2, h4⟩

end Lexi
