import Verif.Spec.Meaning
import Verif.Props.Json

/-!
# C114: equal texts exactly for equal values
-/

namespace Lexi
open Spec Soft Dtoa

/-! ### The texts -/

/-- A byte of a decimal number. -/
def NumberByte (b : UInt8) : Prop := IsDigit b ∨ b = 45 ∨ b = 46 ∨ b = 101 ∨ b = 69 ∨ b = 43

theorem number_chars {n : JNumber} (hn : n.WF) : ∀ b ∈ n.text, NumberByte b := by
  intro b hb
  rw [text_eq] at hb
  simp only [List.mem_append] at hb
  rcases hb with hb | hb | hb | hb
  · cases h : n.neg <;> rw [h] at hb
    · cases hb
    · exact Or.inr (Or.inl (List.mem_singleton.mp hb))
  · exact Or.inl (hn.int_digits b hb)
  · cases hf : n.frac with
    | none => rw [hf] at hb; cases hb
    | some f =>
      rw [hf] at hb
      rcases List.mem_cons.mp hb with rfl | hb
      · exact Or.inr (Or.inr (Or.inl rfl))
      · exact Or.inl ((hn.frac_ok f hf).2 b hb)
  · cases he : n.exp with
    | none => rw [he] at hb; cases hb
    | some e =>
      rw [he] at hb
      obtain ⟨h1, h2, -, h3⟩ := hn.exp_ok e he
      rcases List.mem_cons.mp hb with rfl | hb
      · rcases h1 with h | h <;> rw [h]
        · exact Or.inr (Or.inr (Or.inr (Or.inl rfl)))
        · exact Or.inr (Or.inr (Or.inr (Or.inr (Or.inl rfl))))
      · rcases List.mem_append.mp hb with hb | hb
        · rcases h2 with h | h | h <;> rw [h] at hb
          · cases hb
          · exact Or.inr (Or.inl (List.mem_singleton.mp hb))
          · exact Or.inr (Or.inr (Or.inr (Or.inr (Or.inr (List.mem_singleton.mp hb)))))
        · exact Or.inl (h3 b hb)

theorem number_pointed {n : JNumber} (hn : n.WF) (h : n.frac.isSome ∨ n.exp.isSome) :
    ∃ b ∈ n.text, ¬ (b = 45 ∨ IsDigit b) := by
  rw [text_eq]
  simp only [List.mem_append]
  rcases h with h | h
  · obtain ⟨f, hf⟩ := Option.isSome_iff_exists.mp h
    exact ⟨46, Or.inr (Or.inr (Or.inl (by rw [hf]; simp [fracText]))), by decide⟩
  · obtain ⟨e, he⟩ := Option.isSome_iff_exists.mp h
    refine ⟨e.marker, Or.inr (Or.inr (Or.inr (by rw [he]; simp [expText, JExp.text]))), ?_⟩
    rcases (hn.exp_ok e he).1 with h | h <;> rw [h] <;> decide

theorem head_mem {t : Bytes} {b : UInt8} (h : t.head? = some b) : b ∈ t := List.mem_of_mem_head? h

theorem kindOf_digits {t : Bytes} (h : ∀ b ∈ t, b = 45 ∨ IsDigit b) : kindOf t = .int := by
  have no : ∀ c : UInt8, ¬ (c = 45 ∨ IsDigit c) → t.head? ≠ some c := fun c hc hh => hc (h c (head_mem hh))
  rw [kindOf, if_neg (no 34 (by decide)), if_neg (no 110 (by decide)),
    if_neg (not_or.mpr ⟨no 116 (by decide), no 102 (by decide)⟩), if_pos h]

theorem kindOf_number {n : JNumber} (hn : n.WF) (h : n.frac.isSome ∨ n.exp.isSome) : kindOf n.text = .number := by
  have no : ∀ c : UInt8, ¬ NumberByte c → n.text.head? ≠ some c := fun c hc hh => hc (number_chars hn c (head_mem hh))
  obtain ⟨b, hb, hb'⟩ := number_pointed hn h
  rw [kindOf, if_neg (no 34 (by unfold NumberByte; decide)), if_neg (no 110 (by unfold NumberByte; decide)),
    if_neg (not_or.mpr ⟨no 116 (by unfold NumberByte; decide), no 102 (by unfold NumberByte; decide)⟩),
    if_neg fun h => hb' (h b hb)]

theorem decimal_chars (z : ℤ) : ∀ b ∈ decimalText z, b = 45 ∨ IsDigit b := by
  intro b hb
  by_cases h : z < 0
  · rw [decimalText_neg z h] at hb
    rcases List.mem_cons.mp hb with rfl | hb
    · exact Or.inl rfl
    · exact Or.inr (decN_digits _ b hb)
  · rw [decimalText_nonneg z (by omega)] at hb
    exact Or.inr (decN_digits _ b hb)

/-! ### C114 -/

/-- C114, the kind of a value can be told from its text. -/
theorem C114_kind (M : Meaning) (t : Bytes) (h : Shows M t) : kindOf t = M.kind := by
  cases M with
  | null => rw [show t = _ from h]; decide
  | bool b => rw [show t = _ from h]; cases b <;> decide
  | text s =>
    have h : readString t = some (s, []) := h
    have : t.head? = some 34 := by
      cases t with
      | nil => simp [readString] at h
      | cons c cs =>
        by_cases hc : c = 34
        · rw [hc]; rfl
        · unfold readString at h
          split at h
          · rename_i heq; exact absurd (List.cons.inj heq).1 hc
          · cases h
    rw [kindOf, if_pos this]; rfl
  | int z => rw [show t = _ from h]; exact kindOf_digits (decimal_chars z)
  | number q =>
    obtain ⟨n, h1, h2, rfl, -⟩ := h
    exact kindOf_number h1 h2
  | nan => rw [show t = _ from h]; decide
  | infinity neg => rw [show t = _ from h]; cases neg <;> decide

/-- C114, a text has one meaning. -/
theorem C114_unique (M M' : Meaning) (t : Bytes) (h : Shows M t) (h' : Shows M' t) : M = M' := by
  have hk : M.kind = M'.kind := (C114_kind M t h).symm.trans (C114_kind M' t h')
  have no : ∀ (q : ℚ) (w : Bytes), Shows (.number q) w → (∃ b ∈ w, ¬ NumberByte b) → False := by
    rintro q w ⟨n, h1, -, rfl, -⟩ ⟨b, hb, hb'⟩
    exact hb' (number_chars h1 b hb)
  have nan : ∃ b ∈ ascii "NaN", ¬ NumberByte b := ⟨78, by decide, by unfold NumberByte; decide⟩
  have inf : ∀ neg : Bool, ∃ b ∈ ascii (if neg then "-Infinity" else "Infinity"), ¬ NumberByte b := fun neg =>
    ⟨73, by cases neg <;> decide, by unfold NumberByte; decide⟩
  cases M <;> cases M' <;> simp only [Meaning.kind, reduceCtorEq] at hk <;> try rfl
  · rename_i b c
    have e : ascii (if b then "true" else "false") = ascii (if c then "true" else "false") :=
      (show t = _ from h).symm.trans (show t = _ from h')
    cases b <;> cases c <;> first | rfl | exact absurd e (by decide)
  · rename_i s r
    have := (show readString t = _ from h).symm.trans (show readString t = _ from h')
    simp only [Option.some.injEq, Prod.mk.injEq, and_true] at this
    rw [this]
  · rename_i y z
    rw [decimalText_injective ((show t = _ from h).symm.trans (show t = _ from h'))]
  · rename_i q r
    obtain ⟨n, h1, -, ht, ⟨u, hu, hq⟩, h2⟩ := h
    obtain ⟨n', h1', -, ht', ⟨u', hu', hr⟩, h2'⟩ := h'
    have e : n.value = n'.value := IsJsonNumber.unique ⟨n, h1, rfl, rfl⟩ ⟨n', h1', ht'.trans ht.symm, rfl⟩
    rw [← e] at h2'
    by_contra hne
    have a := h2 u' hu' (by rw [hr]; intro hh; exact hne (by rw [hh]))
    have b := h2' u hu (by rw [hq]; intro hh; exact hne (by rw [hh]))
    rw [hr] at a
    rw [hq] at b
    exact absurd (a.trans b) (lt_irrefl _)
  · rw [show t = _ from h'] at h; exact (no _ _ h nan).elim
  · rename_i q neg; rw [show t = _ from h'] at h; exact (no _ _ h (inf neg)).elim
  · rw [show t = _ from h] at h'; exact (no _ _ h' nan).elim
  · rename_i neg
    have e := (show t = _ from h).symm.trans (show t = _ from h')
    cases neg <;> exact absurd e (by decide)
  · rename_i neg q; rw [show t = _ from h] at h'; exact (no _ _ h' (inf neg)).elim
  · rename_i neg
    have e := (show t = _ from h).symm.trans (show t = _ from h')
    cases neg <;> exact absurd e (by decide)
  · rename_i b c
    have e := (show t = _ from h).symm.trans (show t = _ from h')
    cases b <;> cases c <;> first | rfl | exact absurd e (by decide)

/-- What an argument means; a `long double` is converted to the nearest double first (C63). -/
def Arg.meaning : Arg → Meaning
  | .null => .null
  | .bool b => .bool b
  | .char c => .text [c]
  | .int v => .int v.toInt
  | .enum e => .int e.toInt
  | .fpos o => .int o.toInt
  | .float u => fMeaning u
  | .double u => dMeaning u
  | .longDouble x => dMeaning x.toDouble
  | .text a => .text a.content

theorem dMeaning_finite {u : UInt64} (h : DFinite u) : dMeaning u = .number (dValue u) := by
  rw [dMeaning, if_neg (fun hn => h hn.1), if_neg (fun hn => h hn.1)]

theorem dMeaning_inf {u : UInt64} (h : DInfinite u) : dMeaning u = .infinity (decide (dNeg u)) := by
  rw [dMeaning, if_neg (fun hn => hn.2 h.2), if_pos h]

theorem dMeaning_nan {u : UInt64} (h : DNaN u) : dMeaning u = .nan := by rw [dMeaning, if_pos h]

theorem dMeaning_ofDouble (u : UInt64) : dMeaning (LVal.ofDouble u).toDouble = dMeaning u := by
  by_cases h : DNaN u
  · rw [dMeaning_nan h, dMeaning_nan ((ofDouble_class u).1 h)]
  · rw [(ofDouble_class u).2 h]

theorem dMeaning_ofFloat (u : UInt32) : dMeaning (LVal.ofFloat u).toDouble = fMeaning u := by
  by_cases hu : FFinite u
  · obtain ⟨d, h1, h2, h3⟩ := float_double u hu
    rw [h1, dMeaning_finite h2, h3, fMeaning, if_neg (fun hn => hu hn.1), if_neg (fun hn => hu hn.1)]
  · have he : fExp u = 255 := by by_contra h; exact hu h
    by_cases hf : fFrac u = 0
    · have h1 : LVal.ofFloat u = .inf (decide (fNeg u)) := by
        unfold fExp at he
        unfold fFrac at hf
        unfold LVal.ofFloat
        dsimp only
        rw [if_pos he, if_pos hf]
        rfl
      rw [h1, fMeaning, if_neg (fun hn => hn.2 hf), if_pos ⟨he, hf⟩]
      cases decide (fNeg u)
      · rw [dMeaning_inf (by decide +kernel)]; exact congrArg _ (by decide +kernel)
      · rw [dMeaning_inf (by decide +kernel)]; exact congrArg _ (by decide +kernel)
    · have h1 : LVal.ofFloat u = .nan := by
        unfold fExp at he
        unfold fFrac at hf
        unfold LVal.ofFloat
        dsimp only
        rw [if_pos he, if_neg hf]
      rw [h1, fMeaning, if_pos ⟨he, hf⟩]
      exact dMeaning_nan (by decide +kernel)

/-- The text of a floating-point argument shows the double it is converted to. -/
theorem ld_shows (m : Machine) (hm : m.Ok) (hL : m.literals = .default) (x : LVal) :
    ∃ t, (formatLd m.literals m.env (m.junk FLOAT_SIZE) x >>= FloatObj.string) = .ok t ∧ Shows (dMeaning x.toDouble) t := by
  have hlen : (m.junk FLOAT_SIZE).length = 30 := hm.junk _
  rcases class_cases x.toDouble with hf | hi | hn
  · obtain ⟨n, hwf, -, hpt, -, hnear, -, -, htext⟩ := text_spec m.env hm.env _ hf
    refine ⟨n.text, ?_, ?_⟩
    · have h2 : x.toDouble = (LVal.ofDouble x.toDouble).toDouble := (toDouble_ofDouble _ fun h => hf h.1).symm
      rw [formatLd_congr _ _ _ h2]
      exact htext _ _ (hm.junk FLOAT_SIZE)
    · rw [dMeaning_finite hf]
      exact ⟨n, hwf, hpt, rfl, ⟨_, hf, rfl⟩, hnear⟩
  · rw [dMeaning_inf hi, formatLd_inf _ _ hi, hL]
    refine ⟨_, ?_, rfl⟩
    by_cases hneg : dNeg x.toDouble
    · rw [if_pos hneg, stringLit _ _ (by decide) (by rw [hlen]; decide)]
      simp only [hneg, decide_true, if_true]
      exact readN_prefix (ascii "-Infinity") _
    · rw [if_neg hneg, stringLit _ _ (by decide) (by rw [hlen]; decide)]
      simp only [hneg, decide_false, Bool.false_eq_true, if_false]
      exact readN_prefix (ascii "Infinity") _
  · rw [dMeaning_nan hn, formatLd_nan _ _ hn, hL]
    refine ⟨_, ?_, rfl⟩
    rw [stringLit _ _ (by decide) (by rw [hlen]; decide)]
    exact readN_prefix (ascii "NaN") _

/-- C114, the text `jsonify` gives shows what its argument means, whatever its type and the machine. -/
theorem C114_shows (m : Machine) (hm : m.Ok) (hL : m.literals = .default) (a : Arg) (he : a.Exists m.platform) :
    ∃ t, a.jsonify m = .ok t ∧ Shows a.meaning t := by
  cases a with
  | null => exact ⟨_, by rw [Arg.jsonify, hL]; exact (C11_null _ (hm.junk _) []).1, rfl⟩
  | bool b => exact ⟨_, by rw [Arg.jsonify, hL]; exact C10_bool_format _ (hm.junk _) b, rfl⟩
  | char c =>
    obtain ⟨h1, h2⟩ := C48_char_as_string m.sgn _ (hm.junk CHAR_SIZE) c
    obtain ⟨t, h3, h4, -⟩ := C16_jsonify_decodes m.sgn [c] []
    exact ⟨t, h2.trans h3, h4⟩
  | int v => exact ⟨_, stringInt_eq _ hm.platform _ (hm.junk _) v he, rfl⟩
  | enum e => exact ⟨_, stringEnum_eq _ hm.platform _ (hm.junk _) e he, rfl⟩
  | fpos o => exact ⟨_, formatFpos_eq _ hm.platform _ (hm.junk _) o, rfl⟩
  | float u => rw [Arg.meaning, ← dMeaning_ofFloat]; exact ld_shows m hm hL (.ofFloat u)
  | double u => rw [Arg.meaning, ← dMeaning_ofDouble]; exact ld_shows m hm hL (.ofDouble u)
  | longDouble x => exact ld_shows m hm hL x
  | text a =>
    have hs := toStd_content he
    obtain ⟨t, h3, h4, -⟩ := C16_jsonify_decodes m.sgn a.content []
    exact ⟨t, by rw [Arg.jsonify, hs]; exact h3, h4⟩

/-- C114, texts made on any two machines are equal only for equal meanings. -/
theorem C114_decodes (m m' : Machine) (hm : m.Ok) (hm' : m'.Ok) (hL : m.literals = .default) (hL' : m'.literals = .default)
    (a b : Arg) (ha : a.Exists m.platform) (hb : b.Exists m'.platform) (h : a.jsonify m = b.jsonify m') :
    a.meaning = b.meaning := by
  obtain ⟨t, h1, h2⟩ := C114_shows m hm hL a ha
  obtain ⟨t', h1', h2'⟩ := C114_shows m' hm' hL' b hb
  obtain rfl := Res.ok.inj (h1.symm.trans (h.trans h1'))
  exact C114_unique _ _ _ h2 h2'

/-- A meaning rendered on one machine; `jsonify` of every argument with this meaning. -/
noncomputable def Machine.render (m : Machine) : Meaning → Res Bytes
  | .null => .ok (ascii "null")
  | .bool b => .ok (ascii (if b then "true" else "false"))
  | .text s => jsonifyStr m.sgn s
  | .int z => .ok (decimalText z)
  | .number q => open Classical in
      if h : ∃ u, DFinite u ∧ dValue u = q then stringDouble .default m.env (m.junk FLOAT_SIZE) h.choose else .throws
  | .nan => .ok (ascii "NaN")
  | .infinity neg => .ok (ascii (if neg then "-Infinity" else "Infinity"))

theorem ld_render (m : Machine) (hm : m.Ok) (hL : m.literals = .default) (x : LVal) :
    (formatLd m.literals m.env (m.junk FLOAT_SIZE) x >>= FloatObj.string) = m.render (dMeaning x.toDouble) := by
  rcases class_cases x.toDouble with hf | hi | hn
  · have h : ∃ u, DFinite u ∧ dValue u = dValue x.toDouble := ⟨_, hf, rfl⟩
    have h2 : x.toDouble = (LVal.ofDouble x.toDouble).toDouble := (toDouble_ofDouble _ fun h => hf h.1).symm
    rw [dMeaning_finite hf, Machine.render, dif_pos h, formatLd_congr _ _ _ h2, hL]
    change stringDouble _ _ _ _ = _
    rcases dValue_inj h.choose_spec.1 hf h.choose_spec.2 with e | ⟨e, e'⟩
    · rw [e]
    · rw [(C30_special_values m.env _ (hm.junk _) _).2.2 e, (C30_special_values m.env _ (hm.junk _) _).2.2 e']
  · obtain ⟨t, h1, h2⟩ := ld_shows m hm hL x
    rw [dMeaning_inf hi] at h2 ⊢
    rw [h1, show t = _ from h2, Machine.render]
  · obtain ⟨t, h1, h2⟩ := ld_shows m hm hL x
    rw [dMeaning_nan hn] at h2 ⊢
    rw [h1, show t = _ from h2, Machine.render]

theorem Arg.jsonify_render (m : Machine) (hm : m.Ok) (hL : m.literals = .default) (a : Arg) (he : a.Exists m.platform) :
    a.jsonify m = m.render a.meaning := by
  have lit : ∀ M, (∀ t, Shows M t → m.render M = .ok t) → a.meaning = M → a.jsonify m = m.render a.meaning := by
    intro M h e
    obtain ⟨t, h1, h2⟩ := C114_shows m hm hL a he
    rw [e] at h2 ⊢
    rw [h1, h t h2]
  cases a with
  | null => exact lit .null (fun t h => by rw [show t = _ from h, Machine.render]) rfl
  | bool b => exact lit (.bool b) (fun t h => by rw [show t = _ from h, Machine.render]) rfl
  | int v => exact lit (.int v.toInt) (fun t h => by rw [show t = _ from h, Machine.render]) rfl
  | enum e => exact lit (.int e.toInt) (fun t h => by rw [show t = _ from h, Machine.render]) rfl
  | fpos o => exact lit (.int o.toInt) (fun t h => by rw [show t = _ from h, Machine.render]) rfl
  | char c => exact (C48_char_as_string m.sgn _ (hm.junk CHAR_SIZE) c).2
  | float u => rw [Arg.meaning, ← dMeaning_ofFloat]; exact ld_render m hm hL (.ofFloat u)
  | double u => rw [Arg.meaning, ← dMeaning_ofDouble]; exact ld_render m hm hL (.ofDouble u)
  | longDouble x => exact ld_render m hm hL x
  | text a => rw [Arg.jsonify, toStd_content he]; rfl

/-- C114, `jsonify` gives two arguments the same text exactly if they mean the same, whatever their types. -/
theorem C114_same (m : Machine) (hm : m.Ok) (hL : m.literals = .default) (a b : Arg) (ha : a.Exists m.platform)
    (hb : b.Exists m.platform) : a.jsonify m = b.jsonify m ↔ a.meaning = b.meaning := by
  refine ⟨C114_decodes m m hm hm hL hL a b ha hb, fun h => ?_⟩
  rw [Arg.jsonify_render m hm hL a ha, Arg.jsonify_render m hm hL b hb, h]

/-- C114, so does `string` for arguments that are no text. -/
theorem C114_string (m : Machine) (hm : m.Ok) (hL : m.literals = .default) (a b : Arg) (ha : a.Exists m.platform)
    (hb : b.Exists m.platform) (ta : ¬ a.Textual) (tb : ¬ b.Textual) : a.string m = b.string m ↔ a.meaning = b.meaning := by
  have same : ∀ c : Arg, ¬ c.Textual → c.string m = c.jsonify m := by
    intro c hc
    cases c <;> first | rfl | exact absurd trivial hc
  rw [same a ta, same b tb]
  exact C114_same m hm hL a b ha hb

/-- C114, texts of `string` do not tell texts from other values: every text of a value that is no text is also the text of that text. -/
theorem C114_string_mixes (m : Machine) (a : Arg) (t : Bytes) (h : a.string m = .ok t) :
    (Arg.text (.stdString t)).string m = a.string m ∧ (¬ a.Textual → (Arg.text (.stdString t)).meaning ≠ a.meaning) := by
  refine ⟨h.symm ▸ rfl, fun ht => ?_⟩
  cases a <;> first | exact absurd trivial ht | skip
  all_goals simp only [Arg.meaning]
  all_goals try exact Meaning.noConfusion
  · rename_i u; unfold fMeaning; split_ifs <;> exact Meaning.noConfusion
  · rename_i u; unfold dMeaning; split_ifs <;> exact Meaning.noConfusion
  · rename_i u; unfold dMeaning; split_ifs <;> exact Meaning.noConfusion

/-! ### Concrete cases -/

/-- The two zeros, and a half as a `float` and as a `double`, mean the same; the integer one and the number one do not. -/
example : (Arg.double 0).meaning = (Arg.double 0x8000000000000000).meaning ∧
    (Arg.float 0x3F000000).meaning = (Arg.double 0x3FE0000000000000).meaning ∧
    (Arg.int (.i32 1)).meaning ≠ (Arg.double 0x3FF0000000000000).meaning := by
  refine ⟨?_, ?_, ?_⟩
  · rw [Arg.meaning, Arg.meaning, dMeaning_finite (by decide +kernel), dMeaning_finite (by decide +kernel)]
    exact congrArg _ (by decide +kernel)
  · rw [Arg.meaning, Arg.meaning, ← dMeaning_ofFloat, ← dMeaning_ofDouble]
    exact congrArg _ (by decide +kernel)
  · rw [Arg.meaning, Arg.meaning, dMeaning_finite (by decide +kernel)]
    exact Meaning.noConfusion

/-- A tenth as a `float` is another number than as a `double`. -/
example : (Arg.float 0x3DCCCCCD).meaning ≠ (Arg.double 0x3FB999999999999A).meaning := by
  rw [Arg.meaning, Arg.meaning, ← dMeaning_ofFloat, dMeaning_finite (by decide +kernel), dMeaning_finite (by decide +kernel)]
  exact fun h => absurd (Meaning.number.inj h) (by decide +kernel)

example : (Arg.char 97).meaning = (Arg.text (.stdString [97])).meaning := rfl

/-- The two zeros of a machine with all its hypotheses met have one text. -/
example : let m : Machine := ⟨lp64, true, .default, sampleEnv, fun n => List.replicate n 7⟩
    (Arg.double 0).jsonify m = (Arg.double 0x8000000000000000).jsonify m := by
  intro m
  refine (C114_same m ⟨by simp [m, Platform.Supported, lp64], sampleEnv_ok, fun n => by simp [m]⟩ rfl (.double 0) (.double _) trivial trivial).mpr ?_
  rw [Arg.meaning, Arg.meaning, dMeaning_finite (by decide +kernel), dMeaning_finite (by decide +kernel)]
  exact congrArg _ (by decide +kernel)

end Lexi
