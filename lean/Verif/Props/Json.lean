import Verif.Model.Api
import Verif.Proofs.Json
import Verif.Props.FloatRead
import Verif.Props.LongDouble
import Verif.Props.Utf8

/-!
# The public functions as a whole: C69, C70

The JSON reader `readJson`, the documents `Doc` and their texts are in `Verif.Spec.Json`.
-/

namespace Lexi
open Spec Soft Dtoa

/-- What a call may assume of its surroundings. -/
structure Machine.Ok (m : Machine) : Prop where
  platform : m.platform.Supported
  env : EnvOk m.env
  junk : ∀ n, (m.junk n).length = n

/-- The argument exists on the platform; a `char *` points to a terminated string. -/
def Arg.Exists (p : Platform) : Arg → Prop
  | .int v => v.Fits p
  | .enum e => e.Fits p
  | .longDouble (.fin _ q) => 0 ≤ q
  | .text (.cstr a) => 0 ∈ a
  | _ => True

/-- A number JSON can express and `dtoa` does not overflow on, or no number. -/
def Arg.Finite : Arg → Prop
  | .float u => FFinite u
  | .double u => DFinite u
  | .longDouble (.fin _ q) => q < dOverflow
  | .longDouble _ => False
  | _ => True

/-- The bytes of a string argument: all of a `std::string`, those before the first NUL behind a pointer. -/
def StrArg.content : StrArg → Bytes
  | .stdString s => s
  | .cstr a => a.takeWhile (· != 0)

/-- `q` is strictly closer to `v` than to any other double. -/
def Closest (q v : ℚ) : Prop := ∀ y, DFinite y → dValue y ≠ v → |q - v| < |q - dValue y|

/-- The JSON value an argument stands for. -/
def Arg.Denotes : Arg → Json → Prop
  | .null, j => j = .null
  | .bool b, j => j = .bool b
  | .char c, j => j = .str [c]
  | .int v, j => j = .num v.toInt
  | .enum e, j => j = .num e.toInt
  | .fpos o, j => j = .num o.toInt
  | .float u, j => ∃ q, j = .num q ∧ Closest q (fValue u)
  | .double u, j => ∃ q, j = .num q ∧ Closest q (dValue u)
  | .longDouble (.fin neg x), j =>
    ∃ q u, j = .num q ∧ NearestEven (if neg then -x else x) u ∧ Closest q (dValue u)
  | .longDouble _, _ => False
  | .text a, j => j = .str a.content

theorem toStd_content {p : Platform} {a : StrArg} (h : (Arg.text a).Exists p) : a.toStd = .ok a.content := by
  cases a with
  | stdString s => rfl
  | cstr a =>
    rw [StrArg.toStd, if_pos (show 0 ∈ a from h)]
    rfl

theorem formatFpos_eq (p : Platform) (hp : p.Supported) (junk : Bytes) (hj : junk.length = INTEGER_SIZE) (o : Int64) :
    (formatFpos p junk o >>= IntObj.string) = .ok (decimalText o.toInt) := (C47_fpos_round_trip p hp junk hj o).1

theorem double_text {m : Machine} (hm : m.Ok) {x : LVal} {u : UInt64} (hx : x.toDouble = u) (hu : DFinite u) :
    ∃ n : JNumber, n.WF ∧ (formatLd m.literals m.env (m.junk FLOAT_SIZE) x >>= FloatObj.string) = .ok n.text ∧
      Closest n.value (dValue u) := by
  obtain ⟨n, hwf, -, -, -, hnear, -, -, htext⟩ := text_spec m.env hm.env u hu
  refine ⟨n, hwf, ?_, hnear⟩
  have h1 := htext m.literals _ (hm.junk FLOAT_SIZE)
  have h2 : x.toDouble = (LVal.ofDouble u).toDouble := by
    rw [hx, toDouble_ofDouble u fun h => hu h.1]
  rw [formatLd_congr _ _ _ h2]
  exact h1

/-- Widening a finite float to `double` is exact. -/
theorem float_double (u : UInt32) (hu : FFinite u) :
    ∃ d, (LVal.ofFloat u).toDouble = d ∧ DFinite d ∧ dValue d = fValue u := by
  by_cases hz : FZero u
  · have h0 : fMag u = 0 := by unfold fMag fSig; rw [if_pos hz.1, hz.2]; simp
    have h1 := ofFloat_finite u hu
    rw [h0] at h1
    have h2 := toDouble_value (decide (fNeg u)) (le_refl (0 : ℚ)) (by unfold dOverflow; positivity)
    refine ⟨_, rfl, ?_, ?_⟩
    · rw [h1]; exact h2.1
    · have h3 : DZero (LVal.ofFloat u).toDouble := by
        rw [h1]; cases decide (fNeg u) <;> decide +kernel
      unfold dValue fValue
      rw [dMag_zero h3, h0]; simp
  · obtain ⟨d, h1, h2, -, h3, h4, -⟩ := widen u hu hz
    refine ⟨d, h1, h2, ?_⟩
    unfold dValue fValue
    rw [h4]; simp only [h3]

theorem ofFloat_nonneg {u : UInt32} {neg : Bool} {q : ℚ} (h : LVal.ofFloat u = .fin neg q) : 0 ≤ q := by
  by_cases hu : FFinite u
  · rw [ofFloat_finite u hu] at h
    injection h with h1 h2
    rw [← h2]; unfold fMag; positivity
  · unfold FFinite fExp at hu
    unfold LVal.ofFloat at h
    dsimp only at h
    rw [if_pos (not_not.mp hu)] at h
    split at h <;> cases h

theorem ofDouble_nonneg {u : UInt64} {neg : Bool} {q : ℚ} (h : LVal.ofDouble u = .fin neg q) : 0 ≤ q := by
  by_cases hu : DFinite u
  · rw [ofDouble_finite u hu] at h
    injection h with h1 h2
    rw [← h2]; exact dMag_nonneg u
  · unfold DFinite dExp at hu
    unfold LVal.ofDouble at h
    dsimp only at h
    rw [if_pos (not_not.mp hu)] at h
    split at h <;> cases h

theorem json_number_reads {t : Bytes} {q : ℚ} (h : IsJsonNumber t q) : ReadsAs t (.num q) := by
  obtain ⟨n, hwf, rfl, rfl⟩ := h
  exact reads_number hwf

/-- C69 for one value. -/
theorem arg_reads {m : Machine} (hm : m.Ok) (hL : m.literals = .default) (a : Arg) (he : a.Exists m.platform)
    (hf : a.Finite) : ∃ t j, a.jsonify m = .ok t ∧ a.Denotes j ∧ ReadsAs t j := by
  cases a with
  | null =>
    refine ⟨_, _, ?_, rfl, reads_null⟩
    rw [Arg.jsonify, hL]; exact (C11_null _ (hm.junk _) []).1
  | bool b =>
    refine ⟨_, _, ?_, rfl, reads_bool b⟩
    rw [Arg.jsonify, hL]; exact C10_bool_format _ (hm.junk _) b
  | char c =>
    refine ⟨34 :: ([c].flatMap jsonB ++ [34]), _, ?_, rfl, reads_string (fun r => ?_) rfl⟩
    · rw [Arg.jsonify, (C48_char_as_string m.sgn _ (hm.junk _) c).2, jsonifyStr_eq]
    · obtain ⟨t, h1, -, h2⟩ := C16_jsonify_decodes m.sgn [c] r
      rw [jsonifyStr_eq] at h1
      injection h1 with h1
      rw [h1]; exact h2
  | int v =>
    refine ⟨decimalText v.toInt, _, ?_, rfl, json_number_reads (canonical_json (decimalText_canonical _))⟩
    rw [Arg.jsonify, formatInt_eq _ hm.platform _ (hm.junk _) v he]
    exact readN_prefix _ _
  | enum e =>
    refine ⟨decimalText e.toInt, _, ?_, rfl, json_number_reads (canonical_json (decimalText_canonical _))⟩
    rw [Arg.jsonify, formatEnum_eq _ hm.platform _ (hm.junk _) e he]
    exact readN_prefix _ _
  | fpos o =>
    exact ⟨decimalText o.toInt, _, formatFpos_eq _ hm.platform _ (hm.junk _) o, rfl,
      json_number_reads (canonical_json (decimalText_canonical _))⟩
  | float u =>
    obtain ⟨d, h1, h2, h3⟩ := float_double u hf
    obtain ⟨n, hwf, ht, hn⟩ := double_text hm h1 h2
    exact ⟨n.text, _, ht, ⟨n.value, rfl, h3 ▸ hn⟩, reads_number hwf⟩
  | double u =>
    obtain ⟨n, hwf, ht, hn⟩ := double_text (x := .ofDouble u) hm (toDouble_ofDouble u fun h => hf h.1) hf
    exact ⟨n.text, _, ht, ⟨n.value, rfl, hn⟩, reads_number hwf⟩
  | longDouble x =>
    cases x with
    | nan => exact hf.elim
    | inf b => exact hf.elim
    | fin neg q =>
      have h1 := toDouble_nearest neg he hf
      obtain ⟨n, hwf, ht, hn⟩ := double_text (x := .fin neg q) hm rfl h1.1
      exact ⟨n.text, _, ht, ⟨n.value, _, rfl, h1, hn⟩, reads_number hwf⟩
  | text a =>
    refine ⟨34 :: (a.content.flatMap jsonB ++ [34]), _, ?_, rfl, reads_string (fun r => ?_) rfl⟩
    · rw [Arg.jsonify, toStd_content he, Res.ok_bind, jsonifyStr_eq]
    · obtain ⟨t, h1, -, h2⟩ := C16_jsonify_decodes m.sgn a.content r
      rw [jsonifyStr_eq] at h1
      injection h1 with h1
      rw [h1]; exact h2

/-- `t` is a result of `lexi::jsonify(a)`, in a call of its own (buffer contents may differ between calls). -/
def JsonText (p : Platform) (sgn : Bool) (env : Env) (a : Arg) (t : Bytes) : Prop :=
  ∃ junk : Nat → Bytes, (∀ n, (junk n).length = n) ∧ a.jsonify ⟨p, sgn, .default, env, junk⟩ = .ok t

theorem json_leaf {p : Platform} (hp : p.Supported) {sgn : Bool} {env : Env} (henv : EnvOk env) (a : Arg) (t : Bytes)
    (he : a.Exists p) (hf : a.Finite) (h : JsonText p sgn env a t) : ∃ j, a.Denotes j ∧ ReadsAs t j := by
  obtain ⟨junk, hj, h⟩ := h
  obtain ⟨t', j, h1, h2, h3⟩ := arg_reads (m := ⟨p, sgn, .default, env, junk⟩) ⟨hp, henv, hj⟩ rfl a he hf
  rw [h] at h1; injection h1 with h1
  exact ⟨j, h2, h1 ▸ h3⟩

theorem json_key {p : Platform} {sgn : Bool} {env : Env} (k t : Bytes)
    (h : JsonText p sgn env (.text (.stdString k)) t) :
    t.head? = some 34 ∧ ∀ r, readString (t ++ r) = some (k, r) := by
  obtain ⟨junk, hj, h⟩ := h
  have h0 : jsonifyStr sgn k = .ok t := h
  rw [jsonifyStr_eq] at h0
  injection h0 with h0
  refine ⟨by rw [← h0]; rfl, fun r => ?_⟩
  obtain ⟨t', h1, -, h2⟩ := C16_jsonify_decodes sgn k r
  rw [jsonifyStr_eq] at h1; injection h1 with h1
  rw [← h0, h1]; exact h2

/-- C69.  A document put together from `lexi::jsonify` of its leaves and keys, commas, colons and brackets is a JSON
text, and reading it gives back the document: its shape, its keys, and at every leaf the value of the argument. -/
theorem C69_document (p : Platform) (hp : p.Supported) (sgn : Bool) (env : Env) (henv : EnvOk env) (d : Doc Arg)
    (hd : d.All fun a => a.Exists p ∧ a.Finite) :
    (∃ t, d.Text (JsonText p sgn env) (fun k => JsonText p sgn env (.text (.stdString k))) t) ∧
    ∀ t, d.Text (JsonText p sgn env) (fun k => JsonText p sgn env (.text (.stdString k))) t →
      ∃ j, readJson t = some j ∧ d.Means Arg.Denotes j := by
  have key : ∀ a : Arg, a.Exists p ∧ a.Finite → ∀ junk : Nat → Bytes, (∀ n, (junk n).length = n) →
      ∃ t j, a.jsonify ⟨p, sgn, .default, env, junk⟩ = .ok t ∧ a.Denotes j ∧ ReadsAs t j := fun a ha junk hj =>
    arg_reads ⟨hp, henv, hj⟩ rfl a ha.1 ha.2
  constructor
  · refine doc_text (P := fun a => a.Exists p ∧ a.Finite) (fun a ha => ?_) (fun k => ?_) d hd
    · obtain ⟨t, -, h, -⟩ := key a ha (fun n => List.replicate n 0) (by simp)
      exact ⟨t, _, by simp, h⟩
    · obtain ⟨t, -, h, -⟩ := key (.text (.stdString k)) ⟨trivial, trivial⟩ (fun n => List.replicate n 0) (by simp)
      exact ⟨t, _, by simp, h⟩
  · intro t ht
    obtain ⟨j, h1, h2⟩ := doc_reads (P := fun a => a.Exists p ∧ a.Finite) (M := Arg.Denotes)
      (fun a t h => json_leaf hp henv a t h.1 h.2) json_key d t hd ht
    exact ⟨j, readJson_reads h2, h1⟩

/-- `{"a\"":[1.5,null,-7],"":"x\n"}` -/
def sampleDoc : Doc Arg :=
  .obj (.cons (ascii "a\"") (.arr (.cons (.leaf (.double 0x3FF8000000000000)) (.cons (.leaf .null)
    (.cons (.leaf (.int (.i8 (-7)))) .nil)))) (.cons [] (.leaf (.text (.cstr (ascii "x\n" ++ [0])))) .nil))

example : sampleDoc.All fun a => a.Exists lp64 ∧ a.Finite := by
  refine ⟨⟨⟨trivial, ?_⟩, ⟨trivial, trivial⟩, ⟨trivial, trivial⟩, trivial⟩, ⟨?_, trivial⟩, trivial⟩
  · show DFinite _; decide
  · show (0 : UInt8) ∈ _; decide

example : readJson (ascii " [null, {\"a\\u0041\" :true , \"\":[]}]\n") =
    some (.arr (.cons .null (.cons (.obj (.cons (ascii "aA") (.bool true) (.cons [] (.arr .nil) .nil))) .nil))) := by decide +kernel
example : readJson (ascii "{\"a\\\"\":[1.5,null,-7],\"\":\"x\\n\"}") =
    some (.obj (.cons (ascii "a\"") (.arr (.cons (.num (3 / 2)) (.cons .null (.cons (.num (-7)) .nil))))
      (.cons [] (.str (ascii "x\n")) .nil))) := by decide +kernel
example : readJson (ascii "[null,]") = none ∧ readJson (ascii "[null") = none ∧ readJson (ascii "01") = none ∧
    readJson (ascii "{\"a\",true}") = none ∧ readJson (ascii "null null") = none := by decide +kernel

theorem fails_special {t : Bytes} (h : t = ascii "NaN" ∨ t = ascii "Infinity" ∨ t = ascii "-Infinity") : Fails t := by
  rcases h with rfl | rfl | rfl
  · refine ⟨⟨78, ascii "aN", rfl, by decide⟩, fun fuel r => ?_⟩
    cases fuel <;> rfl
  · refine ⟨⟨73, ascii "nfinity", rfl, by decide⟩, fun fuel r => ?_⟩
    cases fuel <;> rfl
  · refine ⟨⟨45, ascii "Infinity", rfl, by decide⟩, fun fuel r => ?_⟩
    cases fuel <;> rfl

/-- The text of a value that is no finite double. -/
theorem special_text (env : Env) (junk : Bytes) (hj : junk.length = FLOAT_SIZE) {x : LVal}
    (hx0 : ∀ neg q, x = .fin neg q → 0 ≤ q) (h : ¬ DFinite x.toDouble) :
    ∃ t, (formatLd .default env junk x >>= FloatObj.string) = .ok t ∧
      (t = ascii "NaN" ∨ t = ascii "Infinity" ∨ t = ascii "-Infinity") := by
  obtain ⟨u, hu, hx⟩ : ∃ u, ¬ DFinite u ∧ x.toDouble = (LVal.ofDouble u).toDouble := by
    cases x with
    | nan => exact ⟨0x7FF8000000000000, by decide, by decide⟩
    | inf neg => exact ⟨if neg then 0xFFF0000000000000 else 0x7FF0000000000000, by cases neg <;> decide,
        by cases neg <;> decide⟩
    | fin neg q =>
      refine ⟨_, h, (toDouble_ofDouble _ fun hn => ?_).symm⟩
      by_cases ho : q < dOverflow
      · exact h (toDouble_value neg (hx0 neg q rfl) ho).1
      · rw [toDouble_overflow neg (not_lt.mp ho)] at hn
        cases neg <;> exact absurd hn (by decide)
  have h3 := C30_special_values env junk hj u
  rw [formatLd_congr _ _ _ hx]
  rcases class_cases u with h' | h' | h'
  · exact absurd h' hu
  · refine ⟨_, h3.2.1 h', ?_⟩
    split <;> simp
  · exact ⟨_, h3.1 h', Or.inl rfl⟩

/-- C69.  Conversely a single NaN, infinity or `long double` that overflows, anywhere in the document, makes the text
unreadable. -/
theorem C69_special_not_json (p : Platform) (hp : p.Supported) (sgn : Bool) (env : Env) (henv : EnvOk env)
    (d : Doc Arg) (hd : d.All fun a => a.Exists p) (t : Bytes)
    (ht : d.Text (JsonText p sgn env) (fun k => JsonText p sgn env (.text (.stdString k))) t) :
    (∃ j, readJson t = some j) ↔ d.All Arg.Finite := by
  constructor
  · rintro ⟨j, hj⟩
    by_contra hn
    have hfail : Fails t := by
      refine doc_fails (P := Arg.Finite) (E := fun a => a.Exists p) (M := Arg.Denotes)
        (json_leaf hp henv) (fun a t ha hna ht => ?_) json_key d t hd hn ht
      obtain ⟨junk, hjunk, h⟩ := ht
      have key : ∀ x : LVal, (∀ neg q, x = .fin neg q → 0 ≤ q) → ¬ DFinite x.toDouble →
          (formatLd .default env (junk FLOAT_SIZE) x >>= FloatObj.string) = .ok t → Fails t := by
        intro x hx0 hx ht
        obtain ⟨t', h1, h2⟩ := special_text env _ (hjunk _) hx0 hx
        rw [ht] at h1; injection h1 with h1
        rw [h1]; exact fails_special h2
      cases a with
      | float u =>
        have hu : LVal.ofFloat u = .nan ∨ ∃ b, LVal.ofFloat u = .inf b := by
          have hu : ¬ FFinite u := hna
          unfold FFinite fExp at hu
          unfold LVal.ofFloat
          dsimp only
          rw [if_pos (not_not.mp hu)]
          split
          · exact Or.inr ⟨_, rfl⟩
          · exact Or.inl rfl
        refine key (.ofFloat u) ?_ ?_ h
        · intro neg q hq; rcases hu with hu | ⟨b, hu⟩ <;> rw [hu] at hq <;> cases hq
        · rcases hu with hu | ⟨b, hu⟩
          · rw [hu]; decide
          · rw [hu]; cases b <;> decide
      | double u =>
        have hu : LVal.ofDouble u = .nan ∨ ∃ b, LVal.ofDouble u = .inf b := by
          have hu : ¬ DFinite u := hna
          unfold DFinite dExp at hu
          unfold LVal.ofDouble
          dsimp only
          rw [if_pos (not_not.mp hu)]
          split
          · exact Or.inr ⟨_, rfl⟩
          · exact Or.inl rfl
        refine key (.ofDouble u) ?_ ?_ h
        · intro neg q hq; rcases hu with hu | ⟨b, hu⟩ <;> rw [hu] at hq <;> cases hq
        · rcases hu with hu | ⟨b, hu⟩
          · rw [hu]; decide
          · rw [hu]; cases b <;> decide
      | longDouble x =>
        cases x with
        | nan => exact key .nan (by intro _ _ h; cases h) (by decide) h
        | inf b => exact key (.inf b) (by intro _ _ h; cases h) (by cases b <;> decide) h
        | fin neg q =>
          refine key (.fin neg q) (by intro _ _ h; cases h; exact ha) ?_ h
          rw [toDouble_overflow neg (not_lt.mp hna)]
          cases neg <;> decide
      | _ => exact absurd trivial hna
    rw [readJson_fails hfail] at hj
    cases hj
  · intro hf
    obtain ⟨j, h, -⟩ := (C69_document p hp sgn env henv d (doc_all_and d hd hf)).2 t ht
    exact ⟨j, h⟩

/-- `[-Infinity]` -/
example : (Doc.arr (.cons (.leaf (Arg.double 0xFFF0000000000000)) .nil)).All (fun a => a.Exists lp64) ∧
    ¬ (Doc.arr (.cons (.leaf (Arg.double 0xFFF0000000000000)) .nil)).All Arg.Finite :=
  ⟨⟨trivial, trivial⟩, fun h => absurd (show DFinite _ from h.1) (by decide)⟩

theorem valid_append {s t : Bytes} (hs : ValidUtf8 s) (ht : ValidUtf8 t) : ValidUtf8 (s ++ t) := by
  obtain ⟨cs, hs⟩ := hs
  obtain ⟨ct, ht⟩ := ht
  induction hs with
  | nil => exact ⟨ct, ht⟩
  | cons h _ ih =>
    obtain ⟨c, hc⟩ := ih
    rw [List.append_assoc]
    exact ⟨_, .cons h hc⟩

theorem valid_cons {c : UInt8} {t : Bytes} (hc : c.toNat ≤ 0x7F) (ht : ValidUtf8 t) : ValidUtf8 (c :: t) := by
  obtain ⟨cs, h⟩ := ht
  exact ⟨_, .cons (.one hc) h⟩

theorem valid_ascii {s : Bytes} (h : ∀ c ∈ s, c.toNat ≤ 0x7F) : ValidUtf8 s := by
  induction s with
  | nil => exact ⟨[], .nil⟩
  | cons c s ih => exact valid_cons (h c (by simp)) (ih fun c hc => h c (by simp [hc]))

theorem number_ascii {n : JNumber} (hn : n.WF) : ∀ c ∈ n.text, c.toNat ≤ 0x7F := by
  have hd : ∀ ds : Bytes, (∀ b ∈ ds, IsDigit b) → ∀ c ∈ ds, c.toNat ≤ 0x7F := fun ds h c hc => by
    have := (h c hc).2
    rw [UInt8.le_iff_toNat_le] at this
    exact this.trans (by decide)
  rw [text_eq]
  intro c hc
  simp only [List.mem_append] at hc
  rcases hc with h | h | h | h
  · cases hn : n.neg <;> rw [hn] at h <;> simp at h
    rw [h]; decide
  · exact hd _ hn.int_digits c h
  · cases hf : n.frac with
    | none => rw [hf] at h; simp [fracText] at h
    | some f =>
      rw [hf] at h
      rcases (by simpa [fracText] using h : c = 46 ∨ c ∈ f) with rfl | h
      · decide
      · exact hd _ (hn.frac_ok f hf).2 c h
  · cases he : n.exp with
    | none => rw [he] at h; simp [expText] at h
    | some e =>
      rw [he] at h
      obtain ⟨h1, h2, -, h3⟩ := hn.exp_ok e he
      rcases (by simpa [expText, JExp.text] using h : c = e.marker ∨ c ∈ e.sign ∨ c ∈ e.digits) with rfl | h | h
      · rcases h1 with h | h <;> rw [h] <;> decide
      · rcases h2 with h2 | h2 | h2 <;> rw [h2] at h <;> simp at h <;> rw [h] <;> decide
      · exact hd _ h3 c h

section
variable {T : Arg → Bytes → Prop} {K : Bytes → Bytes → Prop}

mutual
theorem doc_utf8 (hT : ∀ a t, T a t → ValidUtf8 t) (hK : ∀ k t, K k t → ValidUtf8 t) :
    ∀ (d : Doc Arg) (t : Bytes), d.Text T K t → ValidUtf8 t
  | .leaf a, t, h => hT a t h
  | .arr es, _, ⟨u, hu, h⟩ =>
    h ▸ valid_cons (by decide) (valid_append (docs_utf8 hT hK es u hu) (valid_ascii (by decide)))
  | .obj es, _, ⟨u, hu, h⟩ =>
    h ▸ valid_cons (by decide) (valid_append (members_utf8 hT hK es u hu) (valid_ascii (by decide)))

theorem docs_utf8 (hT : ∀ a t, T a t → ValidUtf8 t) (hK : ∀ k t, K k t → ValidUtf8 t) :
    ∀ (d : Docs Arg) (t : Bytes), d.Text T K t → ValidUtf8 t
  | .nil, _, h => h ▸ ⟨[], .nil⟩
  | .cons e .nil, _, ⟨u, _, hu, _, h⟩ => h ▸ doc_utf8 hT hK e u hu
  | .cons e (.cons e' es), _, ⟨u, w, hu, hw, h⟩ =>
    h ▸ valid_append (doc_utf8 hT hK e u hu) (valid_cons (by decide) (docs_utf8 hT hK (.cons e' es) w hw))

theorem members_utf8 (hT : ∀ a t, T a t → ValidUtf8 t) (hK : ∀ k t, K k t → ValidUtf8 t) :
    ∀ (d : Members Arg) (t : Bytes), d.Text T K t → ValidUtf8 t
  | .nil, _, h => h ▸ ⟨[], .nil⟩
  | .cons k e .nil, _, ⟨x, u, _, hx, hu, _, h⟩ =>
    h ▸ valid_append (hK k x hx) (valid_cons (by decide) (doc_utf8 hT hK e u hu))
  | .cons k e (.cons k' e' es), _, ⟨x, u, w, hx, hu, hw, h⟩ =>
    h ▸ valid_append (hK k x hx) (valid_cons (by decide) (valid_append (doc_utf8 hT hK e u hu)
      (valid_cons (by decide) (members_utf8 hT hK (.cons k' e' es) w hw))))
end
end

/-- Text arguments are well-formed UTF-8. -/
def Arg.Unicode : Arg → Prop
  | .char c => c.toNat < 128
  | .text a => ValidUtf8 a.content
  | _ => True

/-- C69.  If all strings and keys are UTF-8 (and chars ASCII), so is the document, as RFC 8259, section 8.1, demands. -/
theorem C69_utf8 (p : Platform) (hp : p.Supported) (sgn : Bool) (env : Env) (henv : EnvOk env) (d : Doc Arg) (t : Bytes)
    (ht : d.Text (fun a t => a.Exists p ∧ a.Unicode ∧ JsonText p sgn env a t)
      (fun k t => ValidUtf8 k ∧ JsonText p sgn env (.text (.stdString k)) t) t) : ValidUtf8 t := by
  have str : ∀ s u, ValidUtf8 s → jsonifyStr sgn s = .ok u → ValidUtf8 u := by
    intro s u hs hu
    obtain ⟨v, h1, -, h2⟩ := C68_jsonify sgn s
    rw [hu] at h1; injection h1 with h1
    rw [h1]; exact h2.mpr hs
  refine doc_utf8 (fun a t h => ?_) (fun k t h => ?_) d t ht
  · obtain ⟨he, hu, junk, hj, h⟩ := h
    have num : ∀ n : ℤ, ValidUtf8 (decimalText n) := by
      intro n
      obtain ⟨m, hwf, ht, -⟩ := canonical_json (decimalText_canonical n)
      rw [← ht]; exact valid_ascii (number_ascii hwf)
    have flt : ∀ x : LVal, (∀ neg q, x = .fin neg q → 0 ≤ q) →
        (formatLd .default env (junk FLOAT_SIZE) x >>= FloatObj.string) = .ok t → ValidUtf8 t := by
      intro x hx ht
      by_cases hf : DFinite x.toDouble
      · obtain ⟨n, hwf, ht', -⟩ := double_text (m := ⟨p, sgn, .default, env, junk⟩) ⟨hp, henv, hj⟩ rfl hf
        rw [ht] at ht'; injection ht' with h1
        rw [h1]; exact valid_ascii (number_ascii hwf)
      · obtain ⟨t', ht', h⟩ := special_text env _ (hj _) hx hf
        rw [ht] at ht'; injection ht' with h1
        rw [h1]
        rcases h with rfl | rfl | rfl <;> exact valid_ascii (by decide)
    cases a with
    | null =>
      have := (C11_null (junk NULL_SIZE) (hj _) []).1.symm.trans h
      injection this with this
      rw [← this]; exact valid_ascii (by decide)
    | bool b =>
      have := (C10_bool_format (junk BOOL_SIZE) (hj _) b).symm.trans h
      injection this with this
      rw [← this]; exact valid_ascii (by cases b <;> decide)
    | char c =>
      refine str [c] t ((valid_single c).mpr hu) ?_
      rw [← (C48_char_as_string sgn (junk CHAR_SIZE) (hj _) c).2]; exact h
    | int v =>
      have := (stringInt_eq p hp (junk INTEGER_SIZE) (hj _) v he).symm.trans h
      injection this with this
      rw [← this]; exact num _
    | enum v =>
      have := (stringEnum_eq p hp (junk INTEGER_SIZE) (hj _) v he).symm.trans h
      injection this with this
      rw [← this]; exact num _
    | fpos o =>
      have := (formatFpos_eq p hp (junk INTEGER_SIZE) (hj _) o).symm.trans h
      injection this with this
      rw [← this]; exact num _
    | float u => exact flt (.ofFloat u) (fun neg q h => ofFloat_nonneg h) h
    | double u => exact flt (.ofDouble u) (fun neg q h => ofDouble_nonneg h) h
    | longDouble x => exact flt x (fun neg q h => by subst h; exact he) h
    | text a =>
      refine str a.content t hu ?_
      have h0 : (a.toStd >>= jsonifyStr sgn) = .ok t := h
      rwa [toStd_content he] at h0
  · obtain ⟨hk, junk, hj, h⟩ := h
    exact str k t hk h

example : (Arg.text (.stdString [0xC3, 0xA9])).Unicode ∧ ¬ (Arg.char 0xC3).Unicode :=
  ⟨⟨[0xE9], .cons (.two (a := 0xC3) (b := 0xA9) (by decide) (by decide) (by decide)) .nil⟩,
    show ¬ (0xC3 : UInt8).toNat < 128 by decide⟩

/-! ## C70 -/

/-- The argument is text: a `char` or a string. -/
def Arg.Textual : Arg → Prop
  | .char _ => True
  | .text _ => True
  | _ => False

theorem unescape_plain {s : Bytes} (h : 92 ∉ s) : unescape s = s := by
  induction s with
  | nil => rfl
  | cons c s ih =>
    rw [unescape, ih fun h' => h (by simp [h'])]
    intro b t he
    exact absurd (by simp [he]) h

theorem number_plain {n : JNumber} (hn : n.WF) : (92 : UInt8) ∉ n.text := by
  have hd : ∀ ds : Bytes, (∀ b ∈ ds, IsDigit b) → (92 : UInt8) ∉ ds := fun ds h hm => absurd (h _ hm) (by decide)
  rw [text_eq]
  simp only [List.mem_append, not_or]
  refine ⟨by cases n.neg <;> decide, hd _ hn.int_digits, ?_, ?_⟩
  · cases hf : n.frac with
    | none => simp [fracText]
    | some f => simp [fracText, hd _ (hn.frac_ok f hf).2]
  · cases he : n.exp with
    | none => simp [expText]
    | some e =>
      obtain ⟨h1, h2, -, h3⟩ := hn.exp_ok e he
      simp only [expText, JExp.text, List.mem_cons, List.mem_append, not_or]
      refine ⟨?_, ?_, hd _ h3⟩
      · rcases h1 with h | h <;> rw [h] <;> decide
      · rcases h2 with h | h | h <;> rw [h] <;> decide

theorem decimal_plain (n : ℤ) : (92 : UInt8) ∉ decimalText n := by
  obtain ⟨m, hwf, ht, -⟩ := canonical_json (decimalText_canonical n)
  rw [← ht]; exact number_plain hwf

/-- C70.  The three renderings of any argument carry the same text: removing the escapes of `lexi::escape` gives
`lexi::string`, `lexi::jsonify` is a JSON string literal for it if the argument is text, and otherwise all three are equal.
None of them throws or is undefined. -/
theorem C70_renderings_agree (m : Machine) (hm : m.Ok) (hL : m.literals = .default) (a : Arg)
    (he : a.Exists m.platform) :
    ∃ s e j, a.string m = .ok s ∧ a.escape m = .ok e ∧ a.jsonify m = .ok j ∧ unescape e = s ∧
      (a.Textual → readString j = some (s, [])) ∧ (¬ a.Textual → e = s ∧ j = s) := by
  have plain : ∀ s : Bytes, 92 ∉ s → a.string m = .ok s → a.escape m = a.string m → a.jsonify m = a.string m →
      ¬ a.Textual →
      ∃ s e j, a.string m = .ok s ∧ a.escape m = .ok e ∧ a.jsonify m = .ok j ∧ unescape e = s ∧
      (a.Textual → readString j = some (s, [])) ∧ (¬ a.Textual → e = s ∧ j = s) := by
    intro s hs h1 h2 h3 h4
    exact ⟨s, s, s, h1, h2.trans h1, h3.trans h1, unescape_plain hs, fun h => absurd h h4, fun _ => ⟨rfl, rfl⟩⟩
  have flt : ∀ x : LVal, (∀ neg q, x = .fin neg q → 0 ≤ q) →
      ∃ s : Bytes, 92 ∉ s ∧ (formatLd m.literals m.env (m.junk FLOAT_SIZE) x >>= FloatObj.string) = .ok s := by
    intro x hx
    by_cases hf : DFinite x.toDouble
    · obtain ⟨n, hwf, ht, -⟩ := double_text hm rfl hf
      exact ⟨n.text, number_plain hwf, ht⟩
    · obtain ⟨t, ht, h⟩ := special_text m.env _ (hm.junk _) hx hf
      rw [← hL] at ht
      refine ⟨t, ?_, ht⟩
      rcases h with rfl | rfl | rfl <;> decide
  cases a with
  | null =>
    refine plain (ascii "null") (by decide) ?_ rfl rfl (fun h => h)
    rw [Arg.string, hL]; exact (C11_null _ (hm.junk _) []).1
  | bool b =>
    refine plain (ascii (if b then "true" else "false")) (by cases b <;> decide) ?_ rfl rfl (fun h => h)
    rw [Arg.string, hL]; exact C10_bool_format _ (hm.junk _) b
  | char c =>
    obtain ⟨h1, h2⟩ := C48_char_as_string m.sgn _ (hm.junk CHAR_SIZE) c
    obtain ⟨t, h3, h4, -⟩ := C16_jsonify_decodes m.sgn [c] []
    exact ⟨[c], _, t, (C12_char _ (hm.junk _) c).1, h1, h2.trans h3, C14_escape_reversible _ _, fun _ => h4,
      fun h => absurd trivial h⟩
  | int v =>
    refine plain (decimalText v.toInt) (decimal_plain _) ?_ rfl rfl (fun h => h)
    exact stringInt_eq _ hm.platform _ (hm.junk _) v he
  | enum e =>
    refine plain (decimalText e.toInt) (decimal_plain _) ?_ rfl rfl (fun h => h)
    exact stringEnum_eq _ hm.platform _ (hm.junk _) e he
  | fpos o =>
    exact plain (decimalText o.toInt) (decimal_plain _) (formatFpos_eq _ hm.platform _ (hm.junk _) o) rfl rfl
      (fun h => h)
  | float u =>
    obtain ⟨s, h1, h2⟩ := flt (.ofFloat u) (fun neg q h => ofFloat_nonneg h)
    exact plain s h1 h2 rfl rfl (fun h => h)
  | double u =>
    obtain ⟨s, h1, h2⟩ := flt (.ofDouble u) (fun neg q h => ofDouble_nonneg h)
    exact plain s h1 h2 rfl rfl (fun h => h)
  | longDouble x =>
    obtain ⟨s, h1, h2⟩ := flt x (fun neg q h => by subst h; exact he)
    exact plain s h1 h2 rfl rfl (fun h => h)
  | text a =>
    have hs := toStd_content he
    obtain ⟨t, h3, h4, -⟩ := C16_jsonify_decodes m.sgn a.content []
    refine ⟨a.content, escapeStr m.sgn a.content, t, hs, ?_, ?_, C14_escape_reversible _ _, fun _ => h4,
      fun h => absurd trivial h⟩
    · rw [Arg.escape, hs]; rfl
    · rw [Arg.jsonify, hs]; exact h3

example : (⟨lp64, true, .default, sampleEnv, fun n => List.replicate n 7⟩ : Machine).Ok :=
  ⟨by simp [Platform.Supported, lp64], sampleEnv_ok, fun n => by simp⟩

end Lexi
